import Verif.Spec.Declares
import Verif.Proofs.Bind
import Verif.Proofs.NameTables

/-!
# What naming a tree puts into the symbol table
-/

namespace Tiny
open Spec

/-- Symbols which a mere mention of a type adds. -/
def Mention (x : Sym) : Prop := (∃ n, x = .struct n false []) ∨ ∃ t, x = .nullable t

theorem Mention.entry {x : Sym} (h : Mention x) : symEntry x = none := by
  rcases h with ⟨n, rfl⟩ | ⟨t, rfl⟩ <;> rfl

theorem mentions_entries {C : List Sym} (h : ∀ x ∈ C, Mention x) : C.filterMap symEntry = [] := by
  rw [List.filterMap_eq_nil_iff]
  exact fun x hx => (h x hx).entry

/-- Only mentions and strings are added. -/
structure Mentions (f f' : Front) : Prop where
  cur : f'.currFunc = f.currFunc
  scope : f'.currScope = f.currScope
  strs : f.strings <+: f'.strings
  syms : ∃ C, (∀ x ∈ C, Mention x) ∧ f'.syms = f.syms ++ C

theorem Mentions.refl (f : Front) : Mentions f f := ⟨rfl, rfl, List.prefix_refl _, [], by simp, by simp⟩

theorem Mentions.trans {f g h : Front} (a : Mentions f g) (b : Mentions g h) : Mentions f h := by
  obtain ⟨C, hC, e1⟩ := a.syms
  obtain ⟨D, hD, e2⟩ := b.syms
  exact ⟨b.cur.trans a.cur, b.scope.trans a.scope, a.strs.trans b.strs, C ++ D, by
    simpa [or_imp, forall_and] using ⟨hC, hD⟩, by rw [e2, e1, List.append_assoc]⟩

theorem mentions_push {f : Front} {x : Sym} (h : Mention x) : Mentions f { f with syms := f.syms ++ [x] } :=
  ⟨rfl, rfl, List.prefix_refl _, [x], by simpa using h, rfl⟩

theorem mentions_str {s : List UInt8} {f f' : Front} {r} (h : registerString s f = .ok r f') :
    Mentions f f' ∧ f'.strings[r]? = some s := by
  unfold registerString at h
  cases hf : f.strings.findIdx? (· == s) with
  | some i =>
    rw [hf] at h
    cases h
    refine ⟨.refl _, ?_⟩
    rw [List.findIdx?_eq_some_iff_getElem] at hf
    obtain ⟨h1, h2, -⟩ := hf
    rw [List.getElem?_eq_getElem h1]
    simpa using h2
  | none =>
    rw [hf] at h
    simp only at h
    by_cases hl : f.strings.length < maxStrings
    · rw [if_pos hl] at h
      cases h
      exact ⟨⟨rfl, rfl, List.prefix_append _ _, [], by simp, by simp⟩, by simp⟩
    · rw [if_neg hl] at h; cases h

theorem mentions_ref {n : Name} {f f' : Front} {r} (h : referenceVariable n f = .ok r f') : Mentions f f' := by
  rw [referenceVariable_state h]; exact .refl _

theorem mentions_struct {n : Name} {f f' : Front} {r} (h : declareStruct n f = .ok r f') : Mentions f f' := by
  simp only [declareStruct, act_bind, Act.get] at h
  split at h
  · cases h; exact .refl _
  · cases h; exact mentions_push (.inl ⟨n, rfl⟩)

theorem mentions_named {n : Name} {f f' : Front} {r} (h : getTagFromName n f = .ok r f') : Mentions f f' := by
  simp only [getTagFromName] at h
  cases hp : primTag n with
  | some t => rw [hp] at h; cases h; exact .refl _
  | none =>
    rw [hp] at h
    simp only [act_bind, Act.get] at h
    cases hs : f.syms.findSome? (·.asType n) with
    | some t => rw [hs] at h; cases h; exact .refl _
    | none => rw [hs] at h; cases h; exact mentions_push (.inl ⟨n, rfl⟩)

theorem mentions_nullable {t : Tag} {f f' : Front} {r} (h : makeNullable t f = .ok r f') : Mentions f f' ∧ r = .nullable t := by
  unfold makeNullable at h
  split at h
  · cases h
  · simp only [getOrCreateNullable, act_bind, Act.get] at h
    split at h
    · cases h; exact ⟨.refl _, rfl⟩
    · cases h; exact ⟨mentions_push (.inr ⟨t, rfl⟩), rfl⟩

theorem mentions_type {ty : SType} {f f' : Front} {r} (h : nameType frontOps ty f = .ok r f') : Mentions f f' ∧ r = typeMeans ty := by
  unfold nameType at h
  obtain ⟨t, f1, h1, h⟩ := Act.ok_inv h
  have ht : t = typeNamed ty.1 := by
    obtain ⟨g, hg, -⟩ := getTag_adds f ty.1
    have : getTagFromName ty.1 f = .ok t f1 := h1
    rw [hg] at this
    cases this
    rfl
  subst ht
  replace h1 := mentions_named h1
  unfold typeMeans
  by_cases hn : ty.2 = true
  · rw [if_pos hn] at h ⊢
    exact ⟨h1.trans (mentions_nullable h).1, (mentions_nullable h).2⟩
  · rw [if_neg hn] at h ⊢
    cases h
    exact ⟨h1, rfl⟩

mutual
theorem mentions_expr : ∀ (e : SExpr) {f f' : Front} {x}, nameExpr frontOps e f = .ok x f' → Mentions f f'
  | .null, _, _, _, h | .bool _, _, _, _, h | .int _, _, _, _, h | .char _, _, _, _, h | .float _, _, _, _, h => by
    cases h; exact .refl _
  | .str s, f, f', x, h => by
    obtain ⟨i, f1, h1, h⟩ := Act.ok_inv h
    cases h; exact (mentions_str h1).1
  | .id n _, f, f', x, h => by
    obtain ⟨i, f1, h1, h⟩ := Act.ok_inv h
    cases h; exact mentions_ref h1
  | .call g args, f, f', x, h => by
    obtain ⟨i, f1, h1, h⟩ := Act.ok_inv h
    cases h; exact mentions_exprs args h1
  | .paren e, f, f', x, h => by
    obtain ⟨i, f1, h1, h⟩ := Act.ok_inv h
    cases h; exact mentions_expr e h1
  | .bin op l r, f, f', x, h => by
    obtain ⟨i, f1, h1, h⟩ := Act.ok_inv h
    obtain ⟨j, f2, h2, h⟩ := Act.ok_inv h
    cases h; exact (mentions_expr l h1).trans (mentions_expr r h2)
  | .un op e, f, f', x, h => by
    obtain ⟨i, f1, h1, h⟩ := Act.ok_inv h
    cases h; exact mentions_expr e h1
  | .dot l n, f, f', x, h => by
    obtain ⟨i, f1, h1, h⟩ := Act.ok_inv h
    cases h; exact mentions_expr l h1
  | .index a i, f, f', x, h => by
    obtain ⟨_, f1, h1, h⟩ := Act.ok_inv h
    obtain ⟨_, f2, h2, h⟩ := Act.ok_inv h
    cases h; exact (mentions_expr a h1).trans (mentions_expr i h2)
  | .ctor n names args, f, f', x, h => by
    obtain ⟨_, f1, h1, h⟩ := Act.ok_inv h
    obtain ⟨_, f2, h2, h⟩ := Act.ok_inv h
    cases h; exact (mentions_struct h1).trans (mentions_exprs args h2)
  | .cast e ty, f, f', x, h => by
    obtain ⟨_, f1, h1, h⟩ := Act.ok_inv h
    obtain ⟨_, f2, h2, h⟩ := Act.ok_inv h
    cases h; exact (mentions_expr e h1).trans (mentions_type h2).1
  | .ite c a b, f, f', x, h => by
    obtain ⟨_, f1, h1, h⟩ := Act.ok_inv h
    obtain ⟨_, f2, h2, h⟩ := Act.ok_inv h
    obtain ⟨_, f3, h3, h⟩ := Act.ok_inv h
    cases h; exact ((mentions_expr c h1).trans (mentions_expr a h2)).trans (mentions_expr b h3)
theorem mentions_exprs : ∀ (es : List SExpr) {f f' : Front} {x}, nameExprs frontOps es f = .ok x f' → Mentions f f'
  | [], _, _, _, h => by cases h; exact .refl _
  | e :: es, f, f', x, h => by
    obtain ⟨_, f1, h1, h⟩ := Act.ok_inv h
    obtain ⟨_, f2, h2, h⟩ := Act.ok_inv h
    cases h; exact (mentions_expr e h1).trans (mentions_exprs es h2)
end

theorem mentions_params : ∀ (ps : List (Name × SType)) {f f' : Front} {x}, nameParams frontOps ps f = .ok x f' →
    Mentions f f' ∧ x = ps.map fun p => (p.1, typeMeans p.2)
  | [], _, _, _, h => by cases h; exact ⟨.refl _, rfl⟩
  | p :: ps, f, f', x, h => by
    obtain ⟨_, f1, h1, h⟩ := Act.ok_inv h
    obtain ⟨_, f2, h2, h⟩ := Act.ok_inv h
    obtain ⟨a1, rfl⟩ := mentions_type h1
    obtain ⟨a2, rfl⟩ := mentions_params ps h2
    cases h
    exact ⟨a1.trans a2, rfl⟩

theorem mentions_ret : ∀ {r : Option SType} {f f' : Front} {x}, nameRet frontOps r f = .ok x f' → Mentions f f' ∧ x = r.map typeMeans
  | none, _, _, _, h => by cases h; exact ⟨.refl _, rfl⟩
  | some ty, f, f', x, h => by
    obtain ⟨_, f1, h1, h⟩ := Act.ok_inv h
    obtain ⟨a1, rfl⟩ := mentions_type h1
    cases h
    exact ⟨a1, rfl⟩

/-! ## The relation -/

/-- What a function says, without its variables. -/
def sameHead (a b : FuncInfo) : Prop :=
  b.name = a.name ∧ b.args.map (fun v => (v.name, v.tag)) = a.args.map (fun v => (v.name, v.tag)) ∧ b.ret = a.ret

theorem sameHead_entry {a b : FuncInfo} (h : sameHead a b) : symEntry (.func b) = symEntry (.func a) := by
  simp only [symEntry, h.1, h.2.1, h.2.2]

/-- The declarations `ds` have been added to the table. -/
structure Dec (f f' : Front) (k : Int) (ds : List Decl) : Prop where
  cur : f'.currFunc = f.currFunc
  scope : f'.currScope = f.currScope + k
  strs : f.strings <+: f'.strings
  blank : Fieldless f → Fieldless f'
  keep : ∀ (i : Nat) fi, f.syms[i]? = some (Sym.func fi) → ∃ fi', f'.syms[i]? = some (Sym.func fi') ∧ sameHead fi fi'
  ents : Fieldless f → ∃ es, List.Forall₂ (EntryIs f'.strings) ds es ∧ (entries f').Perm (entries f ++ es)

theorem constIs_mono {ss ss' : List (List UInt8)} (h : ss <+: ss') {c t v} (k : ConstIs ss c t v) : ConstIs ss' c t v := by
  cases k with
  | bool => exact .bool
  | int h => exact .int h
  | float => exact .float
  | str k =>
    obtain ⟨t, rfl⟩ := h
    exact .str (by rw [List.getElem?_append_left (by exact (List.getElem?_eq_some_iff.mp k).1), k])

theorem entryIs_mono {ss ss' : List (List UInt8)} (h : ss <+: ss') {d e} (k : EntryIs ss d e) : EntryIs ss' d e := by
  cases k with
  | struct a b c => exact .struct a b c
  | const a => exact .const (constIs_mono h a)
  | func a => exact .func a
  | var => exact .var

theorem Dec.trans {f g h : Front} {j k : Int} {ds es : List Decl} (a : Dec f g j ds) (b : Dec g h k es) :
    Dec f h (j + k) (ds ++ es) where
  cur := b.cur.trans a.cur
  scope := by rw [b.scope, a.scope]; omega
  strs := a.strs.trans b.strs
  blank := fun hf => b.blank (a.blank hf)
  keep := fun i fi hi => by
    obtain ⟨fi', h1, h2⟩ := a.keep i fi hi
    obtain ⟨fi'', h3, h4⟩ := b.keep i fi' h1
    exact ⟨fi'', h3, h4.1.trans h2.1, h4.2.1.trans h2.2.1, h4.2.2.trans h2.2.2⟩
  ents := fun hf => by
    obtain ⟨x, h1, h2⟩ := a.ents hf
    obtain ⟨y, h3, h4⟩ := b.ents (a.blank hf)
    refine ⟨x ++ y, List.rel_append (h1.imp fun _ _ => entryIs_mono b.strs) h3, ?_⟩
    rw [← List.append_assoc]
    exact h4.trans (h2.append_right y)

theorem Mentions.dec {f f' : Front} (h : Mentions f f') : Dec f f' 0 [] := by
  obtain ⟨C, hC, e⟩ := h.syms
  refine ⟨h.cur, by rw [h.scope]; omega, h.strs, fun hf n fs hx => ?_, fun i fi hi => ?_, fun _ => ⟨[], .nil, ?_⟩⟩
  · rw [e, List.mem_append] at hx
    rcases hx with hx | hx
    · exact hf n fs hx
    · rcases hC _ hx with ⟨m, h⟩ | ⟨t, h⟩
      · cases h; rfl
      · cases h
  · exact ⟨fi, by rw [e, List.getElem?_append_left (List.getElem?_eq_some_iff.mp hi).1, hi], rfl, rfl, rfl⟩
  · rw [List.append_nil]
    unfold entries
    rw [e, List.filterMap_append, mentions_entries hC, List.append_nil]

/-- An entry is added. -/
theorem dec_push {f : Front} {x : Sym} {e : Entry} {d : Decl} (hx : symEntry x = some e) (hd : EntryIs f.strings d e)
    (hs : ∀ n fs, x ≠ .struct n false fs) (hG : Nat) : Dec f { f with syms := f.syms ++ [x], numGlobalVars := hG } 0 [d] := by
  refine ⟨rfl, by simp, List.prefix_refl _, fun hf n fs hm => ?_, fun i fi hi => ?_, fun _ => ⟨[e], .cons hd .nil, ?_⟩⟩
  · simp only [List.mem_append, List.mem_singleton] at hm
    rcases hm with hm | hm
    · exact hf n fs hm
    · exact (hs n fs hm.symm).elim
  · exact ⟨fi, by rw [List.getElem?_append_left (List.getElem?_eq_some_iff.mp hi).1, hi], rfl, rfl, rfl⟩
  · unfold entries
    simp [List.filterMap_append, hx]

/-- The current function changes, but not its head. -/
theorem dec_update {u : FuncInfo → FuncInfo} {f f' : Front} {r} (h : updateFunc u f = .ok r f') (hu : ∀ fi, sameHead fi (u fi)) :
    Dec f f' 0 [] := by
  obtain ⟨i, fi, hc, hi, rfl⟩ := updateFunc_inv h
  have hl := (List.getElem?_eq_some_iff.mp hi).1
  refine ⟨rfl, by simp, List.prefix_refl _, fun hf n fs hm => ?_, fun j fj hj => ?_, fun _ => ⟨[], .nil, ?_⟩⟩
  · rcases List.mem_or_eq_of_mem_set hm with hm | hm
    · exact hf n fs hm
    · cases hm
  · by_cases he : i = j
    · subst he
      rw [hi] at hj
      cases hj
      exact ⟨u fi, by simp [hl], hu fi⟩
    · exact ⟨fj, by simp [List.getElem?_set, he, hj], rfl, rfl, rfl⟩
  · rw [List.append_nil]
    have hs : f.syms = f.syms.take i ++ Sym.func fi :: f.syms.drop (i + 1) := by
      have := List.getElem?_eq_some_iff.mp hi
      rw [← this.2, List.getElem_cons_drop, List.take_append_drop]
    unfold entries
    simp only
    rw [List.set_eq_take_append_cons_drop, if_pos hl]
    conv => rhs; rw [hs]
    rw [List.filterMap_append, List.filterMap_append, List.filterMap_cons, List.filterMap_cons, sameHead_entry (hu fi)]

theorem dec_scope (f : Front) (k : Int) : Dec f { f with currScope := f.currScope + k } k [] :=
  ⟨rfl, rfl, List.prefix_refl _, id, fun _ fi h => ⟨fi, h, rfl, rfl, rfl⟩, fun _ => ⟨[], .nil, by simp [entries]⟩⟩

theorem dec_open {f f' : Front} {r} (h : openScope f = .ok r f') : Dec f f' 1 [] := by
  cases h; exact dec_scope f 1

theorem dec_close {f f' : Front} {r} (h : closeScope f = .ok r f') : Dec f f' (-1) [] := by
  unfold closeScope at h
  obtain ⟨s, f1, h1, h⟩ := Act.ok_inv h
  cases h1
  dsimp only at h
  have hm : ∀ {g : Front}, Dec f g 0 [] → Dec f { g with currScope := g.currScope - 1 } (-1) [] := fun k => by
    simpa [Int.sub_eq_add_neg] using k.trans (dec_scope _ (-1))
  cases hc : f.currFunc with
  | none => rw [hc] at h; cases h; exact hm (Mentions.refl f).dec
  | «at» i =>
    rw [hc] at h
    obtain ⟨_, f2, h2, h⟩ := Act.ok_inv h
    cases h
    exact hm (dec_update h2 fun fi => ⟨rfl, rfl, rfl⟩)
  | dangling =>
    rw [hc] at h
    obtain ⟨_, f2, h2, h⟩ := Act.ok_inv h
    cases h
    exact hm (dec_update h2 fun fi => ⟨rfl, rfl, rfl⟩)

/-! ## Structs -/

theorem structInfo_split {n : Name} : ∀ {l : List Sym} {d fs}, l.findSome? (·.structInfo n) = some (d, fs) →
    ∃ A B, l = A ++ .struct n d fs :: B ∧ (∀ x ∈ A, x.isStruct n = false)
  | [], _, _, h => by cases h
  | x :: l, d, fs, h => by
    rw [List.findSome?_cons] at h
    cases hx : x.structInfo n with
    | some p =>
      rw [hx] at h
      cases h
      cases x <;> simp only [Sym.structInfo, reduceCtorEq] at hx
      split at hx
      · next e => subst e; cases hx; exact ⟨[], l, rfl, by simp⟩
      · cases hx
    | none =>
      rw [hx] at h
      obtain ⟨A, B, rfl, hA⟩ := structInfo_split h
      refine ⟨x :: A, B, rfl, fun y hy => ?_⟩
      rcases List.mem_cons.mp hy with rfl | hy
      · cases y <;> simp only [Sym.structInfo, Sym.isStruct] at hx ⊢
        split at hx
        · cases hx
        · simpa using ‹¬ _›
      · exact hA y hy

theorem split_structInfo {n : Name} {A B : List Sym} {d fs} (hA : ∀ x ∈ A, x.isStruct n = false) :
    (A ++ .struct n d fs :: B).findSome? (·.structInfo n) = some (d, fs) := by
  rw [List.findSome?_append]
  have : A.findSome? (·.structInfo n) = none := by
    rw [List.findSome?_eq_none_iff]
    intro x hx
    have := hA x hx
    cases x <;> simp_all [Sym.structInfo, Sym.isStruct]
  rw [this]
  simp [Sym.structInfo]

theorem updateStruct_split {n : Name} {s : Sym} {d fs} {B : List Sym} : ∀ {A : List Sym}, (∀ x ∈ A, x.isStruct n = false) →
    updateStruct n s (A ++ .struct n d fs :: B) = A ++ s :: B
  | [], _ => by simp [updateStruct, Sym.isStruct]
  | a :: A, h => by
    have h1 := h a (by simp)
    rw [List.cons_append, updateStruct, if_neg (by simp [h1]), updateStruct_split fun x hx => h x (List.mem_cons_of_mem _ hx)]
    rfl

/-- The fields, one after the other. -/
theorem fields_add (n : Name) {A : List Sym} (hA : ∀ x ∈ A, x.isStruct n = false) : ∀ (fs : List (Name × SType)) {f f' : Front} {x}
    {old : List (Name × Tag)} {B : List Sym}, f.syms = A ++ .struct n true old :: B → old.length ≤ 255 → (old.map Prod.fst).Nodup →
    nameFields frontOps n fs f = .ok x f' →
    ∃ C, (∀ x ∈ C, Mention x) ∧ f'.syms = A ++ .struct n true (old ++ fs.map fun x => (x.1, typeMeans x.2)) :: (B ++ C) ∧
      f'.currFunc = f.currFunc ∧ f'.currScope = f.currScope ∧ f.strings <+: f'.strings ∧ old.length + fs.length ≤ 255 ∧
      (old.map Prod.fst ++ fs.map Prod.fst).Nodup
  | [], f, f', x, old, B, hs, hl, hn, h => by
    cases h
    exact ⟨[], by simp, by simpa using hs, rfl, rfl, List.prefix_refl _, by simpa using hl, by simpa using hn⟩
  | p :: fs, f, f', x, old, B, hs, hl, hn, h => by
    unfold nameFields at h
    obtain ⟨_, f1, h1, h⟩ := Act.ok_inv h
    obtain ⟨ty, f2, h2, h⟩ := Act.ok_inv h
    obtain ⟨_, f3, h3, h⟩ := Act.ok_inv h
    obtain ⟨_, f4, h4, h⟩ := Act.ok_inv h
    cases h
    have e1 : f1 = f ∧ old.length < 255 ∧ p.1 ∉ old.map Prod.fst := by
      have h1 : checkField n p.1 f = .ok _ f1 := h1
      simp only [checkField, act_bind, Act.get, hs, split_structInfo hA] at h1
      split at h1
      · cases h1
      · split at h1
        · cases h1
        · next hh =>
          cases h1
          exact ⟨rfl, by omega, by simpa using hh⟩
    obtain ⟨rfl, h5, h6⟩ := e1
    obtain ⟨a, rfl⟩ := mentions_type h2
    obtain ⟨C, hC, e2⟩ := a.syms
    have e2' : f2.syms = A ++ .struct n true old :: (B ++ C) := by rw [e2, hs]; simp
    have h3 : addField n p.1 (typeMeans p.2) f2 = .ok _ f3 := h3
    simp only [addField, act_bind, Act.get, e2', split_structInfo hA] at h3
    cases h3
    dsimp only at h4
    rw [e2', updateStruct_split hA] at h4
    obtain ⟨D, hD, e4, h7, h8, h9, h10, h11⟩ := fields_add n hA fs (f := { f2 with syms := _ }) (B := B ++ C)
      (old := old ++ [(p.1, typeMeans p.2)]) rfl (by simp; omega)
      (by
        rw [List.map_append, List.nodup_append]
        exact ⟨hn, by simp, fun a ha b hb e => by
          simp only [List.map_cons, List.map_nil, List.mem_singleton] at hb
          exact h6 (hb ▸ e ▸ ha)⟩) h4
    refine ⟨C ++ D, by simpa [or_imp, forall_and] using ⟨hC, hD⟩, by simpa using e4, h7.trans a.cur, h8.trans a.scope, a.strs.trans h9, ?_, ?_⟩
    · simp at h10 ⊢; omega
    · simpa using h11

theorem dec_struct {n : Name} {fs : List (Name × SType)} {f f' : Front} {x} (hf : Fieldless f)
    (h : nameStmt frontOps (.struct n fs) f = .ok x f') : Dec f f' 0 [.struct n fs] ∧ f.currFunc = .none := by
  unfold nameStmt at h
  obtain ⟨_, f1, h1, h⟩ := Act.ok_inv h
  obtain ⟨_, f2, h2, h⟩ := Act.ok_inv h
  obtain ⟨_, f3, h3, h⟩ := Act.ok_inv h
  obtain ⟨_, f4, h4, h⟩ := Act.ok_inv h
  cases h
  obtain ⟨rfl, hcur⟩ := requireFalse h1
  refine ⟨?_, hcur⟩
  have h2 : beginStruct n f1 = .ok _ f2 := h2
  unfold beginStruct at h2
  obtain ⟨_, g, hg, h2⟩ := Act.ok_inv h2
  have m := (mentions_struct hg).dec
  refine Dec.trans (j := 0) (k := 0) (ds := []) m ?_
  replace hf := m.blank hf
  clear m hg h1 hcur
  simp only [act_bind, Act.get] at h2
  cases hi : g.syms.findSome? (·.structInfo n) with
  | none => rw [hi] at h2; cases h2
  | some p =>
    rw [hi] at h2
    obtain ⟨d, old⟩ := p
    cases d with
    | true => cases h2
    | false =>
      cases h2
      obtain ⟨A, B, e, hA⟩ := structInfo_split hi
      have : old = [] := hf n old (by rw [e]; simp)
      subst this
      dsimp only at h3
      rw [e, updateStruct_split hA] at h3
      obtain ⟨C, hC, e3, c1, c2, c3, c4, c5⟩ := fields_add n hA fs (f := { g with syms := _ }) (old := []) (B := B) rfl (by simp) (by simp) h3
      have h4 : endStruct n f3 = .ok _ f' := h4
      simp only [endStruct, act_bind, Act.get, e3, split_structInfo hA] at h4
      split at h4
      · cases h4
      · next hne =>
        cases h4
        simp only [List.nil_append, List.map_eq_nil_iff, List.length_nil, Nat.zero_add, List.map_nil] at hne e3 c4 c5
        refine ⟨c1, by rw [c2]; simp, c3, fun _ m ms hm => ?_, fun i fi hi => ?_, fun _ => ⟨[_], .cons (.struct hne c4 c5) .nil, ?_⟩⟩
        · rw [e3] at hm
          simp only [List.mem_append, List.mem_cons] at hm
          rcases hm with hm | hm | hm | hm
          · exact hf m ms (by rw [e]; simp [hm])
          · cases hm
          · exact hf m ms (by rw [e]; simp [hm])
          · rcases hC _ hm with ⟨k, h⟩ | ⟨t, h⟩
            · cases h; rfl
            · cases h
        · refine ⟨fi, ?_, rfl, rfl, rfl⟩
          rw [e] at hi
          rw [e3]
          rcases Nat.lt_trichotomy i A.length with h | h | h
          · rw [List.getElem?_append_left h] at hi ⊢
            exact hi
          · subst h
            simp at hi
          · obtain ⟨k, rfl⟩ : ∃ k, i = A.length + (k + 1) := ⟨i - A.length - 1, by omega⟩
            rw [List.getElem?_append_right (by omega), Nat.add_sub_cancel_left, List.getElem?_cons_succ] at hi ⊢
            rw [List.getElem?_append_left (List.getElem?_eq_some_iff.mp hi).1, hi]
        · unfold entries
          rw [e3, e]
          simp only [List.filterMap_append, List.filterMap_cons, mentions_entries hC, List.append_nil, symEntry]
          rw [List.append_assoc]
          exact (List.perm_append_comm (l₁ := [_])).append_left _

/-! ## Functions -/

/-- The arguments of a function. -/
theorem args_add {A B : List Sym} (N : Nat) : ∀ (ps : List (Name × Tag)) {f f' : Front} {fi : FuncInfo} {u},
    f.syms = A ++ .func fi :: B → f.currFunc = .at A.length → (fi.args.map (·.name)).Nodup → declareArguments N ps f = .ok u f' →
    ∃ fi', f' = { f with syms := A ++ .func fi' :: B } ∧ fi'.name = fi.name ∧ fi'.ret = fi.ret ∧
      fi'.args.map (fun v => (v.name, v.tag)) = fi.args.map (fun v => (v.name, v.tag)) ++ ps.map (fun p => (p.1, some p.2)) ∧
      (fi'.args.map (·.name)).Nodup
  | [], f, f', fi, u, hs, hc, hn, h => by
    cases h
    exact ⟨fi, by rw [← hs], rfl, rfl, by simp, hn⟩
  | p :: ps, f, f', fi, u, hs, hc, hn, h => by
    unfold declareArguments at h
    obtain ⟨_, f1, h1, h⟩ := Act.ok_inv h
    have hi : f.syms[A.length]? = some (.func fi) := by rw [hs]; simp
    have hcf : currentFunc f = .ok (some fi) f := by unfold currentFunc; rw [hc]; dsimp only; rw [hi]
    unfold declareArgument at h1
    obtain ⟨r, f0, h0, h1⟩ := Act.ok_inv h1
    rw [hcf] at h0
    cases h0
    dsimp only at h1
    split at h1
    · cases h1
    · next hany =>
      obtain ⟨i, fj, h2, h3, rfl⟩ := updateFunc_inv h1
      rw [hc] at h2
      cases h2
      rw [hi] at h3
      cases h3
      have hset : ∀ y, f.syms.set A.length y = A ++ y :: B := by intro y; rw [hs]; simp
      rw [hset] at h
      obtain ⟨fi', k1, k2, k3, k4, k5⟩ := args_add N ps (f := { f with syms := _ }) (B := B) rfl hc (by
        rw [List.map_append, List.nodup_append]
        refine ⟨hn, by simp, fun a ha b hb e => ?_⟩
        simp only [List.map_cons, List.map_nil, List.mem_singleton] at hb
        subst hb e
        apply hany
        simpa using ha) h
      exact ⟨fi', k1, k2, k3, by simpa using k4, k5⟩

/-! ## Variables and constants -/

theorem lit_named (r : SExpr) {f f' : Front} {x : CExpr} (h : nameExpr frontOps r f = .ok x f') :
    (r.lit = none ∧ x.lit = none) ∨ ∃ c d, r.lit = some c ∧ x.lit = some d ∧ ConstIs f'.strings c d.const.1 d.const.2 := by
  cases r with
  | bool b => cases h; exact .inr ⟨_, _, rfl, rfl, .bool⟩
  | int i => cases h; exact .inr ⟨_, _, rfl, rfl, .int (BitVec.toInt_signExtend_of_le (by decide))⟩
  | char i => cases h; exact .inr ⟨_, _, rfl, rfl, .int (BitVec.toInt_signExtend_of_le (by decide))⟩
  | float b => cases h; exact .inr ⟨_, _, rfl, rfl, .float⟩
  | str s =>
    obtain ⟨i, f1, h1, h⟩ := Act.ok_inv h
    cases h
    exact .inr ⟨_, _, rfl, rfl, .str (mentions_str h1).2⟩
  | null => cases h; exact .inl ⟨rfl, rfl⟩
  | id n u => obtain ⟨_, _, _, h⟩ := Act.ok_inv h; cases h; exact .inl ⟨rfl, rfl⟩
  | call g as => obtain ⟨_, _, _, h⟩ := Act.ok_inv h; cases h; exact .inl ⟨rfl, rfl⟩
  | paren e => obtain ⟨_, _, _, h⟩ := Act.ok_inv h; cases h; exact .inl ⟨rfl, rfl⟩
  | un op e => obtain ⟨_, _, _, h⟩ := Act.ok_inv h; cases h; exact .inl ⟨rfl, rfl⟩
  | dot l n => obtain ⟨_, _, _, h⟩ := Act.ok_inv h; cases h; exact .inl ⟨rfl, rfl⟩
  | bin op l r => obtain ⟨_, _, _, h⟩ := Act.ok_inv h; obtain ⟨_, _, _, h⟩ := Act.ok_inv h; cases h; exact .inl ⟨rfl, rfl⟩
  | index l r => obtain ⟨_, _, _, h⟩ := Act.ok_inv h; obtain ⟨_, _, _, h⟩ := Act.ok_inv h; cases h; exact .inl ⟨rfl, rfl⟩
  | ctor n ns r => obtain ⟨_, _, _, h⟩ := Act.ok_inv h; obtain ⟨_, _, _, h⟩ := Act.ok_inv h; cases h; exact .inl ⟨rfl, rfl⟩
  | cast e ty => obtain ⟨_, _, _, h⟩ := Act.ok_inv h; obtain ⟨_, _, _, h⟩ := Act.ok_inv h; cases h; exact .inl ⟨rfl, rfl⟩
  | ite c a b =>
    obtain ⟨_, _, _, h⟩ := Act.ok_inv h
    obtain ⟨_, _, _, h⟩ := Act.ok_inv h
    obtain ⟨_, _, _, h⟩ := Act.ok_inv h
    cases h; exact .inl ⟨rfl, rfl⟩

/-- An assignment which declares no variable. -/
theorem dec_assign {op : Tok} {l r : SExpr} {f f' : Front} {x : CStmt} (hop : ∀ n u, l = .id n u → op ≠ .declare) (fn : Bool)
    (h : nameAssign frontOps op l r f = .ok x f') : Dec f f' 0 (assignDecls fn op none l r) := by
  unfold nameAssign at h
  obtain ⟨l', f1, h1, h⟩ := Act.ok_inv h
  obtain ⟨r', f2, h2, h⟩ := Act.ok_inv h
  have m := ((mentions_expr l h1).trans (mentions_expr r h2)).dec
  have hl := lit_named r h2
  by_cases hc : op = .declareConst ∧ ∃ n u, l = .id n u
  · obtain ⟨rfl, n, u, rfl⟩ := hc
    rcases hl with ⟨e1, e2⟩ | ⟨c, d, e1, e2, hd⟩
    · rw [e2] at h
      cases h
      simpa [assignDecls, e1] using m
    · rw [e2] at h
      obtain ⟨_, f3, h3, h⟩ := Act.ok_inv h
      cases h
      have h3 : declareConst n d.const.1 d.const.2 f2 = .ok _ f' := h3
      unfold declareConst at h3
      obtain ⟨o, f4, h4, h3⟩ := Act.ok_inv h3
      rw [referenceVariable_state h4] at h3
      cases o with
      | some _ => cases h3
      | none =>
        cases h3
        have := m.trans (dec_push (x := .const n d.const.1 d.const.2) rfl (.const hd) (by simp) f2.numGlobalVars)
        simpa [assignDecls, e1] using this
  · have e : assignDecls fn op none l r = [] := by
      cases l with
      | id n u => simp only [assignDecls]; rw [if_neg (by simpa using hop n u rfl), if_neg fun e => hc ⟨e, n, u, rfl⟩]
      | _ => rfl
    rw [e]
    have : f' = f2 := by
      generalize r'.lit = q at h
      split at h
      · exact (hc ⟨rfl, _, _, rfl⟩).elim
      · cases h; rfl
    rw [this]
    exact m

/-- A declaration of a variable. -/
theorem dec_decl {op : Tok} {ann : Option SType} {n : Name} {r : SExpr} {f f' : Front} {x : CStmt}
    (h : nameDecl frontOps op ann n r f = .ok x f') : Dec f f' 0 (if f.currFunc = .none then [.var n ann] else []) := by
  unfold nameDecl at h
  replace h := Act.ok_inv h
  obtain ⟨_, f0, h0, h⟩ := h
  have e0 : f0 = f := referenceVariable_state h0
  subst e0
  replace h := Act.ok_inv h
  obtain ⟨v, f1, h1, h⟩ := h
  have h1 : declareVar n f0 = .ok v f1 := h1
  unfold declareVar at h1
  obtain ⟨s, g, hg, h1⟩ := Act.ok_inv h1
  cases hg
  by_cases hc : f0.currFunc = .none
  · rw [if_pos hc]
    rw [if_neg (by simp [hc])] at h1
    obtain ⟨i, g, hg, h1⟩ := Act.ok_inv h1
    cases h1
    unfold declareGlobalVar at hg
    obtain ⟨o, g, hr, hg⟩ := Act.ok_inv hg
    rw [referenceVariable_state hr] at hg
    have hpush : i = f0.syms.length ∧ f1 = { f0 with
        syms := f0.syms ++ [.glob { name := n, idx := f0.numGlobalVars }]
        numGlobalVars := f0.numGlobalVars + 1 } := by
      split at hg
      · cases hg
      · cases hg; exact ⟨rfl, rfl⟩
    obtain ⟨rfl, rfl⟩ := hpush
    cases ann with
    | none =>
      obtain ⟨_, f2, h2, h⟩ := Act.ok_inv h
      cases h
      exact (dec_push (x := .glob { name := n, idx := f0.numGlobalVars }) rfl (EntryIs.var (ty := none)) (by simp) _).trans
        (mentions_expr r h2).dec
    | some ty =>
      obtain ⟨t, f2, h2, h⟩ := Act.ok_inv h
      obtain ⟨_, f3, h3, h⟩ := Act.ok_inv h
      obtain ⟨_, f4, h4, h⟩ := Act.ok_inv h
      cases h
      obtain ⟨m, rfl⟩ := mentions_type h2
      obtain ⟨C, hC, e⟩ := m.syms
      have h3 : setVarTag (some (.glob f0.syms.length)) (typeMeans ty) f2 = .ok () f3 := h3
      unfold setVarTag at h3
      dsimp only at h3 e
      have hi : f2.syms[f0.syms.length]? = some (.glob { name := n, idx := f0.numGlobalVars }) := by rw [e]; simp
      rw [hi] at h3
      cases h3
      have k := dec_push (f := f0) (x := .glob { name := n, idx := f0.numGlobalVars, tag := some (typeMeans ty) }) rfl
        (EntryIs.var (ty := some ty)) (by simp) (f0.numGlobalVars + 1)
      refine k.trans (Dec.trans (j := 0) (k := 0) (ds := []) (es := []) (Mentions.dec ⟨?_, ?_, ?_, C, hC, ?_⟩) (mentions_expr r h4).dec)
      · exact m.cur
      · exact m.scope
      · exact m.strs
      · dsimp only
        rw [e]
        simp
  · rw [if_neg hc]
    rw [if_pos (by simpa using hc)] at h1
    obtain ⟨k, g, hg, h1⟩ := Act.ok_inv h1
    cases h1
    unfold declareLocal at hg
    obtain ⟨o, g, hr, hg⟩ := Act.ok_inv hg
    have er : g = f0 := by
      unfold currentFunc at hr
      split at hr
      · cases hr; rfl
      · cases hr
      · split at hr
        · cases hr; rfl
        · cases hr
    subst er
    have k1 : Dec g f1 0 [] := by
      cases o with
      | none => cases hg
      | some fi =>
        dsimp only at hg
        split at hg
        · cases hg
        · obtain ⟨_, _, h2, hg⟩ := Act.ok_inv hg
          cases h2
          obtain ⟨_, _, h2, hg⟩ := Act.ok_inv hg
          cases hg
          exact dec_update h2 fun fi => ⟨rfl, rfl, rfl⟩
    cases ann with
    | none =>
      obtain ⟨_, f2, h2, h⟩ := Act.ok_inv h
      cases h
      exact k1.trans (mentions_expr r h2).dec
    | some ty =>
      obtain ⟨t, f2, h2, h⟩ := Act.ok_inv h
      obtain ⟨_, f3, h3, h⟩ := Act.ok_inv h
      obtain ⟨_, f4, h4, h⟩ := Act.ok_inv h
      cases h
      have h3 : setVarTag (some (.loc k)) t f2 = .ok () f3 := h3
      exact ((k1.trans (mentions_type h2).1.dec).trans (dec_update (f := f2) h3 fun fi => ⟨rfl, rfl, rfl⟩)).trans (mentions_expr r h4).dec

/-! ## Statements -/

/-- Inside which function: `none` for outside, else whether it has a result. -/
def BodyOf (f : Front) : Option Bool → Prop
  | none => f.currFunc = .none
  | some b => ∃ i fi t, f.currFunc = .at i ∧ f.syms[i]? = some (.func fi) ∧ fi.ret = some t ∧ b = decide (t ≠ .void)

theorem BodyOf.dec {f f' : Front} {k ds} {fn : Option Bool} (h : BodyOf f fn) (d : Dec f f' k ds) : BodyOf f' fn := by
  cases fn with
  | none => exact d.cur.trans h
  | some b =>
    obtain ⟨i, fi, t, h1, h2, h3, h4⟩ := h
    obtain ⟨fi', k1, k2⟩ := d.keep i fi h2
    exact ⟨i, fi', t, d.cur.trans h1, k1, k2.2.2.trans h3, h4⟩

theorem BodyOf.isSome {f : Front} {fn : Option Bool} (h : BodyOf f fn) : (f.currFunc = .none) ↔ fn.isSome = false := by
  cases fn with
  | none => exact ⟨fun _ => rfl, fun _ => h⟩
  | some b => obtain ⟨i, fi, t, h1, -⟩ := h; simp [h1]

/-- What is to be shown of a statement. -/
structure Stated (f f' : Front) (fn : Option Bool) (ds : List Decl) (places : Prop) (uses : Bool → Prop) : Prop where
  dec : Dec f f' 0 ds
  places : places
  uses : ∀ out, (out = false → f.currFunc ≠ .none ∨ f.currScope ≠ 0) → uses out

mutual
theorem stated_stmt : ∀ (s : SStmt) {f f' : Front} {x : CStmt} {fn : Option Bool}, Fieldless f → 0 ≤ f.currScope → BodyOf f fn →
    nameStmt frontOps s f = .ok x f' → Stated f f' fn (declIn fn.isSome s) (PlacesOk fn s) (UsesOk · s)
  | .node line s, f, f', x, fn, hf, h0, hi, h => by
    unfold nameStmt at h
    obtain ⟨y, f1, h1, h⟩ := Act.ok_inv h
    cases h
    simpa [declIn, PlacesOk, UsesOk] using stated_stmt s hf h0 hi h1
  | .call g args, f, f', x, fn, hf, h0, hi, h => by
    unfold nameStmt at h
    obtain ⟨y, f1, h1, h⟩ := Act.ok_inv h
    cases h
    exact ⟨by simpa [declIn] using (mentions_exprs args h1).dec, by simp [PlacesOk], by simp [UsesOk]⟩
  | .block ss, f, f', x, fn, hf, h0, hi, h => by
    unfold nameStmt at h
    obtain ⟨_, f1, h1, h⟩ := Act.ok_inv h
    obtain ⟨y, f2, h2, h⟩ := Act.ok_inv h
    obtain ⟨_, f3, h3, h⟩ := Act.ok_inv h
    cases h
    have a := dec_open h1
    have k := stated_stmts ss (a.blank hf) (by rw [a.scope]; omega) (hi.dec a) h2
    refine ⟨by simpa [declIn] using (a.trans k.dec).trans (dec_close h3), by simpa [PlacesOk] using k.places, fun out _ => ?_⟩
    simp only [UsesOk]
    exact k.uses false fun _ => .inr (by rw [a.scope]; omega)
  | .proc _ n ps r b, f, f', x, fn, hf, h0, hi, h => by
    unfold nameStmt at h
    replace h := Act.ok_inv h
    obtain ⟨_, f0, hr, h⟩ := h
    replace hr := requireFalse hr
    obtain ⟨h00, hcur⟩ := hr
    subst h00
    obtain ⟨i, f1, h1, h⟩ := Act.ok_inv h
    obtain ⟨ps', f2, h2, h⟩ := Act.ok_inv h
    obtain ⟨_, f3, h3, h⟩ := Act.ok_inv h
    obtain ⟨r', f4, h4, h⟩ := Act.ok_inv h
    obtain ⟨_, f5, h5, h⟩ := Act.ok_inv h
    obtain ⟨_, f6, h6, h⟩ := Act.ok_inv h
    obtain ⟨b', f7, h7, h⟩ := Act.ok_inv h
    obtain ⟨_, f8, h8, h⟩ := Act.ok_inv h
    obtain ⟨_, f9, h9, h⟩ := Act.ok_inv h
    cases h
    cases h9
    have hfn : fn = none := by
      cases fn with
      | none => rfl
      | some b => obtain ⟨_, _, _, h, -⟩ := hi; rw [hcur] at h; cases h
    subst hfn
    obtain ⟨m1, rfl⟩ := mentions_params ps h2
    obtain ⟨m2, rfl⟩ := mentions_ret h4
    have hb : i = f0.syms.length ∧ f1 = { f0 with
        syms := f0.syms ++ [.func { name := n, index := f0.numFunctions }]
        numFunctions := f0.numFunctions + 1
        currFunc := .at f0.syms.length } := by
      cases h1; exact ⟨rfl, rfl⟩
    obtain ⟨rfl, rfl⟩ := hb
    obtain ⟨B, hB, e2⟩ := m1.syms
    obtain ⟨fi3, k1, k2, k3, k4, k5⟩ := args_add (A := f0.syms) (B := B) _ _ (f := f2) (by rw [e2]; simp; rfl) (by rw [m1.cur])
      (by simp) h3
    obtain ⟨D, hD, e4⟩ := m2.syms
    rw [k1] at e4
    obtain ⟨j, fj, c1, c2, c3⟩ := updateFunc_inv (h5 : updateFunc _ f4 = _)
    have hc4 : f4.currFunc = .at f0.syms.length := by rw [m2.cur, k1]; exact m1.cur
    rw [hc4] at c1
    cases c1
    have e4' : f4.syms = f0.syms ++ .func fi3 :: (B ++ D) := by rw [e4]; simp
    rw [e4'] at c2
    simp at c2
    subst c2
    have e5 : f5.syms = f0.syms ++ .func { fi3 with ret := some ((r.map typeMeans).getD .void) } :: (B ++ D) := by
      rw [c3]
      dsimp only
      rw [e4']
      simp
    have hf5 : Fieldless f5 := by
      intro m ms hm
      rw [e5] at hm
      simp only [List.mem_append, List.mem_cons] at hm
      have : ∀ x : Sym, Mention x → x = .struct m false ms → ms = [] := by
        rintro x (⟨k, rfl⟩ | ⟨t, rfl⟩) h
        · cases h; rfl
        · cases h
      rcases hm with hm | hm | hm | hm
      · exact hf m ms hm
      · cases hm
      · exact this _ (hB _ hm) rfl
      · exact this _ (hD _ hm) rfl
    have hcur5 : f5.currFunc = .at f0.syms.length := by rw [c3]; exact hc4
    have hscope5 : f5.currScope = f0.currScope := by
      rw [c3]
      exact (m2.scope.trans (by rw [k1])).trans m1.scope
    have a := dec_open h6
    have hin5 : BodyOf f5 (some (decide ((r.map typeMeans).getD .void ≠ .void))) :=
      ⟨_, _, _, hcur5, by rw [e5]; simp; rfl, rfl, rfl⟩
    have k := stated_stmt b (a.blank hf5) (by rw [a.scope, hscope5]; omega) (hin5.dec a) h7
    have d := (a.trans k.dec).trans (dec_close h8)
    simp only [Option.isSome_some, List.nil_append, List.append_nil] at d
    refine ⟨⟨hcur.symm, ?_, ?_, fun _ => d.blank hf5, fun j fj hj => ?_, fun _ => ?_⟩, ?_, fun out _ => ?_⟩
    · have := d.scope
      dsimp only
      rw [this, hscope5]; omega
    · refine List.IsPrefix.trans ?_ d.strs
      rw [c3]
      refine m1.strs.trans ?_
      have := m2.strs
      rw [k1] at this
      exact this
    · exact d.keep j fj (by rw [e5, List.getElem?_append_left (List.getElem?_eq_some_iff.mp hj).1, hj])
    · obtain ⟨es, p1, p2⟩ := d.ents hf5
      have he : entries f5 = entries f0 ++ [.func n (ps.map fun x => (x.1, some (typeMeans x.2))) (some ((r.map typeMeans).getD .void))] := by
        unfold entries
        rw [e5]
        simp only [List.filterMap_append, List.filterMap_cons, mentions_entries hB, mentions_entries hD, symEntry, k2, k4]
        simp [Function.comp_def]
      refine ⟨_ :: es, .cons (.func ?_) p1, ?_⟩
      · rw [List.nodup_iff_pairwise_ne] at k5 ⊢
        have : fi3.args.map (·.name) = ps.map Prod.fst := by
          have := congrArg (List.map Prod.fst) k4
          simpa [Function.comp_def] using this
        rw [← this]
        exact k5
      · rw [he] at p2
        simpa [entries] using p2
    · simp only [PlacesOk]
      exact ⟨trivial, k.places⟩
    · simp only [UsesOk]
      exact k.uses false fun _ => .inl (by rw [a.cur, hcur5]; simp)
  | .ifThen c b, f, f', x, fn, hf, h0, hi, h => by
    unfold nameStmt at h
    obtain ⟨c', f1, h1, h⟩ := Act.ok_inv h
    obtain ⟨b', f2, h2, h⟩ := Act.ok_inv h
    cases h
    have m := mentions_expr c h1
    have a := m.dec
    have k := stated_stmt b (a.blank hf) (by rw [m.scope]; exact h0) (hi.dec a) h2
    refine ⟨by simpa [declIn] using a.trans k.dec, by simpa [PlacesOk] using k.places, fun out ho => ?_⟩
    simp only [UsesOk]
    exact k.uses out (by rw [m.cur, m.scope]; exact ho)
  | .ifElse c b e, f, f', x, fn, hf, h0, hi, h => by
    unfold nameStmt at h
    obtain ⟨c', f1, h1, h⟩ := Act.ok_inv h
    obtain ⟨b', f2, h2, h⟩ := Act.ok_inv h
    obtain ⟨e', f3, h3, h⟩ := Act.ok_inv h
    cases h
    have m := mentions_expr c h1
    have a := m.dec
    have k := stated_stmt b (a.blank hf) (by rw [m.scope]; exact h0) (hi.dec a) h2
    have a2 := a.trans k.dec
    have l := stated_stmt e (a2.blank hf) (by rw [a2.scope]; omega) (hi.dec a2) h3
    refine ⟨by simpa [declIn] using a2.trans l.dec, by simpa [PlacesOk] using ⟨k.places, l.places⟩, fun out ho => ?_⟩
    simp only [UsesOk]
    exact ⟨k.uses out (by rw [m.cur, m.scope]; exact ho), l.uses out (by rw [a2.cur, a2.scope]; simpa using ho)⟩
  | .while c b, f, f', x, fn, hf, h0, hi, h => by
    unfold nameStmt at h
    obtain ⟨c', f1, h1, h⟩ := Act.ok_inv h
    obtain ⟨_, f2, h2, h⟩ := Act.ok_inv h
    obtain ⟨b', f3, h3, h⟩ := Act.ok_inv h
    obtain ⟨_, f4, h4, h⟩ := Act.ok_inv h
    cases h
    have a := (mentions_expr c h1).dec.trans (dec_open h2)
    have k := stated_stmt b (a.blank hf) (by rw [a.scope]; omega) (hi.dec a) h3
    refine ⟨by simpa [declIn] using (a.trans k.dec).trans (dec_close h4), by simpa [PlacesOk] using k.places, fun out _ => ?_⟩
    simp only [UsesOk]
    exact k.uses false fun _ => .inr (by rw [a.scope]; omega)
  | .for i c s b, f, f', x, fn, hf, h0, hi, h => by
    unfold nameStmt at h
    obtain ⟨_, f1, h1, h⟩ := Act.ok_inv h
    obtain ⟨i', f2, h2, h⟩ := Act.ok_inv h
    obtain ⟨c', f3, h3, h⟩ := Act.ok_inv h
    obtain ⟨s', f4, h4, h⟩ := Act.ok_inv h
    obtain ⟨b', f5, h5, h⟩ := Act.ok_inv h
    obtain ⟨_, f6, h6, h⟩ := Act.ok_inv h
    cases h
    have a := dec_open h1
    have k := stated_stmt i (a.blank hf) (by rw [a.scope]; omega) (hi.dec a) h2
    have a2 := (a.trans k.dec).trans (mentions_expr c h3).dec
    have l := stated_stmt s (a2.blank hf) (by rw [a2.scope]; omega) (hi.dec a2) h4
    have a3 := a2.trans l.dec
    have m := stated_stmt b (a3.blank hf) (by rw [a3.scope]; omega) (hi.dec a3) h5
    refine ⟨by simpa [declIn] using (a3.trans m.dec).trans (dec_close h6), by simpa [PlacesOk] using ⟨k.places, l.places, m.places⟩,
      fun out _ => ?_⟩
    simp only [UsesOk]
    exact ⟨k.uses false fun _ => .inr (by rw [a.scope]; omega), l.uses false fun _ => .inr (by rw [a2.scope]; omega),
      m.uses false fun _ => .inr (by rw [a3.scope]; omega)⟩
  | .ret none, f, f', x, fn, hf, h0, hi, h => by
    unfold nameStmt at h
    obtain ⟨_, f1, h1, h⟩ := Act.ok_inv h
    cases h
    obtain ⟨e1, e2⟩ := adds_require h1
    subst e1
    refine ⟨by simpa [declIn] using (Mentions.refl f').dec, ?_, by simp [UsesOk]⟩
    simp only [PlacesOk]
    rintro rfl
    simp only [BodyOf] at hi
    simp [hi] at e2
  | .ret (some e), f, f', x, fn, hf, h0, hi, h => by
    unfold nameStmt at h
    obtain ⟨_, f1, h1, h⟩ := Act.ok_inv h
    obtain ⟨_, f2, h2, h⟩ := Act.ok_inv h
    obtain ⟨_, f3, h3, h⟩ := Act.ok_inv h
    cases h
    have e1 := adds_require h1
    obtain ⟨rfl, hc⟩ := e1
    have e2 := adds_value h2
    subst e2
    refine ⟨by simpa [declIn] using (mentions_expr e h3).dec, ?_, by simp [UsesOk]⟩
    simp only [PlacesOk]
    cases fn with
    | none =>
      simp only [BodyOf] at hi
      simp [hi] at hc
    | some b =>
      obtain ⟨i, fi, t, c1, c2, c3, rfl⟩ := hi
      have h2 : requireValueFunc f2 = .ok _ f2 := h2
      unfold requireValueFunc at h2
      obtain ⟨o, g, hg, h2⟩ := Act.ok_inv h2
      unfold currentFunc at hg
      rw [c1] at hg
      dsimp only at hg
      rw [c2] at hg
      cases hg
      by_cases ht : t = .void
      · subst ht
        obtain ⟨a, b, c, d, e⟩ := fi
        dsimp only at c3
        subst c3
        cases h2
      · simp [ht]
  | .brk, f, f', x, fn, hf, h0, hi, h => by
    cases h; exact ⟨by simpa [declIn] using (Mentions.refl f).dec, by simp [PlacesOk], by simp [UsesOk]⟩
  | .cont, f, f', x, fn, hf, h0, hi, h => by
    cases h; exact ⟨by simpa [declIn] using (Mentions.refl f).dec, by simp [PlacesOk], by simp [UsesOk]⟩
  | .use m as a, f, f', x, fn, hf, h0, hi, h => by
    unfold nameStmt at h
    obtain ⟨_, f1, h1, h⟩ := Act.ok_inv h
    cases h
    have e := adds_top h1
    subst e
    refine ⟨by simpa [declIn] using (Mentions.refl f').dec, by simp [PlacesOk], fun out ho => ?_⟩
    simp only [UsesOk]
    have h1 : requireTopLevel f' = .ok _ f' := h1
    simp only [requireTopLevel, act_bind, Act.get] at h1
    split at h1
    · cases h1
    · next hh =>
      cases out with
      | true => rfl
      | false =>
        simp only [Bool.or_eq_true, bne_iff_ne, ne_eq, not_or, Classical.not_not] at hh
        rcases ho rfl with h | h
        · exact (h hh.1).elim
        · exact (h hh.2).elim
  | .struct n fs, f, f', x, fn, hf, h0, hi, h => by
    obtain ⟨d, hc⟩ := dec_struct hf h
    refine ⟨by simpa [declIn] using d, ?_, by simp [UsesOk]⟩
    simp only [PlacesOk]
    cases fn with
    | none => rfl
    | some b => obtain ⟨i, fi, t, h, -⟩ := hi; rw [hc] at h; cases h
  | .assign op ann l r, f, f', x, fn, hf, h0, hi, h => by
    refine ⟨?_, by simp [PlacesOk], by simp [UsesOk]⟩
    simp only [declIn]
    have hd : ∀ n u, (ann.isSome = true ∨ op = .declare) → (if f.currFunc = .none then [Decl.var n ann] else []) =
        assignDecls fn.isSome op ann (.id n u) r := by
      intro n u h
      have e : assignDecls fn.isSome op ann (.id n u) r = if fn.isSome = true then [] else [Decl.var n ann] := by
        simp only [assignDecls]
        exact if_pos (by simpa using h)
      rw [e]
      have := hi.isSome
      by_cases hc : f.currFunc = .none
      · rw [if_pos hc, if_neg (by simp [this.mp hc])]
      · rw [if_neg hc, if_pos]
        cases hb : fn.isSome with
        | true => rfl
        | false => exact (hc (this.mpr hb)).elim
    by_cases h1 : ∃ n u, l = .id n u ∧ (ann.isSome = true ∨ op = .declare)
    · obtain ⟨n, u, rfl, h1⟩ := h1
      rw [← hd n u h1]
      cases ann with
      | some ty =>
        unfold nameStmt at h
        exact dec_decl h
      | none =>
        rcases h1 with h1 | rfl
        · cases h1
        · unfold nameStmt at h
          exact dec_decl h
    · have e : nameStmt frontOps (.assign op ann l r) = nameAssign frontOps op l r := by
        rw [nameStmt]
        · rintro ty n u rfl rfl; exact h1 ⟨n, u, rfl, .inl rfl⟩
        · rintro n u rfl rfl rfl; exact h1 ⟨n, u, rfl, .inr rfl⟩
      rw [e] at h
      have k := dec_assign (fun n u hl ho => h1 ⟨n, u, hl, .inr ho⟩) fn.isSome h
      have : assignDecls fn.isSome op ann l r = assignDecls fn.isSome op none l r := by
        cases l with
        | id n u =>
          cases ann with
          | none => rfl
          | some ty => exact (h1 ⟨n, u, rfl, .inl rfl⟩).elim
        | _ => rfl
      rw [this]
      exact k
theorem stated_stmts : ∀ (ss : List SStmt) {f f' : Front} {xs : List CStmt} {fn : Option Bool}, Fieldless f → 0 ≤ f.currScope →
    BodyOf f fn → nameStmts frontOps ss f = .ok xs f' → Stated f f' fn (declInL fn.isSome ss) (PlacesOkL fn ss) (UsesOkL · ss)
  | [], f, f', xs, fn, hf, h0, hi, h => by
    cases h; exact ⟨by simpa [declInL] using (Mentions.refl f).dec, by simp [PlacesOkL], by simp [UsesOkL]⟩
  | s :: ss, f, f', xs, fn, hf, h0, hi, h => by
    unfold nameStmts at h
    obtain ⟨y, f1, h1, h⟩ := Act.ok_inv h
    obtain ⟨ys, f2, h2, h⟩ := Act.ok_inv h
    cases h
    have k := stated_stmt s hf h0 hi h1
    have l := stated_stmts ss (k.dec.blank hf) (by rw [k.dec.scope]; omega) (hi.dec k.dec) h2
    refine ⟨by simpa [declInL] using k.dec.trans l.dec, by simpa [PlacesOkL] using ⟨k.places, l.places⟩, fun out ho => ?_⟩
    simp only [UsesOkL]
    exact ⟨k.uses out ho, l.uses out (by rw [k.dec.cur, k.dec.scope]; simpa using ho)⟩
end

end Tiny
