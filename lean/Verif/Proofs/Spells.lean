import Verif.Spec.Spells
import Verif.Proofs.Declares

/-!
# Naming and resolving a tree keep what it says
-/

namespace Tiny
open Spec

theorem prefix_get {α : Type} {l m : List α} (h : l <+: m) {i : Nat} {a : α} (hi : l[i]? = some a) : m[i]? = some a := by
  obtain ⟨t, rfl⟩ := h
  rw [List.getElem?_append_left (List.getElem?_eq_some_iff.mp hi).1, hi]

/-! ## Symbols keep what they say -/

/-- The name and the number of a variable. -/
def VarInfo.key (v : VarInfo) : Name × Int := (v.name, v.idx)

/-- Functions keep their name, number, arguments, locals and result, variables their name and number, constants and foreign functions
everything. -/
def KeptAs : Sym → Sym → Prop
  | .func fi, y => ∃ fi', y = .func fi' ∧ sameHead fi fi' ∧ fi'.index = fi.index ∧ fi'.args.map VarInfo.key = fi.args.map VarInfo.key ∧
      fi.locals.map VarInfo.key <+: fi'.locals.map VarInfo.key
  | .glob v, y => ∃ v', y = .glob v' ∧ v'.key = v.key
  | .const n t c, y => y = .const n t c
  | .foreign n i ts va r, y => y = .foreign n i ts va r
  | _, _ => True

theorem KeptAs.refl (x : Sym) : KeptAs x x := by
  cases x with
  | func fi => exact ⟨fi, rfl, ⟨rfl, rfl, rfl⟩, rfl, rfl, List.prefix_refl _⟩
  | glob v => exact ⟨v, rfl, rfl⟩
  | const n t c => rfl
  | «foreign» n i ts va r => rfl
  | _ => trivial

theorem KeptAs.trans {x y z : Sym} (h : KeptAs x y) (k : KeptAs y z) : KeptAs x z := by
  cases x with
  | func fi =>
    obtain ⟨fi', rfl, a1, a2, a3, a4⟩ := h
    obtain ⟨fj, rfl, b1, b2, b3, b4⟩ := k
    exact ⟨fj, rfl, ⟨b1.1.trans a1.1, b1.2.1.trans a1.2.1, b1.2.2.trans a1.2.2⟩, b2.trans a2, b3.trans a3, a4.trans b4⟩
  | glob v =>
    obtain ⟨v', rfl, a⟩ := h
    obtain ⟨w, rfl, b⟩ := k
    exact ⟨w, rfl, b.trans a⟩
  | const n t c =>
    cases h
    exact k
  | «foreign» n i ts va r =>
    cases h
    exact k
  | _ => trivial

/-- Strings and symbols stay. -/
structure Heads (f f' : Front) : Prop where
  strs : f.strings <+: f'.strings
  keep : ∀ (i : Nat) x, f.syms[i]? = some x → ∃ y, f'.syms[i]? = some y ∧ KeptAs x y

theorem Heads.refl (f : Front) : Heads f f := ⟨List.prefix_refl _, fun _ x h => ⟨x, h, .refl x⟩⟩

theorem Heads.trans {f g h : Front} (a : Heads f g) (b : Heads g h) : Heads f h where
  strs := a.strs.trans b.strs
  keep := fun i x hi => by
    obtain ⟨y, h1, h2⟩ := a.keep i x hi
    obtain ⟨z, h3, h4⟩ := b.keep i y h1
    exact ⟨z, h3, h2.trans h4⟩

/-- Moreover, the current function is the same. -/
structure MovesTo (f f' : Front) : Prop extends Heads f f' where
  cur : f'.currFunc = f.currFunc

theorem MovesTo.refl (f : Front) : MovesTo f f := ⟨.refl _, rfl⟩
theorem MovesTo.trans {f g h : Front} (a : MovesTo f g) (b : MovesTo g h) : MovesTo f h := ⟨a.toHeads.trans b.toHeads, b.cur.trans a.cur⟩

theorem moves_append {f f' : Front} {C : List Sym} (h1 : f.strings <+: f'.strings) (h2 : f'.syms = f.syms ++ C)
    (h3 : f'.currFunc = f.currFunc) : MovesTo f f' :=
  ⟨⟨h1, fun i x hi => ⟨x, by rw [h2, List.getElem?_append_left (List.getElem?_eq_some_iff.mp hi).1, hi], .refl x⟩⟩, h3⟩

theorem Mentions.moves {f f' : Front} (h : Mentions f f') : MovesTo f f' := by
  obtain ⟨C, -, e⟩ := h.syms
  exact moves_append h.strs e h.cur

theorem moves_set {f : Front} {i : Nat} {x y : Sym} (h : f.syms[i]? = some x) (k : KeptAs x y) : MovesTo f { f with syms := f.syms.set i y } := by
  refine ⟨⟨List.prefix_refl _, fun j z hj => ?_⟩, rfl⟩
  by_cases e : i = j
  · subst e
    rw [h] at hj
    cases hj
    exact ⟨y, by simp [(List.getElem?_eq_some_iff.mp h).1], k⟩
  · exact ⟨z, by simp [List.getElem?_set, e, hj], .refl z⟩

theorem moves_func {u : FuncInfo → FuncInfo} {f f' : Front} {r} (h : updateFunc u f = .ok r f') (hu : ∀ fi, KeptAs (.func fi) (.func (u fi))) :
    MovesTo f f' := by
  obtain ⟨i, fi, hc, hi, rfl⟩ := updateFunc_inv h
  exact moves_set hi (hu fi)

theorem moves_scope (f : Front) (k : Int) : MovesTo f { f with currScope := k } :=
  ⟨⟨List.prefix_refl _, fun _ x h => ⟨x, h, .refl x⟩⟩, rfl⟩

theorem moves_open {f f' : Front} {r} (h : openScope f = .ok r f') : MovesTo f f' := by
  cases h; exact moves_scope f _

theorem moves_close {f f' : Front} {r} (h : closeScope f = .ok r f') : MovesTo f f' := by
  unfold closeScope at h
  obtain ⟨s, f1, h1, h⟩ := Act.ok_inv h
  cases h1
  dsimp only at h
  have hu : ∀ fi : FuncInfo, KeptAs (.func fi) (.func { fi with locals := fi.locals.map (endScope f.currScope) }) := fun fi => by
    refine ⟨_, rfl, ⟨rfl, rfl, rfl⟩, rfl, rfl, ?_⟩
    have : (fi.locals.map (endScope f.currScope)).map VarInfo.key = fi.locals.map VarInfo.key := by
      rw [List.map_map]
      refine List.map_congr_left fun v _ => ?_
      simp only [Function.comp, endScope]
      split <;> rfl
    dsimp only
    rw [this]
    exact List.prefix_refl _
  cases hc : f.currFunc with
  | none => rw [hc] at h; cases h; exact moves_scope f _
  | «at» i =>
    rw [hc] at h
    obtain ⟨_, f2, h2, h⟩ := Act.ok_inv h
    cases h
    exact (moves_func h2 hu).trans (moves_scope _ _)
  | dangling =>
    rw [hc] at h
    obtain ⟨_, f2, h2, h⟩ := Act.ok_inv h
    cases h
    exact (moves_func h2 hu).trans (moves_scope _ _)

/-! ## Names of variables -/

/-- The reference is to a variable or constant of this name. -/
def NamedRef (f : Front) (n : Name) : SymRef → Prop
  | .glob i => ∃ x, f.syms[i]? = some x ∧ x.isVar n = true
  | .loc k => ∃ i fi w, f.currFunc = .at i ∧ f.syms[i]? = some (.func fi) ∧ fi.locals[k]? = some w ∧ w.name = n
  | .arg k => ∃ i fi w, f.currFunc = .at i ∧ f.syms[i]? = some (.func fi) ∧ fi.args[k]? = some w ∧ w.name = n

theorem findIdx_get {α : Type} {p : α → Bool} {l : List α} {k : Nat} (h : l.findIdx? p = some k) : ∃ a, l[k]? = some a ∧ p a = true := by
  rw [List.findIdx?_eq_some_iff_getElem] at h
  obtain ⟨h1, h2, -⟩ := h
  exact ⟨_, List.getElem?_eq_getElem h1, h2⟩

theorem namedRef_ref {n : Name} {f f' : Front} {r : SymRef} (h : referenceVariable n f = .ok (some r) f') : f' = f ∧ NamedRef f n r := by
  refine ⟨referenceVariable_state h, ?_⟩
  unfold referenceVariable at h
  replace h := Act.ok_inv h
  obtain ⟨o, f1, h1, h⟩ := h
  have hcf : f1 = f ∧ ∀ fi, o = some fi → ∃ i, f.currFunc = .at i ∧ f.syms[i]? = some (.func fi) := by
    unfold currentFunc at h1
    split at h1
    · cases h1; exact ⟨rfl, by simp⟩
    · cases h1
    · next i hc =>
      split at h1
      · next fi hi => cases h1; exact ⟨rfl, fun fj e => by cases e; exact ⟨i, hc, hi⟩⟩
      · cases h1
  obtain ⟨rfl, hcf⟩ := hcf
  cases hl : lookupFunc n o with
  | some q =>
    rw [hl] at h
    cases h
    cases o with
    | none => cases hl
    | some fi =>
      obtain ⟨i, hc, hi⟩ := hcf fi rfl
      simp only [lookupFunc] at hl
      cases hk : fi.locals.findIdx? (fun v => !v.ended && v.name == n) with
      | some k =>
        rw [hk] at hl
        cases hl
        obtain ⟨w, h1, h2⟩ := findIdx_get hk
        exact ⟨i, fi, w, hc, hi, h1, by simp at h2; exact h2.2⟩
      | none =>
        rw [hk] at hl
        obtain ⟨k, hk, rfl⟩ := Option.map_eq_some_iff.mp hl
        obtain ⟨w, h1, h2⟩ := findIdx_get hk
        exact ⟨i, fi, w, hc, hi, h1, by simpa using h2⟩
  | none =>
    rw [hl] at h
    obtain ⟨s, f2, h2, h⟩ := Act.ok_inv h
    cases h2
    have h : Out.ok ((f1.syms.findIdx? (·.isVar n)).map SymRef.glob) f1 = Out.ok (some r) f' := h
    rw [Out.ok.injEq] at h
    obtain ⟨k, hk, rfl⟩ := Option.map_eq_some_iff.mp h.1
    exact findIdx_get hk

/-- What a front looks like later, when the tree is resolved. -/
structure EndsIn (f g g0 : Front) : Prop where
  heads : Heads f g
  syms : g0.syms = g.syms
  cur : g0.currFunc = f.currFunc

theorem EndsIn.back {f f' g g0 : Front} (e : EndsIn f' g g0) (m : MovesTo f f') : EndsIn f g g0 :=
  ⟨m.toHeads.trans e.heads, e.syms, e.cur.trans m.cur⟩

theorem key_get {l m : List VarInfo} {k : Nat} {w v : VarInfo} (h : l.map VarInfo.key <+: m.map VarInfo.key) (hw : l[k]? = some w)
    (hv : m[k]? = some v) : v.name = w.name := by
  have h1 := prefix_get h (i := k) (a := w.key) (by simp [hw])
  simp only [List.getElem?_map, hv, Option.map_some, Option.some.injEq] at h1
  exact congrArg Prod.fst h1

theorem stands_of {f g g0 : Front} {n : Name} {r : SymRef} {v : VarSym} {t} (e : EndsIn f g g0) (h : NamedRef f n r)
    (k : symInfo g0 r = .ok (v, t)) : Stands g (curFn g0) n v := by
  cases r with
  | glob i =>
    obtain ⟨x, hx, hn⟩ := h
    obtain ⟨y, hy, hk⟩ := e.heads.keep i x hx
    simp only [symInfo, e.syms, hy] at k
    cases x with
    | glob w =>
      obtain ⟨w', rfl, hw⟩ := hk
      cases k
      simp only [Sym.isVar, beq_iff_eq] at hn
      exact ⟨w', List.mem_of_getElem? hy, (congrArg Prod.fst hw).trans hn, rfl⟩
    | const m t' c =>
      cases hk
      cases k
      simp only [Sym.isVar, beq_iff_eq] at hn
      subst hn
      exact ⟨_, List.mem_of_getElem? hy⟩
    | _ => cases hn
  | loc j =>
    obtain ⟨i, fi, w, h1, h2, h3, h4⟩ := h
    obtain ⟨y, hy, hk⟩ := e.heads.keep i _ h2
    obtain ⟨fi', rfl, -, -, -, hk⟩ := hk
    have hc : g0.currFunc = .at i := e.cur.trans h1
    simp only [symInfo, e.syms, hy, hc] at k
    cases hv : fi'.locals[j]? with
    | none => rw [hv] at k; cases k
    | some u =>
      rw [hv] at k
      cases k
      refine ⟨fi', u, List.mem_of_getElem? hy, by simp [curFn, hc, e.syms, hy], List.mem_append_right _ (List.mem_of_getElem? hv), ?_, rfl⟩
      exact (key_get hk h3 hv).trans h4
  | arg j =>
    obtain ⟨i, fi, w, h1, h2, h3, h4⟩ := h
    obtain ⟨y, hy, hk⟩ := e.heads.keep i _ h2
    obtain ⟨fi', rfl, -, -, hk, -⟩ := hk
    have hc : g0.currFunc = .at i := e.cur.trans h1
    simp only [symInfo, e.syms, hy, hc] at k
    cases hv : fi'.args[j]? with
    | none => rw [hv] at k; cases k
    | some u =>
      rw [hv] at k
      cases k
      refine ⟨fi', u, List.mem_of_getElem? hy, by simp [curFn, hc, e.syms, hy], List.mem_append_left _ (List.mem_of_getElem? hv), ?_, rfl⟩
      exact (key_get (by rw [hk]; exact List.prefix_refl _) h3 hv).trans h4

theorem EndsIn.namedFn {f g g0 : Front} (e : EndsIn f g g0) {n : Name} {k : FnSym} (hk : NamedFn g0 n k) : NamedFn g n k := by
  cases k <;> simpa only [NamedFn, e.syms] using hk

theorem EndsIn.index {f g g0 : Front} (e : EndsIn f g g0) {a b : Option FnSym} (h : IndexFns g0 a b) : IndexFns g a b := by
  obtain ⟨t, ⟨x, h1, h2⟩, h3⟩ := h
  exact ⟨t, ⟨x, h1, e.namedFn h2⟩, fun y hy => e.namedFn (h3 y hy)⟩

/-! ## Expressions -/

mutual
theorem spells_expr : ∀ (e : SExpr) {f f' g g0 : Front} {x : CExpr} {x' : Expr}, nameExpr frontOps e f = .ok x f' →
    EndsIn f' g g0 → Resolved g0 x x' → Spells g (curFn g0) e x'
  | .null, _, _, _, _, _, _, h, _, k => by cases h; cases k; exact .null
  | .bool _, _, _, _, _, _, _, h, _, k => by cases h; cases k; exact .bool
  | .int _, _, _, _, _, _, _, h, _, k => by cases h; cases k; exact .int
  | .char _, _, _, _, _, _, _, h, _, k => by cases h; cases k; exact .char
  | .float _, _, _, _, _, _, _, h, _, k => by cases h; cases k; exact .float
  | .str s, f, f', g, g0, x, x', h, hg, k => by
    obtain ⟨i, f1, h1, h⟩ := Act.ok_inv h
    cases h
    cases k
    exact .str (prefix_get hg.heads.strs (mentions_str h1).2)
  | .id n _, f, f', g, g0, x, x', h, hg, k => by
    obtain ⟨i, f1, h1, h⟩ := Act.ok_inv h
    cases h
    cases k with
    | id k =>
      obtain ⟨rfl, hr⟩ := namedRef_ref h1
      exact .id (stands_of hg hr k)
  | .call c args, f, f', g, g0, x, x', h, hg, k => by
    obtain ⟨i, f1, h1, h⟩ := Act.ok_inv h
    cases h
    cases k with
    | call hl ha hx => exact .call (spells_exprs args h1 hg hl ha) (hx.imp fun _ => hg.namedFn)
  | .paren e, f, f', g, g0, x, x', h, hg, k => by
    obtain ⟨i, f1, h1, h⟩ := Act.ok_inv h
    cases h
    cases k with
    | paren k => exact .paren (spells_expr e h1 hg k)
  | .bin op l r, f, f', g, g0, x, x', h, hg, k => by
    obtain ⟨i, f1, h1, h⟩ := Act.ok_inv h
    obtain ⟨j, f2, h2, h⟩ := Act.ok_inv h
    cases h
    cases k with
    | bin k1 k2 => exact .bin (spells_expr l h1 (hg.back (mentions_expr r h2).moves) k1) (spells_expr r h2 hg k2)
  | .un op e, f, f', g, g0, x, x', h, hg, k => by
    obtain ⟨i, f1, h1, h⟩ := Act.ok_inv h
    cases h
    cases k with
    | un k => exact .un (spells_expr e h1 hg k)
  | .dot l n, f, f', g, g0, x, x', h, hg, k => by
    obtain ⟨i, f1, h1, h⟩ := Act.ok_inv h
    cases h
    cases k with
    | dot k => exact .dot (spells_expr l h1 hg k)
  | .index a i, f, f', g, g0, x, x', h, hg, k => by
    obtain ⟨_, f1, h1, h⟩ := Act.ok_inv h
    obtain ⟨_, f2, h2, h⟩ := Act.ok_inv h
    cases h
    cases k with
    | index k1 k2 k3 =>
      exact .index (spells_expr a h1 (hg.back (mentions_expr i h2).moves) k1) (spells_expr i h2 hg k2) (hg.index k3)
  | .ctor n names args, f, f', g, g0, x, x', h, hg, k => by
    obtain ⟨_, f1, h1, h⟩ := Act.ok_inv h
    obtain ⟨_, f2, h2, h⟩ := Act.ok_inv h
    cases h
    cases k with
    | ctor hl ha => exact .ctor (spells_exprs args h2 hg hl ha)
    | ctorNamed hn hl ha => exact .ctorNamed hn (spells_exprs args h2 hg hl ha)
  | .cast e ty, f, f', g, g0, x, x', h, hg, k => by
    obtain ⟨_, f1, h1, h⟩ := Act.ok_inv h
    obtain ⟨_, f2, h2, h⟩ := Act.ok_inv h
    cases h
    cases k with
    | cast k =>
      obtain ⟨m, rfl⟩ := mentions_type h2
      exact .cast (spells_expr e h1 (hg.back m.moves) k)
  | .ite c a b, f, f', g, g0, x, x', h, hg, k => by
    obtain ⟨_, f1, h1, h⟩ := Act.ok_inv h
    obtain ⟨_, f2, h2, h⟩ := Act.ok_inv h
    obtain ⟨_, f3, h3, h⟩ := Act.ok_inv h
    cases h
    cases k with
    | ite k1 k2 k3 =>
      have s3 := hg.back (mentions_expr b h3).moves
      exact .ite (spells_expr c h1 (s3.back (mentions_expr a h2).moves) k1) (spells_expr a h2 s3 k2) (spells_expr b h3 hg k3)
theorem spells_exprs : ∀ (es : List SExpr) {f f' g g0 : Front} {xs : List CExpr} {xs' : List Expr}, nameExprs frontOps es f = .ok xs f' →
    EndsIn f' g g0 → xs.length = xs'.length →
    (∀ (k : Nat) a a', xs[k]? = some a → xs'[k]? = some a' → Resolved g0 a a') → SpellsL g (curFn g0) es xs'
  | [], _, _, _, _, _, _, h, _, hl, _ => by
    cases h
    rw [List.length_nil] at hl
    rw [List.eq_nil_of_length_eq_zero hl.symm]
    exact .nil
  | e :: es, f, f', g, g0, xs, xs', h, hg, hl, k => by
    obtain ⟨y, f1, h1, h⟩ := Act.ok_inv h
    obtain ⟨ys, f2, h2, h⟩ := Act.ok_inv h
    cases h
    cases xs' with
    | nil => simp at hl
    | cons y' ys' =>
      exact .cons (spells_expr e h1 (hg.back (mentions_exprs es h2).moves) (k 0 y y' rfl rfl))
        (spells_exprs es h2 hg (by simpa using hl) fun j a a' ha ha' => k (j + 1) a a' (by simpa using ha) (by simpa using ha'))
end

/-! ## Structs -/

theorem updateStruct_other {n : Name} {s : Sym} : ∀ {l : List Sym} {i : Nat} {x : Sym}, l[i]? = some x →
    ∃ y, (updateStruct n s l)[i]? = some y ∧ KeptAs x y
  | [], _, _, h => by cases h
  | x :: l, i, y, h => by
    rw [updateStruct]
    split
    · next hx =>
      cases i with
      | zero =>
        simp at h
        subst h
        refine ⟨s, by simp, ?_⟩
        cases x <;> trivial
      | succ i => exact ⟨y, by simpa using h, .refl y⟩
    · cases i with
      | zero => exact ⟨y, by simpa using h, .refl y⟩
      | succ i => simpa using updateStruct_other (by simpa using h)

theorem moves_update (n : Name) (s : Sym) (f : Front) : MovesTo f { f with syms := updateStruct n s f.syms } :=
  ⟨⟨List.prefix_refl _, fun _ _ h => updateStruct_other h⟩, rfl⟩

theorem moves_fields (n : Name) : ∀ (fs : List (Name × SType)) {f f' : Front} {x}, nameFields frontOps n fs f = .ok x f' → MovesTo f f'
  | [], _, _, _, h => by cases h; exact .refl _
  | p :: fs, f, f', x, h => by
    unfold nameFields at h
    obtain ⟨_, f1, h1, h⟩ := Act.ok_inv h
    obtain ⟨ty, f2, h2, h⟩ := Act.ok_inv h
    obtain ⟨_, f3, h3, h⟩ := Act.ok_inv h
    obtain ⟨_, f4, h4, h⟩ := Act.ok_inv h
    cases h
    have e1 : f1 = f := by
      have h1 : checkField n p.1 f = .ok _ f1 := h1
      simp only [checkField, act_bind, Act.get] at h1
      cases hs : f.syms.findSome? (·.structInfo n) with
      | none => rw [hs] at h1; cases h1
      | some q =>
        rw [hs] at h1
        dsimp only at h1
        by_cases c1 : 255 ≤ q.2.length
        · rw [if_pos c1] at h1; cases h1
        · rw [if_neg c1] at h1
          by_cases c2 : (q.2.any fun x => x.1 == p.1) = true
          · rw [if_pos c2] at h1; cases h1
          · rw [if_neg c2] at h1; cases h1; rfl
    subst e1
    have e3 : MovesTo f2 f3 := by
      have h3 : addField n p.1 ty f2 = .ok _ f3 := h3
      simp only [addField, act_bind, Act.get] at h3
      cases hs : f2.syms.findSome? (·.structInfo n) with
      | none => rw [hs] at h3; cases h3
      | some q => rw [hs] at h3; cases h3; exact moves_update _ _ _
    exact ((mentions_type h2).1.moves.trans e3).trans (moves_fields n fs h4)

theorem moves_struct {n : Name} {fs : List (Name × SType)} {f f' : Front} {x}
    (h : nameStmt frontOps (.struct n fs) f = .ok x f') : MovesTo f f' ∧ ∃ ts, x = .struct n ts := by
  unfold nameStmt at h
  obtain ⟨_, f1, h1, h⟩ := Act.ok_inv h
  obtain ⟨_, f2, h2, h⟩ := Act.ok_inv h
  obtain ⟨_, f3, h3, h⟩ := Act.ok_inv h
  obtain ⟨_, f4, h4, h⟩ := Act.ok_inv h
  cases h
  obtain ⟨rfl, hcur⟩ := requireFalse h1
  have e2 : MovesTo f1 f2 := by
    have h2 : beginStruct n f1 = .ok _ f2 := h2
    unfold beginStruct at h2
    obtain ⟨_, g, hg, h2⟩ := Act.ok_inv h2
    refine (mentions_struct hg).moves.trans ?_
    simp only [act_bind, Act.get] at h2
    cases hs : g.syms.findSome? (·.structInfo n) with
    | none => rw [hs] at h2; cases h2
    | some q =>
      rw [hs] at h2
      obtain ⟨d, old⟩ := q
      cases d with
      | true => cases h2
      | false => cases h2; exact moves_update _ _ _
  have e4 : f' = f3 := by
    have h4 : endStruct n f3 = .ok _ f' := h4
    simp only [endStruct, act_bind, Act.get] at h4
    cases hs : f3.syms.findSome? (·.structInfo n) with
    | none => rw [hs] at h4; cases h4
    | some q =>
      rw [hs] at h4
      dsimp only at h4
      by_cases c1 : q.2 = []
      · rw [if_pos c1] at h4; cases h4
      · rw [if_neg c1] at h4; cases h4; rfl
  subst e4
  exact ⟨e2.trans (moves_fields n fs h3), _, rfl⟩

/-! ## Statements -/

/-- What is to be shown of a statement. -/
structure Kin (f f' : Front) (s : SStmt) (x : CStmt) : Prop where
  moves : MovesTo f f'
  tells : ∀ {g g0 : Front} {x' : Stmt}, EndsIn f' g g0 → ResolvedS g0 x x' → SpellsS g (curFn g0) s x'

/-- What is to be shown of statements. -/
structure KinL (f f' : Front) (ss : List SStmt) (xs : List CStmt) : Prop where
  moves : MovesTo f f'
  tells : ∀ {g g0 : Front} {xs' : List Stmt}, EndsIn f' g g0 → ResolvedS g0 (.block xs) (.block xs') → SpellsSs g (curFn g0) ss xs'

theorem kin_assign {op : Tok} {ann : Option SType} {ann' : Option Tag} {l r : SExpr} {l' r' : CExpr} {f0 f2 f3 f' : Front} (h : MovesTo f0 f')
    (h1 : ∀ {g g0 : Front} {x' : Expr}, EndsIn f' g g0 → Resolved g0 l' x' → Spells g (curFn g0) l x')
    (h2 : nameExpr frontOps r f2 = .ok r' f3) (h3 : MovesTo f3 f') : Kin f0 f' (.assign op ann l r) (.assign op ann' l' r') :=
  ⟨h, fun {g g0 x'} hg k => by
    cases k with
    | assign ho kl kr => exact .assign ho (h1 hg kl) (spells_expr r h2 (hg.back h3) kr)
    | other ho kr => exact .other ho (spells_expr r h2 (hg.back h3) kr)⟩

/-- A variable is declared: it has the name. -/
theorem namedRef_declare {n : Name} {f f' : Front} {o : Option SymRef} (h : declareVar n f = .ok o f') :
    MovesTo f f' ∧ ∃ r, o = some r ∧ NamedRef f' n r ∧ (∀ k, r ≠ .arg k) := by
  unfold declareVar at h
  obtain ⟨s, g, hg, h⟩ := Act.ok_inv h
  cases hg
  by_cases hc : f.currFunc = .none
  · rw [if_neg (by simp [hc])] at h
    obtain ⟨i, g, hg, h⟩ := Act.ok_inv h
    cases h
    unfold declareGlobalVar at hg
    obtain ⟨o, g, hr, hg⟩ := Act.ok_inv hg
    rw [referenceVariable_state hr] at hg
    have hpush : i = f.syms.length ∧ f' = { f with
        syms := f.syms ++ [.glob { name := n, idx := f.numGlobalVars }]
        numGlobalVars := f.numGlobalVars + 1 } := by
      split at hg
      · cases hg
      · cases hg; exact ⟨rfl, rfl⟩
    obtain ⟨rfl, rfl⟩ := hpush
    refine ⟨moves_append (List.prefix_refl _) rfl rfl, _, rfl, ?_, by simp⟩
    exact ⟨.glob { name := n, idx := f.numGlobalVars }, by simp, by simp [Sym.isVar]⟩
  · rw [if_pos (by simpa using hc)] at h
    obtain ⟨k, g, hg, h⟩ := Act.ok_inv h
    cases h
    unfold declareLocal at hg
    obtain ⟨o, g, hr, hg⟩ := Act.ok_inv hg
    have er : g = f ∧ ∀ fi, o = some fi → ∃ i, f.currFunc = .at i ∧ f.syms[i]? = some (.func fi) := by
      unfold currentFunc at hr
      split at hr
      · cases hr; exact ⟨rfl, by simp⟩
      · cases hr
      · next i hc =>
        split at hr
        · next fi hi => cases hr; exact ⟨rfl, fun fj e => by cases e; exact ⟨i, hc, hi⟩⟩
        · cases hr
    obtain ⟨rfl, er⟩ := er
    cases o with
    | none => cases hg
    | some fi =>
      obtain ⟨i, hi, hfi⟩ := er fi rfl
      dsimp only at hg
      split at hg
      · cases hg
      · obtain ⟨_, _, h2, hg⟩ := Act.ok_inv hg
        cases h2
        obtain ⟨_, _, h2, hg⟩ := Act.ok_inv hg
        cases hg
        refine ⟨moves_func h2 fun fi => ⟨_, rfl, ⟨rfl, rfl, rfl⟩, rfl, rfl, by simp⟩, _, rfl, ?_, by simp⟩
        obtain ⟨j, fj, hc, hj, rfl⟩ := updateFunc_inv h2
        rw [hi] at hc
        cases hc
        rw [hfi] at hj
        cases hj
        refine ⟨i, { fi with locals := fi.locals ++ [{ name := n, idx := fi.locals.length, scope := g.currScope }] },
          { name := n, idx := fi.locals.length, scope := g.currScope }, hi, ?_, ?_, rfl⟩
        · exact List.getElem?_set_self (List.getElem?_eq_some_iff.mp hfi).1
        · simp

/-- The type of a variable is set. -/
theorem moves_tag {r : SymRef} (hr : ∀ k, r ≠ .arg k) {t : Tag} {f f' : Front} {u} (h : setVarTag (some r) t f = .ok u f') : MovesTo f f' := by
  unfold setVarTag at h
  cases r with
  | arg k => exact (hr k rfl).elim
  | loc k =>
    dsimp only at h
    refine moves_func h fun fi => ⟨_, rfl, ⟨rfl, rfl, rfl⟩, rfl, rfl, ?_⟩
    have : (fi.locals.modify k fun v => { v with tag := some t }).map VarInfo.key = fi.locals.map VarInfo.key := by
      apply List.ext_getElem?
      intro i
      simp only [List.getElem?_map, List.getElem?_modify]
      split
      · cases fi.locals[i]? <;> rfl
      · simp
    dsimp only
    rw [this]
    exact List.prefix_refl _
  | glob i =>
    dsimp only at h
    cases hx : f.syms[i]? with
    | none => rw [hx] at h; cases h
    | some x =>
      rw [hx] at h
      cases x with
      | glob v => cases h; exact moves_set hx ⟨_, rfl, rfl⟩
      | _ => cases h

theorem namedRef_moves {f f' : Front} (m : MovesTo f f') {n : Name} {r : SymRef} (h : NamedRef f n r) : NamedRef f' n r := by
  cases r with
  | glob i =>
    obtain ⟨x, hx, hn⟩ := h
    obtain ⟨y, hy, hk⟩ := m.keep i x hx
    refine ⟨y, hy, ?_⟩
    cases x with
    | glob w =>
      obtain ⟨w', rfl, hw⟩ := hk
      simp only [Sym.isVar, beq_iff_eq] at hn ⊢
      exact (congrArg Prod.fst hw).trans hn
    | const c t v => cases hk; exact hn
    | _ => cases hn
  | loc k =>
    obtain ⟨i, fi, w, h1, h2, h3, h4⟩ := h
    obtain ⟨y, hy, fi', rfl, -, -, -, hk⟩ := m.keep i _ h2
    have h5 := prefix_get hk (i := k) (a := w.key) (by simp [h3])
    rw [List.getElem?_map] at h5
    obtain ⟨w', h6, h7⟩ := Option.map_eq_some_iff.mp h5
    exact ⟨i, fi', w', m.cur.trans h1, hy, h6, (congrArg Prod.fst h7).trans h4⟩
  | arg k =>
    obtain ⟨i, fi, w, h1, h2, h3, h4⟩ := h
    obtain ⟨y, hy, fi', rfl, -, -, hk, -⟩ := m.keep i _ h2
    have h5 : (fi'.args.map VarInfo.key)[k]? = some w.key := by rw [hk]; simp [h3]
    rw [List.getElem?_map] at h5
    obtain ⟨w', h6, h7⟩ := Option.map_eq_some_iff.mp h5
    exact ⟨i, fi', w', m.cur.trans h1, hy, h6, (congrArg Prod.fst h7).trans h4⟩

/-- A declaration of a variable. -/
theorem kin_decl {op : Tok} {ann : Option SType} {n : Name} {u : Unit} {r : SExpr} {f f' : Front} {x : CStmt}
    (h : nameDecl frontOps op ann n r f = .ok x f') : Kin f f' (.assign op ann (.id n u) r) x := by
  unfold nameDecl at h
  replace h := Act.ok_inv h
  obtain ⟨_, f0, h0, h⟩ := h
  have e0 : f0 = f := referenceVariable_state h0
  subst e0
  replace h := Act.ok_inv h
  obtain ⟨v, f1, h1, h⟩ := h
  obtain ⟨m1, q, rfl, hq, hna⟩ := namedRef_declare h1
  have hid : MovesTo f1 f' → ∀ {g g0 : Front} {x' : Expr}, EndsIn f' g g0 → Resolved g0 (.id n (some q)) x' → Spells g (curFn g0) (.id n u) x' :=
    fun m {g g0 x'} e k => by
      cases k with
      | id k => exact .id (stands_of e (namedRef_moves m hq) k)
  cases ann with
  | none =>
    obtain ⟨_, f2, h2, h⟩ := Act.ok_inv h
    cases h
    have m2 := (mentions_expr r h2).moves
    exact kin_assign (m1.trans m2) (hid m2) h2 (.refl _)
  | some ty =>
    obtain ⟨t, f2, h2, h⟩ := Act.ok_inv h
    obtain ⟨_, f3, h3, h⟩ := Act.ok_inv h
    obtain ⟨_, f4, h4, h⟩ := Act.ok_inv h
    cases h
    have m2 := ((mentions_type h2).1.moves.trans (moves_tag hna (h3 : setVarTag _ _ _ = _))).trans (mentions_expr r h4).moves
    exact kin_assign (m1.trans m2) (hid m2) h4 (.refl _)

/-- Another assignment. -/
theorem kin_nameAssign {op : Tok} {ann : Option SType} {l r : SExpr} {f f' : Front} {x : CStmt}
    (h : nameAssign frontOps op l r f = .ok x f') : Kin f f' (.assign op ann l r) x := by
  unfold nameAssign at h
  obtain ⟨l', f1, h1, h⟩ := Act.ok_inv h
  obtain ⟨r', f2, h2, h⟩ := Act.ok_inv h
  have hx : x = .assign op none l' r' ∧ MovesTo f2 f' := by
    by_cases hc : op = .declareConst ∧ ∃ n u, l = .id n u
    · obtain ⟨rfl, n, u, rfl⟩ := hc
      cases hq : r'.lit with
      | none => rw [hq] at h; cases h; exact ⟨rfl, .refl _⟩
      | some q =>
        rw [hq] at h
        obtain ⟨_, f3, h3, h⟩ := Act.ok_inv h
        cases h
        refine ⟨rfl, ?_⟩
        have h3 : declareConst n q.const.1 q.const.2 f2 = .ok _ f' := h3
        unfold declareConst at h3
        obtain ⟨o, f4, h4, h3⟩ := Act.ok_inv h3
        rw [referenceVariable_state h4] at h3
        cases o with
        | some _ => cases h3
        | none => cases h3; exact moves_append (List.prefix_refl _) rfl rfl
    · generalize r'.lit = q at h
      split at h
      · exact (hc ⟨rfl, _, _, rfl⟩).elim
      · cases h; exact ⟨rfl, .refl _⟩
  obtain ⟨rfl, h3⟩ := hx
  have m2 := (mentions_expr r h2).moves.trans h3
  exact kin_assign ((mentions_expr l h1).moves.trans m2) (fun hg k => spells_expr l h1 (hg.back m2) k) h2 h3

mutual
theorem kin_stmt : ∀ (s : SStmt) {f f' : Front} {x : CStmt}, nameStmt frontOps s f = .ok x f' → Kin f f' s x
  | .node line s, f, f', x, h => by
    unfold nameStmt at h
    obtain ⟨y, f1, h1, h⟩ := Act.ok_inv h
    cases h
    have k := kin_stmt s h1
    exact ⟨k.moves, fun hg r => by
      cases r with
      | node r => exact .node (k.tells hg r)⟩
  | .call c args, f, f', x, h => by
    unfold nameStmt at h
    obtain ⟨y, f1, h1, h⟩ := Act.ok_inv h
    cases h
    exact ⟨(mentions_exprs args h1).moves, fun hg r => by
      cases r with
      | call r =>
        cases r with
        | call hl ha hx => exact .call (spells_exprs args h1 hg hl ha) (hx.imp fun _ => hg.namedFn)⟩
  | .block ss, f, f', x, h => by
    unfold nameStmt at h
    obtain ⟨_, f1, h1, h⟩ := Act.ok_inv h
    obtain ⟨y, f2, h2, h⟩ := Act.ok_inv h
    obtain ⟨_, f3, h3, h⟩ := Act.ok_inv h
    cases h
    have k := kin_stmts ss h2
    have c := (moves_close h3)
    exact ⟨((moves_open h1).trans k.moves).trans c, fun {g g0 x'} hg r => by
      have : ∃ ss', x' = .block ss' := by cases r <;> exact ⟨_, rfl⟩
      obtain ⟨ss', rfl⟩ := this
      exact .block (k.tells (hg.back c) r)⟩
  | .proc u n ps r b, f, f', x, h => by
    unfold nameStmt at h
    replace h := Act.ok_inv h
    obtain ⟨_, f0, hr, h⟩ := h
    replace hr := requireFalse hr
    obtain ⟨h00, hcur⟩ := hr
    subst h00
    obtain ⟨i, f1, h1, h⟩ := Act.ok_inv h
    obtain ⟨ps', f2, h2, h⟩ := Act.ok_inv h
    obtain ⟨_, f3, h3, h⟩ := Act.ok_inv h
    obtain ⟨r', f4, h4, h⟩ := Act.ok_inv h
    obtain ⟨_, f5, h5, h⟩ := Act.ok_inv h
    obtain ⟨_, f6, h6, h⟩ := Act.ok_inv h
    obtain ⟨b', f7, h7, h⟩ := Act.ok_inv h
    obtain ⟨_, f8, h8, h⟩ := Act.ok_inv h
    obtain ⟨_, f9, h9, h⟩ := Act.ok_inv h
    cases h
    cases h9
    obtain ⟨m1, rfl⟩ := mentions_params ps h2
    obtain ⟨m2, rfl⟩ := mentions_ret h4
    have hb : i = f0.syms.length ∧ f1 = { f0 with
        syms := f0.syms ++ [.func { name := n, index := f0.numFunctions }]
        numFunctions := f0.numFunctions + 1
        currFunc := .at f0.syms.length } := by
      cases h1; exact ⟨rfl, rfl⟩
    obtain ⟨rfl, rfl⟩ := hb
    obtain ⟨B, hB, e2⟩ := m1.syms
    obtain ⟨fi3, k1, k2, k3, k4, k5⟩ := args_add (A := f0.syms) (B := B) _ _ (f := f2) (by rw [e2]; simp; rfl) (by rw [m1.cur])
      (by simp) h3
    obtain ⟨D, hD, e4⟩ := m2.syms
    rw [k1] at e4
    obtain ⟨j, fj, c1, c2, c3⟩ := updateFunc_inv (h5 : updateFunc _ f4 = _)
    have hc4 : f4.currFunc = .at f0.syms.length := by rw [m2.cur, k1]; exact m1.cur
    rw [hc4] at c1
    cases c1
    have e4' : f4.syms = f0.syms ++ .func fi3 :: (B ++ D) := by rw [e4]; simp
    rw [e4'] at c2
    simp at c2
    subst c2
    have e5 : f5.syms = f0.syms ++ .func { fi3 with ret := some ((r.map typeMeans).getD .void) } :: (B ++ D) := by
      rw [c3]
      dsimp only
      rw [e4']
      simp
    have k := kin_stmt b h7
    have c := (moves_close h8)
    have d := ((moves_open h6).trans k.moves).trans c
    have hcur5 : f5.currFunc = .at f0.syms.length := by rw [c3]; exact hc4
    have hd := d.keep f0.syms.length (.func { fi3 with ret := some ((r.map typeMeans).getD .void) }) (by rw [e5]; simp)
    obtain ⟨y, d1, fi', rfl, ⟨d2, d3, d4⟩, -, -, -⟩ := hd
    refine ⟨⟨⟨?_, fun j x hj => ?_⟩, hcur.symm⟩, fun {g g0 x'} hg rr => ?_⟩
    · refine List.IsPrefix.trans ?_ d.strs
      rw [c3]
      refine m1.strs.trans ?_
      have := m2.strs
      rw [k1] at this
      exact this
    · exact d.keep j x (by rw [e5, List.getElem?_append_left (List.getElem?_eq_some_iff.mp hj).1, hj])
    · obtain ⟨y, g1, fg, rfl, ⟨g2, g3, g4⟩, -, -, -⟩ := hg.heads.keep f0.syms.length (.func fi') d1
      cases rr with
      | proc p1 p2 =>
        rw [hg.syms, g1] at p1
        cases p1
        have ha : fg.args.map (fun v => (v.name, v.tag)) = ps.map (fun p => (p.1, some (typeMeans p.2))) := by
          rw [g3, d3, k4]
          simp [Function.comp_def]
        have hf8 : f8.currFunc = .at f0.syms.length := d.cur.trans hcur5
        have hE : EndsIn f8 g { g0 with currFunc := .at f0.syms.length } := ⟨⟨hg.heads.strs, hg.heads.keep⟩, hg.syms, hf8.symm⟩
        have hb := k.tells (hE.back c) p2
        have hcf : curFn { g0 with currFunc := .at f0.syms.length } = some fg.index := by simp [curFn, hg.syms, g1]
        rw [hcf] at hb
        refine .proc ⟨fg, List.mem_of_getElem? g1, ?_, ha, ?_, rfl, ?_, rfl⟩ hb
        · rw [g2, d2]; exact k2
        · rw [g4, d4]
        · simpa using congrArg List.length ha
  | .ifThen c b, f, f', x, h => by
    unfold nameStmt at h
    obtain ⟨c', f1, h1, h⟩ := Act.ok_inv h
    obtain ⟨b', f2, h2, h⟩ := Act.ok_inv h
    cases h
    have k := kin_stmt b h2
    exact ⟨(mentions_expr c h1).moves.trans k.moves, fun hg r => by
      cases r with
      | ifThen r1 r2 => exact .ifThen (spells_expr c h1 (hg.back k.moves) r1) (k.tells hg r2)⟩
  | .ifElse c b a, f, f', x, h => by
    unfold nameStmt at h
    obtain ⟨c', f1, h1, h⟩ := Act.ok_inv h
    obtain ⟨b', f2, h2, h⟩ := Act.ok_inv h
    obtain ⟨a', f3, h3, h⟩ := Act.ok_inv h
    cases h
    have k := kin_stmt b h2
    have l := kin_stmt a h3
    exact ⟨((mentions_expr c h1).moves.trans k.moves).trans l.moves, fun hg r => by
      cases r with
      | ifElse r1 r2 r3 =>
        exact .ifElse (spells_expr c h1 (hg.back (k.moves.trans l.moves)) r1) (k.tells (hg.back l.moves) r2) (l.tells hg r3)⟩
  | .while c b, f, f', x, h => by
    unfold nameStmt at h
    obtain ⟨c', f1, h1, h⟩ := Act.ok_inv h
    obtain ⟨_, f2, h2, h⟩ := Act.ok_inv h
    obtain ⟨b', f3, h3, h⟩ := Act.ok_inv h
    obtain ⟨_, f4, h4, h⟩ := Act.ok_inv h
    cases h
    have o := (moves_open h2)
    have k := kin_stmt b h3
    have c4 := (moves_close h4)
    exact ⟨(((mentions_expr c h1).moves.trans o).trans k.moves).trans c4, fun hg r => by
      cases r with
      | «while» r1 r2 => exact .while (spells_expr c h1 (hg.back ((o.trans k.moves).trans c4)) r1) (k.tells (hg.back c4) r2)⟩
  | .for i c s b, f, f', x, h => by
    unfold nameStmt at h
    obtain ⟨_, f1, h1, h⟩ := Act.ok_inv h
    obtain ⟨i', f2, h2, h⟩ := Act.ok_inv h
    obtain ⟨c', f3, h3, h⟩ := Act.ok_inv h
    obtain ⟨s', f4, h4, h⟩ := Act.ok_inv h
    obtain ⟨b', f5, h5, h⟩ := Act.ok_inv h
    obtain ⟨_, f6, h6, h⟩ := Act.ok_inv h
    cases h
    have k := kin_stmt i h2
    have m := (mentions_expr c h3).moves
    have l := kin_stmt s h4
    have n := kin_stmt b h5
    have c6 := (moves_close h6)
    exact ⟨(((((moves_open h1).trans k.moves).trans m).trans l.moves).trans n.moves).trans c6, fun hg r => by
      have w := hg.back c6
      have w5 := w.back n.moves
      have w4 := w5.back l.moves
      cases r with
      | «for» r1 r2 r3 r4 =>
        exact .for (k.tells (w4.back m) r1) (spells_expr c h3 w4 r2) (l.tells w5 r3) (n.tells w r4)⟩
  | .ret none, f, f', x, h => by
    unfold nameStmt at h
    obtain ⟨_, f1, h1, h⟩ := Act.ok_inv h
    cases h
    rw [(adds_require h1).1]
    exact ⟨.refl _, fun _ r => by cases r; exact .retNone⟩
  | .ret (some ex), f, f', x, h => by
    unfold nameStmt at h
    obtain ⟨_, f1, h1, h⟩ := Act.ok_inv h
    obtain ⟨_, f2, h2, h⟩ := Act.ok_inv h
    obtain ⟨_, f3, h3, h⟩ := Act.ok_inv h
    cases h
    have e1 := (adds_require h1).1
    have e2 := adds_value h2
    subst e2 e1
    exact ⟨(mentions_expr ex h3).moves, fun hg r => by
      cases r with
      | ret r => exact .ret (spells_expr ex h3 hg r)⟩
  | .brk, f, f', x, h => by
    cases h
    exact ⟨.refl _, fun _ r => by cases r; exact .brk⟩
  | .cont, f, f', x, h => by
    cases h
    exact ⟨.refl _, fun _ r => by cases r; exact .cont⟩
  | .use m as a, f, f', x, h => by
    unfold nameStmt at h
    obtain ⟨_, f1, h1, h⟩ := Act.ok_inv h
    cases h
    rw [adds_top h1]
    exact ⟨.refl _, fun _ r => by cases r; exact .use⟩
  | .struct n fs, f, f', x, h => by
    obtain ⟨a, ts, rfl⟩ := moves_struct h
    exact ⟨a, fun _ r => by cases r; exact .struct⟩
  | .assign op ann l r, f, f', x, h => by
    by_cases h1 : ∃ n u, l = .id n u ∧ (ann.isSome = true ∨ op = .declare)
    · obtain ⟨n, u, rfl, h1⟩ := h1
      cases ann with
      | some ty =>
        unfold nameStmt at h
        exact kin_decl h
      | none =>
        rcases h1 with h1 | rfl
        · cases h1
        · unfold nameStmt at h
          exact kin_decl h
    · have e : nameStmt frontOps (.assign op ann l r) = nameAssign frontOps op l r := by
        rw [nameStmt]
        · rintro ty n u rfl rfl; exact h1 ⟨n, u, rfl, .inl rfl⟩
        · rintro n u rfl rfl rfl; exact h1 ⟨n, u, rfl, .inr rfl⟩
      rw [e] at h
      exact kin_nameAssign h
theorem kin_stmts : ∀ (ss : List SStmt) {f f' : Front} {xs : List CStmt}, nameStmts frontOps ss f = .ok xs f' → KinL f f' ss xs
  | [], f, f', xs, h => by
    cases h
    exact ⟨.refl _, fun _ r => by cases r; exact .nil⟩
  | s :: ss, f, f', xs, h => by
    unfold nameStmts at h
    obtain ⟨y, f1, h1, h⟩ := Act.ok_inv h
    obtain ⟨ys, f2, h2, h⟩ := Act.ok_inv h
    cases h
    have k := kin_stmt s h1
    have l := kin_stmts ss h2
    exact ⟨k.moves.trans l.moves, fun hg r => by
      cases r with
      | cons r1 r2 => exact .cons (k.tells (hg.back l.moves) r1) (l.tells hg r2)⟩
end

/-! ## Later tables -/

/-- All that is asked of later tables: no function gets more locals. -/
structure Later (f f' : Front) : Prop extends Heads f f' where
  locals : ∀ (i : Nat) fi fi', f.syms[i]? = some (Sym.func fi) → f'.syms[i]? = some (Sym.func fi') → fi'.locals.length = fi.locals.length

theorem Later.written {f f' : Front} (h : Later f f') {n ps r i k m} (w : Written f.syms n ps r i k m) : Written f'.syms n ps r i k m := by
  obtain ⟨fi, h1, h2, h3, h4, h5, h6, h7⟩ := w
  obtain ⟨j, hj⟩ := List.getElem?_of_mem h1
  obtain ⟨y, hy, fi', rfl, k2, k3, -, -⟩ := h.keep j _ hj
  exact ⟨fi', List.mem_of_getElem? hy, k2.1.trans h2, k2.2.1.trans h3, k2.2.2.trans h4, h5.trans k3.symm, h6, h7.trans (h.locals j fi fi' hj hy).symm⟩

theorem key_mem {l m : List VarInfo} (h : l.map VarInfo.key <+: m.map VarInfo.key) {v : VarInfo} (hv : v ∈ l) : ∃ w ∈ m, w.key = v.key := by
  have := h.subset (List.mem_map.mpr ⟨v, hv, rfl⟩)
  obtain ⟨w, h1, h2⟩ := List.mem_map.mp this
  exact ⟨w, h1, h2⟩

theorem Later.stands {f f' : Front} (h : Later f f') {c n v} (k : Stands f c n v) : Stands f' c n v := by
  cases v with
  | glob i =>
    obtain ⟨w, h1, h2, h3⟩ := k
    obtain ⟨j, hj⟩ := List.getElem?_of_mem h1
    obtain ⟨y, hy, w', rfl, hk⟩ := h.keep j _ hj
    exact ⟨w', List.mem_of_getElem? hy, (congrArg Prod.fst hk).trans h2, by rw [show w'.idx = w.idx from congrArg Prod.snd hk, h3]⟩
  | const q =>
    obtain ⟨t, h1⟩ := k
    obtain ⟨j, hj⟩ := List.getElem?_of_mem h1
    obtain ⟨y, hy, rfl⟩ := h.keep j _ hj
    exact ⟨t, List.mem_of_getElem? hy⟩
  | loc i =>
    obtain ⟨fi, w, h1, h2, h3, h4, h5⟩ := k
    obtain ⟨j, hj⟩ := List.getElem?_of_mem h1
    obtain ⟨y, hy, fi', rfl, -, k3, k4, k5⟩ := h.keep j _ hj
    obtain ⟨w', hw, hk⟩ : ∃ w' ∈ fi'.args ++ fi'.locals, w'.key = w.key := by
      rcases List.mem_append.mp h3 with h3 | h3
      · obtain ⟨a, b, c⟩ := key_mem (l := fi.args) (m := fi'.args) (by rw [k4]; exact List.prefix_refl _) h3
        exact ⟨a, List.mem_append_left _ b, c⟩
      · obtain ⟨a, b, c⟩ := key_mem k5 h3
        exact ⟨a, List.mem_append_right _ b, c⟩
    exact ⟨fi', w', List.mem_of_getElem? hy, h2.trans (by rw [k3]), hw, (congrArg Prod.fst hk).trans h4, (congrArg Prod.snd hk).trans h5⟩

theorem Later.namedFn {f f' : Front} (h : Later f f') {n : Name} {k : FnSym} (hk : NamedFn f n k) : NamedFn f' n k := by
  cases k with
  | tiny i =>
    obtain ⟨fi, h1, h2, h3⟩ := hk
    obtain ⟨j, hj⟩ := List.getElem?_of_mem h1
    obtain ⟨y, hy, fi', rfl, k2, k3, -, -⟩ := h.keep j _ hj
    exact ⟨fi', List.mem_of_getElem? hy, k2.1.trans h2, k3.trans h3⟩
  | «foreign» i m va =>
    obtain ⟨ts, r, h1, h2⟩ := hk
    obtain ⟨j, hj⟩ := List.getElem?_of_mem h1
    obtain ⟨y, hy, rfl⟩ := h.keep j _ hj
    exact ⟨ts, r, List.mem_of_getElem? hy, h2⟩

theorem Later.index {f f' : Front} (h : Later f f') {a b : Option FnSym} (k : IndexFns f a b) : IndexFns f' a b := by
  obtain ⟨t, ⟨x, h1, h2⟩, h3⟩ := k
  exact ⟨t, ⟨x, h1, h.namedFn h2⟩, fun y hy => h.namedFn (h3 y hy)⟩

mutual
theorem Later.spells {f f' : Front} (h : Later f f') {c : Option Nat} : ∀ {e : SExpr} {e' : Expr}, Spells f c e e' → Spells f' c e e'
  | _, _, .null => .null
  | _, _, .bool => .bool
  | _, _, .int => .int
  | _, _, .char => .char
  | _, _, .float => .float
  | _, _, .str a => .str (prefix_get h.strs a)
  | _, _, .id a => .id (h.stands a)
  | _, _, .call a i => .call (h.spellsL a) (i.imp fun _ => h.namedFn)
  | _, _, .paren a => .paren (h.spells a)
  | _, _, .bin a b => .bin (h.spells a) (h.spells b)
  | _, _, .un a => .un (h.spells a)
  | _, _, .dot a => .dot (h.spells a)
  | _, _, .index a b i => .index (h.spells a) (h.spells b) (h.index i)
  | _, _, .ctor a => .ctor (h.spellsL a)
  | _, _, .ctorNamed n a => .ctorNamed n (h.spellsL a)
  | _, _, .cast a => .cast (h.spells a)
  | _, _, .ite a b c => .ite (h.spells a) (h.spells b) (h.spells c)
theorem Later.spellsL {f f' : Front} (h : Later f f') {c : Option Nat} : ∀ {es : List SExpr} {es' : List Expr}, SpellsL f c es es' → SpellsL f' c es es'
  | _, _, .nil => .nil
  | _, _, .cons a b => .cons (h.spells a) (h.spellsL b)
end

mutual
theorem Later.spellsS {f f' : Front} (h : Later f f') : ∀ {c : Option Nat} {s : SStmt} {s' : Stmt}, SpellsS f c s s' → SpellsS f' c s s'
  | _, _, _, .node a => .node (h.spellsS a)
  | _, _, _, .call a i => .call (h.spellsL a) (i.imp fun _ => h.namedFn)
  | _, _, _, .block a => .block (h.spellsSs a)
  | _, _, _, .assign o a b => .assign o (h.spells a) (h.spells b)
  | _, _, _, .other o a => .other o (h.spells a)
  | _, _, _, .proc w a => .proc (h.written w) (h.spellsS a)
  | _, _, _, .ifThen a b => .ifThen (h.spells a) (h.spellsS b)
  | _, _, _, .ifElse a b c => .ifElse (h.spells a) (h.spellsS b) (h.spellsS c)
  | _, _, _, .while a b => .while (h.spells a) (h.spellsS b)
  | _, _, _, .for a b c d => .for (h.spellsS a) (h.spells b) (h.spellsS c) (h.spellsS d)
  | _, _, _, .retNone => .retNone
  | _, _, _, .ret a => .ret (h.spells a)
  | _, _, _, .brk => .brk
  | _, _, _, .cont => .cont
  | _, _, _, .use => .use
  | _, _, _, .struct => .struct
theorem Later.spellsSs {f f' : Front} (h : Later f f') : ∀ {c : Option Nat} {ss : List SStmt} {ss' : List Stmt}, SpellsSs f c ss ss' → SpellsSs f' c ss ss'
  | _, _, _, .nil => .nil
  | _, _, _, .cons a b => .cons (h.spellsS a) (h.spellsSs b)
end

end Tiny
