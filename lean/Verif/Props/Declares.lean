import Verif.Proofs.Declares
import Verif.Props.HostMacro
import Verif.Props.SessionExamples

/-!
# C52: a source declares what it says
-/

namespace Tiny
open Spec

/-- **C52.** The table gets exactly the entries the declarations of the source say: structs with their fields, constants
with their values, functions with their arguments and results, global variables with the types they are declared with. -/
theorem c52_declares {tree : List SStmt} {f f' : Front} {xs : List CStmt} (hf : AtRest f) (h : nameStmts frontOps tree f = .ok xs f') :
    ∃ es, List.Forall₂ (EntryIs f'.strings) (declInL false tree) es ∧ (entries f').Perm (entries f ++ es) :=
  (stated_stmts tree (fn := none) hf.fieldless (by rw [hf.scope]) hf.cur h).dec.ents hf.fieldless

/-- **C52, `use`.** It is only accepted outside of blocks, loops and functions. -/
theorem c52_uses {tree : List SStmt} {f f' : Front} {xs : List CStmt} (hf : AtRest f) (h : nameStmts frontOps tree f = .ok xs f') :
    UsesOkL true tree :=
  (stated_stmts tree (fn := none) hf.fieldless (by rw [hf.scope]) hf.cur h).uses true (by simp)

/-- **C52, places.** `return` is only accepted in functions, with a value only in those with a result; functions and
structs only outside of functions. -/
theorem c52_places {tree : List SStmt} {f f' : Front} {xs : List CStmt} (hf : AtRest f) (h : nameStmts frontOps tree f = .ok xs f') :
    PlacesOkL none tree :=
  (stated_stmts tree (fn := none) hf.fieldless (by rw [hf.scope]) hf.cur h).places

/-- After a source was read, the next one can be. -/
theorem c52_ready {tree : List SStmt} {f f' : Front} {xs : List CStmt} (hf : AtRest f) (h : nameStmts frontOps tree f = .ok xs f') :
    AtRest f' := by
  have k := (stated_stmts tree (fn := none) hf.fieldless (by rw [hf.scope]) hf.cur h).dec
  exact ⟨k.blank hf.fieldless, k.cur.trans hf.cur, by rw [k.scope, hf.scope]; rfl⟩

/-! ## When declarations are accepted -/

theorem type_accepted (ty : SType) (f : Front) (h : ty ≠ (nameOf "void", true)) :
    ∃ t f', nameType frontOps ty f = .ok t f' := by
  obtain ⟨n, b⟩ := ty
  have e : ∃ t f', getTagFromName n f = .ok t f' ∧ (t = .void → n = nameOf "void") := by
    unfold getTagFromName
    cases hp : primTag n with
    | some t =>
      refine ⟨t, f, rfl, fun hv => ?_⟩
      subst hv
      unfold primTag at hp
      split at hp
      · next e => exact e
      all_goals (repeat' split at hp) <;> cases hp
    | none =>
      simp only [act_bind, Act.get]
      cases ha : f.syms.findSome? (·.asType n) with
      | none => exact ⟨_, _, rfl, fun hv => by cases hv⟩
      | some t =>
        refine ⟨t, f, rfl, ?_⟩
        rintro rfl
        obtain ⟨x, hx, hxt⟩ := List.exists_of_findSome?_eq_some ha
        cases x <;> simp only [Sym.asType, reduceCtorEq] at hxt
        all_goals split at hxt <;> cases hxt
  obtain ⟨t, f1, h1, hv⟩ := e
  have h1 : frontOps.named n f = .ok t f1 := h1
  unfold nameType
  rw [Act.bind_apply, h1]
  cases b with
  | false => exact ⟨_, _, rfl⟩
  | true =>
    have hv : t ≠ .void := fun e => h (by rw [hv e])
    show ∃ u f', makeNullable t f1 = .ok u f'
    unfold makeNullable getOrCreateNullable
    rw [if_neg hv]
    simp only [act_bind, Act.get]
    split
    · exact ⟨_, _, rfl⟩
    · exact ⟨_, _, rfl⟩

theorem type_refused {ty : SType} {f f' : Front} {t} (h : nameType frontOps ty f = .ok t f') : ty ≠ (nameOf "void", true) := by
  rintro rfl
  obtain ⟨s, f1, h1, h⟩ := Act.ok_inv h
  have h1 : getTagFromName (nameOf "void") f = .ok s f1 := h1
  have e : primTag (nameOf "void") = some .void := by decide +kernel
  simp only [getTagFromName, e] at h1
  cases h1
  have h : makeNullable .void f = .ok t f' := h
  unfold makeNullable at h
  rw [if_pos rfl] at h
  cases h

theorem fields_refused (n : Name) : ∀ (fs : List (Name × SType)) {f f' : Front} {x}, nameFields frontOps n fs f = .ok x f' →
    ∀ p ∈ fs, p.2 ≠ (nameOf "void", true)
  | [], _, _, _, _ => by simp
  | q :: fs, f, f', x, h => by
    unfold nameFields at h
    obtain ⟨_, f1, h1, h⟩ := Act.ok_inv h
    obtain ⟨ty, f2, h2, h⟩ := Act.ok_inv h
    obtain ⟨_, f3, h3, h⟩ := Act.ok_inv h
    obtain ⟨_, f4, h4, h⟩ := Act.ok_inv h
    intro p hp
    rcases List.mem_cons.mp hp with rfl | hp
    · exact type_refused h2
    · exact fields_refused n fs h4 p hp

theorem fields_accepted (n : Name) {A : List Sym} (hA : ∀ x ∈ A, x.isStruct n = false) : ∀ (fs : List (Name × SType)) {f : Front}
    {old : List (Name × Tag)} {B : List Sym}, f.syms = A ++ .struct n true old :: B → old.length + fs.length ≤ 255 →
    (old.map Prod.fst ++ fs.map Prod.fst).Nodup → (∀ p ∈ fs, p.2 ≠ (nameOf "void", true)) →
    ∃ x f', nameFields frontOps n fs f = .ok x f'
  | [], f, _, _, _, _, _, _ => ⟨_, _, rfl⟩
  | p :: fs, f, old, B, hs, hl, hn, hv => by
    unfold nameFields
    have h1 : frontOps.checkField n p.1 f = .ok () f := by
      show checkField n p.1 f = .ok () f
      simp only [checkField, act_bind, Act.get, hs, split_structInfo hA]
      rw [if_neg (by simp at hl; omega), if_neg]
      · rfl
      · intro hh
        rw [List.any_eq_true] at hh
        obtain ⟨q, hq, e⟩ := hh
        have e : q.1 = p.1 := by simpa using e
        rw [List.nodup_append] at hn
        exact hn.2.2 q.1 (List.mem_map.mpr ⟨q, hq, rfl⟩) p.1 (by simp) e
    obtain ⟨t, f2, h2⟩ := type_accepted p.2 f (hv p (by simp))
    obtain ⟨a, rfl⟩ := mentions_type h2
    obtain ⟨C, hC, e2⟩ := a.syms
    have e2' : f2.syms = A ++ .struct n true old :: (B ++ C) := by rw [e2, hs]; simp
    have h3 : frontOps.addField n p.1 (typeMeans p.2) f2 = .ok ()
        { f2 with syms := A ++ .struct n true (old ++ [(p.1, typeMeans p.2)]) :: (B ++ C) } := by
      show addField n p.1 (typeMeans p.2) f2 = _
      simp only [addField, act_bind, Act.get, e2', split_structInfo hA, Act.modify]
      rw [updateStruct_split hA]
    obtain ⟨x, f4, h4⟩ := fields_accepted n hA fs
      (f := { f2 with syms := A ++ .struct n true (old ++ [(p.1, typeMeans p.2)]) :: (B ++ C) }) rfl
      (by simp at hl ⊢; omega) (by simpa using hn) (fun q hq => hv q (List.mem_cons_of_mem _ hq))
    simp only [Act.bind_apply, h1, h2, h3, h4]
    exact ⟨_, _, rfl⟩

/-- **C52, structs.** A struct is accepted exactly if it is outside of functions, is not defined yet (the first symbol of
the name counts), and has 1 to 255 fields with different names, none of them of type `void?`. -/
theorem c52_struct {n : Name} {fs : List (Name × SType)} {f : Front} (hf : Fieldless f) :
    (∃ x f', nameStmt frontOps (.struct n fs) f = .ok x f') ↔
      f.currFunc = .none ∧ (∀ ms, f.syms.find? (·.isStruct n) ≠ some (.struct n true ms)) ∧ fs ≠ [] ∧ fs.length ≤ 255 ∧
        (fs.map Prod.fst).Nodup ∧ ∀ p ∈ fs, p.2 ≠ (nameOf "void", true) := by
  have first : ∀ {l : List Sym} {ms}, l.find? (·.isStruct n) = some (.struct n true ms) → l.findSome? (·.structInfo n) = some (true, ms) := by
    intro l ms h
    obtain ⟨-, A, B, rfl, hA⟩ := List.find?_eq_some_iff_append.mp h
    exact split_structInfo (by simpa using hA)
  constructor
  · rintro ⟨x, f', h⟩
    obtain ⟨d, hc⟩ := dec_struct hf h
    obtain ⟨es, h1, -⟩ := d.ents hf
    cases h1 with
    | cons a _ =>
    cases a with
    | struct a b c =>
    refine ⟨hc, fun ms hm => ?_, a, b, c, ?_⟩
    · unfold nameStmt at h
      replace h := Act.ok_inv h
      obtain ⟨_, f1, h1, h⟩ := h
      obtain ⟨rfl, -⟩ := requireFalse h1
      replace h := Act.ok_inv h
      obtain ⟨_, f2, h2, h⟩ := h
      have h2 : beginStruct n f1 = .ok _ f2 := h2
      unfold beginStruct at h2
      have e : declareStruct n f1 = .ok () f1 := by
        simp only [declareStruct, act_bind, Act.get]
        rw [if_pos]
        · rfl
        · rw [List.any_eq_true]
          exact ⟨_, List.mem_of_find?_eq_some hm, by simp [Sym.isStruct]⟩
      rw [Act.bind_apply, e] at h2
      simp only [act_bind, Act.get, first hm] at h2
      cases h2
    · unfold nameStmt at h
      obtain ⟨_, f1, h1, h⟩ := Act.ok_inv h
      obtain ⟨_, f2, h2, h⟩ := Act.ok_inv h
      obtain ⟨_, f3, h3, h⟩ := Act.ok_inv h
      exact fields_refused n fs h3
  · rintro ⟨hc, hd, hne, hl, hn, hv⟩
    have h1 : frontOps.noFunc f = .ok () f := by
      show requireFunc false f = .ok () f
      simp only [requireFunc, act_bind, Act.get, hc]
      rfl
    have key : ∃ (A B : List Sym) (g : Front), beginStruct n f = .ok () { g with syms := A ++ .struct n true [] :: B } ∧ ∀ x ∈ A, x.isStruct n = false := by
      unfold beginStruct
      cases hm : f.syms.any (·.isStruct n) with
      | false =>
        have e : declareStruct n f = .ok () { f with syms := f.syms ++ [.struct n false []] } := by
          simp only [declareStruct, act_bind, Act.get, hm]
          rfl
        have hA : ∀ x ∈ f.syms, x.isStruct n = false := by simpa using hm
        rw [Act.bind_apply, e]
        simp only [act_bind, Act.get, split_structInfo hA, Act.modify, updateStruct_split hA]
        exact ⟨f.syms, [], f, rfl, hA⟩
      | true =>
        have e : declareStruct n f = .ok () f := by
          simp only [declareStruct, act_bind, Act.get, hm]
          rfl
        rw [Act.bind_apply, e]
        obtain ⟨y, hy⟩ := Option.isSome_iff_exists.mp (List.find?_isSome.mpr (by simpa using hm : ∃ x ∈ f.syms, x.isStruct n = true))
        obtain ⟨h2, A, B, hAB, hA⟩ := List.find?_eq_some_iff_append.mp hy
        have hA : ∀ x ∈ A, x.isStruct n = false := by simpa using hA
        cases y <;> simp only [Sym.isStruct, Bool.false_eq_true] at h2
        rename_i m d ms
        have : m = n := by simpa using h2
        subst this
        cases d with
        | true => exact (hd ms hy).elim
        | false =>
          have : ms = [] := hf m ms (List.mem_of_find?_eq_some hy)
          subst this
          simp only [act_bind, Act.get, hAB, split_structInfo hA, Act.modify, updateStruct_split hA]
          exact ⟨A, B, f, rfl, hA⟩
    obtain ⟨A, B, g, h2, hA⟩ := key
    have h2 : frontOps.beginStruct n f = .ok () { g with syms := A ++ .struct n true [] :: B } := h2
    obtain ⟨x, f3, h3⟩ := fields_accepted n hA fs (f := { g with syms := A ++ .struct n true [] :: B }) rfl (by simpa using hl)
      (by simpa using hn) hv
    obtain ⟨C, -, e3, -⟩ := fields_add n hA fs (f := { g with syms := A ++ .struct n true [] :: B }) rfl (by simp) (by simp) h3
    have h4 : frontOps.endStruct n f3 = .ok () f3 := by
      show endStruct n f3 = .ok () f3
      simp only [endStruct, act_bind, Act.get, e3, split_structInfo hA]
      rw [if_neg (by simpa using hne)]
      rfl
    unfold nameStmt
    simp only [Act.bind_apply, h1, h2, h3, h4]
    exact ⟨_, _, rfl⟩

/-- **C52, `use`.** It is accepted exactly outside of functions and scopes. -/
theorem c52_use {m : Name} {args : List Name} {a : Option Name} {f : Front} :
    (∃ x f', nameStmt frontOps (.use m args a) f = .ok x f') ↔ f.currFunc = .none ∧ f.currScope = 0 := by
  have e : requireTopLevel f = if (f.currFunc != .none || f.currScope != 0) = true then .err f else .ok () f := by
    simp only [requireTopLevel, act_bind, Act.get]
    split <;> rfl
  unfold nameStmt
  show (∃ x f', (requireTopLevel >>= _) f = .ok x f') ↔ _
  rw [Act.bind_apply, e]
  by_cases hh : (f.currFunc != .none || f.currScope != 0) = true
  · rw [if_pos hh]
    constructor
    · rintro ⟨x, f', h⟩; cases h
    · rintro ⟨h1, h2⟩; simp [h1, h2] at hh
  · rw [if_neg hh]
    exact ⟨fun _ => by simpa using hh, fun _ => ⟨_, _, rfl⟩⟩

/-- **C52, constants.** `n :: literal` is accepted exactly if `n` does not yet stand for a variable or constant here (where
names are looked up at all, that is unless a pointer to a destroyed function is left). -/
theorem c52_const {n : Name} {u : Unit} {r : SExpr} {c : Lit (List UInt8)} {f f1 f2 : Front} {v} {x : CExpr} (hl : r.lit = some c)
    (h1 : nameExpr frontOps (.id n u) f = .ok (.id n v) f1) (h2 : nameExpr frontOps r f1 = .ok x f2) :
    (∃ y f', nameStmt frontOps (.assign .declareConst none (.id n u) r) f = .ok y f') ↔ referenceVariable n f2 = .ok none f2 := by
  obtain ⟨c', hc, -⟩ : ∃ c', x.lit = some c' ∧ True := by
    cases r <;> simp only [PExpr.lit, reduceCtorEq] at hl
    all_goals
      unfold nameExpr at h2
      first
      | (cases h2; exact ⟨_, rfl, trivial⟩)
      | (obtain ⟨_, _, -, h2⟩ := Act.ok_inv h2; cases h2; exact ⟨_, rfl, trivial⟩)
  have e : nameStmt frontOps (.assign .declareConst none (.id n u) r) = nameAssign frontOps .declareConst (.id n u) r := by
    rw [nameStmt] <;> simp
  rw [e]
  unfold nameAssign
  simp only [Act.bind_apply, h1, h2, hc]
  constructor
  · rintro ⟨y, f', h⟩
    obtain ⟨_, f3, h3, -⟩ := Act.ok_inv h
    have h3 : declareConst n c'.const.1 c'.const.2 f2 = .ok _ f3 := h3
    unfold declareConst at h3
    obtain ⟨o, g, h4, h3⟩ := Act.ok_inv h3
    have := referenceVariable_state h4
    subst this
    cases o with
    | none => exact h4
    | some _ => cases h3
  · intro h
    have : frontOps.const n c' f2 = .ok () { f2 with syms := f2.syms ++ [.const n c'.const.1 c'.const.2] } := by
      show declareConst n c'.const.1 c'.const.2 f2 = _
      simp only [declareConst, Act.bind_apply, h]
      rfl
    simp only [this]
    exact ⟨_, _, rfl⟩

/-! ## States -/

theorem mentions_rest {f f' : Front} (m : Mentions f f') (h : AtRest f) : AtRest f' :=
  have d := m.dec
  ⟨d.blank h.fieldless, d.cur.trans h.cur, by rw [d.scope, h.scope]; rfl⟩

/-- The calls of a host keep the state at rest. -/
theorem c52_calls {f f' : Front} (h : AtRest f) (k : HostCall f f') : AtRest f' := by
  have push : ∀ {x : Sym}, (∀ n fs, x ≠ .struct n false fs) → ∀ (g : Front), g.syms = f.syms ++ [x] → g.currFunc = f.currFunc →
      g.currScope = f.currScope → AtRest g := by
    intro x hx g h1 h2 h3
    refine ⟨fun n fs hm => ?_, h2.trans h.cur, h3.trans h.scope⟩
    rw [h1] at hm
    rcases List.mem_append.mp hm with hm | hm
    · exact h.fieldless n fs hm
    · exact (hx n fs (by simpa using (List.mem_singleton.mp hm).symm)).elim
  cases k with
  | @bind n as va r e =>
    simp only [bindFunction, act_bind, Act.get] at e
    split at e
    · cases e
    · cases e; exact push (by simp) _ rfl rfl rfl
  | @const n v e =>
    unfold declareConst at e
    obtain ⟨o, g, h4, e⟩ := Act.ok_inv e
    have := referenceVariable_state h4
    subst this
    cases o with
    | none => cases e; exact push (by simp) _ rfl rfl rfl
    | some _ => cases e
  | string e => exact mentions_rest (mentions_str e).1 h
  | typeName e => exact mentions_rest (mentions_named e) h
  | @nullable u t e =>
    simp only [getOrCreateNullable, act_bind, Act.get] at e
    split at e
    · cases e; exact h
    · cases e; exact push (by simp) _ rfl rfl rfl
  | @module n e =>
    unfold bindMacro at e
    simp only [act_bind, Act.get] at e
    split at e
    · cases e
    · cases e; exact push (by simp) _ rfl rfl rfl
  | @register n e =>
    have keep : ∀ {x : Sym} {l : List Sym}, x ∈ convertType n l → x ∈ l ∨ ∀ m fs, x ≠ .struct m false fs := by
      intro x l
      induction l with
      | nil => intro hx; cases hx
      | cons y l ih =>
        intro hx
        unfold convertType at hx
        split at hx
        · rcases List.mem_cons.mp hx with rfl | hx
          · cases y <;> simp [Sym.toForeign]
          · exact .inl (List.mem_cons_of_mem _ hx)
        · rcases List.mem_cons.mp hx with rfl | hx
          · exact .inl (by simp)
          · rcases ih hx with h | h
            · exact .inl (List.mem_cons_of_mem _ h)
            · exact .inr h
    unfold registerType at e
    by_cases hp : (primTag n).isSome = true
    · rw [if_pos hp] at e; cases e; exact h
    · rw [if_neg hp] at e
      obtain ⟨s, g, h1, e⟩ := Act.ok_inv e
      cases h1
      have conv : AtRest { f with syms := convertType n f.syms } := by
        refine ⟨fun m fs hm => ?_, h.cur, h.scope⟩
        rcases keep hm with hm | hm
        · exact h.fieldless m fs hm
        · exact (hm m fs rfl).elim
      cases hx : f.syms.find? (fun x => (x.asType n).isSome) with
      | none => rw [hx] at e; cases e; exact push (by simp) _ rfl rfl rfl
      | some x =>
        rw [hx] at e
        cases x with
        | struct m d fs =>
          cases d with
          | true => cases e; exact h
          | false => cases e; exact conv
        | _ => cases e; exact h

/-- Before the first source the state is at rest. -/
theorem c52_setup {f : Front} (h : Setup f) : AtRest f := by
  induction h with
  | new => exact ⟨fun n fs h => (nomatch h), rfl, rfl⟩
  | call _ k ih => exact c52_calls ih k

theorem calls_rest {f f' : Front} (h : Calls f f') (k : AtRest f) : AtRest f' := by
  induction h with
  | refl => exact k
  | tail _ h ih => exact c52_calls ih h

/-! ## Compilations -/

theorem file_scope {file : Option Name} {ss : List Stmt} {s s' : TState} {i : Option Nat} (h : fileIndex file ss s = .ok i s') :
    s'.front.currScope = s.front.currScope ∧ s'.front.currFunc = s.front.currFunc ∧ s.front.strings <+: s'.front.strings := by
  unfold fileIndex at h
  cases file with
  | none => cases h; exact ⟨rfl, rfl, List.prefix_refl _⟩
  | some n =>
    simp only at h
    split at h
    · obtain ⟨k, s1, h1, h⟩ := Act.ok_inv h
      cases h
      unfold onFront at h1
      cases hr : registerString n s.front with
      | ok k' f =>
        rw [hr] at h1
        cases h1
        have m := (mentions_str hr).1
        exact ⟨m.scope, m.cur, m.strs⟩
      | _ => rw [hr] at h1; cases h1
    · cases h; exact ⟨rfl, rfl, List.prefix_refl _⟩

/-- What the phases after the macros leave of the table. -/
theorem rest_front {first last : Nat} {file : Option Name} {xs : List CStmt} {t u : TState} {ss : List Stmt} {f : Front}
    (hr : resolveSs xs t.front = .ok ss f) (h : restPhases first last file xs t = .ok () u) :
    u.front.currScope = f.currScope ∧ u.front.currFunc = f.currFunc ∧ f.strings <+: u.front.strings ∧
      (t.front.slice first last).any Sym.undefinedStruct = false := by
  unfold restPhases at h
  obtain ⟨_, t1, h1, h'⟩ := Act.ok_inv (x := checkStructs first last) h
  clear h
  have : t1 = t ∧ (t.front.slice first last).any Sym.undefinedStruct = false := by
    unfold checkStructs at h1
    obtain ⟨g, t2, h2, h1⟩ := Act.ok_inv (x := Act.get) h1
    cases h2
    split at h1
    · cases h1
    · next hh => cases h1; exact ⟨rfl, by simpa using hh⟩
  obtain ⟨rfl, hd⟩ := this
  obtain ⟨ss1, t2, h2, h⟩ := Act.ok_inv (x := compileTree file xs) h'
  obtain ⟨_, t3, h3, h⟩ := Act.ok_inv (x := markAll ss1) h
  cases h3
  cases checkInit_inv h
  clear h
  unfold compileTree at h2
  obtain ⟨_, t4, h4, h2⟩ := Act.ok_inv (x := dropHalt) h2
  cases h4
  obtain ⟨ss2, t5, h5, h2⟩ := Act.ok_inv (x := onFront (resolveSs xs)) h2
  simp only [onFront, hr] at h5
  cases h5
  obtain ⟨_, t6, h6, h2⟩ := Act.ok_inv (x := reallocTables) h2
  cases h6
  obtain ⟨i, t7, h7, h2⟩ := Act.ok_inv (x := fileIndex file _) h2
  obtain ⟨e1, e2, e3⟩ := file_scope h7
  obtain ⟨g, t8, h8, h2⟩ := Act.ok_inv (x := Act.get) h2
  cases h8
  obtain ⟨_, t9, h9, h2⟩ := Act.ok_inv (x := onCode i _) h2
  cases h2
  unfold onCode at h9
  split at h9
  · cases h9
    exact ⟨e1, e2, e3, hd⟩
  all_goals cases h9

theorem mark_entry (l : List (Option Nat × VarSym)) (x : Sym) : symEntry (x.mark l) = symEntry x := by
  cases x with
  | glob v =>
    simp only [Sym.mark, symEntry]
    split <;> rfl
  | func fi =>
    simp only [Sym.mark, symEntry, List.map_map]
    congr 2
    refine List.map_congr_left fun v _ => ?_
    simp only [Function.comp, markLocal]
    split <;> rfl
  | struct n d fs => cases d <;> rfl
  | _ => rfl

theorem bare_entry (x : Sym) : symEntry x.bare = (symEntry x).map Entry.untyped := by
  cases x with
  | struct n d fs => cases d <;> rfl
  | _ => rfl

theorem like_entries {f f' : Front} (h : Like f f') : (entries f').map Entry.untyped = (entries f).map Entry.untyped := by
  have e : ∀ g : Front, (entries g).map Entry.untyped = (g.syms.map Sym.bare).filterMap symEntry := by
    intro g
    rw [List.filterMap_map, entries, List.map_filterMap]
    exact List.filterMap_congr fun x _ => (bare_entry x).symm
  rw [e, e, h.syms]

theorem like_rest {f f' : Front} (h : Like f f') (k : AtRest f) : AtRest f' := by
  refine ⟨fun n fs hm => ?_, h.cur.trans k.cur, by have := congrArg Front.currScope h; exact this.symm.trans k.scope⟩
  have : Sym.struct n false fs ∈ f'.syms.map Sym.bare := List.mem_map.mpr ⟨_, hm, rfl⟩
  rw [h.syms] at this
  obtain ⟨y, hy, e⟩ := List.mem_map.mp this
  cases y <;> simp only [Sym.bare, reduceCtorEq] at e
  cases e
  exact k.fieldless n fs hy

/-- **C52, compilations.** A source without `use` which is compiled without error, in a state at rest: its text is a program
(C45) whose declarations are exactly what is added to the table; the structs it mentions are all defined; and the state
is at rest again. -/
theorem c52_source {E : CompileEnv} {file : Option Name} {src : List UInt8} (hz : 0 ∉ src)
    (hl : (sourceTokens E.strtod src).length = src.length + 4) {s s' : TState} (hT : Tables s.front) (hs : AtRest s.front)
    (hu : ∀ xs q, parseProgram E.fuel ⟨sourceTokens E.strtod src, s.front⟩ = .ok xs q → NoUse xs)
    (h : compileString E file src s = .ok true s') :
    ∃ us nx rest tree es, sourceTokens E.strtod src = us ++ nx :: rest ∧ nx.kind = .eofTok ∧ ProgIs tree us nx ∧
      List.Forall₂ (EntryIs s'.front.strings) (declInL false tree) es ∧
      ((entries s'.front).map Entry.untyped).Perm ((entries s.front ++ es).map Entry.untyped) ∧
      (∀ n fs, Sym.struct n false fs ∈ s'.front.syms → Sym.struct n false fs ∈ s.front.syms) ∧ AtRest s'.front := by
  have ht : Tail3 (sourceTokens E.strtod src) := by
    rcases stream_tail E.strtod (init_view hz) (fuel := src.length + 2) (m := src.length + 4) (by simp) (by simp) with h | h
    · exact absurd hl (by unfold sourceTokens; omega)
    · exact h
  obtain ⟨xs, q, t, ss, f, h1, h2, h3⟩ := compile_true h
  have e : t = { s with nest := s.nest + 1, front := q.st } := by
    rw [useMacros_none (hu xs q h1)] at h2
    cases h2
    rfl
  subst e
  have P := parse_parsed ht hT hs.cur h1
  have A := resolveSs_has xs P.tables P.own h3
  obtain ⟨u, h4, rfl⟩ := compile_inv h1 h2 h
  have R := rest_inv h3 h4
  obtain ⟨r1, r2, r3, r4⟩ := rest_front h3 h4
  obtain ⟨tree, us, nx, rest, st, g1, rfl, g3, g4⟩ := c45_program_sound frontOps h1
  obtain ⟨es, k1, k2⟩ := c52_declares hs g4
  have k3 := c52_ready hs g4
  have L : Like st f := A.like
  have hst : f.strings = st.strings := (congrArg Front.strings L).symm
  have hr := like_rest L k3
  refine ⟨us, nx, rest, tree, es, g1, c45_no_eof g3, g3, ?_, ?_, ?_, ?_⟩
  · rw [hst] at r3
    exact k1.imp fun a b h => entryIs_mono r3 h
  · have e : entries u.front = entries f := by
      unfold entries
      rw [R.syms, List.filterMap_map]
      exact List.filterMap_congr fun x _ => mark_entry _ x
    show ((entries u.front).map Entry.untyped).Perm _
    rw [e, like_entries L]
    exact k2.map _
  · intro n fs hm
    have hm : Sym.struct n false fs ∈ u.front.syms := hm
    rw [R.syms] at hm
    obtain ⟨y, hy, e⟩ := List.mem_map.mp hm
    have hy : Sym.struct n false fs ∈ f.syms := by
      cases y <;> simp only [Sym.mark, reduceCtorEq] at e
      cases e; exact hy
    have hb : Sym.struct n false fs ∈ f.syms.map Sym.bare := List.mem_map.mpr ⟨_, hy, rfl⟩
    rw [L.syms] at hb
    obtain ⟨y, hy, e⟩ := List.mem_map.mp hb
    have hy : Sym.struct n false fs ∈ st.syms := by
      cases y <;> simp only [Sym.bare, reduceCtorEq] at e
      cases e; exact hy
    have hnil := k3.fieldless n fs hy
    obtain ⟨i, hi⟩ := List.getElem?_of_mem hy
    have hil := (List.getElem?_eq_some_iff.mp hi).1
    by_cases hlt : i < s.front.syms.length
    · obtain ⟨y, hy1, hy2⟩ := P.keeps.syms i _ (List.getElem?_eq_getElem hlt)
      rw [hi] at hy1
      cases hy1
      have hmem := List.getElem_mem hlt
      generalize s.front.syms[i] = x at hy2 hmem
      cases hy2 with
      | same => exact hmem
      | filled _ fs' more _ =>
        have := hs.fieldless _ _ hmem
        subst this
        rw [hnil]
        exact hmem
    · have : Sym.struct n false fs ∈ st.slice s.front.syms.length st.syms.length := by
        refine List.mem_of_getElem? (i := i - s.front.syms.length) ?_
        unfold Front.slice
        rw [List.getElem?_drop, List.getElem?_take_of_lt (by omega)]
        rw [show s.front.syms.length + (i - s.front.syms.length) = i by omega, hi]
      rw [List.any_eq_false] at r4
      exact (r4 _ this (by rfl)).elim
  · refine ⟨fun n fs hm => ?_, r2.trans hr.cur, r1.trans hr.scope⟩
    have hm : Sym.struct n false fs ∈ u.front.syms := hm
    rw [R.syms] at hm
    obtain ⟨y, hy, e⟩ := List.mem_map.mp hm
    cases y <;> simp only [Sym.mark, reduceCtorEq] at e
    cases e
    exact hr.fieldless n fs hy

/-! ## Examples -/

namespace DeclEx

def src : List UInt8 := bytes "struct P { x : int y : int? }  K :: 4294967289  func f(a : int) : P { return new P{a, a} }  v : P = f(K)  { w := true }"

def compiles : Out TState Bool := compileString plainHost none src {}

theorem ok_of {x : Out TState Bool} (h : (match x with | .ok true _ => true | _ => false) = true) : ∃ s', x = .ok true s' := by
  cases x with
  | ok b s' => cases b with
    | true => exact ⟨s', rfl⟩
    | false => cases h
  | _ => cases h

theorem compiled : ∃ s', compiles = .ok true s' := ok_of (by decide +kernel)

def isUse : CStmt → Bool
  | .node _ (.use _ _ _) => true
  | _ => false

theorem noUse_of {x : Out (PS Front) (List CStmt)} (h : (match x with | .ok xs _ => xs.all (!isUse ·) | _ => false) = true) :
    ∀ xs q, x = .ok xs q → NoUse xs := by
  rintro xs q rfl line m args a hm
  have := List.all_eq_true.mp h _ hm
  cases this

theorem noUse : ∀ xs q, parseProgram plainHost.fuel ⟨sourceTokens plainHost.strtod src, {}⟩ = .ok xs q → NoUse xs :=
  noUse_of (by decide +kernel)

/-- The hypotheses of `c52_source` are met. -/
example : ∃ s' us nx rest tree es, compiles = .ok true s' ∧ sourceTokens plainHost.strtod src = us ++ nx :: rest ∧ ProgIs tree us nx ∧
    List.Forall₂ (EntryIs s'.front.strings) (declInL false tree) es ∧
    ((entries s'.front).map Entry.untyped).Perm (es.map Entry.untyped) := by
  obtain ⟨s', h⟩ := compiled
  obtain ⟨us, nx, rest, tree, es, h1, -, h3, h4, h5, -⟩ := c52_source (s := {}) (by decide +kernel) (by decide +kernel)
    (setup_tables .new).1 (c52_setup .new) noUse h
  exact ⟨s', us, nx, rest, tree, es, h, h1, h3, h4, h5⟩

def theTree : List SStmt := [.struct (bytes "P") [(bytes "x", (bytes "int", false)), (bytes "y", (bytes "int", true))],
  .node 1 (.assign .declareConst none (.id (bytes "K") ()) (.int (-7))),
  .node 1 (.proc () (bytes "f") [(bytes "a", (bytes "int", false))] (some (bytes "P", false)) (.node 1 (.block []))),
  .node 1 (.assign .equal (some (bytes "P", false)) (.id (bytes "v") ()) (.null)),
  .node 1 (.block [.node 1 (.assign .declare none (.id (bytes "w") ()) (.bool true))])]

/-- What such a tree declares. -/
example : declInL false theTree = [.struct (bytes "P") [(bytes "x", (bytes "int", false)), (bytes "y", (bytes "int", true))],
    .const (bytes "K") (.int (-7)), .func (bytes "f") [(bytes "a", (bytes "int", false))] (some (bytes "P", false)),
    .var (bytes "v") (some (bytes "P", false)), .var (bytes "w") none] := rfl

/-- The value of the constant is -7: the lexer wraps around, the constant has the value of the token. -/
example : ∀ ss t v, ConstIs ss (.int (-7)) t (.int v) → v.toInt = -7 := by
  intro ss t v h
  cases h with
  | int h => rw [h]; rfl

/-- 255 fields are accepted, 256 are not. -/
example (n : Name) (fs : List (Name × SType)) (hn : (fs.map Prod.fst).Nodup) (hv : ∀ p ∈ fs, p.2 = (nameOf "int", false)) :
    (fs.length = 255 → ∃ x f', nameStmt frontOps (.struct n fs) {} = .ok x f') ∧
    (fs.length = 256 → ¬ ∃ x f', nameStmt frontOps (.struct n fs) {} = .ok x f') := by
  have hf : Fieldless {} := (c52_setup .new).fieldless
  constructor
  · intro hl
    exact (c52_struct hf).mpr ⟨rfl, by simp, by rintro rfl; simp at hl, by omega, hn, fun p hp => by rw [hv p hp]; exact fun e => Bool.false_ne_true (congrArg Prod.snd e)⟩
  · intro hl h
    have := ((c52_struct hf).mp h).2.2.2.1
    omega

def host1 : TState := { front := { syms := [.module (bytes "m")] } }

/-- The macro `m` fails, if it is called. -/
def failing : CompileEnv := { plainHost with macros := fun _ _ _ => pure false }

def accepts (src : String) (s : TState) : Bool :=
  match compileString failing none (bytes src) s with
  | .ok b _ => b
  | _ => false

end DeclEx

/-- `use` as the body of an `if` is accepted, but the macro is never called. -/
theorem c52_use_ignored : DeclEx.accepts "if true use m()" DeclEx.host1 = true ∧ DeclEx.accepts "use m()" DeclEx.host1 = false := by
  decide +kernel

/-- After an error inside a block the state is not at rest: `use` is refused in the next source. -/
theorem c52_scope_left :
    (compileAll ["{ x := ) }", "use m()"] { front := { syms := [.module (bytes "m")] } }).map (fun r => (r.1, r.2.front.currScope)) =
      some ([false, false], 1) ∧
    (compileAll ["x := )", "use m()"] { front := { syms := [.module (bytes "m")] } }).map (fun r => (r.1, r.2.front.currScope)) =
      some ([false, true], 0) := by
  decide +kernel

end Tiny
