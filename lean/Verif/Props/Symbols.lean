import Verif.Proofs.Symbols
import Verif.Spec.Types

/-!
# C29 (interning), C30 (scoping), C31 (storage), C36 (assignability)
-/

namespace Tiny
open Spec

/-! ## C29 -/

/-- The strings given, one after the other, to `RegisterString`; the indices it returns. -/
def registerAll : List (List UInt8) → Act Front (List Nat)
  | [] => pure []
  | s :: ss => do
    let i ← registerString s
    let is ← registerAll ss
    pure (i :: is)

theorem registerString_ok {f f' : Front} {s : List UInt8} {i : Nat} (hn : f.strings.Nodup)
    (h : registerString s f = .ok i f') :
    f'.strings[i]? = some s ∧ f'.strings.Nodup ∧ f.strings <+: f'.strings ∧ f' = { f with strings := f'.strings } ∧
      (s ∈ f.strings → f' = f) := by
  unfold registerString at h
  cases hf : f.strings.findIdx? (· == s) with
  | some j =>
    rw [hf] at h
    simp only [Out.ok.injEq] at h
    obtain ⟨rfl, rfl⟩ := h
    obtain ⟨hj, h1, _⟩ := List.findIdx?_eq_some_iff_getElem.1 hf
    simp only [beq_iff_eq] at h1
    exact ⟨by rw [List.getElem?_eq_getElem hj, h1], hn, List.prefix_refl _, rfl, fun _ => rfl⟩
  | none =>
    rw [hf] at h
    have hnot : s ∉ f.strings := by
      intro hm
      have := List.findIdx?_eq_none_iff.1 hf s hm
      simp at this
    by_cases hl : f.strings.length < maxStrings
    · simp only [hl, if_true, Out.ok.injEq] at h
      obtain ⟨rfl, rfl⟩ := h
      refine ⟨by simp, ?_, List.prefix_append _ _, rfl, fun hm => absurd hm hnot⟩
      simp only [List.nodup_append]
      exact ⟨hn, by simp, fun a ha b hb => by simp at hb; subst hb; rintro rfl; exact hnot ha⟩
    · simp only [hl, if_false] at h
      cases h

theorem registerAll_ok : ∀ {ss : List (List UInt8)} {f f' : Front} {is : List Nat}, f.strings.Nodup →
    registerAll ss f = .ok is f' → f.strings <+: f'.strings ∧ f'.strings.Nodup ∧ f' = { f with strings := f'.strings } ∧
      is.length = ss.length ∧ ∀ (k : Nat) s, ss[k]? = some s → ∃ i, is[k]? = some i ∧ f'.strings[i]? = some s
  | [], f, f', is, hn, h => by
    simp only [registerAll, act_pure, Out.ok.injEq] at h
    obtain ⟨rfl, rfl⟩ := h
    exact ⟨List.prefix_refl _, hn, rfl, rfl, fun k s hk => by simp at hk⟩
  | s :: ss, f, f', is, hn, h => by
    rw [registerAll, act_bind] at h
    cases h1 : registerString s f with
    | ok i f1 =>
      rw [h1] at h
      simp only [act_bind] at h
      obtain ⟨a1, a2, a3, a4, _⟩ := registerString_ok hn h1
      cases h2 : registerAll ss f1 with
      | ok is' f2 =>
        rw [h2] at h
        simp only [act_pure, Out.ok.injEq] at h
        obtain ⟨rfl, rfl⟩ := h
        obtain ⟨b1, b2, b3, b4, b5⟩ := registerAll_ok a2 h2
        refine ⟨a3.trans b1, b2, by rw [b3, a4], by simp [b4], fun k t hk => ?_⟩
        cases k with
        | zero =>
          simp only [List.getElem?_cons_zero, Option.some.injEq] at hk
          subst hk
          refine ⟨i, rfl, ?_⟩
          obtain ⟨r, hr⟩ := b1
          obtain ⟨hi, _⟩ := List.getElem?_eq_some_iff.1 a1
          rw [← hr, List.getElem?_append_left hi]; exact a1
        | succ k => exact b5 k t (by simpa using hk)
      | err s => rw [h2] at h; cases h
      | abort => rw [h2] at h; cases h
      | ub => rw [h2] at h; cases h
      | timeout => rw [h2] at h; cases h
    | err s => rw [h1] at h; cases h
    | abort => rw [h1] at h; cases h
    | ub => rw [h1] at h; cases h
    | timeout => rw [h1] at h; cases h

/-- **C29** Registering any sequence of strings, starting with an empty table (as `Tiny_CreateState` does) or with one
made this way: the table holds at each returned index the string given, two returned indices are equal exactly if the
strings are, no index handed out earlier means another string, and nothing but the string table changes. -/
theorem c29_intern {ss : List (List UInt8)} {f f' : Front} {is : List Nat} (hn : f.strings.Nodup)
    (h : registerAll ss f = .ok is f') :
    is.length = ss.length ∧
    (∀ (k : Nat) s, ss[k]? = some s → ∃ i, is[k]? = some i ∧ f'.strings[i]? = some s) ∧
    (∀ (j k : Nat) s t a b, ss[j]? = some s → ss[k]? = some t → is[j]? = some a → is[k]? = some b → (a = b ↔ s = t)) ∧
    (∀ (i : Nat) s, f.strings[i]? = some s → f'.strings[i]? = some s) ∧
    f'.strings.Nodup ∧ f' = { f with strings := f'.strings } := by
  obtain ⟨⟨r, hr⟩, h2, h3, h4, h5⟩ := registerAll_ok hn h
  refine ⟨h4, h5, fun j k s t a b hj hk ha hb => ?_, fun i s hi => ?_, h2, h3⟩
  · obtain ⟨i1, e1, f1⟩ := h5 j s hj
    obtain ⟨i2, e2, f2⟩ := h5 k t hk
    rw [ha] at e1; rw [hb] at e2
    simp only [Option.some.injEq] at e1 e2
    subst e1; subst e2
    constructor
    · rintro rfl
      rw [f1] at f2; exact Option.some.inj f2
    · rintro rfl
      obtain ⟨l1, g1⟩ := List.getElem?_eq_some_iff.1 f1
      obtain ⟨l2, g2⟩ := List.getElem?_eq_some_iff.1 f2
      exact (List.getElem_inj h2).1 (g1.trans g2.symm)
  · rw [← hr]
    obtain ⟨hl, _⟩ := List.getElem?_eq_some_iff.1 hi
    rw [List.getElem?_append_left hl]; exact hi

/-- **C29**, the limit: registering fails (by assertion) exactly when the string is new and 1024 strings are stored
already. -/
theorem c29_limit (f : Front) (s : List UInt8) :
    (∃ i f', registerString s f = .ok i f') ↔ s ∈ f.strings ∨ f.strings.length < 1024 := by
  unfold registerString
  cases hf : f.strings.findIdx? (· == s) with
  | some i =>
    simp only
    obtain ⟨hj, h1, _⟩ := List.findIdx?_eq_some_iff_getElem.1 hf
    simp only [beq_iff_eq] at h1
    exact ⟨fun _ => .inl (by rw [← h1]; exact List.getElem_mem hj), fun _ => ⟨_, _, rfl⟩⟩
  | none =>
    have hnot : s ∉ f.strings := by
      intro hm
      have := List.findIdx?_eq_none_iff.1 hf s hm
      simp at this
    simp only [maxStrings]
    by_cases hl : f.strings.length < 1024
    · simp [hl]
    · simp [hl, hnot]

/-- Three registrations, two of the same string. -/
example : registerAll [nameOf "a", nameOf "b", nameOf "a"] {} = .ok [0, 1, 0] { strings := [nameOf "a", nameOf "b"] } := by
  decide +kernel

/-! ## C30 -/

/-- **C30** Read any sequence of functions, scopes and declarations, starting outside functions in a table whose
globals are known. If the spec accepts it, the symbol table accepts it too and from then on every name refers to what
the spec says: to the innermost open local of the current function, otherwise to its parameter, otherwise to the
global or constant of that name, which is unique. If the spec rejects it, so does the compiler. -/
theorem c30_scoping {s : Front} (hs : s.currFunc = .none) (hu : (s.syms.filterMap Sym.varName).Nodup) (o : Nat)
    (es : List ScopeEv) :
    match Scopes.run { outer := o, globals := s.syms.filterMap Sym.varName } es with
    | .ok σ => ∃ s', runEvs es s = .ok () s' ∧
        (s'.syms.filterMap Sym.varName).Nodup ∧
        ∀ n, ∃ r, referenceVariable n s' = .ok r s' ∧ RefIs s' n r (σ.lookup n)
    | .rejected => ∃ s', runEvs es s = .err s'
    | .illNested => True := by
  have h0 : FrontMatch s { outer := o, globals := s.syms.filterMap Sym.varName } :=
    ⟨fun n => mem_varName_iff.symm, hu, hs⟩
  have := runEvs_match es h0
  generalize Scopes.run { outer := o, globals := s.syms.filterMap Sym.varName } es = r at this
  cases r with
  | ok σ =>
    obtain ⟨s', h1, h2⟩ := this
    exact ⟨s', h1, h2.uniq, fun n => reference_match h2 n⟩
  | rejected => exact this
  | illNested => trivial

/-- A global `x`, a function with parameter `x`, in it a local `x` in an inner scope, a second scope after it: in the
first the name is the local, in the second the parameter. -/
example :
    let x := nameOf "x"; let y := nameOf "y"
    Scopes.run {} [.declare x, .enter (nameOf "f") [(x, .int), (y, .int)], .opn, .opn, .declare x] =
      .ok { fn := some ⟨[x, y], [[(x, 0)], [], []], 1⟩, globals := [x] } ∧
    Scopes.lookup { fn := some ⟨[x, y], [[(x, 0)], [], []], 1⟩, globals := [x] } x = some (.loc 0) ∧
    Scopes.run {} [.declare x, .enter (nameOf "f") [(x, .int), (y, .int)], .opn, .opn, .declare x, .close, .opn,
      .declare y, .declare x, .close] = .ok { fn := some ⟨[x, y], [[], []], 3⟩, globals := [x] } ∧
    Scopes.lookup { fn := some ⟨[x, y], [[], []], 3⟩, globals := [x] } x = some (.arg 0) ∧
    Scopes.run {} [.enter (nameOf "f") [], .opn, .declare x, .opn, .declare x] = .rejected := by
  decide +kernel

/-! ## C31 -/

/-- Everything which writes to the symbol table: the events of C30 and the declarations of types, strings and bound
functions. -/
inductive TableEv where
  | scope (e : ScopeEv)
  | str (s : List UInt8)
  | bind (n : Name) (args : List Tag) (varargs : Bool) (ret : Tag)
  | struct (n : Name)
  | typeName (n : Name)
  | nullable (t : Tag)
  | register (n : Name)

/-- The call made for it. -/
def runTable : TableEv → Act Front Unit
  | .scope e => runEv e
  | .str s => do let _ ← registerString s
  | .bind n as va r => bindFunction n as va r
  | .struct n => declareStruct n
  | .typeName n => do let _ ← getTagFromName n
  | .nullable t => do let _ ← getOrCreateNullable t
  | .register n => registerType n

/-- One after the other. -/
def runTables : List TableEv → Act Front Unit
  | [] => pure ()
  | e :: es => do
    runTable e
    runTables es

/-- The storage index of a global variable. -/
def Sym.globIdx : Sym → Option Int
  | .glob v => some v.idx
  | _ => none

/-- The number of a function. -/
def Sym.funcIdx : Sym → Option Nat
  | .func f => some f.index
  | _ => none

/-- The number of a bound function. -/
def Sym.foreignIdx : Sym → Option Nat
  | .foreign _ i _ _ _ => some i
  | _ => none

/-- Storage slots are in order. -/
structure Slots (s : Front) : Prop where
  globs : (s.syms.filterMap Sym.globIdx).Pairwise (· < ·)
  globBound : ∀ i ∈ s.syms.filterMap Sym.globIdx, 0 ≤ i ∧ i < s.numGlobalVars
  funcs : (s.syms.filterMap Sym.funcIdx).Pairwise (· < ·)
  funcBound : ∀ i ∈ s.syms.filterMap Sym.funcIdx, i < s.numFunctions
  foreigns : (s.syms.filterMap Sym.foreignIdx).Pairwise (· < ·)
  foreignBound : ∀ i ∈ s.syms.filterMap Sym.foreignIdx, i < s.numForeign
  args : ∀ f, .func f ∈ s.syms → ∀ (k : Nat) v, f.args[k]? = some v → v.idx = -(f.args.length : Int) + (k : Int)
  locals : ∀ f, .func f ∈ s.syms → ∀ (k : Nat) v, f.locals[k]? = some v → v.idx = (k : Int)

theorem Slots.same {s s' : Front} (h : Slots s) (h1 : s'.syms = s.syms) (h2 : s'.numGlobalVars = s.numGlobalVars)
    (h3 : s'.numFunctions = s.numFunctions) (h4 : s'.numForeign = s.numForeign) : Slots s' := by
  obtain ⟨a, b, c, d, e, f, g, i⟩ := h
  constructor <;> simpa only [h1, h2, h3, h4]

/-- A new symbol which is none of the three kinds. -/
theorem Slots.push {s : Front} (h : Slots s) {x : Sym} (h1 : x.globIdx = none) (h2 : x.funcIdx = none)
    (h3 : x.foreignIdx = none) : Slots { s with syms := s.syms ++ [x] } := by
  have hx : ∀ f, .func f ∈ s.syms ++ [x] → .func f ∈ s.syms := by
    intro f hf
    rcases List.mem_append.1 hf with hf | hf
    · exact hf
    · simp only [List.mem_singleton] at hf; subst hf; simp [Sym.funcIdx] at h2
  constructor <;> simp only [List.filterMap_append, List.filterMap_cons, List.filterMap_nil, h1, h2, h3, List.append_nil]
  · exact h.globs
  · exact h.globBound
  · exact h.funcs
  · exact h.funcBound
  · exact h.foreigns
  · exact h.foreignBound
  · exact fun f hf => h.args f (hx f hf)
  · exact fun f hf => h.locals f (hx f hf)

/-- The current function gets other arguments or locals. -/
theorem Slots.update {s : Front} (h : Slots s) {i : Nat} {fi fi' : FuncInfo} (h2 : s.syms[i]? = some (.func fi))
    (hi : fi'.index = fi.index)
    (ha : ∀ (k : Nat) v, fi'.args[k]? = some v → v.idx = -(fi'.args.length : Int) + k)
    (hl : ∀ (k : Nat) v, fi'.locals[k]? = some v → v.idx = k) : Slots { s with syms := s.syms.set i (.func fi') } := by
  obtain ⟨hlt, hs⟩ := List.getElem?_eq_some_iff.1 h2
  have hmap : ∀ {β : Type} (f : Sym → Option β), f (.func fi') = f (.func fi) →
      (s.syms.set i (.func fi')).filterMap f = s.syms.filterMap f := by
    intro β f e
    apply filterMap_eq_of_map
    apply List.ext_getElem?
    intro j
    simp only [List.getElem?_map, List.getElem?_set]
    by_cases hj : i = j
    · subst hj; simp [hlt, hs, e]
    · simp [hj]
  have hx : ∀ f, .func f ∈ s.syms.set i (.func fi') → f = fi' ∨ .func f ∈ s.syms := by
    intro f hf
    rcases List.mem_or_eq_of_mem_set hf with hf | hf
    · exact .inr hf
    · simp only [Sym.func.injEq] at hf; exact .inl hf
  constructor
  · simp only [hmap Sym.globIdx rfl]; exact h.globs
  · simp only [hmap Sym.globIdx rfl]; exact h.globBound
  · simp only [hmap Sym.funcIdx (by simp [Sym.funcIdx, hi])]; exact h.funcs
  · simp only [hmap Sym.funcIdx (by simp [Sym.funcIdx, hi])]; exact h.funcBound
  · simp only [hmap Sym.foreignIdx rfl]; exact h.foreigns
  · simp only [hmap Sym.foreignIdx rfl]; exact h.foreignBound
  · intro f hf
    rcases hx f hf with rfl | hf
    · exact ha
    · exact h.args f hf
  · intro f hf
    rcases hx f hf with rfl | hf
    · exact hl
    · exact h.locals f hf

theorem newArgs_idx (nargs : Nat) : ∀ (start : Nat) (as : List (Name × Tag)) (k : Nat) (v : VarInfo),
    (newArgs nargs start as)[k]? = some v → v.idx = -(nargs : Int) + (start + k)
  | _, [], k, v, h => by simp [newArgs] at h
  | start, a :: as, 0, v, h => by
    simp only [newArgs, List.getElem?_cons_zero, Option.some.injEq] at h
    subst h; simp
  | start, a :: as, k + 1, v, h => by
    simp only [newArgs, List.getElem?_cons_succ] at h
    rw [newArgs_idx nargs (start + 1) as k v h]
    push_cast; omega

theorem newArgs_length (nargs : Nat) : ∀ (start : Nat) (as : List (Name × Tag)),
    (newArgs nargs start as).length = as.length
  | _, [] => rfl
  | start, a :: as => by simp [newArgs, newArgs_length nargs (start + 1) as]

theorem pairwise_push {α : Type} {l : List α} {x : α} {r : α → α → Prop} (h : l.Pairwise r) (hx : ∀ a ∈ l, r a x) :
    (l ++ [x]).Pairwise r := by
  rw [List.pairwise_append]
  exact ⟨h, by simp, fun a ha b hb => by simp at hb; subst hb; exact hx a ha⟩

theorem referenceVariable_state {n : Name} {s s' : Front} {r} (h : referenceVariable n s = .ok r s') : s' = s := by
  unfold referenceVariable at h
  rw [act_bind] at h
  cases h1 : currentFunc s with
  | ok fi s1 =>
    have hs : s1 = s := by
      unfold currentFunc at h1
      cases hc : s.currFunc with
      | none => rw [hc] at h1; cases h1; rfl
      | dangling => rw [hc] at h1; cases h1
      | «at» i =>
        rw [hc] at h1
        simp only at h1
        cases hg : s.syms[i]? with
        | none => rw [hg] at h1; cases h1
        | some x => rw [hg] at h1; cases x <;> first | (cases h1; rfl) | cases h1
    subst hs
    rw [h1] at h
    simp only at h
    cases hx : lookupFunc n fi with
    | none => rw [hx] at h; cases h; rfl
    | some r => rw [hx] at h; cases h; rfl
  | err s => rw [h1] at h; cases h
  | abort => rw [h1] at h; cases h
  | ub => rw [h1] at h; cases h
  | timeout => rw [h1] at h; cases h

/-- Registering a type which was taken for a struct changes that one symbol. -/
theorem convertType_split {n m : Name} {fs : List (Name × Tag)} : ∀ {l : List Sym},
    l.find? (fun x => (x.asType n).isSome) = some (.struct m false fs) →
    ∃ A B, l = A ++ .struct n false fs :: B ∧ convertType n l = A ++ .ftype n :: B ∧ ∀ x ∈ A, x.asType n = none
  | [], h => by cases h
  | x :: l, h => by
    rw [List.find?_cons] at h
    cases hx : (x.asType n).isSome with
    | true =>
      rw [hx] at h
      cases h
      have e : m = n := by
        simp only [Sym.asType] at hx
        split at hx
        · assumption
        · cases hx
      subst e
      exact ⟨[], l, rfl, by simp [convertType, hx, Sym.toForeign], by simp⟩
    | false =>
      rw [hx] at h
      obtain ⟨A, B, rfl, h2, h3⟩ := convertType_split h
      refine ⟨x :: A, B, rfl, by simp [convertType, hx, h2], fun y hy => ?_⟩
      rcases List.mem_cons.1 hy with rfl | hy
      · simpa using hx
      · exact h3 y hy

/-- Every call keeps the slots in order. -/
theorem runTable_slots {e : TableEv} {s s' : Front} (h : Slots s) (hr : runTable e s = .ok () s') : Slots s' := by
  cases e with
  | scope e =>
    cases e with
    | enter n args =>
      let fi : FuncInfo := { name := n, index := s.numFunctions }
      let s1 : Front := { s with syms := s.syms ++ [.func fi], numFunctions := s.numFunctions + 1,
                                 currFunc := .at s.syms.length }
      have hrun : runEv (.enter n args) s = declareArguments args.length args s1 := rfl
      have hsyms : s1.syms[s.syms.length]? = some (.func fi) := by simp [s1]
      have hd := declareArgs args.length args s1 s.syms.length fi rfl hsyms
      have h1 : Slots s1 := by
        obtain ⟨a, b, c, d, e, f, g, i⟩ := h
        have hx : ∀ f, .func f ∈ s1.syms → f = fi ∨ .func f ∈ s.syms := by
          intro f hf
          rcases List.mem_append.1 hf with hf | hf
          · exact .inr hf
          · simp only [List.mem_singleton, Sym.func.injEq] at hf; exact .inl hf
        constructor
        · simpa [s1, Sym.globIdx, List.filterMap_cons] using a
        · simpa [s1, Sym.globIdx, List.filterMap_cons] using b
        · have := pairwise_push c d
          simpa [s1, Sym.funcIdx, List.filterMap_cons, fi] using this
        · intro j hj
          simp only [s1, List.filterMap_append, List.filterMap_cons, Sym.funcIdx, List.filterMap_nil, List.mem_append,
            List.mem_singleton, fi] at hj
          show j < s.numFunctions + 1
          rcases hj with hj | hj
          · have := d j hj; omega
          · omega
        · simpa [s1, Sym.foreignIdx, List.filterMap_cons] using e
        · simpa [s1, Sym.foreignIdx, List.filterMap_cons] using f
        · intro f' hf
          rcases hx f' hf with rfl | hf
          · intro k v hk; simp [fi] at hk
          · exact g f' hf
        · intro f' hf
          rcases hx f' hf with rfl | hf
          · intro k v hk; simp [fi] at hk
          · exact i f' hf
      by_cases hnd : (args.map Prod.fst).Nodup
      · have := hrun.trans (hd.1 (by simpa [fi] using hnd))
        rw [show runTable (.scope (.enter n args)) s = _ from this] at hr
        simp only [Out.ok.injEq, true_and] at hr
        subst hr
        refine h1.update hsyms rfl (fun k v hk => ?_) (fun k v hk => by simp [fi] at hk)
        simp only [fi, List.nil_append, List.length_nil] at hk ⊢
        rw [newArgs_idx _ _ _ _ _ hk, newArgs_length]
        simp
      · obtain ⟨s'', hs'⟩ := hd.2 (by simp [fi]) (by simpa [fi] using hnd)
        rw [show runTable (.scope (.enter n args)) s = _ from hrun.trans hs'] at hr
        cases hr
    | leave => cases hr; exact h.same rfl rfl rfl rfl
    | opn => cases hr; exact h.same rfl rfl rfl rfl
    | close =>
      simp only [runTable, runEv, closeScope, act_bind, Act.get] at hr
      cases hc : s.currFunc with
      | none => rw [hc] at hr; cases hr; exact h.same rfl rfl rfl rfl
      | dangling =>
        rw [hc] at hr
        simp only [act_bind, updateFunc, hc] at hr
        cases hr
      | «at» i =>
        rw [hc] at hr
        simp only [act_bind, updateFunc, hc] at hr
        cases hg : s.syms[i]? with
        | none => rw [hg] at hr; cases hr
        | some x =>
          rw [hg] at hr
          cases x with
          | func fi =>
            cases hr
            have := h.update (fi' := { fi with locals := fi.locals.map (endScope s.currScope) }) hg rfl
              (h.args fi (List.mem_of_getElem? hg)) (fun k v hk => by
                rw [List.getElem?_map] at hk
                cases hv : fi.locals[k]? with
                | none => rw [hv] at hk; simp at hk
                | some w =>
                  rw [hv] at hk
                  simp only [Option.map_some, Option.some.injEq] at hk
                  subst hk
                  have := h.locals fi (List.mem_of_getElem? hg) k w hv
                  unfold endScope; split <;> exact this)
            exact this.same rfl rfl rfl rfl
          | _ => cases hr
    | declare n =>
      simp only [runTable, runEv, act_bind, Act.get] at hr
      cases hc : s.currFunc with
      | none =>
        rw [hc] at hr
        simp only [declareGlobalVar, act_bind] at hr
        cases hv : referenceVariable n s with
        | ok r s1 =>
          have := referenceVariable_state hv
          subst this
          rw [hv] at hr
          have push : Slots { s1 with syms := s1.syms ++ [.glob { name := n, idx := s1.numGlobalVars }],
                                      numGlobalVars := s1.numGlobalVars + 1 } := by
            obtain ⟨a, b, c, d, e, f, g, i⟩ := h
            have hx : ∀ f, .func f ∈ s1.syms ++ [.glob { name := n, idx := s1.numGlobalVars }] → .func f ∈ s1.syms := by
              intro f hf
              rcases List.mem_append.1 hf with hf | hf
              · exact hf
              · simp at hf
            constructor
            · have := pairwise_push a (fun j hj => (b j hj).2)
              simpa [Sym.globIdx, List.filterMap_cons] using this
            · intro j hj
              simp only [List.filterMap_append, List.filterMap_cons, Sym.globIdx, List.filterMap_nil, List.mem_append,
                List.mem_singleton] at hj
              rcases hj with hj | hj
              · have := b j hj; push_cast; omega
              · subst hj; push_cast; omega
            · simpa [Sym.funcIdx, List.filterMap_cons] using c
            · simpa [Sym.funcIdx, List.filterMap_cons] using d
            · simpa [Sym.foreignIdx, List.filterMap_cons] using e
            · simpa [Sym.foreignIdx, List.filterMap_cons] using f
            · exact fun f' hf => g f' (hx f' hf)
            · exact fun f' hf => i f' (hx f' hf)
          match r with
          | some (.glob i) => cases hr
          | none => cases hr; exact push
          | some (.loc i) => cases hr; exact push
          | some (.arg i) => cases hr; exact push
        | err s => rw [hv] at hr; cases hr
        | abort => rw [hv] at hr; cases hr
        | ub => rw [hv] at hr; cases hr
        | timeout => rw [hv] at hr; cases hr
      | dangling =>
        rw [hc] at hr
        simp only [declareLocal, act_bind, currentFunc, hc] at hr
        cases hr
      | «at» i =>
        rw [hc] at hr
        simp only [declareLocal, act_bind, currentFunc, hc] at hr
        cases hg : s.syms[i]? with
        | none => rw [hg] at hr; cases hr
        | some x =>
          rw [hg] at hr
          cases x with
          | func fi =>
            simp only at hr
            by_cases hany : fi.locals.any (fun v => !v.ended && v.name == n) = true
            · rw [if_pos hany] at hr; cases hr
            · rw [if_neg hany] at hr
              simp only [act_bind, Act.get, updateFunc, hc, hg, act_pure] at hr
              cases hr
              refine (h.update (fi' := { fi with locals := fi.locals ++ [{ name := n, idx := fi.locals.length, scope := s.currScope }] })
                hg rfl (h.args fi (List.mem_of_getElem? hg)) (fun k v hk => ?_)).same rfl rfl rfl rfl
              simp only at hk
              by_cases hl : k < fi.locals.length
              · rw [List.getElem?_append_left hl] at hk
                exact h.locals fi (List.mem_of_getElem? hg) k v hk
              · obtain ⟨hk', hw⟩ := List.getElem?_eq_some_iff.1 hk
                simp only [List.length_append, List.length_cons, List.length_nil] at hk'
                have : k = fi.locals.length := by omega
                subst this
                simp at hw
                subst hw
                rfl
          | _ => cases hr
    | const n t v =>
      simp only [runTable, runEv, declareConst, act_bind] at hr
      cases hv : referenceVariable n s with
      | ok r s1 =>
        have := referenceVariable_state hv
        subst this
        rw [hv] at hr
        match r with
        | some r => cases hr
        | none => cases hr; exact h.push rfl rfl rfl
      | err s => rw [hv] at hr; cases hr
      | abort => rw [hv] at hr; cases hr
      | ub => rw [hv] at hr; cases hr
      | timeout => rw [hv] at hr; cases hr
  | str t =>
    simp only [runTable, act_bind, registerString] at hr
    cases hf : s.strings.findIdx? (· == t) with
    | some i => rw [hf] at hr; cases hr; exact h
    | none =>
      rw [hf] at hr
      by_cases hl : s.strings.length < maxStrings
      · simp only [hl, if_true, act_pure] at hr
        cases hr; exact h.same rfl rfl rfl rfl
      · simp only [hl, if_false] at hr
        cases hr
  | bind n as va r =>
    simp only [runTable, bindFunction, act_bind, Act.get] at hr
    by_cases ha : s.syms.any (·.isForeign n) = true
    · rw [if_pos ha] at hr; cases hr
    · rw [if_neg ha] at hr
      cases hr
      obtain ⟨a, b, c, d, e, f, g, i⟩ := h
      have hx : ∀ f, .func f ∈ s.syms ++ [.foreign n s.numForeign as va r] → .func f ∈ s.syms := by
        intro f hf
        rcases List.mem_append.1 hf with hf | hf
        · exact hf
        · simp at hf
      constructor
      · simpa [Sym.globIdx, List.filterMap_cons] using a
      · simpa [Sym.globIdx, List.filterMap_cons] using b
      · simpa [Sym.funcIdx, List.filterMap_cons] using c
      · simpa [Sym.funcIdx, List.filterMap_cons] using d
      · have := pairwise_push e f
        simpa [Sym.foreignIdx, List.filterMap_cons] using this
      · intro j hj
        simp only [List.filterMap_append, List.filterMap_cons, Sym.foreignIdx, List.filterMap_nil, List.mem_append,
          List.mem_singleton] at hj
        show j < s.numForeign + 1
        rcases hj with hj | hj
        · have := f j hj; omega
        · omega
      · exact fun f' hf => g f' (hx f' hf)
      · exact fun f' hf => i f' (hx f' hf)
  | struct n =>
    simp only [runTable, declareStruct, act_bind, Act.get] at hr
    by_cases ha : s.syms.any (·.isStruct n) = true
    · rw [if_pos ha] at hr; cases hr; exact h
    · rw [if_neg ha] at hr; cases hr; exact h.push rfl rfl rfl
  | typeName n =>
    simp only [runTable, getTagFromName, act_bind] at hr
    cases hp : primTag n with
    | some t => rw [hp] at hr; cases hr; exact h
    | none =>
      rw [hp] at hr
      simp only [act_bind, Act.get] at hr
      cases ht : s.syms.findSome? (·.asType n) with
      | some t => rw [ht] at hr; cases hr; exact h
      | none => rw [ht] at hr; cases hr; exact h.push rfl rfl rfl
  | nullable t =>
    simp only [runTable, getOrCreateNullable, act_bind, Act.get] at hr
    by_cases ha : s.syms.any (· == .nullable t) = true
    · rw [if_pos ha] at hr; cases hr; exact h
    · rw [if_neg ha] at hr; cases hr; exact h.push rfl rfl rfl
  | register n =>
    simp only [runTable, registerType] at hr
    by_cases hp : (primTag n).isSome = true
    · rw [if_pos hp] at hr; cases hr; exact h
    · rw [if_neg hp] at hr
      simp only [act_bind, Act.get] at hr
      have conv : ∀ m fs, s.syms.find? (fun x => (x.asType n).isSome) = some (.struct m false fs) →
          Slots { s with syms := convertType n s.syms } := by
        intro m fs hm
        obtain ⟨A, B, h1, h2, -⟩ := convertType_split hm
        obtain ⟨a, b, c, d, e, f, g, i⟩ := h
        rw [h1] at a b c d e f g i
        constructor <;> rw [h2]
        · simpa [List.filterMap_append, List.filterMap_cons, Sym.globIdx] using a
        · simpa [List.filterMap_append, List.filterMap_cons, Sym.globIdx] using b
        · simpa [List.filterMap_append, List.filterMap_cons, Sym.funcIdx] using c
        · simpa [List.filterMap_append, List.filterMap_cons, Sym.funcIdx] using d
        · simpa [List.filterMap_append, List.filterMap_cons, Sym.foreignIdx] using e
        · simpa [List.filterMap_append, List.filterMap_cons, Sym.foreignIdx] using f
        · exact fun f' hf => g f' (by simpa using hf)
        · exact fun f' hf => i f' (by simpa using hf)
      cases ht : s.syms.find? (fun x => (x.asType n).isSome) with
      | none => rw [ht] at hr; cases hr; exact h.push rfl rfl rfl
      | some x =>
        rw [ht] at hr
        cases x with
        | struct m d fs =>
          cases d with
          | false => cases hr; exact conv m fs ht
          | true => cases hr; exact h
        | _ => cases hr; exact h

theorem runTables_slots : ∀ {es : List TableEv} {s s' : Front}, Slots s → runTables es s = .ok () s' → Slots s'
  | [], s, s', h, hr => by cases hr; exact h
  | e :: es, s, s', h, hr => by
    rw [runTables, act_bind] at hr
    cases h1 : runTable e s with
    | ok u s1 => rw [h1] at hr; exact runTables_slots (runTable_slots h h1) hr
    | err s => rw [h1] at hr; cases hr
    | abort => rw [h1] at hr; cases hr
    | ub => rw [h1] at hr; cases hr
    | timeout => rw [h1] at hr; cases hr

theorem pairwise_getElem_ne {α : Type} {f : Sym → Option α} {l : List Sym} (h : (l.filterMap f).Nodup) :
    ∀ {i j : Nat} {x y : Sym} {a : α}, l[i]? = some x → l[j]? = some y → f x = some a → f y = some a → i = j := by
  induction l with
  | nil => intro i j x y a hi; simp at hi
  | cons z l ih =>
    have htl : (l.filterMap f).Nodup := by
      rw [List.filterMap_cons] at h
      cases hz : f z with
      | none => rw [hz] at h; exact h
      | some b => rw [hz] at h; exact (List.nodup_cons.1 h).2
    have hhd : ∀ {y : Sym} {a : α}, y ∈ l → f z = some a → f y = some a → False := by
      intro y a hy h1 h2
      rw [List.filterMap_cons, h1] at h
      exact (List.nodup_cons.1 h).1 (List.mem_filterMap.2 ⟨y, hy, h2⟩)
    intro i j x y a hi hj hx hy
    cases i with
    | zero =>
      simp only [List.getElem?_cons_zero, Option.some.injEq] at hi
      subst hi
      cases j with
      | zero => rfl
      | succ j => exact (hhd (List.mem_of_getElem? (by simpa using hj)) hx hy).elim
    | succ i =>
      cases j with
      | zero =>
        simp only [List.getElem?_cons_zero, Option.some.injEq] at hj
        subst hj
        exact (hhd (List.mem_of_getElem? (by simpa using hi)) hy hx).elim
      | succ j =>
        have := ih htl (i := i) (j := j) (by simpa using hi) (by simpa using hj) hx hy
        rw [this]

/-- **C31** After any sequence of declarations: two global variables never have the same storage index, and each index
is below the number of globals the machine allocates; two functions, and two bound functions, never have the same
number; in every function, arguments and locals all have different indices, the arguments from `-nargs` up to `-1` and
the locals from 0 up to the number of locals the call makes room for. -/
theorem c31_storage {es : List TableEv} {s : Front} (h : runTables es {} = .ok () s) :
    (∀ (i j : Nat) v w, s.syms[i]? = some (.glob v) → s.syms[j]? = some (.glob w) → v.idx = w.idx → i = j) ∧
    (∀ v, .glob v ∈ s.syms → 0 ≤ v.idx ∧ v.idx < (s.numGlobalVars : Int)) ∧
    (∀ (i j : Nat) f g, s.syms[i]? = some (.func f) → s.syms[j]? = some (.func g) → f.index = g.index → i = j) ∧
    (∀ f, .func f ∈ s.syms → f.index < s.numFunctions) ∧
    (∀ (i j : Nat) n as va r m k as' va' r', s.syms[i]? = some (.foreign n k as va r) →
      s.syms[j]? = some (.foreign m k as' va' r') → i = j) ∧
    (∀ n k as va r, .foreign n k as va r ∈ s.syms → k < s.numForeign) ∧
    (∀ f, .func f ∈ s.syms →
      ((f.args ++ f.locals).map VarInfo.idx).Nodup ∧
      (∀ v ∈ f.args, -(f.args.length : Int) ≤ v.idx ∧ v.idx < 0) ∧
      (∀ v ∈ f.locals, 0 ≤ v.idx ∧ v.idx < f.locals.length)) := by
  have hs : Slots s := runTables_slots (s := {}) (by constructor <;> simp) h
  have nd : ∀ {l : List Nat}, l.Pairwise (· < ·) → l.Nodup := fun h => h.imp (fun h => by omega)
  have ndi : ∀ {l : List Int}, l.Pairwise (· < ·) → l.Nodup := fun h => h.imp (fun h => by omega)
  refine ⟨fun i j v w hi hj e => ?_, fun v hv => ?_, fun i j f g hi hj e => ?_, fun f hf => ?_,
    fun i j n as va r m k as' va' r' hi hj => ?_, fun n k as va r hf => ?_, fun f hf => ?_⟩
  · exact pairwise_getElem_ne (ndi hs.globs) hi hj (a := v.idx) rfl (by simp [Sym.globIdx, e])
  · exact hs.globBound _ (List.mem_filterMap.2 ⟨_, hv, rfl⟩)
  · exact pairwise_getElem_ne (nd hs.funcs) hi hj (a := f.index) rfl (by simp [Sym.funcIdx, e])
  · exact hs.funcBound _ (List.mem_filterMap.2 ⟨_, hf, rfl⟩)
  · exact pairwise_getElem_ne (nd hs.foreigns) hi hj (a := k) rfl rfl
  · exact hs.foreignBound _ (List.mem_filterMap.2 ⟨_, hf, rfl⟩)
  · have ha : ∀ v ∈ f.args, -(f.args.length : Int) ≤ v.idx ∧ v.idx < 0 := by
      intro v hv
      obtain ⟨k, hk⟩ := List.getElem?_of_mem hv
      have := hs.args f hf k v hk
      obtain ⟨hl, _⟩ := List.getElem?_eq_some_iff.1 hk
      omega
    have hl : ∀ v ∈ f.locals, 0 ≤ v.idx ∧ v.idx < f.locals.length := by
      intro v hv
      obtain ⟨k, hk⟩ := List.getElem?_of_mem hv
      have := hs.locals f hf k v hk
      obtain ⟨hl, _⟩ := List.getElem?_eq_some_iff.1 hk
      omega
    refine ⟨?_, ha, hl⟩
    rw [List.map_append, List.nodup_append]
    have inj : ∀ {l : List VarInfo} {d : Int}, (∀ (k : Nat) v, l[k]? = some v → v.idx = d + k) →
        (l.map VarInfo.idx).Nodup := by
      intro l d hd
      rw [List.Nodup, List.pairwise_iff_getElem]
      intro i j hi hj hij
      simp only [List.length_map] at hi hj
      have h1 := hd i _ (List.getElem?_eq_getElem hi)
      have h2 := hd j _ (List.getElem?_eq_getElem hj)
      simp only [List.getElem_map]
      omega
    refine ⟨inj (hs.args f hf), inj (d := 0) (fun k v hk => by have := hs.locals f hf k v hk; omega), ?_⟩
    intro a ha' b hb'
    obtain ⟨v, hv, rfl⟩ := List.mem_map.1 ha'
    obtain ⟨w, hw, rfl⟩ := List.mem_map.1 hb'
    have := ha v hv
    have := hl w hw
    omega

/-- Two globals, a bound function and a function with two arguments and two locals in different scopes. -/
def exampleTable : List TableEv :=
  [.scope (.declare (nameOf "g")), .bind (nameOf "puts") [.str] false .void,
   .scope (.enter (nameOf "f") [(nameOf "a", .int), (nameOf "b", .int)]), .scope .opn, .scope (.declare (nameOf "x")),
   .scope .close, .scope .opn, .scope (.declare (nameOf "x")), .scope .close, .scope .leave,
   .scope (.declare (nameOf "h"))]

example : ∃ s, runTables exampleTable {} = .ok () s ∧
    s.syms.filterMap Sym.globIdx = [0, 1] ∧ s.numGlobalVars = 2 ∧
    s.syms.filterMap (fun | .func f => some (f.args.map VarInfo.idx, f.locals.map VarInfo.idx) | _ => none) =
      [([-2, -1], [0, 1])] :=
  ⟨(match runTables exampleTable {} with | .ok _ s => s | _ => {}), by decide +kernel, by decide +kernel,
    by decide +kernel, by decide +kernel⟩

/-! ## C36 -/

/-- **C36** When a value of static type `s` may be stored where type `t` is declared. -/
theorem c36_assignable (s t : Tag) : isTagAssignableTo s t = true ↔ Assignable s t := by
  constructor
  · intro h
    induction t with
    | any => simp [isTagAssignableTo] at h; exact .toAny h
    | nullable t ih =>
      simp only [isTagAssignableTo, Bool.and_eq_true, bne_iff_ne, ne_eq] at h
      exact .toNullable h.1.2 (ih h.2)
    | _ =>
      simp only [isTagAssignableTo, Bool.and_eq_true, bne_iff_ne, ne_eq, beq_iff_eq] at h
      obtain ⟨⟨h1, h2⟩, rfl⟩ := h
      exact .same h1 h2 (by intro t; simp)
  · intro h
    induction h with
    | toAny h => simp [isTagAssignableTo, h]
    | @same h1 h2 h3 =>
      cases s with
      | nullable t => exact absurd rfl (h3 t)
      | _ => simp_all [isTagAssignableTo]
    | @toNullable t h1 h2 ih =>
      have h3 : s ≠ .void := by
        intro e
        subst e
        cases t <;> simp [isTagAssignableTo] at ih
      simp [isTagAssignableTo, h1, h3, ih]

/-- **C36**, defect: reflexivity fails exactly for `void` and for the nullable types of a type other than `any`
(possibly nested): a variable of type `T?` cannot be assigned to another variable of type `T?`. -/
theorem c36_reflexive (t : Tag) : isTagAssignableTo t t = false ↔
    t = .void ∨ ∃ u, t = .nullable u ∧ isTagAssignableTo (.nullable u) u = false := by
  cases t with
  | nullable u => simp [isTagAssignableTo]
  | _ => simp [isTagAssignableTo]

/-- **C36**, defect: no `T?` is assignable to the same `T?` for any type `T` a source can name except `any`. -/
theorem c36_nullable_defect (t : Tag) (h : t ≠ .any) (h' : ∀ u, t ≠ .nullable u) :
    isTagAssignableTo (.nullable t) (.nullable t) = false := by
  cases t with
  | any => exact absurd rfl h
  | nullable u => exact absurd rfl (h' u)
  | _ => simp [isTagAssignableTo]

/-- **C36**, defect: `null` (of type `any`) cannot be stored where `T?` is declared, for any `T`. -/
theorem c36_null_defect (t : Tag) : isTagAssignableTo .any (.nullable t) = false := by
  simp [isTagAssignableTo]

example : Assignable .int (.nullable .int) ∧ ¬ Assignable (.nullable .int) .int ∧
    ¬ Assignable (.named [65]) (.named [66]) ∧ Assignable (.nullable (.named [65])) .any := by
  simp only [← c36_assignable]; decide

end Tiny
