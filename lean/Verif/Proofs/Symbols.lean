import Verif.Model.Symbols
import Verif.Spec.Scope

/-!
# The symbol table implements lexical scoping
-/

namespace Tiny
open Spec

theorem act_bind {σ α β : Type} (x : Act σ α) (f : α → Act σ β) (s : σ) :
    (x >>= f) s = match x s with
      | .ok a s => f a s
      | .err s => .err s
      | .abort => .abort
      | .ub => .ub
      | .timeout => .timeout := rfl

theorem act_pure {σ α : Type} (a : α) (s : σ) : (pure a : Act σ α) s = .ok a s := rfl

/-- The calls `ParseFunc`, `ParseBlock` and `ParseStatement` make for an event (tiny.c:1680-1757, 1654-1678,
2281-2284, 2314-2330). -/
def runEv : ScopeEv → Act Front Unit
  | .enter n args => do
    let i ← declareFunction n
    .modify fun f => { f with currFunc := .at i }
    declareArguments args.length args
  | .leave => .modify fun f => { f with currFunc := .none }
  | .opn => openScope
  | .close => closeScope
  | .declare n => do
    match (← Act.get).currFunc with
    | .none => do let _ ← declareGlobalVar n
    | _ => do let _ ← declareLocal n
  | .const n t v => declareConst n t v

/-- The events of a source, in order. -/
def runEvs : List ScopeEv → Act Front Unit
  | [] => pure ()
  | e :: es => do
    runEv e
    runEvs es

/-- Names of the global variables and constants. -/
def Sym.varName : Sym → Option Name
  | .glob v => some v.name
  | .const n _ _ => some n
  | _ => none

theorem Sym.isVar_iff {n : Name} {s : Sym} : s.isVar n = true ↔ s.varName = some n := by
  cases s <;> simp [Sym.isVar, Sym.varName]

/-- The open scopes of the function and its list of locals agree. `c` is `currScope`. -/
structure LocalsMatch (c : Int) (locals : List VarInfo) (opened : List (List (Name × Nat))) : Prop where
  isOpen : ∀ (j : Nat) (L : List (Name × Nat)), opened[j]? = some L → ∀ n k, (n, k) ∈ L → ∃ v : VarInfo, locals[k]? = some v ∧ v.name = n ∧ v.ended = false ∧
    v.scope = c - (j : Int)
  mem : ∀ (k : Nat) (v : VarInfo), locals[k]? = some v → v.ended = false → ∃ (j : Nat) (L : List (Name × Nat)), opened[j]? = some L ∧ (v.name, k) ∈ L
  uniq : (opened.flatten.map Prod.fst).Nodup

/-- The symbol table stands for the spec's names. -/
structure FrontMatch (s : Front) (σ : Scopes) : Prop where
  globals : ∀ n, n ∈ σ.globals ↔ ∃ x ∈ s.syms, x.varName = some n
  uniq : (s.syms.filterMap Sym.varName).Nodup
  fn : match σ.fn with
    | none => s.currFunc = .none
    | some f => ∃ (i : Nat) (fi : FuncInfo), s.currFunc = .at i ∧ s.syms[i]? = some (.func fi) ∧ fi.args.map VarInfo.name = f.args ∧
        f.args.Nodup ∧ fi.locals.length = f.count ∧ LocalsMatch s.currScope fi.locals f.opened

theorem findLocal_some {n : Name} : ∀ {os : List (List (Name × Nat))} {k : Nat}, findLocal n os = some k →
    ∃ (j : Nat) (L : List (Name × Nat)), os[j]? = some L ∧ (n, k) ∈ L
  | [], k, h => by simp [findLocal] at h
  | o :: os, k, h => by
    rw [findLocal] at h
    cases hf : o.find? (fun d => d.1 == n) with
    | some d =>
      rw [hf] at h
      simp only [Option.some.injEq] at h
      subst h
      have h1 := List.mem_of_find?_eq_some hf
      have h2 := List.find?_some hf
      simp only [beq_iff_eq] at h2
      exact ⟨0, o, rfl, by rw [← h2]; exact h1⟩
    | none =>
      rw [hf] at h
      obtain ⟨j, L, h1, h2⟩ := findLocal_some h
      exact ⟨j + 1, L, by simpa using h1, h2⟩

theorem findLocal_none {n : Name} : ∀ {os : List (List (Name × Nat))}, findLocal n os = none →
    ∀ (j : Nat) (L : List (Name × Nat)), os[j]? = some L → ∀ k, (n, k) ∉ L
  | [], h, j, L, hj, k => by simp at hj
  | o :: os, h, j, L, hj, k => by
    rw [findLocal] at h
    cases hf : o.find? (fun d => d.1 == n) with
    | some d => rw [hf] at h; simp at h
    | none =>
      rw [hf] at h
      cases j with
      | zero =>
        simp only [List.getElem?_cons_zero, Option.some.injEq] at hj
        subst hj
        intro hm
        have := List.find?_eq_none.1 hf _ hm
        simp at this
      | succ j => exact findLocal_none h j L (by simpa using hj) k

/-- Two open locals of one name are the same. -/
theorem LocalsMatch.same {c locals opened} (h : LocalsMatch c locals opened) {n : Name} {k k' : Nat} {v v' : VarInfo}
    (hk : locals[k]? = some v) (hk' : locals[k']? = some v') (ho : v.ended = false) (ho' : v'.ended = false)
    (hn : v.name = n) (hn' : v'.name = n) : k = k' := by
  obtain ⟨j, L, h1, h2⟩ := h.mem k v hk ho
  obtain ⟨j', L', h1', h2'⟩ := h.mem k' v' hk' ho'
  rw [hn] at h2
  rw [hn'] at h2'
  have f1 : (n, k) ∈ opened.flatten := List.mem_flatten.2 ⟨L, List.mem_of_getElem? h1, h2⟩
  have f2 : (n, k') ∈ opened.flatten := List.mem_flatten.2 ⟨L', List.mem_of_getElem? h1', h2'⟩
  have : (n, k) = (n, k') := by
    have hu := h.uniq
    generalize opened.flatten = l at *
    clear h h1 h1' h2 h2'
    induction l with
    | nil => simp at f1
    | cons a l ih =>
      simp only [List.map_cons, List.nodup_cons, List.mem_map, not_exists, not_and] at hu
      simp only [List.mem_cons] at f1 f2
      rcases f1 with rfl | f1 <;> rcases f2 with e | f2
      · exact e.symm
      · exact absurd rfl (hu.1 (n, k') f2)
      · subst e; exact absurd rfl (hu.1 (n, k) f1)
      · exact ih f1 f2 hu.2
  simpa using this

theorem LocalsMatch.find {c locals opened} (h : LocalsMatch c locals opened) (n : Name) :
    locals.findIdx? (fun v => !v.ended && v.name == n) = findLocal n opened := by
  cases hf : findLocal n opened with
  | some k =>
    obtain ⟨j, L, h1, h2⟩ := findLocal_some hf
    obtain ⟨v, h3, h4, h5, h6⟩ := h.isOpen j L h1 n k h2
    obtain ⟨hk, hv⟩ := List.getElem?_eq_some_iff.1 h3
    rw [List.findIdx?_eq_some_iff_getElem]
    refine ⟨hk, by rw [hv]; simp [h4, h5], fun j hj => ?_⟩
    simp only [Bool.and_eq_true, Bool.not_eq_true', beq_iff_eq, not_and]
    intro ho hn
    have := h.same (List.getElem?_eq_getElem (by omega : j < locals.length)) h3 ho h5 hn h4
    omega
  | none =>
    rw [List.findIdx?_eq_none_iff]
    intro v hv
    simp only [Bool.and_eq_false_iff, Bool.not_eq_false', beq_eq_false_iff_ne, ne_eq]
    cases ho : v.ended with
    | true => exact .inl rfl
    | false =>
      right
      intro hn
      obtain ⟨k, hk⟩ := List.getElem?_of_mem hv
      obtain ⟨j, L, h1, h2⟩ := h.mem k v hk ho
      rw [hn] at h2
      exact findLocal_none hf j L h1 k h2

theorem LocalsMatch.any {c locals opened} (h : LocalsMatch c locals opened) (n : Name) :
    locals.any (fun v => !v.ended && v.name == n) = (findLocal n opened).isSome := by
  rw [← h.find n, List.findIdx?_isSome]

/-- How a reference of the symbol table shows what the spec says. -/
def RefIs (s : Front) (n : Name) : Option SymRef → Option Ref → Prop
  | none, none => True
  | some (.loc k), some (.loc k') => k = k'
  | some (.arg k), some (.arg k') => k = k'
  | some (.glob i), some .global => ∃ x, s.syms[i]? = some x ∧ x.varName = some n
  | _, _ => False

theorem globals_find {s : Front} {σ : Scopes} (h : FrontMatch s σ) (n : Name) :
    RefIs s n ((s.syms.findIdx? (·.isVar n)).map .glob) (if n ∈ σ.globals then some .global else none) := by
  cases hf : s.syms.findIdx? (·.isVar n) with
  | some i =>
    obtain ⟨hi, h1, _⟩ := List.findIdx?_eq_some_iff_getElem.1 hf
    have h1 := Sym.isVar_iff.1 h1
    rw [if_pos ((h.globals n).2 ⟨_, List.getElem_mem hi, h1⟩)]
    exact ⟨_, List.getElem?_eq_getElem hi, h1⟩
  | none =>
    have hn := List.findIdx?_eq_none_iff.1 hf
    rw [if_neg]
    · trivial
    · intro hm
      obtain ⟨x, hx, hv⟩ := (h.globals n).1 hm
      have := hn x hx
      rw [Sym.isVar_iff.2 hv] at this
      cases this

theorem reference_match {s : Front} {σ : Scopes} (h : FrontMatch s σ) (n : Name) :
    ∃ r, referenceVariable n s = .ok r s ∧ RefIs s n r (σ.lookup n) := by
  have hfn := h.fn
  cases hf : σ.fn with
  | none =>
    rw [hf] at hfn
    simp only at hfn
    refine ⟨(s.syms.findIdx? (·.isVar n)).map .glob, ?_, ?_⟩
    · simp only [referenceVariable, act_bind, currentFunc, hfn, lookupFunc, Act.get, act_pure]
    · rw [Scopes.lookup, hf]
      exact globals_find h n
  | some f =>
    rw [hf] at hfn
    obtain ⟨i, fi, h1, h2, h3, h4, h5, h6⟩ := hfn
    rw [Scopes.lookup, hf]
    simp only [referenceVariable, act_bind, currentFunc, h1, h2, lookupFunc, h6.find n]
    cases hl : findLocal n f.opened with
    | some k => exact ⟨_, rfl, rfl⟩
    | none =>
      simp only
      have ha : fi.args.findIdx? (fun v => v.name == n) = f.args.findIdx? (· == n) := by
        rw [← h3, List.findIdx?_map]; rfl
      rw [ha]
      cases hk : f.args.findIdx? (· == n) with
      | some k => exact ⟨_, rfl, rfl⟩
      | none =>
        simp only [Option.map_none]
        exact ⟨_, rfl, globals_find h n⟩

/-- The names of variables do not change when the function symbol is updated. -/
theorem varNames_set {syms : List Sym} {i : Nat} {fi fi' : FuncInfo} (h : syms[i]? = some (.func fi)) :
    (syms.set i (.func fi')).map Sym.varName = syms.map Sym.varName := by
  apply List.ext_getElem?
  intro j
  simp only [List.getElem?_map, List.getElem?_set]
  by_cases e : i = j
  · subst e
    obtain ⟨hi, hs⟩ := List.getElem?_eq_some_iff.1 h
    simp [hi, hs, Sym.varName]
  · simp [e]

theorem filterMap_eq_of_map {α β} {f : α → Option β} {l l' : List α} (h : l.map f = l'.map f) :
    l.filterMap f = l'.filterMap f := by
  have := congrArg (List.filterMap id) h
  simpa [List.filterMap_map] using this

theorem mem_varName_iff {syms : List Sym} {n : Name} :
    (∃ x ∈ syms, x.varName = some n) ↔ n ∈ syms.filterMap Sym.varName := by
  simp [List.mem_filterMap]

/-- Updating the current function keeps the match if the new locals and arguments match. -/
theorem FrontMatch.update {s : Front} {σ : Scopes} (h : FrontMatch s σ) {i : Nat} {fi fi' : FuncInfo} {f' : FnScopes}
    {c : Int} (h1 : s.currFunc = .at i) (h2 : s.syms[i]? = some (.func fi))
    (h3 : fi'.args.map VarInfo.name = f'.args) (h4 : f'.args.Nodup) (h5 : fi'.locals.length = f'.count)
    (h6 : LocalsMatch c fi'.locals f'.opened) :
    FrontMatch { s with syms := s.syms.set i (.func fi'), currScope := c } { σ with fn := some f' } := by
  have e := filterMap_eq_of_map (varNames_set (fi' := fi') h2)
  obtain ⟨hi, _⟩ := List.getElem?_eq_some_iff.1 h2
  refine ⟨fun n => ?_, ?_, i, fi', h1, ?_, h3, h4, h5, h6⟩
  · rw [h.globals, mem_varName_iff, mem_varName_iff]; simp only [e]
  · simp only [e]; exact h.uniq
  · simp [hi]

theorem locals_open {c : Int} {locals opened} (h : LocalsMatch c locals opened) :
    LocalsMatch (c + 1) locals ([] :: opened) := by
  refine ⟨fun j L hj n k hm => ?_, fun k v hk ho => ?_, by simpa using h.uniq⟩
  · cases j with
    | zero => simp at hj; subst hj; simp at hm
    | succ j =>
      obtain ⟨v, a, b, d, e⟩ := h.isOpen j L (by simpa using hj) n k hm
      exact ⟨v, a, b, d, by rw [e]; omega⟩
  · obtain ⟨j, L, a, b⟩ := h.mem k v hk ho
    exact ⟨j + 1, L, by simpa using a, b⟩

theorem locals_close {c : Int} {locals o opened} (h : LocalsMatch c locals (o :: opened)) :
    LocalsMatch (c - 1) (locals.map (endScope c)) opened := by
  refine ⟨fun j L hj n k hm => ?_, fun k v hk ho => ?_, ?_⟩
  · obtain ⟨v, a, b, d, e⟩ := h.isOpen (j + 1) L (by simpa using hj) n k hm
    have hne : v.scope ≠ c := by rw [e]; omega
    refine ⟨v, ?_, b, d, by rw [e]; omega⟩
    rw [List.getElem?_map, a]
    simp [endScope, hne]
  · rw [List.getElem?_map] at hk
    cases hv : locals[k]? with
    | none => rw [hv] at hk; simp at hk
    | some w =>
      rw [hv] at hk
      simp only [Option.map_some, Option.some.injEq] at hk
      subst hk
      unfold endScope at ho ⊢
      by_cases e : w.scope = c
      · rw [if_pos e] at ho; simp at ho
      · rw [if_neg e] at ho ⊢
        obtain ⟨j, L, a, b⟩ := h.mem k w hv ho
        cases j with
        | zero =>
          obtain ⟨v', a', _, _, e'⟩ := h.isOpen 0 L a w.name k b
          rw [hv] at a'
          simp only [Option.some.injEq] at a'
          subst a'
          exact absurd (by rw [e']; omega) e
        | succ j => exact ⟨j, L, by simpa using a, b⟩
  · have := h.uniq
    rw [List.flatten_cons, List.map_append, List.nodup_append] at this
    exact this.2.1

theorem locals_declare {c : Int} {locals o opened} (h : LocalsMatch c locals (o :: opened)) {n : Name}
    (hn : findLocal n (o :: opened) = none) (v : VarInfo) (h1 : v.name = n) (h2 : v.scope = c) (h3 : v.ended = false) :
    LocalsMatch c (locals ++ [v]) (((n, locals.length) :: o) :: opened) := by
  refine ⟨fun j L hj m k hm => ?_, fun k w hk ho => ?_, ?_⟩
  · cases j with
    | zero =>
      simp only [List.getElem?_cons_zero, Option.some.injEq] at hj
      subst hj
      rcases List.mem_cons.1 hm with e | hm
      · simp only [Prod.mk.injEq] at e
        obtain ⟨rfl, rfl⟩ := e
        exact ⟨v, by simp, h1, h3, by rw [h2]; omega⟩
      · obtain ⟨w, a, b⟩ := h.isOpen 0 o rfl m k hm
        obtain ⟨hk, _⟩ := List.getElem?_eq_some_iff.1 a
        exact ⟨w, by rw [List.getElem?_append_left hk]; exact a, b⟩
    | succ j =>
      obtain ⟨w, a, b⟩ := h.isOpen (j + 1) L (by simpa using hj) m k hm
      obtain ⟨hk, _⟩ := List.getElem?_eq_some_iff.1 a
      exact ⟨w, by rw [List.getElem?_append_left hk]; exact a, b⟩
  · by_cases hl : k < locals.length
    · rw [List.getElem?_append_left hl] at hk
      obtain ⟨j, L, a, b⟩ := h.mem k w hk ho
      cases j with
      | zero =>
        simp only [List.getElem?_cons_zero, Option.some.injEq] at a
        subst a
        exact ⟨0, _, rfl, List.mem_cons_of_mem _ b⟩
      | succ j => exact ⟨j + 1, L, by simpa using a, b⟩
    · obtain ⟨hk', hw⟩ := List.getElem?_eq_some_iff.1 hk
      simp only [List.length_append, List.length_cons, List.length_nil] at hk'
      have : k = locals.length := by omega
      subst this
      simp at hw
      subst hw
      exact ⟨0, _, rfl, by rw [h1]; exact List.mem_cons_self⟩
  · have hu := h.uniq
    simp only [List.flatten_cons, List.cons_append, List.map_cons, List.nodup_cons] at hu ⊢
    refine ⟨?_, hu⟩
    intro hm
    obtain ⟨⟨m, k⟩, hm', e⟩ := List.mem_map.1 hm
    simp only at e
    subst e
    have : (m, k) ∈ (o :: opened).flatten := by rw [List.flatten_cons]; exact hm'
    obtain ⟨L, hL, hk⟩ := List.mem_flatten.1 this
    obtain ⟨j, hj⟩ := List.getElem?_of_mem hL
    exact findLocal_none hn j L hj k hk

/-- The arguments `DeclareArgument` adds. -/
def newArgs (nargs start : Nat) : List (Name × Tag) → List VarInfo
  | [] => []
  | a :: as => { name := a.1, idx := -(nargs : Int) + start, tag := some a.2 } :: newArgs nargs (start + 1) as

theorem newArgs_names (nargs : Nat) : ∀ (start : Nat) (as : List (Name × Tag)),
    (newArgs nargs start as).map VarInfo.name = as.map Prod.fst
  | _, [] => rfl
  | start, a :: as => by simp [newArgs, newArgs_names nargs (start + 1) as]

theorem declareArgs (nargs : Nat) : ∀ (as : List (Name × Tag)) (s : Front) (i : Nat) (fi : FuncInfo),
    s.currFunc = .at i → s.syms[i]? = some (.func fi) →
    (((fi.args.map VarInfo.name) ++ as.map Prod.fst).Nodup →
      declareArguments nargs as s = .ok () { s with
        syms := s.syms.set i (.func { fi with args := fi.args ++ newArgs nargs fi.args.length as }) }) ∧
    ((fi.args.map VarInfo.name).Nodup → ¬ ((fi.args.map VarInfo.name) ++ as.map Prod.fst).Nodup →
      ∃ s', declareArguments nargs as s = .err s')
  | [], s, i, fi, h1, h2 => by
    constructor
    · intro _
      have : s.syms.set i (.func fi) = s.syms := by
        apply List.ext_getElem?
        intro j
        rw [List.getElem?_set]
        by_cases e : i = j
        · subst e
          obtain ⟨hi, hs⟩ := List.getElem?_eq_some_iff.1 h2
          simp [hi, hs]
        · simp [e]
      simp only [newArgs, List.append_nil, this]
      rfl
    · intro ha hb; simp at hb; exact absurd ha hb
  | a :: as, s, i, fi, h1, h2 => by
    obtain ⟨hi, hs⟩ := List.getElem?_eq_some_iff.1 h2
    by_cases hm : fi.args.any (fun v => v.name == a.1) = true
    · have hmem : a.1 ∈ fi.args.map VarInfo.name := by
        obtain ⟨v, hv, e⟩ := List.any_eq_true.1 hm
        simp only [beq_iff_eq] at e
        exact List.mem_map.2 ⟨v, hv, e⟩
      constructor
      · intro hd
        exact absurd rfl ((List.nodup_append.1 hd).2.2 a.1 hmem a.1 (by simp))
      · intro _ _
        refine ⟨s, ?_⟩
        rw [declareArguments, act_bind]
        have : declareArgument a.1 a.2 nargs s = .err s := by
          unfold declareArgument
          simp only [act_bind, currentFunc, h1, h2]
          rw [if_pos hm]; rfl
        rw [this]
    · have hstep : declareArgument a.1 a.2 nargs s = .ok () { s with
          syms := s.syms.set i (.func { fi with
            args := fi.args ++ [{ name := a.1, idx := -(nargs : Int) + fi.args.length, tag := some a.2 }] }) } := by
        unfold declareArgument
        simp only [act_bind, currentFunc, h1, h2]
        rw [if_neg hm]
        simp only [updateFunc, h1, h2]
      have ih := declareArgs nargs as { s with
          syms := s.syms.set i (.func { fi with
            args := fi.args ++ [{ name := a.1, idx := -(nargs : Int) + fi.args.length, tag := some a.2 }] }) } i
          { fi with args := fi.args ++ [{ name := a.1, idx := -(nargs : Int) + fi.args.length, tag := some a.2 }] }
          h1 (by simp [hi])
      have hnm : a.1 ∉ fi.args.map VarInfo.name := by
        intro hm'
        obtain ⟨v, hv, e⟩ := List.mem_map.1 hm'
        exact hm (List.any_eq_true.2 ⟨v, hv, by simp [e]⟩)
      simp only [List.map_append, List.map_cons, List.map_nil, List.append_assoc, List.singleton_append,
        List.length_append, List.length_cons, List.length_nil, Nat.zero_add] at ih
      constructor
      · intro hd
        rw [declareArguments, act_bind, hstep]
        simp only
        rw [ih.1 (by simpa using hd)]
        simp [newArgs]
      · intro ha hd
        rw [declareArguments, act_bind, hstep]
        refine ih.2 ?_ (by simpa using hd)
        rw [List.nodup_append]
        exact ⟨ha, by simp, fun x hx y hy => by simp at hy; subst hy; rintro rfl; exact hnm hx⟩

theorem FrontMatch.push {s : Front} {σ : Scopes} (h : FrontMatch s σ) (x : Sym) :
    (x.varName = none → FrontMatch { s with syms := s.syms ++ [x] } σ) ∧
    (∀ n, x.varName = some n → n ∉ σ.globals →
      FrontMatch { s with syms := s.syms ++ [x] } { σ with globals := n :: σ.globals }) := by
  have hfn : ∀ σ' : Scopes, σ'.fn = σ.fn → match σ'.fn with
    | none => s.currFunc = .none
    | some f => ∃ (i : Nat) (fi : FuncInfo), s.currFunc = .at i ∧ (s.syms ++ [x])[i]? = some (.func fi) ∧ fi.args.map VarInfo.name = f.args ∧
        f.args.Nodup ∧ fi.locals.length = f.count ∧ LocalsMatch s.currScope fi.locals f.opened := by
    intro σ' e
    have := h.fn
    rw [e]
    cases hf : σ.fn with
    | none => rw [hf] at this; exact this
    | some f =>
      rw [hf] at this
      obtain ⟨i, fi, h1, h2, h3⟩ := this
      obtain ⟨hi, _⟩ := List.getElem?_eq_some_iff.1 h2
      exact ⟨i, fi, h1, by rw [List.getElem?_append_left hi]; exact h2, h3⟩
  constructor
  · intro hx
    refine ⟨fun n => ?_, ?_, hfn σ rfl⟩
    · rw [h.globals, mem_varName_iff, mem_varName_iff]
      simp [List.filterMap_append, hx]
    · simpa [List.filterMap_append, hx] using h.uniq
  · intro n hx hn
    refine ⟨fun m => ?_, ?_, hfn _ rfl⟩
    · rw [mem_varName_iff]
      simp only [List.filterMap_append, List.mem_append, List.mem_cons, h.globals, mem_varName_iff]
      simp [hx, or_comm]
    · rw [h.globals, mem_varName_iff] at hn
      simp only [List.filterMap_append, List.nodup_append]
      refine ⟨h.uniq, by simp [hx], ?_⟩
      intro a ha b hb
      simp [hx] at hb
      subst hb
      rintro rfl
      exact hn ha

/-- The counters do not matter. -/
theorem FrontMatch.counters {s s' : Front} {σ : Scopes} (h : FrontMatch s σ) (h1 : s'.syms = s.syms)
    (h2 : s'.currFunc = s.currFunc) (h3 : s'.currScope = s.currScope) : FrontMatch s' σ := by
  obtain ⟨a, b, c⟩ := h
  refine ⟨by rw [h1]; exact a, by rw [h1]; exact b, ?_⟩
  rw [h1, h2, h3]; exact c

/-- One event. -/
theorem runEv_match {s : Front} {σ : Scopes} (h : FrontMatch s σ) (e : ScopeEv) :
    match σ.step e with
    | .ok σ' => ∃ s', runEv e s = .ok () s' ∧ FrontMatch s' σ'
    | .rejected => ∃ s', runEv e s = .err s'
    | .illNested => True := by
  have hfn := h.fn
  cases e with
  | enter n args =>
    cases hf : σ.fn with
    | some f => simp [Scopes.step, hf]
    | none =>
      rw [hf] at hfn
      simp only at hfn
      -- the state after the function has been declared
      let fi : FuncInfo := { name := n, index := s.numFunctions }
      let s1 : Front := { s with syms := s.syms ++ [.func fi], numFunctions := s.numFunctions + 1,
                                 currFunc := .at s.syms.length }
      have hrun : runEv (.enter n args) s = declareArguments args.length args s1 := rfl
      have hsyms : s1.syms[s.syms.length]? = some (.func fi) := by simp [s1]
      have hd := declareArgs args.length args s1 s.syms.length fi rfl hsyms
      have hm1 := (h.push (.func fi)).1 rfl
      simp only [Scopes.step, hf]
      by_cases hnd : (args.map Prod.fst).Nodup
      · rw [if_pos hnd]
        refine ⟨_, (hrun.trans (hd.1 (by simpa [fi] using hnd))), ?_⟩
        have e := filterMap_eq_of_map (varNames_set
          (fi' := { fi with args := fi.args ++ newArgs args.length fi.args.length args }) hsyms)
        refine ⟨fun m => ?_, ?_, s.syms.length, { fi with args := fi.args ++ newArgs args.length fi.args.length args }, rfl, ?_, ?_, hnd, rfl, ?_, ?_, ?_⟩
        · rw [mem_varName_iff]
          simp only [e]
          rw [← mem_varName_iff]
          exact hm1.globals m
        · simp only [e]; exact hm1.uniq
        · simp [s1]
        · simp only [fi, List.nil_append, newArgs_names]
        · intro j L hj m k hm
          cases j <;> simp at hj
          subst hj; simp at hm
        · intro k v hk; simp [fi] at hk
        · simp
      · rw [if_neg hnd]
        obtain ⟨s', hs'⟩ := hd.2 (by simp [fi]) (by simpa [fi] using hnd)
        exact ⟨s', hrun.trans hs'⟩
  | leave =>
    cases hf : σ.fn with
    | none => simp [Scopes.step, hf]
    | some f =>
      obtain ⟨a, os, c⟩ := f
      match os with
      | [] => simp [Scopes.step, hf]
      | [o] =>
        simp only [Scopes.step, hf]
        exact ⟨_, rfl, h.globals, h.uniq, rfl⟩
      | o :: o' :: os => simp [Scopes.step, hf]
  | opn =>
    cases hf : σ.fn with
    | none =>
      rw [hf] at hfn
      simp only [Scopes.step, hf]
      exact ⟨_, rfl, h.globals, h.uniq, by simp only [hf]; exact hfn⟩
    | some f =>
      rw [hf] at hfn
      obtain ⟨i, fi, h1, h2, h3, h4, h5, h6⟩ := hfn
      simp only [Scopes.step, hf]
      exact ⟨_, rfl, h.globals, h.uniq, i, fi, h1, h2, h3, h4, h5, locals_open h6⟩
  | close =>
    cases hf : σ.fn with
    | none =>
      rw [hf] at hfn
      simp only at hfn
      simp only [Scopes.step, hf]
      by_cases hz : σ.outer = 0
      · simp [hz]
      · rw [if_neg hz]
        refine ⟨{ s with currScope := s.currScope - 1 }, ?_, h.globals, h.uniq, by simp only [hf]; exact hfn⟩
        simp only [runEv, closeScope, act_bind, Act.get, hfn, act_pure, Act.modify]
    | some f =>
      rw [hf] at hfn
      obtain ⟨a, os, c⟩ := f
      match os with
      | [] => simp [Scopes.step, hf]
      | [o] => simp [Scopes.step, hf]
      | o :: o' :: os =>
        obtain ⟨i, fi, h1, h2, h3, h4, h5, h6⟩ := hfn
        simp only [Scopes.step, hf]
        refine ⟨_, ?_, h.update (f' := ⟨a, o' :: os, c⟩)
          (fi' := { fi with locals := fi.locals.map (endScope s.currScope) }) h1 h2 h3 h4
          (by simpa using h5) (locals_close h6)⟩
        simp only [runEv, closeScope, act_bind, Act.get, h1, updateFunc, h2, Act.modify]
  | declare n =>
    cases hf : σ.fn with
    | none =>
      rw [hf] at hfn
      simp only at hfn
      obtain ⟨r, hr, hri⟩ := reference_match h n
      rw [Scopes.lookup, hf] at hri
      simp only at hri
      simp only [Scopes.step, hf]
      by_cases hg : n ∈ σ.globals
      · rw [if_pos hg] at hri ⊢
        match r, hri with
        | some (.glob i), _ =>
          refine ⟨s, ?_⟩
          simp only [runEv, act_bind, Act.get, hfn, declareGlobalVar, hr, Act.report]
      · rw [if_neg hg] at hri ⊢
        match r, hri with
        | none, _ =>
          rw [← hf]
          refine ⟨_, ?_, ((h.push (.glob { name := n, idx := s.numGlobalVars })).2 n rfl hg).counters
            (s' := { s with syms := s.syms ++ [.glob { name := n, idx := s.numGlobalVars }],
                            numGlobalVars := s.numGlobalVars + 1 }) rfl rfl rfl⟩
          simp only [runEv, act_bind, Act.get, hfn, declareGlobalVar, hr, pushSym, Act.modify, act_pure]
    | some f =>
      rw [hf] at hfn
      obtain ⟨a, os, c⟩ := f
      match os with
      | [] => simp [Scopes.step, hf]
      | o :: os =>
        obtain ⟨i, fi, h1, h2, h3, h4, h5, h6⟩ := hfn
        simp only [Scopes.step, hf]
        have hany := h6.any n
        cases hl : findLocal n (o :: os) with
        | some k =>
          simp only [hl, Option.isSome_some] at hany
          refine ⟨s, ?_⟩
          simp only [runEv, act_bind, Act.get, h1, declareLocal, currentFunc, h2, hany, if_true, Act.report]
        | none =>
          simp only [hl, Option.isSome_none] at hany
          refine ⟨_, ?_, h.update (f' := ⟨a, ((n, c) :: o) :: os, c + 1⟩)
            (fi' := { fi with locals := fi.locals ++ [{ name := n, idx := fi.locals.length, scope := s.currScope }] })
            (c := s.currScope) h1 h2 h3 h4 (by simp at h5; simp [h5]) ?_⟩
          · simp only [runEv, act_bind, Act.get, h1, declareLocal, currentFunc, h2, hany, Bool.false_eq_true, if_false, updateFunc, act_pure]
          · simp only at h5
            rw [← h5]
            exact locals_declare h6 hl _ rfl rfl rfl
  | const n t v =>
    obtain ⟨r, hr, hri⟩ := reference_match h n
    simp only [Scopes.step]
    cases hl : σ.lookup n with
    | some r' =>
      rw [hl] at hri
      simp only [Option.isSome_some, if_true]
      match r, hri with
      | some r, _ =>
        refine ⟨s, ?_⟩
        simp only [runEv, declareConst, act_bind, hr, Act.report]
    | none =>
      rw [hl] at hri
      simp only [Option.isSome_none, Bool.false_eq_true, if_false]
      match r, hri with
      | none, _ =>
        have hg : n ∉ σ.globals := by
          intro hg
          unfold Scopes.lookup at hl
          cases hf : σ.fn with
          | none => rw [hf] at hl; simp [hg] at hl
          | some f =>
            rw [hf] at hl
            simp only [hg, if_true] at hl
            cases h1 : findLocal n f.opened with
            | some k => rw [h1] at hl; simp at hl
            | none =>
              rw [h1] at hl
              cases h2 : f.args.findIdx? (· == n) with
              | some k => rw [h2] at hl; simp at hl
              | none => rw [h2] at hl; simp at hl
        exact ⟨_, by simp only [runEv, declareConst, act_bind, hr, pushSym, Act.modify],
          (h.push (.const n t v)).2 n rfl hg⟩

/-- Every sequence of events. -/
theorem runEvs_match (es : List ScopeEv) : ∀ {s : Front} {σ : Scopes}, FrontMatch s σ →
    match σ.run es with
    | .ok σ' => ∃ s', runEvs es s = .ok () s' ∧ FrontMatch s' σ'
    | .rejected => ∃ s', runEvs es s = .err s'
    | .illNested => True := by
  induction es with
  | nil => intro s σ h; exact ⟨s, rfl, h⟩
  | cons e es ih =>
    intro s σ h
    have h1 := runEv_match h e
    simp only [Scopes.run]
    cases hs : σ.step e with
    | ok σ' =>
      rw [hs] at h1
      obtain ⟨s', h2, h3⟩ := h1
      have := ih h3
      simp only [runEvs, act_bind, h2]
      exact this
    | rejected =>
      rw [hs] at h1
      obtain ⟨s', h2⟩ := h1
      exact ⟨s', by simp only [runEvs, act_bind, h2]⟩
    | illNested => trivial

end Tiny
