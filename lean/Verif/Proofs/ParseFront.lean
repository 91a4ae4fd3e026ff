import Verif.Proofs.ParseSafeS
import Verif.Spec.Keep

/-!
# The symbol table operations of the parser
-/

namespace Tiny
open Spec

theorem _root_.Tiny.Spec.Keeps.refl (f : Front) : Keeps f f :=
  ⟨fun _ x h => ⟨x, h, .same x⟩, List.prefix_rfl, Nat.le_refl _, Nat.le_refl _, rfl⟩

/-- Position `j` is new. -/
def New (f0 : Front) (j : Nat) : Prop := f0.syms.length ≤ j

theorem _root_.Tiny.Spec.Keeps.new_len {f0 f : Front} (h : Keeps f0 f) : New f0 f.syms.length := by
  refine Nat.le_of_not_lt fun hlt => ?_
  obtain ⟨y, hy, -⟩ := h.syms _ _ (List.getElem?_eq_getElem hlt)
  simp at hy

theorem _root_.Tiny.Spec.Keeps.push {f0 f : Front} (h : Keeps f0 f) (x : Sym) : Keeps f0 { f with syms := f.syms ++ [x] } := by
  refine ⟨fun i x hx => ?_, h.strings, h.globals, h.functions, h.foreign⟩
  obtain ⟨y, hy, hk⟩ := h.syms i x hx
  exact ⟨y, by rw [List.getElem?_append_left ((List.getElem?_eq_some_iff.1 hy).1)]; exact hy, hk⟩

theorem _root_.Tiny.Spec.Keeps.set {f0 f : Front} (h : Keeps f0 f) {j : Nat} (x : Sym) (hj : New f0 j) :
    Keeps f0 { f with syms := f.syms.set j x } := by
  refine ⟨fun i y hy => ?_, h.strings, h.globals, h.functions, h.foreign⟩
  obtain ⟨z, hz, hk⟩ := h.syms i y hy
  refine ⟨z, ?_, hk⟩
  have : i < f0.syms.length := (List.getElem?_eq_some_iff.1 hy).1
  unfold New at hj
  rw [List.getElem?_set_ne (by omega)]
  exact hz

theorem _root_.Tiny.Spec.Keeps.of_eq {f0 f f' : Front} (h : Keeps f0 f) (h1 : f'.syms = f.syms) (h2 : f'.strings = f.strings)
    (h3 : f.numGlobalVars ≤ f'.numGlobalVars) (h4 : f.numFunctions ≤ f'.numFunctions)
    (h5 : f'.numForeign = f.numForeign) : Keeps f0 f' :=
  ⟨by rw [h1]; exact h.syms, by rw [h2]; exact h.strings, Nat.le_trans h.globals h3, Nat.le_trans h.functions h4,
    by rw [h5]; exact h.foreign⟩

/-- The first struct symbol of name `n` is at `j`. -/
def First (n : Name) (j : Nat) (syms : List Sym) (d : Bool) (fs : List (Name × Tag)) : Prop :=
  syms[j]? = some (.struct n d fs) ∧ ∀ (i : Nat) (x : Sym), i < j → syms[i]? = some x → x.isStruct n = false

theorem structInfo_eq {n : Name} {x : Sym} :
    x.structInfo n = none ∧ x.isStruct n = false ∨
      ∃ d fs, x = .struct n d fs ∧ x.structInfo n = some (d, fs) ∧ x.isStruct n = true := by
  cases x with
  | struct m d fs =>
    by_cases h : m = n
    · subst h; right; exact ⟨d, fs, rfl, by simp [Sym.structInfo], by simp [Sym.isStruct]⟩
    · left; exact ⟨by simp [Sym.structInfo, h], by simp [Sym.isStruct, h]⟩
  | _ => left; exact ⟨rfl, rfl⟩

theorem First.find {n : Name} : ∀ {syms : List Sym} {j : Nat} {d fs}, First n j syms d fs →
    syms.findSome? (·.structInfo n) = some (d, fs) ∧ ∀ x, updateStruct n x syms = syms.set j x
  | [], j, d, fs, h => by simp [First] at h
  | y :: ys, j, d, fs, ⟨h1, h2⟩ => by
    cases j with
    | zero =>
      simp at h1; subst h1
      exact ⟨by simp [Sym.structInfo], fun x => by simp [updateStruct, Sym.isStruct]⟩
    | succ j =>
      have hy := h2 0 y (by omega) (by simp)
      have hn : y.structInfo n = none := by
        rcases structInfo_eq (n := n) (x := y) with h | ⟨_, _, _, _, h⟩
        · exact h.1
        · rw [hy] at h; cases h
      obtain ⟨a, b⟩ := First.find (n := n) (syms := ys) (j := j) (d := d) (fs := fs)
        ⟨by simpa using h1, fun i x hi hx => h2 (i + 1) x (by omega) (by simpa using hx)⟩
      exact ⟨by simp [List.findSome?_cons, hn, a], fun x => by simp [updateStruct, hy, b]⟩

theorem first_of_find {n : Name} : ∀ {syms : List Sym} {d fs}, syms.findSome? (·.structInfo n) = some (d, fs) →
    ∃ j, First n j syms d fs
  | [], d, fs, h => by simp at h
  | y :: ys, d, fs, h => by
    rcases structInfo_eq (n := n) (x := y) with hy | ⟨d', fs', rfl, hy, -⟩
    · rw [List.findSome?_cons, hy.1] at h
      obtain ⟨j, h1, h2⟩ := first_of_find h
      refine ⟨j + 1, by simpa using h1, fun i x hi hx => ?_⟩
      cases i with
      | zero => simp at hx; subst hx; exact hy.2
      | succ i => exact h2 i x (by omega) (by simpa using hx)
    · rw [List.findSome?_cons, hy] at h
      cases h
      exact ⟨0, by simp, fun i x hi => by omega⟩

theorem First.push {n : Name} {syms : List Sym} {j : Nat} {d fs} (h : First n j syms d fs) (x : Sym) :
    First n j (syms ++ [x]) d fs := by
  have hj := (List.getElem?_eq_some_iff.1 h.1).1
  refine ⟨by rw [List.getElem?_append_left hj]; exact h.1, fun i y hi hy => ?_⟩
  rw [List.getElem?_append_left (by omega)] at hy
  exact h.2 i y hi hy

theorem First.set {n : Name} {syms : List Sym} {j : Nat} {d fs} (h : First n j syms d fs) (d' : Bool) (fs') :
    First n j (syms.set j (.struct n d' fs')) d' fs' := by
  have hj := (List.getElem?_eq_some_iff.1 h.1).1
  refine ⟨by simp [hj], fun i y hi hy => ?_⟩
  rw [List.getElem?_set_ne (by omega)] at hy
  exact h.2 i y hi hy

theorem First.unique {n : Name} {syms : List Sym} {j j' : Nat} {d fs d' fs'} (h : First n j syms d fs)
    (h' : First n j' syms d' fs') : j = j' := by
  rcases Nat.lt_trichotomy j j' with hlt | heq | hlt
  · have := h'.2 j _ hlt h.1
    simp [Sym.isStruct] at this
  · exact heq
  · have := h.2 j' _ hlt h'.1
    simp [Sym.isStruct] at this

/-- Where the current function is. -/
def InFn (f0 s : Front) (P : FuncInfo → Prop) : Prop :=
  ∃ i fi, s.currFunc = .at i ∧ New f0 i ∧ s.syms[i]? = some (.func fi) ∧ P fi

/-- Between statements, outside or inside a function. -/
def AtStmt (f0 : Front) (b : Bool) (s : Front) : Prop :=
  Keeps f0 s ∧ if b then InFn f0 s fun fi => fi.ret.isSome else s.currFunc = .none

/-- A variable just declared. -/
def DeclOk (f0 : Front) (b : Bool) (s : Front) : Option SymRef → Prop
  | some (.loc _) => b = true
  | some (.glob i) => New f0 i ∧ ∃ v, s.syms[i]? = some (.glob v)
  | _ => False

/-- A struct being defined. -/
def InStruct (f0 : Front) (n : Name) (s : Front) : Prop :=
  ∃ j d fs, First n j s.syms d fs ∧ ∀ x, f0.syms[j]? = some x → ∃ fs0, x = .struct n false fs0

/-- The phases for the C symbol table. -/
def frontPhase (f0 : Front) : Phase (Option SymRef) → Front → Prop
  | .stmt b, s => AtStmt f0 b s
  | .header, s => Keeps f0 s ∧ InFn f0 s fun _ => True
  | .decl b v, s => AtStmt f0 b s ∧ DeclOk f0 b s v
  | .struct n, s => AtStmt f0 false s ∧ InStruct f0 n s

theorem frontPhase_keeps {f0 : Front} {p s} (h : frontPhase f0 p s) : Keeps f0 s := by
  cases p with
  | stmt b => exact h.1
  | header => exact h.1
  | decl b v => exact h.1.1
  | struct n => exact h.1.1

theorem InFn.push {f0 s : Front} {P} (h : InFn f0 s P) (x : Sym) : InFn f0 { s with syms := s.syms ++ [x] } P := by
  obtain ⟨i, fi, h1, h2, h3, h4⟩ := h
  exact ⟨i, fi, h1, h2, by
    show (s.syms ++ [x])[i]? = _
    rw [List.getElem?_append_left (List.getElem?_eq_some_iff.1 h3).1]; exact h3, h4⟩

theorem AtStmt.push {f0 s : Front} {b} (h : AtStmt f0 b s) (x : Sym) : AtStmt f0 b { s with syms := s.syms ++ [x] } := by
  refine ⟨h.1.push x, ?_⟩
  have := h.2
  cases b
  · exact this
  · exact InFn.push this x

/-- Adding a symbol keeps every phase. -/
theorem frontPhase_push {f0 : Front} {p s} (h : frontPhase f0 p s) (x : Sym) :
    frontPhase f0 p { s with syms := s.syms ++ [x] } := by
  cases p with
  | stmt b => exact AtStmt.push h x
  | header => exact ⟨h.1.push x, h.2.push x⟩
  | decl b v =>
    refine ⟨h.1.push x, ?_⟩
    have := h.2
    cases v with
    | none => exact this
    | some r =>
      cases r with
      | loc k => exact this
      | arg k => exact this
      | glob i =>
        obtain ⟨h1, w, h2⟩ := this
        exact ⟨h1, w, by
          show (s.syms ++ [x])[i]? = _
          rw [List.getElem?_append_left (List.getElem?_eq_some_iff.1 h2).1]; exact h2⟩
  | struct n =>
    obtain ⟨h1, j, d, fs, h2, h3⟩ := h
    exact ⟨h1.push x, j, d, fs, h2.push x, h3⟩

theorem currentFunc_at {f0 s : Front} {b} (h : AtStmt f0 b s) :
    ∃ r, currentFunc s = .ok r s ∧ (b = true → ∃ i fi, r = some fi ∧ s.currFunc = .at i ∧ New f0 i ∧
      s.syms[i]? = some (.func fi) ∧ fi.ret.isSome) ∧ (b = false → r = none) := by
  have := h.2
  cases b
  · simp at this
    exact ⟨none, by simp [currentFunc, this], by simp, fun _ => rfl⟩
  · obtain ⟨i, fi, h1, h2, h3, h4⟩ := this
    exact ⟨some fi, by simp [currentFunc, h1, h3], fun _ => ⟨i, fi, rfl, h1, h2, h3, h4⟩, by simp⟩

theorem reference_at {f0 s : Front} {b} (h : AtStmt f0 b s) (n : Name) : ∃ r, referenceVariable n s = .ok r s := by
  obtain ⟨r, hr, -⟩ := currentFunc_at h
  unfold referenceVariable
  rw [Act.bind_apply, hr]
  dsimp only
  cases lookupFunc n r with
  | some x => exact ⟨_, rfl⟩
  | none => exact ⟨_, rfl⟩

/-- Writing to the current function. -/
theorem InFn.update {f0 s : Front} {P Q : FuncInfo → Prop} (h : InFn f0 s P) (u : FuncInfo → FuncInfo)
    (hu : ∀ fi, P fi → Q (u fi)) (hk : Keeps f0 s) :
    ∃ s', updateFunc u s = .ok () s' ∧ Keeps f0 s' ∧ InFn f0 s' Q ∧ s'.currFunc = s.currFunc ∧
      s'.currScope = s.currScope := by
  obtain ⟨i, fi, h1, h2, h3, h4⟩ := h
  refine ⟨{ s with syms := s.syms.set i (.func (u fi)) }, by simp [updateFunc, h1, h3], hk.set _ h2, ?_, rfl, rfl⟩
  exact ⟨i, u fi, h1, h2, by simp [(List.getElem?_eq_some_iff.1 h3).1], hu fi h4⟩

theorem AtStmt.keeps_eq {f0 s s' : Front} {b} (h : AtStmt f0 b s) (h1 : s'.syms = s.syms) (h2 : s'.strings = s.strings)
    (h3 : s.numGlobalVars ≤ s'.numGlobalVars) (h4 : s.numFunctions ≤ s'.numFunctions)
    (h5 : s'.numForeign = s.numForeign) (h6 : s'.currFunc = s.currFunc) : AtStmt f0 b s' := by
  refine ⟨h.1.of_eq h1 h2 h3 h4 h5, ?_⟩
  have := h.2
  cases b
  · simp at this ⊢; rw [h6, this]
  · obtain ⟨i, fi, g1, g2, g3, g4⟩ := this
    exact ⟨i, fi, by rw [h6, g1], g2, by rw [h1, g3], g4⟩

theorem registerString_at {f0 s : Front} {b} (h : AtStmt f0 b s) (x : List UInt8) :
    (∃ i s', registerString x s = .ok i s' ∧ AtStmt f0 b s') ∨ registerString x s = .abort ∧ s.strings.length = maxStrings
      ∨ registerString x s = .abort ∧ maxStrings < s.strings.length := by
  unfold registerString
  split
  · exact .inl ⟨_, _, rfl, h⟩
  · split
    · refine .inl ⟨_, _, rfl, ⟨?_, ?_⟩⟩
      · exact ⟨h.1.syms, h.1.strings.trans (List.prefix_append _ _), h.1.globals, h.1.functions, h.1.foreign⟩
      · have := h.2
        cases b
        · exact this
        · exact this
    · next hn =>
      rcases Nat.lt_or_eq_of_le (Nat.le_of_not_lt hn) with h | h
      · exact .inr (.inr ⟨rfl, h⟩)
      · exact .inr (.inl ⟨rfl, h.symm⟩)

theorem declareArguments_at {f0 : Front} (n : Nat) : ∀ (ps : List (Name × Tag)),
    Triple False (Keeps f0) (frontPhase f0 .header) (declareArguments n ps) fun _ => frontPhase f0 .header
  | [], s, hs => hs
  | p :: ps, s, hs => by
    obtain ⟨hk, i, fi, h1, h2, h3, -⟩ := hs
    have hc : currentFunc s = .ok (some fi) s := by simp [currentFunc, h1, h3]
    unfold declareArguments declareArgument
    rw [Act.bind_apply, Act.bind_apply, hc]
    dsimp only
    by_cases hany : fi.args.any (fun v => v.name == p.1)
    · rw [if_pos hany]
      exact hk
    · rw [if_neg hany]
      obtain ⟨s', hs', hk', hin, -⟩ := InFn.update (P := fun _ => True) (Q := fun _ => True) ⟨i, fi, h1, h2, h3, trivial⟩
        (fun fi => { fi with
          args := fi.args ++ [{ name := p.1, idx := -(n : Int) + fi.args.length, tag := some p.2 }] })
        (fun _ _ => trivial) hk
      rw [hs']
      exact declareArguments_at n ps s' ⟨hk', hin⟩

/-- How an action may end. -/
def Ends {τ α : Type} (A : Prop) (E : τ → Prop) (Q : α → τ → Prop) : Out τ α → Prop
  | .ok x s' => Q x s'
  | .err s' => E s'
  | .abort => A
  | .ub => False
  | .timeout => False

theorem triple_ends {τ α : Type} {A : Prop} {E P : τ → Prop} {a : Act τ α} {Q : α → τ → Prop}
    (h : ∀ s, P s → Ends A E Q (a s)) : Triple A E P a Q := by
  intro s hs
  have := h s hs
  cases ha : a s with
  | _ => rw [ha] at this; exact this

/-- **The operations of the C code**, but for string literals, satisfy what the parser needs. -/
theorem frontOps_plain (f0 : Front) : OpsSafe (fun _ => False) False (Keeps f0) (frontPhase f0) frontOps where
  err := fun _ _ => frontPhase_keeps
  ref := fun n b => triple_ends (a := referenceVariable n) fun s hs => by
    obtain ⟨r, hr⟩ := reference_at hs n
    rw [hr]
    exact hs
  str := fun _ _ h => h.elim
  struct := fun n b => triple_ends (a := declareStruct n) fun s hs => by
    unfold declareStruct
    rw [Act.bind_apply]
    simp only [Act.get]
    split
    · exact hs
    · exact AtStmt.push hs _
  named := fun n p => triple_ends (a := getTagFromName n) fun s hs => by
    unfold getTagFromName
    cases primTag n with
    | some t => exact hs
    | none =>
      dsimp only
      rw [Act.bind_apply]
      simp only [Act.get]
      cases List.findSome? (·.asType n) s.syms with
      | some t => exact hs
      | none => exact frontPhase_push hs _
  nullable := fun t p => triple_ends (a := makeNullable t) fun s hs => by
    unfold makeNullable getOrCreateNullable
    split
    · exact frontPhase_keeps hs
    · rw [Act.bind_apply]
      simp only [Act.get]
      split
      · exact hs
      · exact frontPhase_push hs _
  openScope := fun b s hs => AtStmt.keeps_eq hs rfl rfl (Nat.le_refl _) (Nat.le_refl _) rfl rfl
  closeScope := fun b => triple_ends (a := closeScope) fun s hs => by
    cases b
    · have hc : s.currFunc = .none := by simpa using hs.2
      have : closeScope s = .ok () { s with currScope := s.currScope - 1 } := by
        unfold closeScope
        rw [Act.bind_apply]
        simp only [Act.get, hc]
        simp [Act.modify, hc]
      rw [this]
      exact AtStmt.keeps_eq hs rfl rfl (Nat.le_refl _) (Nat.le_refl _) rfl rfl
    · have hin : InFn f0 s fun fi => fi.ret.isSome := by simpa using hs.2
      obtain ⟨s', h1, h2, h3, h4, h5⟩ := hin.update (Q := fun fi => fi.ret.isSome)
        (fun fi => { fi with locals := fi.locals.map (endScope s.currScope) }) (fun _ h => h) hs.1
      obtain ⟨i, fi, hc, -⟩ := hin
      have : closeScope s = .ok () { s' with currScope := s'.currScope - 1 } := by
        unfold closeScope
        rw [Act.bind_apply]
        simp only [Act.get, hc]
        rw [Act.bind_apply, h1]
        rfl
      rw [this]
      exact AtStmt.keeps_eq (s := s') ⟨h2, h3⟩ rfl rfl (Nat.le_refl _) (Nat.le_refl _) rfl rfl
  noFunc := fun b => triple_ends (a := requireFunc false) fun s hs => by
    unfold requireFunc
    rw [Act.bind_apply]
    simp only [Act.get]
    cases b
    · have hc : s.currFunc = .none := by simpa using hs.2
      rw [if_pos (by simp [hc])]
      exact ⟨rfl, hs⟩
    · obtain ⟨i, fi, hc, -⟩ := (by simpa using hs.2 : InFn f0 s fun fi => fi.ret.isSome)
      rw [if_neg (by simp [hc])]
      exact hs.1
  inFunc := fun b => triple_ends (a := requireFunc true) fun s hs => by
    unfold requireFunc
    rw [Act.bind_apply]
    simp only [Act.get]
    cases b
    · have hc : s.currFunc = .none := by simpa using hs.2
      rw [if_neg (by simp [hc])]
      exact hs.1
    · obtain ⟨i, fi, hc, -⟩ := (by simpa using hs.2 : InFn f0 s fun fi => fi.ret.isSome)
      rw [if_pos (by simp [hc])]
      exact ⟨rfl, hs⟩
  valueFunc := triple_ends (a := requireValueFunc) fun s hs => by
    obtain ⟨r, hr, h1, -⟩ := currentFunc_at hs
    obtain ⟨i, fi, rfl, -, -, -, hret⟩ := h1 rfl
    unfold requireValueFunc
    rw [Act.bind_apply, hr]
    obtain ⟨n, x, a, l, ret⟩ := fi
    cases ret with
    | none => cases hret
    | some t => cases t <;> first | exact hs | exact hs.1
  topLevel := fun b => triple_ends (a := requireTopLevel) fun s hs => by
    unfold requireTopLevel
    rw [Act.bind_apply]
    simp only [Act.get]
    split
    · exact hs.1
    · exact hs
  beginFunc := fun n => triple_ends (a := beginFunc n) fun s hs => by
    show frontPhase f0 .header { s with
      syms := s.syms ++ [.func { name := n, index := s.numFunctions }], numFunctions := s.numFunctions + 1,
      currFunc := .at s.syms.length }
    refine ⟨?_, s.syms.length, { name := n, index := s.numFunctions }, rfl, hs.1.new_len, ?_, trivial⟩
    · exact (hs.1.push _).of_eq rfl rfl (Nat.le_refl _) (Nat.le_succ _) rfl
    · show (s.syms ++ [_])[s.syms.length]? = _
      simp
  params := fun ps => declareArguments_at ps.length ps
  setRet := fun r => triple_ends (a := updateFunc fun fi => { fi with ret := some (r.getD .void) }) fun s hs => by
    obtain ⟨s', h1, h2, h3, -⟩ := hs.2.update (Q := fun fi => fi.ret.isSome)
      (fun fi => { fi with ret := some (r.getD .void) }) (fun _ _ => rfl) hs.1
    rw [h1]
    exact ⟨h2, h3⟩
  endFunc := fun s hs => ⟨hs.1.of_eq rfl rfl (Nat.le_refl _) (Nat.le_refl _) rfl, rfl⟩
  declare := fun n b => triple_ends (a := declareVar n) fun s hs => by
    unfold declareVar
    rw [Act.bind_apply]
    simp only [Act.get]
    cases b
    · have hc : s.currFunc = .none := by simpa using hs.2
      rw [if_neg (by simp [hc]), Act.bind_apply]
      unfold declareGlobalVar
      obtain ⟨r, hr⟩ := reference_at hs n
      rw [Act.bind_apply, hr]
      dsimp only
      have key : Ends False (Keeps f0) (fun v => frontPhase f0 (.decl false v)) (.ok (some (.glob s.syms.length))
          { s with syms := s.syms ++ [.glob { name := n, idx := s.numGlobalVars }],
                   numGlobalVars := s.numGlobalVars + 1 }) := by
        refine ⟨⟨(hs.1.push _).of_eq rfl rfl (Nat.le_succ _) (Nat.le_refl _) rfl, hc⟩, hs.1.new_len,
          { name := n, idx := s.numGlobalVars }, ?_⟩
        show (s.syms ++ [_])[s.syms.length]? = _
        simp
      cases r with
      | none => exact key
      | some r =>
        cases r with
        | glob i => exact hs.1
        | loc i => exact key
        | arg i => exact key
    · have hin : InFn f0 s fun fi => fi.ret.isSome := by simpa using hs.2
      obtain ⟨i, fi, hc, -, hi, -⟩ := id hin
      rw [if_pos (by simp [hc]), Act.bind_apply]
      unfold declareLocal
      have hcf : currentFunc s = .ok (some fi) s := by simp [currentFunc, hc, hi]
      rw [Act.bind_apply, hcf]
      dsimp only
      by_cases hany : fi.locals.any (fun v => !v.ended && v.name == n)
      · rw [if_pos hany]
        exact hs.1
      · rw [if_neg hany, Act.bind_apply]
        simp only [Act.get]
        obtain ⟨s', h1, h2, h3, -⟩ := hin.update (Q := fun fi => fi.ret.isSome)
          (fun fi => { fi with locals := fi.locals ++ [{ name := n, idx := fi.locals.length, scope := s.currScope }] })
          (fun _ h => h) hs.1
        rw [Act.bind_apply, h1]
        exact ⟨⟨h2, h3⟩, rfl⟩
  setTag := fun b v t => triple_ends (a := setVarTag v t) fun s hs => by
    unfold setVarTag
    obtain ⟨h1, h2⟩ := hs
    cases v with
    | none => exact h2.elim
    | some r =>
      cases r with
      | arg k => exact h2.elim
      | loc k =>
        have hb : b = true := h2
        subst hb
        have hin : InFn f0 s fun fi => fi.ret.isSome := by simpa using h1.2
        obtain ⟨s', g1, g2, g3, -⟩ := hin.update (Q := fun fi => fi.ret.isSome)
          (fun fi => { fi with locals := fi.locals.modify k fun v => { v with tag := some t } }) (fun _ h => h) h1.1
        dsimp only
        rw [g1]
        exact ⟨⟨g2, g3⟩, rfl⟩
      | glob i =>
        obtain ⟨hn, w, hw⟩ := h2
        dsimp only
        rw [hw]
        dsimp only
        have hlt := (List.getElem?_eq_some_iff.1 hw).1
        refine ⟨⟨h1.1.set _ hn, ?_⟩, hn, _, by
          show (s.syms.set i _)[i]? = _
          rw [List.getElem?_set_self hlt]⟩
        have := h1.2
        cases b
        · exact this
        · obtain ⟨i', fi, g1, g2, g3, g4⟩ := this
          refine ⟨i', fi, g1, g2, ?_, g4⟩
          show (s.syms.set i _)[i']? = _
          rw [List.getElem?_set_ne]
          · exact g3
          · intro he
            subst he
            rw [hw] at g3
            cases g3
  declared := fun _ _ _ h => h.1
  const := fun n l b => triple_ends (a := declareConst n l.const.1 l.const.2) fun s hs => by
    unfold declareConst
    obtain ⟨r, hr⟩ := reference_at hs n
    rw [Act.bind_apply, hr]
    dsimp only
    cases r with
    | some r => exact hs.1
    | none => exact AtStmt.push hs _
  beginStruct := fun n => triple_ends (a := beginStruct n) fun s hs => by
    have key : ∃ s1, declareStruct n s = .ok () s1 ∧ AtStmt f0 false s1 := by
      unfold declareStruct
      rw [Act.bind_apply]
      simp only [Act.get]
      split
      · exact ⟨_, rfl, hs⟩
      · exact ⟨_, rfl, AtStmt.push hs _⟩
    obtain ⟨s1, h1, h2⟩ := key
    unfold beginStruct
    rw [Act.bind_apply, h1]
    dsimp only
    rw [Act.bind_apply]
    simp only [Act.get]
    cases hf : s1.syms.findSome? (·.structInfo n) with
    | none => exact h2.1
    | some p =>
      obtain ⟨d, fs⟩ := p
      cases d with
      | true => exact h2.1
      | false =>
        obtain ⟨j, hj⟩ := first_of_find hf
        obtain ⟨-, hu⟩ := hj.find
        show frontPhase f0 (.struct n) { s1 with syms := updateStruct n (.struct n true fs) s1.syms }
        rw [hu]
        have hold : ∀ x, f0.syms[j]? = some x → ∃ fs0 more, x = .struct n false fs0 ∧ fs = fs0 ++ more := by
          intro x hx
          obtain ⟨y, hy, hk⟩ := h2.1.syms j x hx
          rw [hj.1] at hy
          cases hy
          cases hk with
          | same => exact ⟨fs, [], rfl, by simp⟩
          | filled _ fs0 more _ => exact ⟨_, _, rfl, rfl⟩
        refine ⟨⟨⟨fun i x hx => ?_, h2.1.strings, h2.1.globals, h2.1.functions, h2.1.foreign⟩, h2.2⟩, j, true, fs,
          hj.set _ _, fun x hx => ?_⟩
        · by_cases hij : i = j
          · subst hij
            obtain ⟨fs0, more, rfl, rfl⟩ := hold x hx
            refine ⟨_, ?_, .filled n fs0 more true⟩
            show (s1.syms.set i _)[i]? = _
            rw [List.getElem?_set_self (List.getElem?_eq_some_iff.1 hj.1).1]
          · obtain ⟨y, hy, hk⟩ := h2.1.syms i x hx
            refine ⟨y, ?_, hk⟩
            show (s1.syms.set j _)[i]? = _
            rw [List.getElem?_set_ne (Ne.symm hij)]
            exact hy
        · obtain ⟨fs0, more, rfl, -⟩ := hold x hx
          exact ⟨fs0, rfl⟩
  checkField := fun n f => triple_ends (a := checkField n f) fun s hs => by
    obtain ⟨h1, j, d, fs, h2, h3⟩ := id hs
    unfold checkField
    rw [Act.bind_apply]
    simp only [Act.get, h2.find.1]
    split
    · exact h1.1
    · split
      · exact h1.1
      · exact hs
  addField := fun n f t => triple_ends (a := addField n f t) fun s hs => by
    obtain ⟨h1, j, d, fs, h2, h3⟩ := hs
    unfold addField
    rw [Act.bind_apply]
    simp only [Act.get, h2.find.1]
    show frontPhase f0 (.struct n) { s with syms := updateStruct n (.struct n d (fs ++ [(f, t)])) s.syms }
    rw [h2.find.2]
    refine ⟨⟨⟨fun i x hx => ?_, h1.1.strings, h1.1.globals, h1.1.functions, h1.1.foreign⟩, h1.2⟩, j, d, _,
      h2.set _ _, h3⟩
    obtain ⟨y, hy, hk⟩ := h1.1.syms i x hx
    by_cases hij : i = j
    · subst hij
      obtain ⟨fs0, rfl⟩ := h3 x hx
      rw [h2.1] at hy
      cases hy
      have : ∃ more, fs = fs0 ++ more := by
        cases hk with
        | same => exact ⟨[], by simp⟩
        | filled _ _ more _ => exact ⟨more, rfl⟩
      obtain ⟨more, rfl⟩ := this
      refine ⟨_, ?_, .filled n fs0 (more ++ [(f, t)]) d⟩
      show (s.syms.set i _)[i]? = _
      rw [List.getElem?_set_self (List.getElem?_eq_some_iff.1 h2.1).1, List.append_assoc]
    · refine ⟨y, ?_, hk⟩
      show (s.syms.set j _)[i]? = _
      rw [List.getElem?_set_ne (Ne.symm hij)]
      exact hy
  endStruct := fun n => triple_ends (a := endStruct n) fun s hs => by
    obtain ⟨h1, j, d, fs, h2, h3⟩ := hs
    unfold endStruct
    rw [Act.bind_apply]
    simp only [Act.get, h2.find.1]
    split
    · exact h1.1
    · exact h1

/-- The action does not change the table of strings. -/
def SameStr {α : Type} (a : Act Front α) : Prop := ∀ s x s', a s = .ok x s' → s'.strings = s.strings

theorem SameStr.bind {α β : Type} {a : Act Front α} {f : α → Act Front β} (h : SameStr a) (hf : ∀ x, SameStr (f x)) :
    SameStr (a >>= f) := by
  intro s x s' e
  rw [Act.bind_apply] at e
  cases ha : a s with
  | ok y s1 => rw [ha] at e; exact (hf y s1 x s' e).trans (h s y s1 ha)
  | _ => rw [ha] at e; cases e

theorem SameStr.pure {α : Type} (a : α) : SameStr (pure a : Act Front α) := fun _ _ _ e => by cases e; rfl
theorem SameStr.get : SameStr (Act.get : Act Front Front) := fun _ _ _ e => by cases e; rfl
theorem SameStr.report {α : Type} : SameStr (Act.report : Act Front α) := fun _ _ _ e => by cases e
theorem SameStr.fail {α : Type} : SameStr (Act.fail : Act Front α) := fun _ _ _ e => by cases e
theorem SameStr.undef {α : Type} : SameStr (Act.undef : Act Front α) := fun _ _ _ e => by cases e
theorem SameStr.modify {f : Front → Front} (h : ∀ s, (f s).strings = s.strings) : SameStr (Act.modify f) := fun s _ _ e => by
  cases e; exact h s

theorem same_push (x : Sym) : SameStr (pushSym x) := .modify fun _ => rfl

theorem same_current : SameStr currentFunc := by
  intro s x s' e
  unfold currentFunc at e
  split at e
  · cases e; rfl
  · cases e
  · split at e
    · cases e; rfl
    · cases e

theorem same_update (g : FuncInfo → FuncInfo) : SameStr (updateFunc g) := by
  intro s x s' e
  unfold updateFunc at e
  repeat' split at e
  all_goals first | (cases e; done) | (cases e; rfl)

/-- A proof of `SameStr`, for actions which are put together from the ones above. -/
macro "same_str" : tactic => `(tactic| repeat' first
  | apply SameStr.pure | apply SameStr.get | apply SameStr.report | apply SameStr.fail | apply SameStr.undef
  | apply same_push | apply same_current | apply same_update | (apply SameStr.modify; intro _; rfl)
  | (refine SameStr.bind ?_ fun _ => ?_) | split)

theorem same_reference (n : Name) : SameStr (referenceVariable n) := by
  unfold referenceVariable
  same_str

theorem same_args (k : Nat) : ∀ ps, SameStr (declareArguments k ps)
  | [] => .pure ()
  | p :: ps => by
    have ih := same_args k ps
    unfold declareArguments declareArgument
    refine .bind ?_ fun _ => ih
    same_str

theorem same_struct (n : Name) : SameStr (declareStruct n) := by
  unfold declareStruct
  same_str

theorem same_setTag (v : Option SymRef) (t : Tag) : SameStr (setVarTag v t) := by
  intro s x s' e
  unfold setVarTag at e
  split at e
  · exact same_update _ s x s' e
  · exact same_update _ s x s' e
  · split at e
    · cases e; rfl
    · cases e
  · cases e

theorem _root_.Tiny.Triple.same {α : Type} {A : Prop} {E P : Front → Prop} {a : Act Front α} {Q : α → Front → Prop} {J : Front → Prop}
    (h : Triple False E P a Q) (hs : SameStr a) (hJ : ∀ s s', s'.strings = s.strings → J s → J s') :
    Triple A E (fun s => P s ∧ J s) a fun x s => Q x s ∧ J s := by
  intro s ⟨h1, h2⟩
  have := h s h1
  cases e : a s with
  | ok x s' => rw [e] at this; exact ⟨this, hJ _ _ (hs _ _ _ e) h2⟩
  | err s' => rw [e] at this; exact this
  | abort => rw [e] at this; exact this.elim
  | ub => rw [e] at this; exact this
  | timeout => rw [e] at this; exact this

/-- The strings which were added since `f0` are literals, each added once. -/
def Literals (f0 : Front) (L : Name → Prop) (s : Front) : Prop :=
  ∃ new, s.strings = f0.strings ++ new ∧ new.Nodup ∧ ∀ x ∈ new, x ∉ f0.strings ∧ L x

/-- **The operations of the C code** satisfy what the parser needs. -/
theorem frontOps_safe (f0 : Front) (L : Name → Prop) :
    OpsSafe L (TooMany f0 L) (Keeps f0) (fun p s => frontPhase f0 p s ∧ Literals f0 L s) frontOps := by
  have P := frontOps_plain f0
  have hJ : ∀ s s' : Front, s'.strings = s.strings → Literals f0 L s → Literals f0 L s' := by
    intro s s' e ⟨new, h⟩
    exact ⟨new, by rw [e]; exact h⟩
  have hG : ∀ n, SameStr (declareGlobalVar n) := by
    intro n
    unfold declareGlobalVar
    refine (same_reference n).bind fun _ => ?_
    same_str
  refine ⟨fun p s h => P.err p s h.1, fun n b => (P.ref n b).same (same_reference n) hJ, fun x b hx => ?_,
    fun n b => (P.struct n b).same (same_struct n) hJ, fun n p => (P.named n p).same ?_ hJ, fun t p => (P.nullable t p).same ?_ hJ,
    fun b => (P.openScope b).same ?_ hJ, fun b => (P.closeScope b).same ?_ hJ, fun b => ?_, fun b => ?_,
    P.valueFunc.same ?_ hJ, fun b => (P.topLevel b).same ?_ hJ, fun n => (P.beginFunc n).same ?_ hJ, fun ps => (P.params ps).same (same_args _ ps) hJ,
    fun r => (P.setRet r).same (same_update _) hJ, P.endFunc.same (.modify fun _ => rfl) hJ, fun n b => (P.declare n b).same ?_ hJ,
    fun b v t => (P.setTag b v t).same (same_setTag v t) hJ, fun b v s h => ⟨P.declared b v s h.1, h.2⟩, fun n l b => (P.const n l b).same ?_ hJ,
    fun n => (P.beginStruct n).same ?_ hJ, fun n f => (P.checkField n f).same ?_ hJ, fun n f t => (P.addField n f t).same ?_ hJ,
    fun n => (P.endStruct n).same ?_ hJ⟩
  · refine triple_ends (a := registerString x) fun s ⟨hs, new, h1, h2, h3⟩ => ?_
    have key : registerString x s = .abort → x ∉ s.strings ∧ maxStrings ≤ s.strings.length := by
      intro h
      unfold registerString at h
      split at h
      · cases h
      · next e =>
        split at h
        · cases h
        · exact ⟨fun hx => by simpa using (List.findIdx?_eq_none_iff.1 e x hx), by omega⟩
    rcases registerString_at hs x with ⟨i, s', h, h'⟩ | h | h
    · rw [h]
      refine ⟨h', ?_⟩
      unfold registerString at h
      split at h
      · cases h; exact ⟨new, h1, h2, h3⟩
      · next e =>
        have hn : x ∉ s.strings := fun hx => by simpa using (List.findIdx?_eq_none_iff.1 e x hx)
        split at h
        · cases h
          rw [h1] at hn
          refine ⟨new ++ [x], by simp [h1], ?_, fun y hy => ?_⟩
          · rw [List.nodup_append]
            refine ⟨h2, by simp, ?_⟩
            rintro a ha b hb rfl
            simp only [List.mem_singleton] at hb
            subst hb
            exact hn (List.mem_append_right _ ha)
          · rcases List.mem_append.1 hy with hy | hy
            · exact h3 y hy
            · rw [List.mem_singleton.1 hy]
              exact ⟨fun k => hn (List.mem_append_left _ k), hx⟩
        · cases h
    all_goals
      rw [h.1]
      obtain ⟨hn, hl⟩ := key h.1
      rw [h1] at hn hl
      refine ⟨new ++ [x], ?_, fun y hy => ?_, ?_⟩
      · rw [List.nodup_append]
        refine ⟨h2, by simp, ?_⟩
        rintro a ha b hb rfl
        simp only [List.mem_singleton] at hb
        subst hb
        exact hn (List.mem_append_right _ ha)
      · rcases List.mem_append.1 hy with hy | hy
        · exact h3 y hy
        · rw [List.mem_singleton.1 hy]
          exact ⟨fun k => hn (List.mem_append_left _ k), hx⟩
      · simp only [List.length_append, List.length_cons, List.length_nil] at hl ⊢
        omega
  · show SameStr (getTagFromName n)
    unfold getTagFromName
    same_str
  · show SameStr (makeNullable t)
    unfold makeNullable getOrCreateNullable
    same_str
  · exact .modify fun _ => rfl
  · show SameStr closeScope
    unfold closeScope
    same_str
  · intro s hs
    have := ((P.noFunc b).same (A := TooMany f0 L) (J := Literals f0 L) (by show SameStr (requireFunc false); unfold requireFunc; same_str) hJ) s hs
    cases e : frontOps.noFunc s <;> rw [e] at this
    · exact ⟨this.1.1, this.1.2, this.2⟩
    all_goals exact this
  · intro s hs
    have := ((P.inFunc b).same (A := TooMany f0 L) (J := Literals f0 L) (by show SameStr (requireFunc true); unfold requireFunc; same_str) hJ) s hs
    cases e : frontOps.inFunc s <;> rw [e] at this
    · exact ⟨this.1.1, this.1.2, this.2⟩
    all_goals exact this
  · show SameStr requireValueFunc
    unfold requireValueFunc
    same_str
  · show SameStr requireTopLevel
    unfold requireTopLevel
    same_str
  · show SameStr (beginFunc n)
    unfold beginFunc declareFunction
    same_str
  · show SameStr (declareVar n)
    unfold declareVar
    refine .bind .get fun s => ?_
    split
    · refine .bind ?_ fun _ => .pure _
      unfold declareLocal
      same_str
    · exact (hG n).bind fun _ => .pure _
  · show SameStr (declareConst n _ _)
    unfold declareConst
    refine (same_reference n).bind fun _ => ?_
    same_str
  · show SameStr (beginStruct n)
    unfold beginStruct
    refine (same_struct n).bind fun _ => ?_
    same_str
  · show SameStr (checkField n f)
    unfold checkField
    same_str
  · show SameStr (addField n f t)
    unfold addField
    same_str
  · show SameStr (endStruct n)
    unfold endStruct
    same_str

end Tiny
