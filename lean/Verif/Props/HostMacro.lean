import Verif.Spec.HostMacro
import Verif.Props.StdBind

/-!
# C50: macros in sessions
-/

namespace Tiny
open Spec

theorem _root_.Tiny.Spec.CallsOnly.bind {α β : Type} {x : Act TState α} {y : α → Act TState β} (hx : CallsOnly x)
    (hy : ∀ a, CallsOnly (y a)) : CallsOnly (x >>= y) := by
  intro s
  have h := hx s
  rw [Act.bind_apply]
  cases e : x s with
  | ok a s' =>
    rw [e] at h
    have h' := hy a s'
    dsimp only at h ⊢
    cases e' : y a s' with
    | ok b r => rw [e'] at h'; exact ⟨h.1.trans h'.1, by rw [h'.2, h.2]⟩
    | err r => rw [e'] at h'; exact ⟨h.1.trans h'.1, by rw [h'.2, h.2]⟩
    | _ => trivial
  | err s' => rw [e] at h; exact h
  | _ => trivial

theorem _root_.Tiny.Spec.CallsOnly.pure {α : Type} (a : α) : CallsOnly (pure a : Act TState α) := fun _ => ⟨.refl, rfl⟩

theorem callsOnly_get : CallsOnly (Act.get : Act TState TState) := fun _ => ⟨.refl, rfl⟩

theorem callsOnly_front {α : Type} {x : Act Front α} (h : HostsF x) : CallsOnly (onFront x) := by
  intro s
  have := h s.front
  unfold onFront
  cases e : x s.front with
  | ok a f => rw [e] at this; exact ⟨this, rfl⟩
  | err f => rw [e] at this; exact ⟨this, rfl⟩
  | _ => trivial

theorem callsOnly_bind (strtod : List UInt8 → BitVec 64) (x : List UInt8) : CallsOnly (tinyBindFunction strtod x) := by
  intro s
  have := hosts_sig (x.length + 5) ⟨sourceTokens strtod x, s.front⟩
  unfold tinyBindFunction
  cases e : bindSig (x.length + 5) ⟨sourceTokens strtod x, s.front⟩ with
  | ok a q => rw [e] at this; exact ⟨this, rfl⟩
  | err q =>
    rw [e] at this
    dsimp only
    by_cases hn : s.nest = 0
    · rw [if_pos hn]; trivial
    · rw [if_neg hn]
      exact ⟨this, rfl⟩
  | _ => trivial

theorem callsOnly_texts (strtod : List UInt8 → BitVec 64) : ∀ xs, CallsOnly (bindTexts strtod xs)
  | [] => .pure ()
  | x :: xs => (callsOnly_bind strtod x).bind fun _ => callsOnly_texts strtod xs

theorem hosts_register (n : Name) : HostsF (registerType n) := by
  intro f
  cases h : registerType n f with
  | ok u f' => exact .single (.register h)
  | err f' =>
    unfold registerType at h
    split at h
    · cases h
    · simp only [Act.bind_apply, Act.get] at h
      cases hf : f.syms.find? (fun x => (x.asType n).isSome) with
      | none => rw [hf] at h; cases h
      | some x =>
        rw [hf] at h
        cases x with
        | struct m d fs => cases d <;> cases h
        | _ => cases h
  | _ => trivial

/-- **C50.** The macro `array` does nothing but bind functions and register types: for all arguments, whatever they are. -/
theorem c50_calls (strtod : List UInt8 → BitVec 64) (args : List Name) (a : Option Name) : CallsOnly (arrayMacro strtod args a) := by
  unfold arrayMacro
  split
  · refine callsOnly_get.bind fun s => ?_
    split
    · exact .pure _
    · split
      · exact .pure _
      · exact (callsOnly_front (hosts_register _)).bind fun _ => (callsOnly_texts _ _).bind fun _ => .pure _
  · exact .pure _

/-! ## What follows -/

theorem calls_keeps {f f' : Front} (h : Calls f f') : (FrontLe f f' ∧ f.strings <+: f'.strings ∧
    f'.numGlobalVars = f.numGlobalVars ∧ f'.numFunctions = f.numFunctions ∧ f.numForeign ≤ f'.numForeign ∧
    (Tables f → Tables f') ∧ f'.currFunc = f.currFunc) := by
  induction h with
  | refl => exact ⟨.refl _, List.prefix_refl _, rfl, rfl, Nat.le_refl _, id, rfl⟩
  | tail _ h ih =>
    have k := hostCall_keeps h
    obtain ⟨a, b, c, d, e, g, i⟩ := ih
    exact ⟨a.trans k.le, b.trans k.strings, k.globals.trans c, k.functions.trans d, Nat.le_trans e k.foreign, fun h => k.tables (g h),
      k.cur.trans i⟩

theorem calls_survives {s : TState} {f : Front} (h : Calls s.front f) : Survives s { s with front := f } := by
  obtain ⟨a, b, c, d, e, -, -⟩ := calls_keeps h
  exact ⟨a, b, Nat.le_of_eq c.symm, Nat.le_of_eq d.symm, e, fun _ _ => rfl, fun _ _ _ h => h, fun _ _ _ _ _ _ h => h, .refl _, rfl⟩

/-- **C50.** Such macros are what C32 asks for: they leave alone what was there. -/
theorem c50_keeps {E : CompileEnv} (h : HostMacros E) : MacrosKeep E := by
  intro m args a s hT hc
  have := h m args a s
  cases e : E.macros m args a s with
  | ok b s' =>
    rw [e] at this
    obtain ⟨h1, h2⟩ := this
    obtain ⟨-, -, -, -, -, hT', hc'⟩ := calls_keeps h1
    have := calls_survives h1
    rw [← h2] at this
    exact ⟨this, by rw [h2], hT' hT, hc'.trans hc⟩
  | err s' =>
    rw [e] at this
    obtain ⟨h1, h2⟩ := this
    have := calls_survives h1
    rw [← h2] at this
    exact ⟨this, by rw [h2]⟩
  | _ => trivial

theorem use_callsOnly {E : CompileEnv} (h : HostMacros E) (m : Name) (args : List Name) (a : Option Name) : CallsOnly (useMacro E m args a) := by
  unfold useMacro
  refine callsOnly_get.bind fun s => ?_
  split
  · split
    · exact fun _ => trivial
    · refine (h m args a).bind fun b => ?_
      split
      · exact .pure _
      · exact fun _ => ⟨.refl, rfl⟩
  · exact fun _ => ⟨.refl, rfl⟩

theorem uses_callsOnly {E : CompileEnv} (h : HostMacros E) : ∀ xs, CallsOnly (useMacros E xs)
  | [] => .pure ()
  | x :: xs => by
    have ih := uses_callsOnly h xs
    unfold useMacros
    split
    · cases ‹_ = _›
    · cases ‹_ = _›
      exact (use_callsOnly h _ _ _).bind fun _ => ih
    · cases ‹_ = _›
      exact ih

/-- **C50, source texts.** A source which uses such macros and is compiled without error continues the session with its
statements: those the grammar gives to its text (C45), with the variables its names refer to; after the calls of the macros,
the types are checked with the functions and types they have bound. All theorems about sessions apply (C48). -/
theorem c50_source {f0 : Front} (h0 : Setup f0) {s s' : TState} {ps : List (Front × List Stmt)}
    (hs : Session { front := f0 } s ps) {E : CompileEnv} (hE : HostMacros E) {file : Option Name}
    {src : List UInt8} (hz : 0 ∉ src) (hl : (sourceTokens E.strtod src).length = src.length + 4)
    (h : compileString E file src s = .ok true s') :
    ∃ us nx rest tree xs q t ss f, sourceTokens E.strtod src = us ++ nx :: rest ∧ nx.kind = .eofTok ∧ ProgIs tree us nx ∧
      nameStmts frontOps tree s.front = .ok xs q ∧
      useMacros E xs { s with nest := s.nest + 1, front := q } = .ok () { s with nest := s.nest + 1, front := t } ∧
      ResolvedS t (.block xs) (.block ss) ∧ Session { front := f0 } s' (ps ++ [(f, ss)]) := by
  have ht : Tail3 (sourceTokens E.strtod src) := by
    rcases stream_tail E.strtod (init_view hz) (fuel := src.length + 2) (m := src.length + 4) (by simp) (by simp) with h | h
    · exact absurd hl (by unfold sourceTokens; omega)
    · exact h
  obtain ⟨xs, q, t, ss, f, h1, h2, h3⟩ := compile_true h
  have k := uses_callsOnly hE xs { s with nest := s.nest + 1, front := q.st }
  rw [h2] at k
  obtain ⟨k1, k2⟩ := k
  have hS : Session { s with nest := s.nest + 1, front := q.st } t [] := by
    rw [k2]
    exact session_calls .start k1
  have := Session.compile (ps' := []) hs ht h1 h2 hS h3 h
  obtain ⟨tree, us, nx, rest, st, g1, rfl, g3, g4⟩ := c45_program_sound frontOps h1
  refine ⟨us, nx, rest, tree, xs, st, t.front, ss, f, g1, c45_no_eof g3, g3, g4, by rw [h2]; exact congrArg _ k2, ?_, by simpa using this⟩
  have I := session_start h0 hs
  have P := parse_parsed ht I.tables I.cur h1
  exact (resolveSs_has xs ((calls_keeps k1).2.2.2.2.2.1 P.tables) P.own h3).resolved

end Tiny
