import Verif.Proofs.Rollback
import Verif.Props.Types

/-!
# C32: a failed compilation leaves alone what was there
-/

namespace Tiny
open Spec

theorem CoreOk.counters {l : List Sym} {a b c a' b' c' : Nat} (h : CoreOk l a b c) (ha : a ≤ a') (hb : b ≤ b') (hc : c ≤ c') :
    CoreOk l a' b' c' :=
  ⟨h.globs, fun i hi => ⟨(h.globBound i hi).1, by have := (h.globBound i hi).2; omega⟩, h.funcs,
    fun i hi => Nat.lt_of_lt_of_le (h.funcBound i hi) hb, h.foreigns, fun i hi => Nat.lt_of_lt_of_le (h.foreignBound i hi) hc,
    h.args, h.locals, h.consts, h.tags, h.rets⟩

theorem take_core {s s' : TState} (h : Survives s s') :
    (s'.front.syms.take s.front.syms.length).map Sym.core = s.front.syms.map Sym.core := by
  apply List.ext_getElem?
  intro i
  simp only [List.getElem?_map]
  by_cases hi : i < s.front.syms.length
  · rw [List.getElem?_take_of_lt hi]
    obtain ⟨y, h1, k⟩ := h.syms i s.front.syms[i] (by simp [hi])
    rw [h1, List.getElem?_eq_getElem hi]
    simp [kept_core k]
  · rw [List.getElem?_eq_none (by simp; omega), List.getElem?_eq_none (by omega)]

/-- A compilation which does not report an error outside itself. -/
theorem compile_cases {E : CompileEnv} (hE : MacrosKeep E) {file : Option Name} {ts : List Tk} (ht : Tail3 ts) {s s' : TState}
    {b : Bool} (hT : Tables s.front) (hc : s.front.currFunc = .none) (h : compileTokens E file ts s = .ok b s') :
    Survives s s' ∧ s.program.length ≤ s'.program.length ∧ Tables s'.front ∧
      (b = true → s'.front.currFunc = .none) ∧
      (b = false → s'.front.syms.length = s.front.syms.length ∧ s'.program.length = s.program.length) := by
  unfold compileTokens at h
  by_cases hn : s.nest < maxNest
  · rw [if_pos hn] at h
    have k := sh_phases hE (s0 := { s with nest := s.nest + 1 }) ht hT hc file _ rfl
    have conv : ∀ {u : TState}, Survives { s with nest := s.nest + 1 } u → u.nest - 1 = s.nest := by
      intro u hu
      have := hu.nest
      simp only at this
      omega
    cases hp : compilePhases E file ts { s with nest := s.nest + 1 } with
    | ok _ u =>
      rw [hp] at h k
      cases h
      have hv := k.survives
      exact ⟨⟨hv.syms, hv.strings, hv.globals, hv.functions, hv.foreign, hv.code, hv.entries, hv.bound, hv.lines, conv hv⟩,
        k.size, k.tables, fun _ => k.cur, by simp⟩
    | err u =>
      rw [hp] at h k
      cases h
      have hv : Survives { s with nest := s.nest + 1 } u := k
      have hlen : s.front.syms.length ≤ u.front.syms.length := by
        refine Nat.le_of_not_lt fun hlt => ?_
        obtain ⟨y, h1, -⟩ := hv.syms u.front.syms.length _ (List.getElem?_eq_getElem hlt)
        rw [List.getElem?_eq_none (Nat.le_refl _)] at h1
        cases h1
      refine ⟨⟨fun i x hx => ?_, hv.strings, hv.globals, hv.functions, hv.foreign, fun j hj => ?_, hv.entries, hv.bound, hv.lines,
        conv hv⟩, ?_, ?_, by simp, fun _ => ⟨?_, ?_⟩⟩
      · obtain ⟨y, h1, k1⟩ := hv.syms i x hx
        refine ⟨y, ?_, k1⟩
        simp only [rollback, Front.rollback]
        rw [List.getElem?_take_of_lt (List.getElem?_eq_some_iff.1 hx).1]
        exact h1
      · exact restore_agree hj (hv.code j hj)
      · simp only [rollback, restoreProgram, List.length_take, List.length_append, List.length_drop]; omega
      · rw [tables_core]
        have e := take_core hv
        simp only [rollback, Front.rollback]
        simp only at e
        rw [e]
        exact (tables_core.1 hT).counters hv.globals hv.functions hv.foreign
      · simp only [rollback, Front.rollback, List.length_take]; omega
      · simp only [rollback, restoreProgram, List.length_take, List.length_append, List.length_drop]; omega
    | abort => rw [hp] at h; cases h
    | ub => rw [hp] at h; cases h
    | timeout => rw [hp] at h; cases h
  · rw [if_neg hn] at h; cases h

theorem history_tables {s : TState} (h : History s) : Tables s.front ∧ s.front.currFunc = .none := by
  induction h with
  | new => exact reached_tables .new
  | @bind s f n as va r _ e ih =>
    have hs : Slots f := runTable_slots (e := .bind n as va r) ih.1.slots e
    simp only [bindFunction, act_bind, Act.get] at e
    split at e
    · cases e
    · cases e
      exact ⟨tables_push ih.1 hs rfl (by simp) (by simp), ih.2⟩
  | @const s f n v _ e ih =>
    unfold declareConst at e
    obtain ⟨o, f1, h1, e⟩ := Act.ok_inv e
    rw [referenceVariable_state h1] at e
    cases o with
    | some _ => cases e
    | none =>
      cases e
      exact ⟨tables_push ih.1 (ih.1.slots.push rfl rfl rfl) rfl (by
        intro n t c h
        cases h
        rfl) (by simp), ih.2⟩
  | string _ e ih => exact ⟨(adds_str e).step.tables ih.1, (adds_str e).cur.trans ih.2⟩
  | register _ e ih =>
    obtain ⟨a, b⟩ := tables_register ih.1 e
    exact ⟨a, b.trans ih.2⟩
  | typeName _ e ih => exact ⟨(adds_named e).step.tables ih.1, (adds_named e).cur.trans ih.2⟩
  | @nullable s f u t _ e ih =>
    have a : Adds s.front f := by
      simp only [getOrCreateNullable, act_bind, Act.get] at e
      split at e
      · cases e; exact .refl _
      · cases e; exact adds_push rfl
    exact ⟨a.step.tables ih.1, a.cur.trans ih.2⟩
  | @module s f n _ e ih =>
    have a : Adds s.front f := by
      simp only [bindMacro, act_bind, Act.get] at e
      split at e
      · cases e
      · cases e; exact adds_push rfl
    exact ⟨a.step.tables ih.1, a.cur.trans ih.2⟩
  | compile _ hE ht h hc ih => exact ⟨(compile_cases hE ht ih.1 ih.2 h).2.2.1, hc⟩

/-- **C32.** After any history of calls, a compilation which reports an error leaves exactly as many symbols as there
were, each one the same (or a struct which so far was only mentioned, with fields added); the program has the same length
and the same bytes, but for the last one; functions have the same entries; bound functions, strings and line records are
still there. -/
theorem c32_failed {E : CompileEnv} (hE : MacrosKeep E) {file : Option Name} {ts : List Tk} (ht : Tail3 ts) {s s' : TState}
    (hs : History s) (h : compileTokens E file ts s = .ok false s') :
    s'.front.syms.length = s.front.syms.length ∧ s'.program.length = s.program.length ∧ Survives s s' := by
  obtain ⟨hT, hc⟩ := history_tables hs
  obtain ⟨a, -, -, -, b⟩ := compile_cases hE ht hT hc h
  exact ⟨(b rfl).1, (b rfl).2, a⟩

/-- **C32**, success: what was there is still there, and the next source can be compiled. -/
theorem c32_succeeded {E : CompileEnv} (hE : MacrosKeep E) {file : Option Name} {ts : List Tk} (ht : Tail3 ts) {s s' : TState}
    (hs : History s) (h : compileTokens E file ts s = .ok true s') :
    Survives s s' ∧ History s' := by
  obtain ⟨hT, hc⟩ := history_tables hs
  obtain ⟨a, -, -, b, -⟩ := compile_cases hE ht hT hc h
  exact ⟨a, .compile hs hE ht h (b rfl)⟩

/-- Compiling is something a macro may do (unless the source has an error inside a function body). -/
theorem c32_nested {E : CompileEnv} (hE : MacrosKeep E) {file : Option Name} {ts : List Tk} (ht : Tail3 ts) {s : TState}
    (hT : Tables s.front) (hc : s.front.currFunc = .none) :
    match compileTokens E file ts s with
    | .ok _ s' => s'.front.currFunc = .none →
        Survives s s' ∧ s.program.length ≤ s'.program.length ∧ Tables s'.front ∧ s'.front.currFunc = .none
    | .err _ => False
    | _ => True := by
  cases h : compileTokens E file ts s with
  | ok b s' =>
    intro h0
    obtain ⟨a, b, c, -⟩ := compile_cases hE ht hT hc h
    exact ⟨a, b, c, h0⟩
  | err s' =>
    unfold compileTokens at h
    split at h
    · split at h <;> cases h
    · cases h
  | _ => trivial

/-! ## Errors before code is generated -/

theorem useMacros_none {E : CompileEnv} : ∀ {xs : List CStmt}, NoUse xs → useMacros E xs = pure ()
  | [], _ => rfl
  | x :: xs, h => by
    unfold useMacros
    split
    · next e => cases e
    · next e => cases e; exact (h _ _ _ _ (List.mem_cons_self ..)).elim
    · next e => cases e; exact useMacros_none fun a b c d hm => h a b c d (List.mem_cons_of_mem _ hm)

theorem restore_halt (P : List UInt8) (b : UInt8) :
    restoreProgram P (if P.getLast? = some b then P.dropLast else P) = P := by
  unfold restoreProgram
  split
  · next h =>
    have hne : P ≠ [] := by rintro rfl; simp at h
    have e := List.dropLast_concat_getLast hne
    have hl : P.dropLast.length = P.length - 1 := List.length_dropLast
    have hd : P.drop P.dropLast.length = [P.getLast hne] := by
      conv => lhs; arg 2; rw [← e]
      simp
    rw [hd, e, List.take_length]
  · simp

/-- **C32**, errors found by the parser or the type checker, and unknown structs: the program, the entries of functions,
the bound functions and the line records are exactly what they were. -/
theorem c32_exact {E : CompileEnv} {file : Option Name} {ts : List Tk} {s s' : TState}
    (h : compileTokens E file ts s = .ok false s')
    (hx : ∀ xs q, parseProgram E.fuel ⟨ts, s.front⟩ = .ok xs q → NoUse xs ∧ ∀ ss f, resolveSs xs q.st ≠ .ok ss f) :
    s'.program = s.program ∧ s'.functionPcs = s.functionPcs ∧ s'.foreignFns = s.foreignFns ∧ s'.lines = s.lines := by
  unfold compileTokens at h
  by_cases hn : s.nest < maxNest
  · rw [if_pos hn] at h
    have key : ∀ u, compilePhases E file ts { s with nest := s.nest + 1 } = .err u →
        restoreProgram s.program u.program = s.program ∧ u.functionPcs = s.functionPcs ∧ u.foreignFns = s.foreignFns ∧
          u.lines = s.lines := by
      intro u hu
      unfold compilePhases at hu
      rw [Act.bind_apply] at hu
      simp only [Act.get] at hu
      rw [Act.bind_apply] at hu
      have same : restoreProgram s.program s.program = s.program := by simp [restoreProgram]
      simp only [parseTokens] at hu
      cases hp : parseProgram E.fuel ⟨ts, s.front⟩ with
      | ok xs q =>
        obtain ⟨h1, h2⟩ := hx xs q hp
        rw [hp] at hu
        simp only at hu
        rw [Act.bind_apply] at hu
        simp only [Act.get] at hu
        rw [useMacros_none h1, Act.bind_apply] at hu
        simp only [Pure.pure] at hu
        rw [Act.bind_apply] at hu
        simp only [checkStructs] at hu
        rw [Act.bind_apply] at hu
        simp only [Act.get] at hu
        by_cases hs : (Front.slice q.st s.front.syms.length q.st.syms.length).any Sym.undefinedStruct = true
        · rw [if_pos hs] at hu
          simp only [Act.report] at hu
          cases hu
          exact ⟨same, rfl, rfl, rfl⟩
        · rw [if_neg hs] at hu
          simp only [Pure.pure] at hu
          rw [Act.bind_apply] at hu
          simp only [compileTree] at hu
          rw [Act.bind_apply] at hu
          simp only [dropHalt, Act.modify] at hu
          rw [Act.bind_apply] at hu
          simp only [onFront] at hu
          cases hr : resolveSs xs q.st with
          | ok ss f => exact (h2 ss f hr).elim
          | err f =>
            rw [hr] at hu
            cases hu
            exact ⟨restore_halt _ _, rfl, rfl, rfl⟩
          | _ => rw [hr] at hu; cases hu
      | err q =>
        rw [hp] at hu
        cases hu
        exact ⟨same, rfl, rfl, rfl⟩
      | _ => rw [hp] at hu; cases hu
    cases hp : compilePhases E file ts { s with nest := s.nest + 1 } with
    | ok _ u => rw [hp] at h; cases h
    | err u =>
      rw [hp] at h
      cases h
      exact key u hp
    | abort => rw [hp] at h; cases h
    | ub => rw [hp] at h; cases h
    | timeout => rw [hp] at h; cases h
  · rw [if_neg hn] at h; cases h

/-! ## Sources -/

/-- **C32** for a source text (on which the lexer returns, see C46). -/
theorem c32_source {E : CompileEnv} (hE : MacrosKeep E) {file : Option Name} {src : List UInt8} (hz : 0 ∉ src)
    (hr : (sourceTokens E.strtod src).length = src.length + 4) {s s' : TState} {b : Bool} (hs : History s)
    (h : compileString E file src s = .ok b s') :
    Survives s s' ∧ (s'.front.currFunc = .none → History s') ∧ (b = true → s'.front.currFunc = .none) ∧
      (b = false → s'.front.syms.length = s.front.syms.length ∧ s'.program.length = s.program.length) := by
  have ht : Tail3 (sourceTokens E.strtod src) := by
    rcases stream_tail E.strtod (init_view hz) (fuel := src.length + 2) (m := src.length + 4) (by simp) (by simp) with h | h
    · exact absurd hr (by unfold sourceTokens; omega)
    · exact h
  obtain ⟨hT, hc⟩ := history_tables hs
  obtain ⟨a, -, -, c, d⟩ := compile_cases hE ht hT hc h
  exact ⟨a, fun e => .compile hs hE ht h e, c, d⟩

/-! ## Samples -/

/-- A host without macros. -/
def plainHost : CompileEnv := ⟨fun _ => 0, fun _ _ _ => pure true, 60⟩

theorem plainHost_keeps : MacrosKeep plainHost := by
  intro m args a s hT hc
  show Survives s s ∧ s.program.length ≤ s.program.length ∧ Tables s.front ∧ s.front.currFunc = .none
  exact ⟨.refl _, Nat.le_refl _, hT, hc⟩

/-- Compile the sources one after the other: what each returned, and the last state. -/
def compileAll : List String → TState → Option (List Bool × TState)
  | [], s => some ([], s)
  | t :: ts, s =>
    match compileString plainHost none (bytes t) s with
    | .ok b s' => (compileAll ts s').map fun r => (b :: r.1, r.2)
    | _ => none

/-- A good source, a type error, a syntax error, an unknown function, a good source. -/
example : (compileAll ["func f(a : int) : int { return a } x := f(3)", "y := f(true)", "z := f(x", "foo(1)", "x = f(x)"] {}).map (·.1) =
    some [true, false, false, false, true] := by decide +kernel

/-- The hypotheses of `c32_source`, for two sources one after the other. -/
theorem compileAll_history {t1 t2 : String} (hz : (0 : UInt8) ∉ bytes t1)
    (hl : (sourceTokens plainHost.strtod (bytes t1)).length = (bytes t1).length + 4) {n : Nat × Nat}
    (h : (compileAll [t1, t2] {}).map (·.1) = some [true, false])
    (hn : (compileAll [t1] {}).map (fun r => (r.2.front.syms.length, r.2.program.length)) = some n) :
    ∃ s s', History s ∧ (s.front.syms.length, s.program.length) = n ∧ compileString plainHost none (bytes t2) s = .ok false s' := by
  unfold compileAll at h hn
  cases h1 : compileString plainHost none (bytes t1) {} with
  | ok b s =>
    simp only [h1] at h hn
    unfold compileAll at h hn
    cases h2 : compileString plainHost none (bytes t2) s with
    | ok b' s' =>
      simp only [h2, compileAll, Option.map_some, Option.some.injEq, List.cons.injEq, and_true] at h hn
      obtain ⟨rfl, rfl⟩ := h
      obtain ⟨-, a, b, -⟩ := c32_source plainHost_keeps hz hl .new h1
      exact ⟨s, s', a (b rfl), hn, h2⟩
    | _ => simp [h2] at h
  | _ => simp [h1] at h

/-- A type error after a definition: a state with a function and a variable, and 49 bytes of code. -/
def sampleOld : String := "func f(a : int) : int { return a } x := f(3)"

def sampleBad : String := "y := f(true)"

theorem sample_zero : (0 : UInt8) ∉ bytes sampleOld := by decide +kernel

theorem sample_tokens : (sourceTokens plainHost.strtod (bytes sampleOld)).length = (bytes sampleOld).length + 4 := by decide +kernel

theorem sample_fails : (compileAll [sampleOld, sampleBad] {}).map (·.1) = some [true, false] := by decide +kernel

theorem sample_size : (compileAll [sampleOld] {}).map (fun r => (r.2.front.syms.length, r.2.program.length)) = some (2, 49) := by
  decide +kernel

example : ∃ s s', History s ∧ (s.front.syms.length, s.program.length) = (2, 49) ∧
    compileString plainHost none (bytes sampleBad) s = .ok false s' :=
  compileAll_history sample_zero sample_tokens sample_fails sample_size

/-! ## What a failed compilation does not restore -/

/-- After an error of the code generator the program does not end with `HALT`: its last byte belongs to the failed
source. So `Tiny_Run` of the old program runs past its end. -/
theorem c32_halt_lost :
    (compileAll ["x := 1"] {}).map (fun r => (r.1, r.2.program)) =
      some ([true], [Op.push1.toByte, Op.set.toByte, 44, 44, 0, 0, 0, 0, Op.halt.toByte]) ∧
    (compileAll ["x := 1", "x = 2 x ) 3"] {}).map (fun r => (r.1, r.2.program)) =
      some ([true, false], [Op.push1.toByte, Op.set.toByte, 44, 44, 0, 0, 0, 0, Op.pushInt.toByte]) := by
  decide +kernel

/-- After an error in the body of a function the state still points to the destroyed function: the next compilation
reads freed memory. -/
theorem c32_dangling :
    (compileAll ["func g() { y := }"] {}).map (fun r => (r.1, r.2.front.currFunc)) = some ([false], .dangling) ∧
    (match compileAll ["func g() { y := }"] {} with
      | some (_, s) => (match compileString plainHost none (bytes "x := 1") s with | .ub => true | _ => false)
      | none => false) = true := by
  decide +kernel

/-- A struct the host mentioned (in a signature) stays defined after the source which defines it failed, so the
corrected source fails too. -/
theorem c32_struct_left :
    (compileAll ["struct P { a : int } x := true + 1", "struct P { a : int }"] { front := { syms := [.struct (bytes "P") false []] } }).map
      (fun r => (r.1, r.2.front.syms)) = some ([false, false], [.struct (bytes "P") true [(bytes "a", .int)]]) ∧
    (compileAll ["struct P { a : int }"] { front := { syms := [.struct (bytes "P") false []] } }).map (·.1) = some [true] := by
  decide +kernel

/-- Line records of a failed source stay, for pcs which the next source uses again. -/
theorem c32_lines_left :
    (compileAll ["x := 1", "x = 2\n x = 3\n x ) 3"] {}).map (fun r => (r.1, r.2.program.length, r.2.lines)) =
      some ([true, false], 9, [⟨0, none, 1⟩, ⟨8, none, 1⟩, ⟨32, none, 2⟩, ⟨56, none, 3⟩]) := by
  decide +kernel

end Tiny
