import Verif.Proofs.PhaseSafe
import Verif.Proofs.CrashDec
import Verif.Props.SessionExamples

/-!
# C57: compiling does not crash
-/

namespace Tiny
open Spec

/-- The macros of a host do not depend on how long we wait for the parser. -/
theorem macrosFine_fuel {E : CompileEnv} (n : Nat) : ∀ {xs : List CStmt} {s : TState}, MacrosFine E xs s → MacrosFine { E with fuel := n } xs s
  | [], _, _ => trivial
  | x :: xs, s, h => by
    by_cases hx : ∃ l m args a, x = .node l (.use m args a)
    · obtain ⟨l, m, args, a, rfl⟩ := hx
      rw [MacrosFine] at h ⊢
      simp only
      cases hm : E.macros m args a s with
      | ok b s' =>
        rw [hm] at h
        exact fun hb => ⟨(h hb).1, (h hb).2.1, macrosFine_fuel n (h hb).2.2⟩
      | err s' => trivial
      | abort => rw [hm] at h; exact h
      | ub => rw [hm] at h; exact h
      | timeout => rw [hm] at h; exact h
    · have hx' : ∀ l m args a, x = .node l (.use m args a) → False := fun l m args a e => hx ⟨l, m, args, a, e⟩
      rw [MacrosFine] at h ⊢
      · exact macrosFine_fuel n h
      · exact hx'
      · exact hx'

theorem useMacros_fuel {E : CompileEnv} (n : Nat) : ∀ (xs : List CStmt), useMacros { E with fuel := n } xs = useMacros E xs
  | [] => rfl
  | x :: xs => by
    have ih := useMacros_fuel (E := E) n xs
    unfold useMacros
    split
    · rfl
    · next h => cases h; rw [ih]; rfl
    · next h => cases h; exact ih

theorem uses_fuel {E : CompileEnv} (n : Nat) {ts : List Tk} {s : TState} (h : UsesFine E ts s) : UsesFine { E with fuel := n } ts s :=
  fun m xs q hp => ⟨macrosFine_fuel n (h m xs q hp).1, fun t ht => (h m xs q hp).2 t (by have := useMacros_fuel (E := E) n xs; rw [← ht, this])⟩

theorem structs_defined {f : Front} (h : AllDefined f) : AllStructsDefined f := by
  intro n d fs hm
  have := h _ hm
  simpa [Sym.undefinedStruct] using this

/-- **C57** for the tokens of a source: compiling succeeds or reports an error, or the assertion on the number of
strings fails; and the state can be used for the next source, unless the error was inside a function. -/
theorem c57_tokens {E : CompileEnv} (hE : MacrosKeep E) {file : Option Name} {ts : List Tk} (ht : Tail3 ts) {s : TState} (hs : Clean s)
    (hd : AllStructsDefined s.front) (hn : s.nest < maxNest) (hc : NotCrashing ts) (hu : UsesFine E ts s) :
    ∃ N, ∀ n, N ≤ n → match compileTokens { E with fuel := n } file ts s with
      | .ok b s' => (b = true → s'.front.currFunc = .none) ∧ (s'.front.currFunc = .none → Clean s' ∧ AllStructsDefined s'.front)
      | .err _ => False
      | .abort => TooMany s.front fun x => Literal ts x ∨ file = some x
      | .ub => False
      | .timeout => False := by
  have r := clean_rest hs
  obtain ⟨N, hN⟩ := c46_parse (ts := ts) ht r.cur
  refine ⟨N, fun n hle => ?_⟩
  have hE' : MacrosKeep { E with fuel := n } := hE
  have k := tokens_safe hE' ht hc (uses_fuel n hu) r (allDefined hd) hn file
  cases hr : compileTokens { E with fuel := n } file ts s with
  | ok b s' =>
    rw [hr] at k
    obtain ⟨a1, -, a3, a4, a5⟩ := compile_cases hE' ht r.tables r.cur hr
    refine ⟨a4, fun hc' => ⟨.compile hs hE' ht hd (fun _ => ⟨hc, uses_fuel n hu⟩) hr hc', structs_defined ?_⟩⟩
    cases b with
    | true => exact (k rfl).2
    | false => exact (marked_failed a1 (a5 rfl).1 (allDefined hd)).defined (allDefined hd)
  | err s' => rw [hr] at k; exact k
  | abort => rw [hr] at k; exact k
  | ub => rw [hr] at k; exact k
  | timeout =>
    rw [hr] at k
    have := hN n hle
    have k : parseProgram n ⟨ts, s.front⟩ = .timeout := k
    rw [k] at this
    exact this

/-- **C57** (`Tiny_CompileString`). In a state reached by binding things and compiling sources, every source without
zero bytes on which the lexer returns, and which does not contain one of the constructs of `Crashing`, is compiled or
rejected with an error. The only other possibility is that there are more than `maxStrings` strings in all. -/
theorem c57_source {E : CompileEnv} (hE : MacrosKeep E) {file : Option Name} {src : List UInt8} (hz : 0 ∉ src)
    (hl : (sourceTokens E.strtod src).length = src.length + 4) {s : TState} (hs : Clean s) (hd : AllStructsDefined s.front)
    (hn : s.nest < maxNest) (hc : NotCrashing (sourceTokens E.strtod src)) (hu : UsesFine E (sourceTokens E.strtod src) s) :
    ∃ N, ∀ n, N ≤ n → match compileString { E with fuel := n } file src s with
      | .ok b s' => (b = true → s'.front.currFunc = .none) ∧ (s'.front.currFunc = .none → Clean s' ∧ AllStructsDefined s'.front)
      | .err _ => False
      | .abort => TooMany s.front fun x => Literal (sourceTokens E.strtod src) x ∨ file = some x
      | .ub => False
      | .timeout => False :=
  c57_tokens hE (Session1.tail_of hz hl) hs hd hn hc hu

/-! ## How to check the hypotheses -/

/-- It is enough to look at the tree the parser finds. -/
theorem c57_check {n : Nat} {ts : List Tk} {ss : List SStmt} {q : PS Unit} (h : parseItems synOps n ⟨ts, ()⟩ = .ok ss q) (hc : ¬ Crashing ss) :
    NotCrashing ts := by
  intro ss' us nx rest e hp
  have h2 := prog_complete synOps hp rest ()
  subst e
  obtain ⟨N, hN⟩ := c45_program synOps hp rest ()
  have h3 := hN (max n N) (Nat.le_max_right _ _)
  rw [syn_prog hp] at h3
  rcases ((parseItems_mono synOps).le (Nat.le_max_left n N)).1 ⟨us ++ nx :: rest, ()⟩ with h4 | h4
  · rw [h] at h4; cases h4
  · rw [h, h3] at h4
    cases h4
    exact hc

/-- So is a syntax error. -/
theorem c57_check_error {n : Nat} {ts : List Tk} {q : PS Unit} (h : parseItems synOps n ⟨ts, ()⟩ = .err q) : NotCrashing ts := by
  intro ss' us nx rest e hp
  subst e
  obtain ⟨N, hN⟩ := c45_program synOps hp rest ()
  have h3 := hN (max n N) (Nat.le_max_right _ _)
  rw [syn_prog hp] at h3
  rcases ((parseItems_mono synOps).le (Nat.le_max_left n N)).1 ⟨us ++ nx :: rest, ()⟩ with h4 | h4
  · rw [h] at h4; cases h4
  · rw [h, h3] at h4
    cases h4

theorem macrosFine_none {E : CompileEnv} : ∀ {xs : List CStmt} {s : TState}, NoUse xs → MacrosFine E xs s
  | [], _, _ => trivial
  | x :: xs, s, h => by
    rw [MacrosFine]
    · exact macrosFine_none fun l m args a hm => h l m args a (List.mem_cons_of_mem _ hm)
    · rintro l m args a rfl
      exact h l m args a (List.mem_cons_self ..)

/-- Without `use` there is nothing to check. -/
theorem c57_noUse {n : Nat} {E : CompileEnv} {ts : List Tk} {ss : List SStmt} {q : PS Unit} (h : parseItems synOps n ⟨ts, ()⟩ = .ok ss q)
    (hu : ∀ l m args a, PStmt.node l (.use m args a) ∉ ss) (s : TState) : UsesFine E ts s := by
  intro m xs q' hp
  have hn : NoUse xs := by
    intro l mm args a hm
    obtain ⟨ss', us, nx, rest, s', h1, rfl, h3, h4⟩ := c45_program_sound frontOps hp
    have hm' := use_in h4 hm
    subst h1
    obtain ⟨N, hN⟩ := c45_program synOps h3 rest ()
    have h5 := hN (max n N) (Nat.le_max_right _ _)
    rw [syn_prog h3] at h5
    rcases ((parseItems_mono synOps).le (Nat.le_max_left n N)).1 ⟨us ++ nx :: rest, ()⟩ with h6 | h6
    · rw [h] at h6; cases h6
    · rw [h, h5] at h6
      cases h6
      exact hu l mm args a hm'
  refine ⟨macrosFine_none hn, fun t ht k _ hk => ?_⟩
  rw [useMacros_none hn] at ht
  cases ht
  exact hk

/-! ## What the hypotheses exclude -/

/-- A `use` with too many arguments writes behind the end of a buffer. -/
theorem c57_long (E : CompileEnv) {m : Name} {args : List Name} {a : Option Name} {s : TState} (h : Sym.module m ∈ s.front.syms)
    (hl : 128 < args.length) : useMacro E m args a s = .ub := by
  unfold useMacro
  rw [Act.bind_apply]
  simp only [Act.get]
  rw [if_pos (List.any_eq_true.2 ⟨_, h, by simp⟩), if_pos hl]
  rfl

end Tiny
