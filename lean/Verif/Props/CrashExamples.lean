import Verif.Props.CrashLib

/-!
# C57: examples
-/

namespace Tiny
open Spec

namespace Crash1

/-- A host which binds the arrays of the standard library. -/
def host : CompileEnv := { plainHost with fuel := 200, macros := fun _ => arrayMacro plainHost.strtod }

def start : TState := match runStd plainHost.strtod bindStandardArray {} with
  | .ok _ s => s
  | _ => {}

theorem start_eq : runStd plainHost.strtod bindStandardArray {} = .ok () start := by kernel_rfl

/-- The whole standard library would do as well. -/
example : ∃ f, Clean { front := f } := by
  obtain ⟨f, h, -⟩ := c50_std plainHost.strtod
  exact ⟨f, c57_std plainHost.strtod bindAll .new h⟩

theorem start_clean : Clean start := c57_std plainHost.strtod bindStandardArray .new start_eq

/-- Decides `AllStructsDefined`. -/
def definedB (f : Front) : Bool := f.syms.all fun x => match x with
  | .struct _ d _ => d
  | _ => true

theorem definedB_ok {f : Front} (h : definedB f = true) : AllStructsDefined f := by
  intro n d fs hm
  exact List.all_eq_true.1 h _ hm

theorem keeps : MacrosKeep host := c50_keeps (E := host) fun _ args a => c50_calls plainHost.strtod args a

/-- A source with a struct, an array of them, a function and a loop. -/
def src : List UInt8 := bytes "struct P { x: int } use array(\"P\") as ps q := new P{1} z := ps(q,q) func sum(a: ps): int { s := 0 for i := 0; i < ps_len(a); i += 1 { s += a[i].x } return s } t := sum(z)"

def toks : List Tk := sourceTokens plainHost.strtod src

/-- The tree of a source. -/
def treeOf (ts : List Tk) : List SStmt := match parseItems synOps 200 ⟨ts, ()⟩ with
  | .ok ss _ => ss
  | _ => []

def restOf (ts : List Tk) : PS Unit := match parseItems synOps 200 ⟨ts, ()⟩ with
  | .ok _ q => q
  | _ => ⟨[], ()⟩

theorem notCrashing : NotCrashing toks := by
  have h : parseItems synOps 200 ⟨toks, ()⟩ = .ok (treeOf toks) (restOf toks) := by kernel_rfl
  refine c57_check h fun hc => ?_
  rw [crashing_iff] at hc
  exact absurd hc (by decide +kernel)

/-- What the parser makes of it. -/
def named : List CStmt := match parseProgram 200 ⟨toks, start.front⟩ with
  | .ok xs _ => xs
  | _ => []

def rest : PS Front := match parseProgram 200 ⟨toks, start.front⟩ with
  | .ok _ q => q
  | _ => ⟨[], {}⟩

theorem parsed : parseProgram 200 ⟨toks, start.front⟩ = .ok named rest := by kernel_rfl

def s1 : TState := { start with nest := start.nest + 1, front := rest.st }

/-- After the macro. -/
def s2 : TState := match host.macros (bytes "array") [bytes "P"] (some (bytes "ps")) s1 with
  | .ok _ s => s
  | _ => {}

theorem macro_ok : host.macros (bytes "array") [bytes "P"] (some (bytes "ps")) s1 = .ok true s2 := by kernel_rfl

/-- What is left of a list of statements once its `use` of the macro has been seen. -/
def isUse : CStmt → Bool
  | .node _ (.use _ _ _) => true
  | _ => false

theorem fine_tail : ∀ {xs : List CStmt} {s : TState}, xs.any isUse = false → MacrosFine host xs s
  | [], _, _ => trivial
  | x :: xs, s, h => by
    simp only [List.any_cons, Bool.or_eq_false_iff] at h
    rw [MacrosFine]
    · exact fine_tail h.2
    · rintro l m args a rfl
      cases h.1

theorem named_eq : ∃ a l tl, named = a :: .node l (.use (bytes "array") [bytes "P"] (some (bytes "ps"))) :: tl ∧ isUse a = false ∧ tl.any isUse = false :=
  ⟨named.headD .brk, 1, named.drop 2, by kernel_rfl, by kernel_rfl, by kernel_rfl⟩

theorem closed2 : definedB s2.front = true := by decide +kernel

/-- Only `P` is a struct, and `ps`, which the source mentions and which is not registered yet. -/
def onlyP (x : Sym) : Bool := match x with
  | .struct n _ _ => n == bytes "P" || n == bytes "ps"
  | _ => true

theorem not_made : makesB (bytes "ps") named = false := by kernel_rfl

theorem only_p : rest.st.syms.all onlyP = true := by kernel_rfl

/-- It is `P`. -/
def isP (x : Sym) : Bool := match x with
  | .struct n true [(m, .int)] => n == bytes "P" && m == bytes "x"
  | _ => false

theorem is_p : s2.front.syms.any isP = true := by kernel_rfl

theorem uses_ok : useMacros host named s1 = .ok () s2 := by kernel_rfl

theorem opaque_uses {ts : List Tk} {st : TState} {xs : List CStmt} {q : PS Front} {t2 : TState} (parsed : parseProgram 200 ⟨ts, st.front⟩ = .ok xs q)
    (hn : ∃ a l tl, xs = a :: .node l (.use (bytes "array") [bytes "P"] (some (bytes "ps"))) :: tl ∧ isUse a = false ∧ tl.any isUse = false)
    (mok : host.macros (bytes "array") [bytes "P"] (some (bytes "ps")) { st with nest := st.nest + 1, front := q.st } = .ok true t2)
    (cl : definedB t2.front = true) (nm : makesB (bytes "ps") xs = false) (op : q.st.syms.all onlyP = true) (ip : t2.front.syms.any isP = true)
    (uok : useMacros host xs { st with nest := st.nest + 1, front := q.st } = .ok () t2) : UsesFine host ts st := by
  refine c57_uses (n := 200) parsed ?_ ?_
  · obtain ⟨a, l, tl, e, h1, h2⟩ := hn
    rw [e]
    rw [MacrosFine]
    · rw [MacrosFine, mok]
      refine fun _ => ⟨c57_array plainHost.strtod [bytes "P"] (some (bytes "ps")) _ true t2 mok, fun i n fs hi => ?_, fine_tail h2⟩
      cases definedB_ok cl _ _ _ (List.mem_of_getElem? hi)
    · rintro l m args a rfl
      cases h1
  · intro t ht k hk hs
    obtain ⟨d, fs, hm⟩ := hs
    have hk' : k = bytes "P" ∨ k = bytes "ps" := by simpa [onlyP] using List.all_eq_true.1 op _ hm
    rcases hk' with rfl | rfl
    swap
    · rw [makes_iff, nm] at hk
      cases hk
    rw [ht] at uok
    cases uok
    obtain ⟨x, hx, e⟩ := List.any_eq_true.1 ip
    unfold isP at e
    split at e
    · simp only [Bool.and_eq_true, beq_iff_eq] at e
      rw [e.1] at hx
      exact ⟨_, _, hx⟩
    · cases e

theorem uses : UsesFine host toks start := opaque_uses parsed named_eq macro_ok closed2 not_made only_p is_p uses_ok

theorem notCrashing' : NotCrashing (sourceTokens host.strtod src) := notCrashing
theorem uses' : UsesFine host (sourceTokens host.strtod src) start := uses
theorem no_zero : 0 ∉ src := by decide +kernel
theorem lexed : (sourceTokens host.strtod src).length = src.length + 4 := by decide +kernel
theorem defined0 : AllStructsDefined start.front := definedB_ok (by decide +kernel)
theorem nest0 : start.nest < maxNest := by decide +kernel

attribute [local irreducible] start src host toks in
/-- What `c57_source` asks for. -/
theorem safe : ∃ N, ∀ n, N ≤ n → match compileString { host with fuel := n } none src start with
      | .ok b s' => (b = true → s'.front.currFunc = .none) ∧ (s'.front.currFunc = .none → Clean s' ∧ AllStructsDefined s'.front)
      | .err _ => False
      | .abort => TooMany start.front fun x => Literal (sourceTokens host.strtod src) x ∨ none = some x
      | .ub => False
      | .timeout => False :=
  c57_source (E := host) keeps no_zero lexed start_clean defined0 nest0 notCrashing' uses'

/-- It is compiled. -/
def succeeds (x : Out TState Bool) : Bool := match x with
  | .ok b _ => b
  | _ => false

/-- The source above is. -/
example : succeeds (compileString host none src start) = true := by kernel_rfl

/-! ## What the hypotheses exclude -/

/-- The outcome of a compilation in a new state. -/
def outcome (x : String) : Out TState Bool := compileString plainHost none (bytes x) {}

/-- **C57, defect.** A declaration which mentions the variable it declares: the type of the variable is not known yet. -/
theorem c57_self : outcome "x := 1 + x" = .ub ∧ outcome "func f(y: int) { y := y }" = .ub := ⟨by kernel_rfl, by kernel_rfl⟩

/-- **C57, defect.** The compiler negates the literal `2147483648`, the value of which is the smallest `int`. -/
theorem c57_negate : outcome "x := -2147483648" = .ub := by kernel_rfl

/-- A host which binds a function with a result of type `P`. -/
def bound : TState := match tinyBindFunction plainHost.strtod (bytes "f(): P") {} with
  | .ok _ s => s
  | _ => {}

/-- **C57, defect.** A host binds a function with a result of type `P`; then any source which uses the fields of the
result, or makes a `P`, without defining `P` ends the process. -/
theorem c57_open : tinyBindFunction plainHost.strtod (bytes "f(): P") {} = .ok () bound ∧
    compileString plainHost none (bytes "q := f() z := q.x") bound = .abort ∧ compileString plainHost none (bytes "q := new P{}") bound = .abort :=
  ⟨by kernel_rfl, by kernel_rfl, by kernel_rfl⟩

/-- **C57, defect.** So does a source which makes a value of an array type with `new`. -/
theorem c57_made : compileString host none (bytes "use array(\"int\") as ai x := new ai{}") start = .abort := by kernel_rfl

/-- Near these, all is well: with a parenthesis the literal is negated at run time, `0 - 2147483648` is computed at run time,
and an annotated declaration may mention its variable. -/
example : succeeds (outcome "x := -(2147483648)") = true ∧ succeeds (outcome "x := 0 - 2147483648") = true ∧ succeeds (outcome "x : int = x") = true :=
  ⟨by kernel_rfl, by kernel_rfl, by kernel_rfl⟩

end Crash1

end Tiny
