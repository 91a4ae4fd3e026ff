import Verif.Spec.Crash
import Verif.Spec.Rollback
import Verif.Model.Bind
import Mathlib.Logic.Relation

/-!
# States in which compiling cannot go wrong

The spec of C57, on the calls of the host.
-/

namespace Tiny.Spec

/-- A `use` with more than 128 arguments. -/
def LongUse (ss : List SStmt) : Prop := ∃ line m args a, PStmt.node line (.use m args a) ∈ ss ∧ 128 < args.length

/-- The programs on which the compiler's behaviour is undefined (or an assertion fails) although they are of the
grammar. -/
def Crashing (ss : List SStmt) : Prop := SelfInits ss ∨ NegateMin ss ∨ LongUse ss

/-- The tokens are no such program. -/
def NotCrashing (ts : List Tk) : Prop := ∀ ss us nx rest, ts = us ++ nx :: rest → ProgIs ss us nx → ¬ Crashing ss

/-- Every struct mentioned so far is defined. -/
def AllStructsDefined (f : Front) : Prop := ∀ n d fs, Sym.struct n d fs ∈ f.syms → d = true

/-- A call by which a macro tells the compiler something new. -/
inductive Binding : Front → Front → Prop
  /-- `Tiny_BindFunction`, on the tokens of a signature -/
  | function {f n ts q} : bindSig n ⟨ts, f⟩ = .ok () q → Binding f q.st
  /-- `Tiny_BindConst...` -/
  | const {f f' n v} : declareConst n (constTag v) v f = .ok () f' → Binding f f'
  /-- `Tiny_BindMacro` -/
  | module {f f' n} : bindMacro n f = .ok () f' → Binding f f'
  /-- `Tiny_RegisterType` -/
  | type {f f' n} : registerType n f = .ok () f' → Binding f f'

/-- The macros which the statements `use`, called one after the other from `s` on, do not crash. Those which succeed have
only bound functions, constants, macros and types, and have not mentioned structs which are not defined. -/
def MacrosFine (E : CompileEnv) : List CStmt → TState → Prop
  | [], _ => True
  | .node _ (.use m args a) :: xs, s =>
    match E.macros m args a s with
    | .ok b s' => b = true → Relation.ReflTransGen Binding s.front s'.front ∧
        (∀ (i : Nat) n fs, s'.front.syms[i]? = some (.struct n false fs) → s.front.syms[i]? = some (.struct n false fs)) ∧ MacrosFine E xs s'
    | .err _ => True
    | _ => False
  | _ :: xs, s => MacrosFine E xs s

/-- The macros of the source, when it was read in state `s`, are fine; and the structs of which the source makes values
with `new` are not registered as types of the host's by its macros. -/
def UsesFine (E : CompileEnv) (ts : List Tk) (s : TState) : Prop :=
  ∀ n xs q, parseProgram n ⟨ts, s.front⟩ = .ok xs q → MacrosFine E xs { s with nest := s.nest + 1, front := q.st } ∧
    ∀ t, useMacros E xs { s with nest := s.nest + 1, front := q.st } = .ok () t →
      ∀ k, Makes k xs → (∃ d fs, Sym.struct k d fs ∈ q.st.syms) → ∃ d fs, Sym.struct k d fs ∈ t.front.syms

/-- The states a host can reach by setting up a state and compiling sources, where: structs are not mentioned by the
host before they are defined, unless they are registered as types before the next source is compiled; no source failed
inside the body of a function (see `c32_dangling`); no source which compiles is `Crashing`, and macros only bind things. -/
inductive Clean : TState → Prop
  | new : Clean {}
  /-- `Tiny_BindFunction` -/
  | function {s q n ts} : Clean s → bindSig n ⟨ts, s.front⟩ = .ok () q → Clean { s with front := q.st }
  /-- `Tiny_BindConst...` -/
  | const {s f n v} : Clean s → declareConst n (constTag v) v s.front = .ok () f → Clean { s with front := f }
  /-- `RegisterString`, in `Tiny_BindConstString` -/
  | string {s f x i} : Clean s → registerString x s.front = .ok i f → Clean { s with front := f }
  /-- `Tiny_RegisterType` -/
  | type {s f n} : Clean s → registerType n s.front = .ok () f → Clean { s with front := f }
  /-- `Tiny_BindMacro` -/
  | module {s f n} : Clean s → bindMacro n s.front = .ok () f → Clean { s with front := f }
  /-- `Tiny_CompileString` -/
  | compile {E file ts s b s'} : Clean s → MacrosKeep E → Tail3 ts → AllStructsDefined s.front →
      (b = true → NotCrashing ts ∧ UsesFine E ts s) → compileTokens E file ts s = .ok b s' → s'.front.currFunc = .none → Clean s'

end Tiny.Spec
