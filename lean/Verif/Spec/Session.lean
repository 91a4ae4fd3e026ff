import Verif.Spec.Rollback
import Verif.Spec.Load
import Verif.Spec.Sound

/-!
# What a host does with a state

The spec of C48: the calls of a host, from a new state on, and the program its sources make up.
-/

namespace Tiny.Spec

/-- The calls of a host which change the symbol table. -/
inductive HostCall : Front → Front → Prop
  /-- `Tiny_BindFunction` -/
  | bind {f f' n as va r} : bindFunction n as va r f = .ok () f' → HostCall f f'
  /-- `Tiny_BindConstBool`, `-Int`, `-Float`, `-String` -/
  | const {f f' n v} : declareConst n (constTag v) v f = .ok () f' → HostCall f f'
  /-- `RegisterString`, in `Tiny_BindConstString` -/
  | string {f f' x i} : registerString x f = .ok i f' → HostCall f f'
  /-- `GetTagFromName`, in `Tiny_BindFunction` -/
  | typeName {f f' n t} : getTagFromName n f = .ok t f' → HostCall f f'
  /-- `GetOrCreateNullable`, in `Tiny_BindFunction` -/
  | nullable {f f' u t} : getOrCreateNullable u f = .ok t f' → HostCall f f'
  /-- `Tiny_BindMacro` -/
  | module {f f' n} : bindMacro n f = .ok () f' → HostCall f f'
  /-- `Tiny_RegisterType` -/
  | register {f f' n} : registerType n f = .ok () f' → HostCall f f'

/-- The symbol table before the first source. -/
inductive Setup : Front → Prop
  | new : Setup {}
  | call {f f'} : Setup f → HostCall f f' → Setup f'

/-- `Session s0 s ps`: from state `s0` on, calls of the host have led to `s`. `ps` are the sources which were compiled
without error, in the order of their code: each as the tree of its statements, with the symbol table when its types had
been checked. The macros a source uses are functions of the host, so what they do is a session, too, which comes before
the source; compiling may fail because of errors found by the parser or the type checker outside of functions. (After
others, the old program does not end with `HALT`, or the state refers to deleted symbols: `c32_halt_lost`,
`c32_dangling`.) The tokens of a source end in end-of-file or error tokens (`Tail3`) if the lexer returns (C11, C46). -/
inductive Session : TState → TState → List (Front × List Stmt) → Prop
  | start {s} : Session s s []
  | call {s0 s f ps} : Session s0 s ps → HostCall s.front f → Session s0 { s with front := f } ps
  | compile {s0 s t s' : TState} {ps ps' E file ts xs} {q : PS Front} {ss f} : Session s0 s ps → Tail3 ts →
      parseProgram E.fuel ⟨ts, s.front⟩ = .ok xs q →
      useMacros E xs { s with nest := s.nest + 1, front := q.st } = .ok () t →
      Session { s with nest := s.nest + 1, front := q.st } t ps' →
      resolveSs xs t.front = .ok ss f →
      compileTokens E file ts s = .ok true s' →
      Session s0 s' (ps ++ ps' ++ [(f, ss)])
  | fail {s0 s s' : TState} {ps E file ts} : Session s0 s ps → Tail3 ts →
      (∀ xs q, parseProgram E.fuel ⟨ts, s.front⟩ = .ok xs q → NoUse xs ∧ ∀ ss f, resolveSs xs q.st ≠ .ok ss f) →
      compileTokens E file ts s = .ok false s' → s'.front.currFunc = .none → Session s0 s' ps

/-- The statements of all sources. -/
def program (ps : List (Front × List Stmt)) : List Stmt := ps.flatMap Prod.snd

/-- The hypotheses of C37 which cannot be read off the tables: the host's types and functions are what they say; all
functions, and the program, follow the rules of the core language (`Verif/Spec/Sound.lean`). -/
structure CoreSession (s : TState) (ps : List (Front × List Stmt)) (D : Discipline) (Φ : HostTypes)
    (foreign : Nat → List Value → World → Res (Value × World)) (I' : VarSym → Prop) : Prop where
  mono : HostMono Φ
  named : StructsMean (baseEnv s.front) Φ
  host : ∀ n i ts va r, Sym.foreign n i ts va r ∈ s.front.syms → ForeignTy (baseEnv s.front) D Φ foreign i ⟨ts, va, r⟩
  fns : ∀ i fn L r, (i, fn) ∈ procsL (program ps) → (baseEnv s.front).body i = some (L, r) →
    (∃ I₁, Flow ((baseEnv s.front).enter L) D false (fun x => (∃ g, x = .glob g ∧ D.early g) ∨ ∃ k, x = .loc k ∧ k < 0) fn.body I₁) ∧
      (TakesNull r ∨ Returns fn.body)
  flow : Flow (baseEnv s.front) D false (fun _ => False) (.block (program ps)) I'

/-- All symbols of the first table are at the same place of the second, unchanged but for structs which were only
mentioned (and may have been defined or registered as types of the host's). -/
def FrontLe (f f' : Front) : Prop :=
  ∀ (i : Nat) x, f.syms[i]? = some x → ∃ y, f'.syms[i]? = some y ∧ Stays (unmarked x) (unmarked y)

/-- No type for which `a[i]` could only be read has got a function for `a[i] = x`. (`a[i]` in a source which was compiled
before would not call it.) -/
def SameSetters (Γ Γ' : TyEnv) : Prop :=
  ∀ t g, Γ.func (Γ.getIndex t) = some g → Γ'.func (Γ.setIndex t) = Γ.func (Γ.setIndex t)

/-- A machine with the program of the state, and the context in which the language interprets the program `prog`: names
mean what the symbol table says, the functions are those defined in `prog`. -/
structure MachineOf (s : TState) (prog : List Stmt) (c : Ctx) (env : Env) : Prop extends SameWorld c env where
  program : env.program = s.program
  functionPcs : env.functionPcs = s.functionPcs
  foreigns : c.numForeign = s.front.numForeign
  strings : c.numStrings = s.front.strings.length
  globals : c.globals = globalsOf s.front
  fns : ∀ i fn, c.fns i = some fn ↔ (i, fn) ∈ procsL prog
  few : s.front.numFunctions ≤ 2 ^ 32

end Tiny.Spec
