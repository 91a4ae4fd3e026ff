import Verif.Model.Compile
import Verif.Spec.Keep
import Verif.Proofs.Resolve
import Verif.Proofs.ParseSafe

/-!
# What a compilation leaves alone

The spec of C32.
-/

namespace Tiny.Spec

/-- Line records are only added; only the last one may be changed, but not its pc. -/
structure LKeep (l l' : List LineRec) : Prop where
  old : ∀ j, j + 1 < l.length → l'[j]? = l[j]?
  pcs : ∀ (j : Nat) r, l[j]? = some r → ∃ r', l'[j]? = some r' ∧ r'.pc = r.pc

/-- A symbol without the flags `initialized` of its variables, which the language does not show. -/
def unmarkedVar (v : VarInfo) : VarInfo := { v with init := false }

/-- See `unmarkedVar`. -/
def unmarked : Sym → Sym
  | .glob v => .glob (unmarkedVar v)
  | .func fi => .func { fi with args := fi.args.map unmarkedVar, locals := fi.locals.map unmarkedVar }
  | x => x

/-- A symbol is still there (`Kept`), or it is a struct which was only mentioned and has been registered as a type of
the host's. -/
inductive Stays : Sym → Sym → Prop
  | kept {x y} : Kept x y → Stays x y
  | opaque (n : Name) (fs : List (Name × Tag)) : Stays (.struct n false fs) (.ftype n)

/-- Everything which was there before is still there: the symbols at their places, the strings, all bytes of the program
but the last one (the `HALT`), the entries of the functions of the language and of the bound C functions, the line
records, the depth of nested compilations. No number of a variable or function is given again. -/
structure Survives (s s' : TState) : Prop where
  syms : ∀ (i : Nat) (x : Sym), s.front.syms[i]? = some x → ∃ y, s'.front.syms[i]? = some y ∧ Stays (unmarked x) (unmarked y)
  strings : s.front.strings <+: s'.front.strings
  globals : s.front.numGlobalVars ≤ s'.front.numGlobalVars
  functions : s.front.numFunctions ≤ s'.front.numFunctions
  foreign : s.front.numForeign ≤ s'.front.numForeign
  code : ∀ k, k + 1 < s.program.length → s'.program[k]? = s.program[k]?
  entries : ∀ fi, Sym.func fi ∈ s.front.syms → ∀ p, s.functionPcs[fi.index]? = some p → s'.functionPcs[fi.index]? = some p
  bound : ∀ n i ts va r, Sym.foreign n i ts va r ∈ s.front.syms → s.foreignFns[i]? = some (some n) →
    s'.foreignFns[i]? = some (some n)
  lines : LKeep s.lines s'.lines
  nest : s'.nest = s.nest

/-- What we ask of the macros of the host: called between statements, with sound tables, a macro (which may bind
functions, constants and types, and compile sources) leaves alone what was there. `c32_nested` says that compiling a
source does. -/
def MacrosKeep (E : CompileEnv) : Prop :=
  ∀ m args asName s, Tables s.front → s.front.currFunc = .none → match E.macros m args asName s with
    | .ok _ s' => Survives s s' ∧ s.program.length ≤ s'.program.length ∧ Tables s'.front ∧ s'.front.currFunc = .none
    | .err s' => Survives s s' ∧ s.program.length ≤ s'.program.length
    | _ => True

/-- No `use` in the program. -/
def NoUse (xs : List CStmt) : Prop := ∀ line m args a, PStmt.node line (.use m args a) ∉ xs

/-- The states a host can reach: a new state, and after each call which changes it. A compilation which failed inside
the body of a function leaves a pointer to a destroyed symbol behind (`currFunc`); such states are left out: see
`c32_dangling`. The tokens of a source end in end-of-file or error tokens (`Tail3`) if the lexer returns (C11, C46). -/
inductive History : TState → Prop
  | new : History {}
  /-- `Tiny_BindFunction` -/
  | bind {s f n as va r} : History s → bindFunction n as va r s.front = .ok () f → History { s with front := f }
  /-- `Tiny_BindConstBool`, `-Int`, `-Float`, `-String` -/
  | const {s f n v} : History s → declareConst n (constTag v) v s.front = .ok () f → History { s with front := f }
  /-- `RegisterString`, in `Tiny_BindConstString` -/
  | string {s f x i} : History s → registerString x s.front = .ok i f → History { s with front := f }
  /-- `Tiny_RegisterType` -/
  | register {s f n} : History s → registerType n s.front = .ok () f → History { s with front := f }
  /-- `GetTagFromName`, in `Tiny_BindFunction` -/
  | typeName {s f n t} : History s → getTagFromName n s.front = .ok t f → History { s with front := f }
  /-- `GetOrCreateNullable`, in `Tiny_BindFunction` -/
  | nullable {s f u t} : History s → getOrCreateNullable u s.front = .ok t f → History { s with front := f }
  /-- `Tiny_BindMacro` -/
  | module {s f n} : History s → bindMacro n s.front = .ok () f → History { s with front := f }
  /-- `Tiny_CompileString`, successful or not -/
  | compile {E file ts s b s'} : History s → MacrosKeep E → Tail3 ts → compileTokens E file ts s = .ok b s' →
      s'.front.currFunc = .none → History s'

end Tiny.Spec
