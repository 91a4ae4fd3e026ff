import Verif.Spec.TypeTables
import Verif.Model.Parser

/-!
# Symbol tables a host can have
-/

namespace Tiny.Spec

/-- The symbol table of a new state, and after each call which changes it: binding functions and constants,
registering types, and compiling a source without errors (parsing, then checking types). -/
inductive Reached : Front → Prop
  | new : Reached {}
  /-- `Tiny_BindFunction` -/
  | bind {f f' n as va r} : Reached f → bindFunction n as va r f = .ok () f' → Reached f'
  /-- `Tiny_BindConstBool`, `-Int`, `-Float`, `-String` -/
  | const {f f' n v} : Reached f → declareConst n (constTag v) v f = .ok () f' → Reached f'
  /-- `RegisterString`, in `Tiny_BindConstString` and `Tiny_CompileString` -/
  | string {f f' s i} : Reached f → registerString s f = .ok i f' → Reached f'
  /-- `Tiny_RegisterType` -/
  | register {f f' n} : Reached f → registerType n f = .ok () f' → Reached f'
  /-- `GetTagFromName`, in `Tiny_BindFunction` -/
  | typeName {f f' n t} : Reached f → getTagFromName n f = .ok t f' → Reached f'
  /-- `GetOrCreateNullable`, in `Tiny_BindFunction` -/
  | nullable {f f' u t} : Reached f → getOrCreateNullable u f = .ok t f' → Reached f'
  /-- `Tiny_CompileString` -/
  | compile {f f' n ts xs q ss} : Reached f → parseProgram n ⟨ts, f⟩ = .ok xs q → resolveSs xs q.st = .ok ss f' →
      Reached f'

end Tiny.Spec
