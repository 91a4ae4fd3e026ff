import Verif.Spec.Session
import Mathlib.Logic.Relation

/-!
# Macros which bind functions, constants and types
-/

namespace Tiny.Spec

/-- All the action does, whether it returns or reports an error, is to call `Tiny_BindFunction`, `Tiny_BindConst...`,
`Tiny_RegisterType` and `Tiny_BindMacro`. -/
def CallsOnly {α : Type} (x : Act TState α) : Prop := ∀ s, match x s with
  | .ok _ s' => Relation.ReflTransGen HostCall s.front s'.front ∧ s' = { s with front := s'.front }
  | .err s' => Relation.ReflTransGen HostCall s.front s'.front ∧ s' = { s with front := s'.front }
  | _ => True

/-- That is true of all macros of the host. -/
def HostMacros (E : CompileEnv) : Prop := ∀ m args a, CallsOnly (E.macros m args a)

end Tiny.Spec
