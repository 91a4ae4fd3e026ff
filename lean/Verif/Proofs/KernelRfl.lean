import Lean.Elab.Tactic.Basic
import Lean.Meta.AppBuilder

/-!
# A tactic for concrete cases

`kernel_rfl` closes `a = b` with `Eq.refl a` without checking that `a` and `b` agree: the kernel does.
-/

namespace Tiny
open Lean Elab Tactic Meta

elab "kernel_rfl" : tactic => do
  let g ← getMainGoal
  let some (_, a, _) := (← g.getType).eq? | throwError "not an equation"
  g.assign (← mkEqRefl a)

end Tiny
