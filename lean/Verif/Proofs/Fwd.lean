import Lean

/-! A small tactic: `fwd t` adds `t h` to the context for every hypothesis `h` it applies to. -/

namespace Tiny
open Lean Elab Tactic Meta

/-- `fwd t`: for every hypothesis `h` such that `t h` type checks, add it. -/
elab "fwd " t:term : tactic => do
  let g ← getMainGoal
  g.withContext do
    for d in (← getLCtx) do
      if d.isImplementationDetail then continue
      unless ← isProp d.type do continue
      let s ← saveState
      try
        let h ← Term.exprToSyntax d.toExpr
        evalTactic (← `(tactic| have := $t $h))
      catch _ => restoreState s

/-- `fwdo t`: for every hypothesis `h` such that `t h (by omega) (by omega)` type checks, add it. -/
elab "fwdo " t:term : tactic => do
  let g ← getMainGoal
  g.withContext do
    for d in (← getLCtx) do
      if d.isImplementationDetail then continue
      unless ← isProp d.type do continue
      let s ← saveState
      try
        let h ← Term.exprToSyntax d.toExpr
        evalTactic (← `(tactic| have := $t $h (by omega) (by omega)))
      catch _ => restoreState s

end Tiny
