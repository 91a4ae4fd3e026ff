import Verif.Model.Compile
import Verif.Model.VM

/-!
# Global variables by name, for the host (tiny/src/tiny.c:542-552, 569-581)
-/

namespace Tiny

/-- `sym->type == TINY_SYM_GLOBAL && strcmp(sym->name, name) == 0`, tiny.c:546. -/
def Sym.isGlob (n : Name) : Sym → Bool
  | .glob v => v.name == n
  | _ => false

/-- `Tiny_GetGlobalIndex`, tiny.c:542-552: the first one of that name. -/
def getGlobalIndex (f : Front) (n : Name) : Int :=
  match f.syms.find? (Sym.isGlob n) with
  | some (.glob v) => v.idx
  | _ => -1

/-- `Tiny_GetGlobal`, tiny.c:569-574, on a thread whose globals are allocated. `numGlobals` is `state->numGlobalVars` now, the
thread has as many as there were when it was started. -/
def getGlobal (numGlobals : Nat) (t : Thread) (i : Int) : Res Value := do
  Res.assert (decide (0 ≤ i ∧ i < numGlobals))
  match t.world.globals[i.toNat]? with
  | some v => .ok v
  | none => .ub

/-- `Tiny_SetGlobal`, tiny.c:576-581. -/
def setGlobal (numGlobals : Nat) (t : Thread) (i : Int) (v : Value) : Res Thread := do
  Res.assert (decide (0 ≤ i ∧ i < numGlobals))
  if i.toNat < t.world.globals.length then .ok { t with world := { t.world with globals := t.world.globals.set i.toNat v } }
  else .ub

end Tiny
