import Verif.Spec.Lang
import Verif.Spec.GC

/-!
# Compiled code in a machine
-/

namespace Tiny.Spec

/-- What the code generator wrote between the states `s` and `s'` is in the machine's program, at the same
place. -/
structure Placed (s s' : CS) (env : Env) : Prop where
  fits : s'.program.length ≤ env.program.length
  bytes : ∀ k, s.program.length ≤ k → k < s'.program.length → env.program[k]? = s'.program[k]?

/-- The entries of the functions defined in `ss` are those the code generator noted. -/
def EntriesOf (ss : List Stmt) (s' : CS) (env : Env) : Prop :=
  ((procsL ss).map Prod.fst).Nodup ∧ ∀ p ∈ procsL ss, env.functionPcs[p.1]? = s'.functionPcs[p.1]?

/-- The machine has the same foreign functions, strings and floating point as the context in which the
program is interpreted, and numbers fit their C types. -/
structure SameWorld (c : Ctx) (env : Env) : Prop where
  fl : env.fl = c.fl
  numForeign : env.numForeign = c.numForeign
  foreign : env.foreign = c.foreign
  numStrings : env.numStrings = c.numStrings
  cmem : env.cmem = c.cmem
  stack : env.stackSize ≤ 2 ^ 31
  fewForeign : c.numForeign ≤ 2 ^ 32
  size : env.program.length < 2 ^ 31

/-- Moreover, every function of the context has been compiled into the machine's program. -/
structure Loaded (c : Ctx) (env : Env) : Prop extends SameWorld c env where
  fns : ∀ i fn, c.fns i = some fn → i < 2 ^ 32 ∧
    ∃ s a s', compileS c.globals (.proc i fn.nargs fn.nlocals fn.body) s = .ok a s' ∧ Placed s s' env ∧
      EntriesOf [.proc i fn.nargs fn.nlocals fn.body] s' env

/-- Everything known in `g` is known, the same, in `g'`. -/
structure GlobalsLe (g g' : Globals) : Prop where
  structs : ∀ n fs, g.structs n = some fs → g'.structs n = some fs
  funcs : ∀ n f, g.funcs n = some f → g'.funcs n = some f

/-- All statements of the compilation units, in order. -/
def allStmts (us : List (Globals × Nat × List Stmt)) : List Stmt := us.flatMap fun u => u.2.2

/-- The machine runs the result `s'` of compiling the units `us` (at least one) into an empty state, and the
context knows their functions, which have different numbers. -/
structure BuiltFrom (us : List (Globals × Nat × List Stmt)) (c : Ctx) (env : Env) : Prop extends SameWorld c env where
  nonempty : us ≠ []
  globals : ∀ u ∈ us, GlobalsLe u.1 c.globals
  compiled : ∃ s', compileUnits us {} = .ok () s' ∧ env.program = s'.program ∧ env.functionPcs = s'.functionPcs
  fns : ∀ i fn, c.fns i = some fn → (i, fn) ∈ procsL (allStmts us)
  ids : ((procsL (allStmts us)).map Prod.fst).Nodup
  idsFit : ∀ p ∈ procsL (allStmts us), p.1 < 2 ^ 32

/-- The thread in the middle of a function with arguments `args` and locals `locs`: `B` is the part of the
stack which belongs to the callers, `T` are pending operands. -/
def inFunction (pc : Nat) (B args locs T : List Value) (frames : List Frame) (rv : Value) (w : World) : Thread where
  pc := (pc : Nat)
  fp := B.length + args.length
  stack := B ++ args ++ locs ++ T
  frames := frames
  retVal := rv
  world := w

/-- The run from `t` reaches (after some number of instructions) a thread satisfying `Q` – or the limits of
the machine (stack or call depth). -/
def Reaches (env : Env) (t : Thread) (Q : Thread → Prop) : Prop :=
  ∃ k, stepsNoGC env k t = .limit ∨ ∃ u, stepsNoGC env k t = .ok u ∧ Q u

/-- The run from `t` ends with a failed run-time check, or at the limits of the machine. -/
def Fails (env : Env) (t : Thread) : Prop :=
  ∃ k, stepsNoGC env k t = .limit ∨ stepsNoGC env k t = .abort

/-- The run from `t` never ends: after any number of instructions the thread is still running (or a foreign
function called by it is, or it is at the limits of the machine). -/
def RunsForever (env : Env) (t : Thread) : Prop :=
  ∀ k, stepsNoGC env k t = .limit ∨ stepsNoGC env k t = .timeout ∨ ∃ u, stepsNoGC env k t = .ok u ∧ 0 ≤ u.pc

/-- The collector meets a cycle of reachable objects some time after `t` (and then never ends, C27). -/
def MeetsCycle (env : Env) (t : Thread) : Prop :=
  ∃ k t1 t2, stepsGC env k t = .ok t1 ∧ 0 ≤ t1.pc ∧ exec env t1 = .ok t2 ∧ ReachableCycle t2.world.heap t2.roots

end Tiny.Spec
