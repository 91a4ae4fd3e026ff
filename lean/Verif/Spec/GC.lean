import Verif.Spec.Heap
import Verif.Model.VM

/-!
# The interpreter without a garbage collector, to compare with
-/

namespace Tiny.Spec

/-- Two outcomes of the same kind, the normal ones related by `R`. -/
def ResRel {α β : Type} (R : α → β → Prop) : Res α → Res β → Prop
  | .ok a, .ok b => R a b
  | .abort, .abort => True
  | .ub, .ub => True
  | .limit, .limit => True
  | .timeout, .timeout => True
  | _, _ => False

/-- `n` cycles of the interpreter as it is. -/
def stepsGC (env : Env) : Nat → Thread → Res Thread
  | 0, t => .ok t
  | n + 1, t => do
    let (_, t) ← cycle env t
    stepsGC env n t

/-- `n` cycles of an interpreter which never collects. -/
def stepsNoGC (env : Env) : Nat → Thread → Res Thread
  | 0, t => .ok t
  | n + 1, t => if t.pc < 0 then stepsNoGC env n t else do
    let t ← exec env t
    stepsNoGC env n t

/-- Two heaps which look the same to a program that holds only `roots`: same contents of everything
reachable (the first being free of dangling references), same host memory, same next address. -/
structure HeapSim (h h' : Heap) (roots : List Value) : Prop where
  wf : WfHeap h roots
  next : h'.next = h.next
  natRefs : h'.natRefs = h.natRefs
  same : ∀ o, Reach h roots o → o ∈ h'.list ∧ h'.obj o = h.obj o

/-- Two threads which a program cannot tell apart. -/
structure Indist (t u : Thread) : Prop where
  pc : u.pc = t.pc
  fp : u.fp = t.fp
  stack : u.stack = t.stack
  frames : u.frames = t.frames
  retVal : u.retVal = t.retVal
  globals : u.world.globals = t.world.globals
  trace : u.world.trace = t.world.trace
  heap : HeapSim t.world.heap u.world.heap t.roots

/-- What is asked of foreign functions: they cannot tell such heaps apart either. They may read and write
everything reachable from their arguments and the globals, allocate and change host memory; whatever else
the caller holds (`others`) must stay intact. -/
def ForeignParametric (env : Env) : Prop :=
  ∀ i args w w' others, w'.globals = w.globals → w'.trace = w.trace →
    HeapSim w.heap w'.heap (args ++ w.globals ++ others) →
    ResRel (fun a b => b.1 = a.1 ∧ b.2.globals = a.2.globals ∧
        HeapSim a.2.heap b.2.heap (a.1 :: a.2.globals ++ others))
      (env.foreign i args w) (env.foreign i args w')

end Tiny.Spec
