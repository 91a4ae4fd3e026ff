import Verif.Model.Heap

/-!
# What a program can still reach
-/

namespace Tiny.Spec

/-- `p` is referenced directly by object `o`. -/
def PointsTo (h : Heap) (o p : ObjId) : Prop := ∃ v ∈ h.children o, v.objId? = some p

/-- Objects reachable from a list of values. -/
inductive Reach (h : Heap) (roots : List Value) : ObjId → Prop where
  | root {v : Value} {o : ObjId} : v ∈ roots → v.objId? = some o → Reach h roots o
  | step {o p : ObjId} : Reach h roots o → PointsTo h o p → Reach h roots p

/-- A heap as the interpreter keeps it between cycles, seen from `roots`: no duplicate in the object
list, the counter is its length, no mark is set, addresses are below the allocation pointer, deleted
objects are not in the list, every object ever allocated is in the list or deleted, and nothing reachable
was deleted. -/
structure WfHeap (h : Heap) (roots : List Value) : Prop where
  nodup : h.list.Nodup
  count : h.numObjects = h.list.length
  unmarked : ∀ o, h.marked o = false
  fresh : ∀ o ∈ h.list, o < h.next
  freedNodup : h.freed.Nodup
  freedFresh : ∀ o ∈ h.freed, o < h.next ∧ o ∉ h.list
  complete : ∀ o, o < h.next → o ∈ h.list ∨ o ∈ h.freed
  noDangling : ∀ o, Reach h roots o → o ∈ h.list

/-- A reachable object that can reach itself. -/
def ReachableCycle (h : Heap) (roots : List Value) : Prop :=
  ∃ o, Reach h roots o ∧ Reach h (h.children o) o

end Tiny.Spec
