import Verif.Model.Value

/-!
# The per-thread heap and the garbage collector (tiny/src/tiny.c)

Object addresses are numbers handed out in increasing order: unlike `malloc`, the model never reuses
the address of a deleted object, so that a dangling reference is visible as a reference to an address
which is not in the object list (and dereferencing one is `ub`).
-/

namespace Tiny

/-- The heap of a thread (`gcHead`, `numObjects`, `maxNumObjects` of `Tiny_StateThread`,
tiny/include/tiny.h:153-156) together with the contents of the objects.
* `list` – the chain `gcHead`, `gcHead->next`, ...
* `natRefs addr prop` – the values which `prop->protectFromGC(addr)` passes to `Tiny_ProtectFromGC`
  (`[]` if there is no such function); host memory, changed only by foreign functions
* `freed` – record of the `DeleteObject` calls so far, oldest first (ghost state). -/
structure Heap where
  next : ObjId := 0
  list : List ObjId := []
  obj : ObjId → Obj := fun _ => .str []
  marked : ObjId → Bool := fun _ => false
  natRefs : Nat → Nat → List Value := fun _ _ => []
  numObjects : Int := 0
  maxNumObjects : Int := 8
  freed : List ObjId := []

/-- Update a function at one point. -/
def upd {α : Type} (f : Nat → α) (i : Nat) (a : α) : Nat → α := fun j => if j = i then a else f j

/-- The object a value points to, if it `IsObject` (tiny.c:120-123). -/
def Value.objId? : Value → Option ObjId
  | .str o => some o
  | .native o => some o
  | .struct o => some o
  | _ => none

/-- `NewObject` / `NewStringObjectEmbedString` / `NewStructObject`, tiny.c:265-316: the new object
becomes the head of the list, unmarked, and is counted. -/
def Heap.alloc (h : Heap) (o : Obj) : ObjId × Heap :=
  (h.next, { h with
    next := h.next + 1
    list := h.next :: h.list
    obj := upd h.obj h.next o
    marked := upd h.marked h.next false
    numObjects := h.numObjects + 1 })

/-- Following an object pointer: undefined if the object was deleted. -/
def Heap.deref (h : Heap) (o : ObjId) : Res Obj := if o ∈ h.list then .ok (h.obj o) else .ub

/-- The values `Tiny_ProtectFromGC` visits below an object: tiny.c:134-139. -/
def Heap.children (h : Heap) (o : ObjId) : List Value :=
  match h.obj o with
  | .str _ => []
  | .native a p => h.natRefs a p
  | .struct fs => fs

/-- Loops calling `Tiny_ProtectFromGC` on consecutive values (tiny.c:138, 643-646; std.c:190-196). -/
def Heap.markEach (mark : Heap → Value → Res Heap) : Heap → List Value → Res Heap
  | h, [] => .ok h
  | h, v :: vs => do
    let h ← mark h v
    Heap.markEach mark h vs

/-- `Tiny_ProtectFromGC`, tiny.c:125-142, with a bound on the recursion depth.  Note that the mark is
set after the children were visited. -/
def Heap.mark : Nat → Heap → Value → Res Heap
  | 0, _, _ => .timeout
  | fuel + 1, h, v =>
    match v.objId? with
    | none => .ok h
    | some o =>
      if o ∈ h.list then
        if h.marked o then .ok h
        else do
          let h ← Heap.markEach (Heap.mark fuel) h (h.children o)
          .ok { h with marked := upd h.marked o true }
      else .ub

/-- `Tiny_ProtectFromGC` on consecutive values. -/
def Heap.markList (fuel : Nat) (h : Heap) (vs : List Value) : Res Heap := Heap.markEach (Heap.mark fuel) h vs

theorem Heap.markList_nil {fuel : Nat} {h : Heap} : Heap.markList fuel h [] = .ok h := rfl

theorem Heap.markList_cons {fuel : Nat} {h : Heap} {v : Value} {vs : List Value} :
    Heap.markList fuel h (v :: vs) = (do let h ← Heap.mark fuel h v; Heap.markList fuel h vs) := rfl

theorem Heap.mark_zero {h : Heap} {v : Value} : Heap.mark 0 h v = .timeout := rfl

theorem Heap.mark_succ {fuel : Nat} {h : Heap} {v : Value} : Heap.mark (fuel + 1) h v =
    match v.objId? with
    | none => .ok h
    | some o =>
      if o ∈ h.list then
        if h.marked o then .ok h
        else do
          let h ← Heap.markList fuel h (h.children o)
          .ok { h with marked := upd h.marked o true }
      else .ub := rfl

/-- `Sweep`, tiny.c:146-159: walk the chain; unmarked objects are unlinked, counted down and deleted,
marked ones are kept and unmarked.  Returns the remaining chain. -/
def Heap.sweepLoop : Heap → List ObjId → Heap × List ObjId
  | h, [] => (h, [])
  | h, o :: rest =>
    if h.marked o then
      let (h, kept) := Heap.sweepLoop { h with marked := upd h.marked o false } rest
      (h, o :: kept)
    else
      Heap.sweepLoop { h with numObjects := h.numObjects - 1, freed := h.freed ++ [o] } rest

/-- `Sweep`, tiny.c:146-159. -/
def Heap.sweep (h : Heap) : Heap :=
  let (h', kept) := h.sweepLoop h.list
  { h' with list := kept }

/-- `GarbageCollect`, tiny.c:161-165, `roots` being what `MarkAll` (tiny.c:638-647) visits in order.
The depth bound is one more than the number of objects: a deeper recursion never ends
(`mark_timeout_forever`). -/
def Heap.collect (h : Heap) (roots : List Value) : Res Heap := do
  let h ← h.markList (h.list.length + 1) roots
  let h := h.sweep
  .ok { h with maxNumObjects := h.numObjects * 2 }

/-- `Tiny_DestroyThread`, tiny.c:624-636: deletes every object of the list. -/
def Heap.destroy (h : Heap) : Heap := { h with list := [], freed := h.freed ++ h.list }

end Tiny
