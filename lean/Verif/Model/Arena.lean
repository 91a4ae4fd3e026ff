import Verif.Model.Basic

/-!
# The parser's arena: tiny/src/arena.c

Pages live in a heap addressed by page identity and are linked by `next` pointers as in C, so that a
page can be freed twice or read after being freed in the model.  A pointer returned by the arena is a
page identity and an offset from that page's `data`.
-/

namespace Tiny

/-- `Tiny_ArenaPage`, tiny/include/arena.h:7-13 (`data` is the page's own storage). -/
structure ArenaPage where
  used : Nat
  cap : Nat
  next : Option Nat
deriving DecidableEq, Repr

/-- `Tiny_Arena`, tiny/include/arena.h:15-18, with the allocator's heap of pages; `fresh` is the next
identity `malloc` will hand out. -/
structure Arena where
  head : Option Nat
  heap : Nat → Option ArenaPage
  fresh : Nat

namespace Arena

/-- `ARENA_PAGE_SIZE`, tiny/include/arena.h. -/
def pageSize : Nat := 4096

/-- `Tiny_InitArena`, arena.c:37-40. -/
def init : Arena := { head := none, heap := fun _ => none, fresh := 0 }

/-- `AllocPage`, arena.c:7-16. -/
def allocPage (a : Arena) (size : Nat) : Arena × Nat :=
  ({ a with heap := fun i => if i = a.fresh then some { used := 0, cap := size, next := none }
                             else a.heap i
            fresh := a.fresh + 1 }, a.fresh)

/-- `NextMultipleOf`, arena.c:18-35, on 64-bit `size_t`. -/
def nextMultipleOf (value factor : Nat) : Res Nat :=
  if factor = 1 then .ok value
  else do
    Res.assert (factor % 2 = 0)
    .ok (((value &&& (2 ^ 64 - 1 - (factor - 1))) + factor) % 2 ^ 64)

/-- Overwrite a page's fields through a pointer. -/
def store (a : Arena) (id : Nat) (p : ArenaPage) : Arena :=
  { a with heap := fun i => if i = id then some p else a.heap i }

/-- Read a page through a pointer; a freed page is undefined behaviour. -/
def load (a : Arena) (id : Nat) : Res ArenaPage :=
  match a.heap id with
  | some p => .ok p
  | none => .ub

/-- The last part of `Tiny_ArenaAlloc`, arena.c:58-67: a new page for a small request. -/
def allocNew (a : Arena) (size : Nat) : Res (Arena × Nat × Nat) := do
  let (a, id) := a.allocPage pageSize
  let p ← a.load id
  let a := a.store id { p with used := size, next := a.head }
  pure ({ a with head := some id }, id, 0)

/-- `Tiny_ArenaAlloc`, arena.c:42-74. Returns the page and the offset of the block. -/
def alloc (a : Arena) (size align : Nat) : Res (Arena × Nat × Nat) :=
  if size > pageSize then do
    let (a, id) := a.allocPage size
    let p ← a.load id
    match a.head with
    | some h =>
      let a := a.store id { p with used := size }
      let hp ← a.load h
      let p ← a.load id
      let a := a.store id { p with next := hp.next }
      let hp ← a.load h
      let a := a.store h { hp with next := some id }
      pure (a, id, 0)
    | none =>
      let a := a.store id { p with used := size }
      pure ({ a with head := some id }, id, 0)
  else
    match a.head with
    | none => allocNew a size
    | some h => do
      let hp ← a.load h
      let start ← nextMultipleOf hp.used align
      if (start + size) % 2 ^ 64 > hp.cap then allocNew a size
      else
        let used := (start + size) % 2 ^ 64
        let a := a.store h { hp with used := used }
        pure (a, h, used - size)

/-- The loop of `Tiny_DestroyArena`, arena.c:76-84: read `next`, then free. Returns the pages freed. -/
def destroyLoop : Nat → (Nat → Option ArenaPage) → Option Nat → Res ((Nat → Option ArenaPage) × List Nat)
  | 0, _, _ => .timeout
  | _ + 1, heap, none => .ok (heap, [])
  | fuel + 1, heap, some id =>
    match heap id with
    | none => .ub
    | some p => do
      let (heap', freed) ← destroyLoop fuel (fun i => if i = id then none else heap i) p.next
      pure (heap', id :: freed)

/-- `Tiny_DestroyArena`, arena.c:76-84. -/
def destroy (fuel : Nat) (a : Arena) : Res ((Nat → Option ArenaPage) × List Nat) :=
  destroyLoop fuel a.heap a.head

/-- A request to the arena. -/
structure Req where
  size : Nat
  align : Nat
deriving DecidableEq, Repr

/-- A block handed out: where it is and how large it was requested. -/
structure Block where
  page : Nat
  off : Nat
  size : Nat
  align : Nat
deriving DecidableEq, Repr

/-- Serve a sequence of requests. -/
def run (a : Arena) : List Req → Res (Arena × List Block)
  | [] => .ok (a, [])
  | r :: rs => do
    let (a, page, off) ← a.alloc r.size r.align
    let (a, bs) ← run a rs
    pure (a, ⟨page, off, r.size, r.align⟩ :: bs)

end Arena
end Tiny
