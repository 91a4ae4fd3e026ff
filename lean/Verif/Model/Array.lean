import Verif.Model.Basic

/-!
# Stretchy buffers and arrays: tiny/src/stretchy_buffer.h, tiny/src/array.c

The raw memory of the buffer is modelled cell by cell: a cell is `none` until it is written
(`realloc`ed memory is uninitialised), and any access outside the capacity is undefined behaviour.
-/

namespace Tiny

/-- The block behind a non-NULL stretchy buffer: header words `m` (capacity) and `n` (count),
stretchy_buffer.h:193-195, and the cells. -/
structure Buf (α : Type) where
  cap : Nat
  n : Nat
  cells : List (Option α)
deriving Repr

/-- `Array` (tiny/include/array.h): `data == NULL` is `none`. -/
abbrev Arr (α : Type) := Option (Buf α)

namespace Arr
variable {α : Type}

/-- `InitArray`, array.c:9-12. -/
def init : Arr α := none

/-- `sb_count`, stretchy_buffer.h:188; `ArrayLen`, array.c:21. -/
def len : Arr α → Nat
  | none => 0
  | some b => b.n

/-- `stb__sbgrowf`, stretchy_buffer.h:203-218: new capacity `max(2*cap, count+increment)`; old cells
are kept by `realloc`, the rest is uninitialised. (Out of memory is not modelled.) -/
def growf (a : Arr α) (increment : Nat) : Buf α :=
  let dblCur := match a with | none => 0 | some b => 2 * b.cap
  let minNeeded := a.len + increment
  let m := if dblCur > minNeeded then dblCur else minNeeded
  match a with
  | none => { cap := m, n := 0, cells := List.replicate m none }
  | some b => { cap := m, n := b.n, cells := b.cells ++ List.replicate (m - b.cap) none }

/-- `stb__sbmaybegrow` / `stb__sbneedgrow`, stretchy_buffer.h:197-199. -/
def maybeGrow (a : Arr α) (n : Nat) : Buf α :=
  match a with
  | none => growf a n
  | some b => if b.n + n ≥ b.cap then growf a n else b

/-- Store into a raw cell. -/
def writeCell (b : Buf α) (i : Nat) (v : α) : Res (Buf α) :=
  if i < b.cells.length then .ok { b with cells := b.cells.set i (some v) } else .ub

/-- Load a raw cell; an uninitialised cell is undefined behaviour. -/
def readCell (b : Buf α) (i : Nat) : Res α :=
  match b.cells[i]? with
  | some (some v) => .ok v
  | _ => .ub

/-- `memmove(&data[dst], &data[src], cnt * sizeof(Tiny_Value))`. -/
def memmove (b : Buf α) (dst src cnt : Nat) : Res (Buf α) :=
  if src + cnt ≤ b.cells.length ∧ dst + cnt ≤ b.cells.length then
    .ok { b with cells := b.cells.take dst ++ (b.cells.drop src).take cnt ++ b.cells.drop (dst + cnt) }
  else .ub

/-- `sb_push`, stretchy_buffer.h:187; `ArrayPush`, array.c:41. -/
def push (a : Arr α) (v : α) : Res (Arr α) := do
  let b := maybeGrow a 1
  let b ← writeCell b b.n v
  pure (some { b with n := b.n + 1 })

/-- `ArrayClear`, array.c:23: writes the count through the data pointer, so NULL is undefined. -/
def clear : Arr α → Res (Arr α)
  | none => .ub
  | some b => .ok (some { b with n := 0 })

/-- The loop of `ArrayResize`, array.c:33-35: `newValues[i] = newValue` for `i` in `[i, newLen)`,
where `newValues` points at cell `base`. -/
def fillLoop (b : Buf α) (base : Nat) (v : α) : Nat → Nat → Res (Buf α)
  | _, 0 => .ok b
  | i, k + 1 => do
    let b ← writeCell b (base + i) v
    fillLoop b base v (i + 1) k

/-- `ArrayResize`, array.c:25-39. `sb_add` (stretchy_buffer.h:189-190) adds `newLen - len` to the
count and returns a pointer to the first new cell. -/
def resize (a : Arr α) (newLen : Int) (v : α) : Res (Arr α) := do
  Res.assert (newLen ≥ 0)
  let newLen := newLen.toNat
  let len := a.len
  if newLen > len then
    let b := maybeGrow a (newLen - len)
    let b := { b with n := b.n + (newLen - len) }
    let base := b.n - (newLen - len)
    let b ← fillLoop b base v len (newLen - len)
    pure (some b)
  else
    match a with
    | none => .ub
    | some b => pure (some { b with n := newLen })

/-- `ArrayPop`, array.c:43-48. -/
def pop (a : Arr α) : Res (Arr α × α) := do
  Res.assert (a.len > 0)
  match a with
  | none => .ub
  | some b =>
    let v ← readCell b (b.n - 1)
    pure (some { b with n := b.n - 1 }, v)

/-- `ArrayShift`, array.c:50-59. -/
def shift (a : Arr α) : Res (Arr α × α) := do
  let len := a.len
  Res.assert (len > 0)
  match a with
  | none => .ub
  | some b =>
    let v ← readCell b 0
    let b ← memmove b 0 1 (len - 1)
    pure (some { b with n := b.n - 1 }, v)

/-- `ArrayInsert`, array.c:61-70. -/
def insert (a : Arr α) (index : Int) (v : α) : Res (Arr α) := do
  let len := a.len
  Res.assert (index ≥ 0 ∧ index < len)
  let index := index.toNat
  let b := maybeGrow a 1
  let b := { b with n := b.n + 1 }
  let b ← memmove b (index + 1) index (len - index)
  let b ← writeCell b index v
  pure (some b)

/-- `ArrayRemove`, array.c:72-79. -/
def remove (a : Arr α) (index : Int) : Res (Arr α) := do
  let len := a.len
  Res.assert (index ≥ 0 ∧ index < len)
  let index := index.toNat
  match a with
  | none => .ub
  | some b =>
    let b ← memmove b index (index + 1) (len - index - 1)
    pure (some { b with n := b.n - 1 })

/-- `ArraySet`, array.c:81-85. -/
def set (a : Arr α) (index : Int) (v : α) : Res (Arr α) := do
  Res.assert (index ≥ 0 ∧ index < a.len)
  match a with
  | none => .ub
  | some b =>
    let b ← writeCell b index.toNat v
    pure (some b)

/-- `ArrayGet`, array.c:87-91, followed by the load the callers do. -/
def get (a : Arr α) (index : Int) : Res α := do
  Res.assert (index ≥ 0 ∧ index < a.len)
  match a with
  | none => .ub
  | some b => readCell b index.toNat

/-- Calls of the array API. -/
inductive Op (α : Type) where
  | push (v : α)
  | pop
  | shift
  | insert (i : Int) (v : α)
  | remove (i : Int)
  | set (i : Int) (v : α)
  | get (i : Int)
  | len
  | clear
  | resize (n : Int) (v : α)

/-- What a call returns. -/
inductive Out (α : Type) where
  | unit
  | val (v : α)
  | num (n : Nat)
deriving DecidableEq, Repr

/-- Perform one call. -/
def step (a : Arr α) : Op α → Res (Arr α × Out α)
  | .push v => do let a ← a.push v; pure (a, .unit)
  | .pop => do let (a, v) ← a.pop; pure (a, .val v)
  | .shift => do let (a, v) ← a.shift; pure (a, .val v)
  | .insert i v => do let a ← a.insert i v; pure (a, .unit)
  | .remove i => do let a ← a.remove i; pure (a, .unit)
  | .set i v => do let a ← a.set i v; pure (a, .unit)
  | .get i => do let v ← a.get i; pure (a, .val v)
  | .len => pure (a, .num a.len)
  | .clear => do let a ← a.clear; pure (a, .unit)
  | .resize n v => do let a ← a.resize n v; pure (a, .unit)

/-- Perform a history, collecting the outputs. -/
def run (a : Arr α) : List (Op α) → Res (List (Out α))
  | [] => pure []
  | op :: ops => do
    let (a, o) ← step a op
    let os ← run a ops
    pure (o :: os)

end Arr
end Tiny
