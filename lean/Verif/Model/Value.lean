import Verif.Model.Basic

/-!
# Tiny values, heap objects, equality and hashing

Models `Tiny_Value`, `Tiny_Object` (tiny/include/tiny.h:112-135, tiny/include/detail.h),
`Tiny_AreValuesEqual` (tiny/src/tiny.c:200-262) and `HashBytes`/`HashValue`
(tiny/src/dict.c:10-41).
-/

namespace Tiny

/-- Identity (address) of a heap object (`Tiny_Object *`): a number. -/
notation "ObjId" => Nat

/-- `Tiny_Value` with its tag, tiny/include/tiny.h:112-135.  Floats carry their bit pattern;
pointers are numbers. -/
inductive Value where
  | null
  | bool (b : Bool)
  | int (i : BitVec 64)
  | float (f : BitVec 64)
  | str (o : ObjId)
  | cstr (p : Nat)
  | native (o : ObjId)
  | light (addr : Nat)
  | struct (o : ObjId)
deriving DecidableEq, Repr, Inhabited

/-- Contents of a `Tiny_Object`, tiny/include/detail.h (`struct Tiny_Object`): the string bytes
(`len` of them), the native's address and property table, or the struct's fields. -/
inductive Obj where
  | str (bytes : List UInt8)
  | native (addr : Nat) (prop : Nat)
  | struct (fields : List Value)
deriving DecidableEq, Repr, Inhabited

/-- The part of memory values point to: heap objects, and the bytes from each `const char *`. -/
structure Mem where
  obj : ObjId → Obj
  cmem : Nat → List UInt8

/-- Bytes of the C string at `p`: everything before the first NUL (what `strlen` sees). -/
def Mem.cstrBytes (m : Mem) (p : Nat) : List UInt8 := (m.cmem p).takeWhile (· ≠ 0)

/-- `obj->string` of a string object. Simplification: reading another kind of object as a string is
modelled as the empty string (the tag of a value and of its object agree in every reachable state). -/
def Mem.strBytes (m : Mem) (o : ObjId) : List UInt8 :=
  match m.obj o with
  | .str bs => bs
  | _ => []

/-- `obj->nat.addr` of a native object (same simplification as `strBytes`). -/
def Mem.natAddr (m : Mem) (o : ObjId) : Nat :=
  match m.obj o with
  | .native a _ => a
  | _ => 0

/-- `Tiny_IsNull`, tiny/include/tiny.h:215. -/
def Value.isNull : Value → Bool
  | .null => true
  | _ => false

/-- The bytes `Tiny_ToString` points to, of length `Tiny_StringLen`
(tiny/src/tiny.c:167-179); `none` for non-strings. -/
def Value.bytes (m : Mem) : Value → Option (List UInt8)
  | .str o => some (m.strBytes o)
  | .cstr p => some (m.cstrBytes p)
  | _ => none

/-- `strncmp(a, b, n) == 0` for buffers holding at least `n` bytes each. -/
def strncmpEq : Nat → List UInt8 → List UInt8 → Bool
  | 0, _, _ => true
  | n + 1, a :: as, b :: bs =>
    if a ≠ b then false else if a = 0 then true else strncmpEq n as bs
  | _ + 1, _, _ => false

/-- A double is NaN: exponent all ones, mantissa non-zero. -/
def isNaNBits (f : BitVec 64) : Bool :=
  (f >>> 52) &&& 0x7ff#64 == 0x7ff#64 && f &&& 0xfffffffffffff#64 != 0#64

/-- C's `==` on doubles: NaN is unequal to everything, the two zeros are equal, otherwise the bit
patterns decide. -/
def floatEq (a b : BitVec 64) : Bool :=
  !isNaNBits a && !isNaNBits b && (a == b || (a <<< 1 == 0#64 && b <<< 1 == 0#64))

/-- The string comparison of `Tiny_AreValuesEqual` (tiny.c:236-259): equal lengths and `strncmp`. -/
def stringsEq (a b : List UInt8) : Bool :=
  if a.length ≠ b.length then false else strncmpEq a.length a b

/-- `Tiny_AreValuesEqual`, tiny/src/tiny.c:200-262. -/
def areValuesEqual (m : Mem) : Value → Value → Bool
  | .null, .null => true
  | .bool a, .bool b => a == b
  | .int a, .int b => a == b
  | .float a, .float b => floatEq a b
  | .native a, .native b => m.natAddr a == m.natAddr b
  | .light a, .light b => a == b
  | .struct a, .struct b => a == b
  | .str a, .str b => stringsEq (m.strBytes a) (m.strBytes b)
  | .str a, .cstr b => stringsEq (m.strBytes a) (m.cstrBytes b)
  | .cstr a, .cstr b => if a = b then true else stringsEq (m.cstrBytes a) (m.cstrBytes b)
  | .cstr a, .str b => stringsEq (m.cstrBytes a) (m.strBytes b)
  | _, _ => false

/-- The loop of `HashBytes`, tiny/src/dict.c:10-17: djb2 over signed chars, stops at a NUL byte. -/
def hashLoop (h : BitVec 64) : List UInt8 → BitVec 64
  | [] => h
  | c :: cs => if c = 0 then h else hashLoop ((h <<< 5) + h + c.toBitVec.signExtend 64) cs

/-- `HashBytes`, tiny/src/dict.c:10-17. -/
def hashBytes (bs : List UInt8) : BitVec 64 := hashLoop 5381#64 bs

/-- `HashValue`, tiny/src/dict.c:19-41. `abort` models `assert(ptr)` for values without an address
(null, float, NULL pointers). -/
def hashValue (m : Mem) : Value → Res (BitVec 64)
  | .bool b => .ok (if b then 2#64 else 1#64)
  | .int i => .ok i
  | .str o => .ok (hashBytes (m.strBytes o))
  | .cstr p => .ok (hashBytes (m.cstrBytes p))
  | .struct o => .ok (BitVec.ofNat 64 o)
  | .light a => if a = 0 then .abort else .ok (BitVec.ofNat 64 a)
  | .native o => if m.natAddr o = 0 then .abort else .ok (BitVec.ofNat 64 (m.natAddr o))
  | .null => .abort
  | .float _ => .abort

end Tiny
