import Verif.Model.VM
import Verif.Model.CType

/-!
# String and number functions of the standard library (tiny/src/std.c)

Each is a foreign function: its arguments and the thread's heap to a value and the new heap. `cmem` gives the bytes
of constant strings (as in `Env`), `lit` is the address of the C literal `""`.
-/

namespace Tiny
namespace Std

/-- `Tiny_ToString`, tiny.c:167-172: the memory from the pointer on, terminating NUL included; `none` is NULL. -/
def toStr (cmem : Nat → List UInt8) (h : Heap) : Value → Res (Option (List UInt8))
  | .cstr p => .ok (some ((cmem p).takeWhile (· ≠ 0) ++ [0]))
  | .str o => do
    match ← h.deref o with
    | .str b => .ok (some (b ++ [0]))
    | _ => .ub
  | _ => .ok none

/-- `Tiny_StringLen`, tiny.c:174-179. -/
def stringLen (cmem : Nat → List UInt8) (h : Heap) : Value → Res Nat
  | .cstr p => .ok ((cmem p).takeWhile (· ≠ 0)).length
  | .str o => do
    match ← h.deref o with
    | .str b => .ok b.length
    | _ => .ub
  | _ => .ok 0

/-- `Tiny_ToInt`, tiny.h:222-225. -/
def toInt : Value → BitVec 64
  | .int i => i
  | _ => 0#64

/-- `(int)Tiny_ToNumber(v)`, tiny.h:232-237. An int goes through `double`: below 2^53 that is exact, and what is
outside the range of `int` is undefined anyway. Simplification: the type checker allows no floats here, `ub`. -/
def toNumberInt : Value → Res Int
  | .int i => if -2 ^ 31 ≤ i.toInt ∧ i.toInt < 2 ^ 31 then .ok i.toInt else .ub
  | .float _ => .ub
  | _ => .ok 0

/-- `strlen(p)`: the memory holds a NUL (`NULL` is undefined). -/
def strlen : Option (List UInt8) → Res Nat
  | none => .ub
  | some m => .ok (m.takeWhile (· ≠ 0)).length

/-- A fresh buffer (uninitialised), a store into it, and `memcpy(buf + off, src, n)`. -/
def newBuf (n : Nat) : List (Option UInt8) := List.replicate n none

/-- `buf[i] = c`. -/
def bufSet (buf : List (Option UInt8)) (i : Nat) (c : UInt8) : Res (List (Option UInt8)) :=
  if i < buf.length then .ok (buf.set i (some c)) else .ub

/-- `memcpy(buf + off, src, n)`, byte by byte; reading past the source is undefined. -/
def memcpy (buf : List (Option UInt8)) (off : Nat) : List UInt8 → Nat → Res (List (Option UInt8))
  | _, 0 => .ok buf
  | [], _ + 1 => .ub
  | c :: cs, n + 1 => do
    let buf ← bufSet buf off c
    memcpy buf (off + 1) cs n

/-- The first `len` bytes of a buffer, all of which must have been written. -/
def bufBytes : Nat → List (Option UInt8) → Res (List UInt8)
  | 0, _ => .ok []
  | n + 1, some c :: cs => do
    let r ← bufBytes n cs
    .ok (c :: r)
  | _ + 1, _ => .ub

/-- `Tiny_NewString(thread, buf, len)` (tiny.c:386-400) and `Tiny_NewStringCopy` (410-421): a new string object. -/
def newString (h : Heap) (buf : List (Option UInt8)) (len : Nat) : Res (Value × Heap) := do
  let b ← bufBytes len buf
  let (o, h) := h.alloc (.str b)
  .ok (.str o, h)

/-- `Tiny_NewInt(n)` for a C integer `n`: narrowed to `int`, tiny.c:356-363. -/
def newInt (n : Int) : Value := .int ((BitVec.ofInt 32 n).signExtend 64)

/-- `Strlen`, std.c:45-49. -/
def strlenF (cmem : Nat → List UInt8) (args : List Value) (h : Heap) : Res (Value × Heap) := do
  match args with
  | v :: _ => do
    let n ← strlen (← toStr cmem h v)
    .ok (newInt n, h)
  | _ => .ub

/-- The end of `Stridx`, std.c:57-60; `char` is signed. -/
def stridxAt (h : Heap) (m : List UInt8) (len : Nat) (i : Int) : Res (Value × Heap) := do
  Res.assert (decide (0 ≤ i ∧ i < len))
  match m[i.toNat]? with
  | some c => .ok (newInt (c.toBitVec.toInt), h)
  | none => .ub

/-- `Stridx`, std.c:51-61 (also `sget`, `str_get_index`). The index is narrowed to `int`. -/
def stridx (cmem : Nat → List UInt8) (args : List Value) (h : Heap) : Res (Value × Heap) := do
  match args with
  | v :: idx :: _ => do
    let s ← toStr cmem h v
    let len ← strlen s
    stridxAt h (s.getD []) len ((toInt idx).truncate 32).toInt
  | _ => .ub

/-- `Strchr`, std.c:63-75: `memchr(s, c, len)` with `c` as a byte. -/
def strchr (cmem : Nat → List UInt8) (args : List Value) (h : Heap) : Res (Value × Heap) := do
  match args with
  | v :: cv :: _ => do
    let s ← toStr cmem h v
    let len ← stringLen cmem h v
    match s with
    | none => .ub
    | some m =>
      match (m.take len).findIdx? (· == UInt8.ofBitVec ((toInt cv).truncate 8)) with
      | some k => .ok (newInt k, h)
      | none => .ok (newInt (-1), h)
  | _ => .ub

/-- The first loop of `Strcat`, std.c:455-457: the total length. -/
def totalLen (cmem : Nat → List UInt8) (h : Heap) : List Value → Res Nat
  | [] => .ok 0
  | v :: vs => do
    let n ← stringLen cmem h v
    let r ← totalLen cmem h vs
    .ok (n + r)

/-- The second loop of `Strcat`, std.c:462-467. `memcpy` of no bytes does not read its source. -/
def copyAll (cmem : Nat → List UInt8) (h : Heap) : List (Option UInt8) → Nat → List Value →
    Res (List (Option UInt8) × Nat)
  | buf, off, [] => .ok (buf, off)
  | buf, off, v :: vs => do
    let len ← stringLen cmem h v
    let s ← toStr cmem h v
    let buf ← memcpy buf off (s.getD []) len
    copyAll cmem h buf (off + len) vs

/-- `Strcat`, std.c:452-472. -/
def strcat (cmem : Nat → List UInt8) (args : List Value) (h : Heap) : Res (Value × Heap) := do
  let n ← totalLen cmem h args
  let (buf, _) ← copyAll cmem h (newBuf (n + 1)) 0 args
  let buf ← bufSet buf n 0
  newString h buf n

/-- The copy loop of `Lib_Substr`, std.c:495-497: `sub[i - start] = s[i]`, `k` rounds from `i` on. -/
def subCopy (s : List UInt8) (start : Nat) : List (Option UInt8) → Nat → Nat → Res (List (Option UInt8))
  | buf, _, 0 => .ok buf
  | buf, i, k + 1 =>
    match s[i]? with
    | none => .ub
    | some c => do
      let buf ← bufSet buf (i - start) c
      subCopy s start buf (i + 1) k

/-- `Lib_Substr`, std.c:474-505. `end = sLen` narrows to `int`; `end <= sLen` compares as unsigned 64-bit. -/
def substr (cmem : Nat → List UInt8) (lit : Nat) (args : List Value) (h : Heap) : Res (Value × Heap) := do
  match args with
  | [v, a, b] => do
    let s ← toStr cmem h v
    let sLen ← stringLen cmem h v
    let start ← toNumberInt a
    let stop ← toNumberInt b
    let stop := if stop = -1 then (BitVec.ofNat 32 sLen).toInt else stop
    Res.assert (decide (0 ≤ start ∧ start ≤ stop))
    if start = stop then .ok (.cstr lit, h)
    else do
      Res.assert (decide (stop ≤ sLen))
      let n := (stop - start).toNat
      let buf ← subCopy (s.getD []) start.toNat (newBuf (n + 1)) start.toNat n
      let buf ← bufSet buf n 0
      newString h buf n
  | _ => .abort

/-- `Lib_Stoi`, std.c:514-521, with its optional base (`stoi`, `str_to_int`); bases outside 2..36 are not modelled
(`ub`). -/
def stoi (cmem : Nat → List UInt8) (args : List Value) (h : Heap) : Res (Value × Heap) := do
  match args with
  | v :: rest => do
    let base : Int := match rest with
      | b :: _ => ((toInt b).truncate 32).toInt
      | [] => 10
    match ← toStr cmem h v with
    | none => .ub
    | some m =>
      if 2 ≤ base ∧ base ≤ 36 then .ok (newInt (strtol base.toNat (m.takeWhile (· ≠ 0))), h) else .ub
  | _ => .ub

/-- `%lld`: the decimal digits of a signed 64-bit integer, most significant first. -/
def fmtDigits (n : Nat) : List UInt8 :=
  if n < 10 then [UInt8.ofNat (48 + n)] else fmtDigits (n / 10) ++ [UInt8.ofNat (48 + n % 10)]

/-- `%lld`. -/
def fmtInt (i : Int) : List UInt8 :=
  if i < 0 then b! '-' :: fmtDigits i.natAbs else fmtDigits i.natAbs

/-- `Lib_IntToStr`, std.c:533-541: at most 20 characters, so the buffer of 32 is large enough (`ub` otherwise). -/
def intToStr (args : List Value) (h : Heap) : Res (Value × Heap) := do
  match args with
  | v :: _ =>
    let text := fmtInt (toInt v).toInt
    if text.length < 32 then newString h (text.map some) text.length else .ub
  | _ => .ub

/-- `CompareInts`, std.c:320-328: the difference (signed overflow is undefined) converted to `int`. -/
def compareInts : Value → Value → Res (BitVec 32)
  | .int a, .int b => if BitVec.ssubOverflow a b then .ub else .ok ((a - b).truncate 32)
  | _, _ => .abort

end Std
end Tiny
