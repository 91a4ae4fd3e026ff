import Verif.Model.Basic

/-!
# Opcodes and operand bytes (tiny/include/opcodes.h, READ_VALUE_AT in tiny/src/tiny.c)
-/

namespace Tiny

/-- The opcodes, in the order of the enumeration in tiny/include/opcodes.h. -/
inductive Op where
  | pushNull | pushNullN | pushTrue | pushFalse | pushInt | push0 | push1 | pushChar | pushFloat
  | pushString | pushStringFF | pushStruct | structGet | structSet
  | add | sub | mul | div | mod | or | and | shl | shr | lt | lte | gt | gte
  | add1 | sub1 | equ | logNot | set | get | goto | gotoz | call | ret | retValue | callf
  | getLocal | getLocalW | setLocal | getRetVal | halt | misaligned
deriving DecidableEq, Repr, Inhabited

/-- The enumeration of tiny/include/opcodes.h in order. -/
def Op.all : List Op :=
  [.pushNull, .pushNullN, .pushTrue, .pushFalse, .pushInt, .push0, .push1, .pushChar, .pushFloat,
   .pushString, .pushStringFF, .pushStruct, .structGet, .structSet,
   .add, .sub, .mul, .div, .mod, .or, .and, .shl, .shr, .lt, .lte, .gt, .gte,
   .add1, .sub1, .equ, .logNot, .set, .get, .goto, .gotoz, .call, .ret, .retValue, .callf,
   .getLocal, .getLocalW, .setLocal, .getRetVal, .halt, .misaligned]

/-- The opcode of a program byte; `none` for the `default:` case (tiny.c:1432-1434). -/
def Op.ofByte (b : UInt8) : Option Op := Op.all[b.toNat]?

/-- The byte of an opcode (value of the enumerator). -/
def Op.toByte (o : Op) : UInt8 := UInt8.ofNat (Op.all.idxOf o)

theorem Op.ofByte_toByte (o : Op) : Op.ofByte o.toByte = some o := by cases o <;> rfl

theorem Op.toByte_ofByte {b : UInt8} {o : Op} (h : Op.ofByte b = some o) : o.toByte = b := by
  have hd : ∀ i : Fin 256, ∀ o, Op.all[i.val]? = some o → o.toByte = UInt8.ofNat i.val := by decide +kernel
  have := hd ⟨b.toNat, b.toNat_lt⟩ o h
  simpa using this

/-- `(n + (a-1)) & ~(a-1)` for a power of two `a`: the next multiple of `a`
(tiny.c:660-661, 1103-1104; that the bit trick computes this is `c07_rounding`). -/
def alignUp (n a : Nat) : Nat := (n + (a - 1)) / a * a

/-- `state->program[i]`. -/
def readByte (p : List UInt8) (i : Nat) : Res UInt8 :=
  match p[i]? with
  | some b => .ok b
  | none => .ub

/-- `memcpy(pDest, state->program + i, n)` into a little-endian integer. -/
def readLE (p : List UInt8) : Nat → Nat → Res Nat
  | _, 0 => .ok 0
  | i, n + 1 => do
    let b ← readByte p i
    let hi ← readLE p (i + 1) n
    .ok (b.toNat + 256 * hi)

/-- `READ_VALUE_AT`, tiny.c:1101-1107, for an operand of `n` bytes aligned to `n`: its value and the
program counter after it. -/
def readValueAt (p : List UInt8) (pc n : Nat) : Res (Nat × Nat) := do
  let i := alignUp pc n
  let v ← readLE p i n
  .ok (v, i + n)

end Tiny
