import Verif.Model.Op

/-!
# The disassembler (tiny/src/tiny.c:4116-4374)
-/

namespace Tiny

/-- What `Tiny_DisasmOne` prints, without its formatting and without the names it looks up for string, function
and foreign function numbers: the instruction and its operands. -/
structure Listing where
  op : Op
  operands : List Nat
deriving DecidableEq, Repr

/-- `OP_NO_ARGS`, tiny.c:4140-4144. -/
def disasmNoArgs (op : Op) (pc : Nat) : Res (Option (Listing × Nat)) := .ok (some (⟨op, []⟩, pc + 1))

/-- Instructions with a byte operand, such as `PUSH_NULL_N`, tiny.c:4148-4152. -/
def disasmByte (P : List UInt8) (op : Op) (pc : Nat) : Res (Option (Listing × Nat)) := do
  let b ← readByte P (pc + 1)
  .ok (some (⟨op, [b.toNat]⟩, pc + 2))

/-- Instructions with an aligned operand of `n` bytes, such as `SET`, tiny.c:4242-4252. -/
def disasmValue (P : List UInt8) (n : Nat) (op : Op) (pc : Nat) : Res (Option (Listing × Nat)) := do
  let (v, pc') ← readValueAt P (pc + 1) n
  .ok (some (⟨op, [v]⟩, pc'))

/-- `CALL` and `CALLF`, tiny.c:4281-4291, 4296-4318. -/
def disasmCall (P : List UInt8) (op : Op) (pc : Nat) : Res (Option (Listing × Nat)) := do
  let b ← readByte P (pc + 1)
  let (v, pc') ← readValueAt P (pc + 2) 4
  .ok (some (⟨op, [b.toNat, v]⟩, pc'))

/-- The `switch` of `Tiny_DisasmOne`, tiny.c:4139-4366; `none` is `return false` for an opcode it does not know.
There is no case for the two shift instructions. -/
def disasmSwitch (P : List UInt8) (pc : Nat) : Op → Res (Option (Listing × Nat))
  | .pushNull => disasmNoArgs .pushNull pc
  | .pushNullN => disasmByte P .pushNullN pc
  | .pushTrue => disasmNoArgs .pushTrue pc
  | .pushFalse => disasmNoArgs .pushFalse pc
  | .push0 => disasmNoArgs .push0 pc
  | .push1 => disasmNoArgs .push1 pc
  | .pushChar => disasmByte P .pushChar pc
  | .pushInt => disasmValue P 8 .pushInt pc
  | .pushFloat => disasmValue P 8 .pushFloat pc
  | .pushString => disasmValue P 4 .pushString pc
  | .pushStringFF => disasmByte P .pushStringFF pc
  | .pushStruct => do
    let n ← readByte P (pc + 1)
    Res.assert (decide (0 < n.toNat))
    disasmByte P .pushStruct pc
  | .structGet => disasmByte P .structGet pc
  | .structSet => disasmByte P .structSet pc
  | .add => disasmNoArgs .add pc
  | .sub => disasmNoArgs .sub pc
  | .mul => disasmNoArgs .mul pc
  | .div => disasmNoArgs .div pc
  | .mod => disasmNoArgs .mod pc
  | .or => disasmNoArgs .or pc
  | .and => disasmNoArgs .and pc
  | .shl => .ok none
  | .shr => .ok none
  | .lt => disasmNoArgs .lt pc
  | .lte => disasmNoArgs .lte pc
  | .gt => disasmNoArgs .gt pc
  | .gte => disasmNoArgs .gte pc
  | .add1 => disasmNoArgs .add1 pc
  | .sub1 => disasmNoArgs .sub1 pc
  | .equ => disasmNoArgs .equ pc
  | .logNot => disasmNoArgs .logNot pc
  | .set => disasmValue P 4 .set pc
  | .get => disasmValue P 4 .get pc
  | .goto => disasmValue P 4 .goto pc
  | .gotoz => disasmValue P 4 .gotoz pc
  | .call => disasmCall P .call pc
  | .ret => disasmNoArgs .ret pc
  | .retValue => disasmNoArgs .retValue pc
  | .callf => disasmCall P .callf pc
  | .getLocal => disasmValue P 4 .getLocal pc
  | .getLocalW => disasmByte P .getLocalW pc
  | .setLocal => disasmValue P 4 .setLocal pc
  | .getRetVal => disasmNoArgs .getRetVal pc
  | .halt => disasmNoArgs .halt pc
  | .misaligned => disasmNoArgs .misaligned pc

/-- `Tiny_DisasmOne`, tiny.c:4116-4374: `none` is the result `false`, otherwise what is printed and the new value
of `*ppc`. (The line number printed is C28; the buffer is taken to be large enough.) -/
def disasmOne (P : List UInt8) (pc : Int) : Res (Option (Listing × Int)) :=
  if pc < 0 ∨ (P.length : Int) ≤ pc then .ok none
  else do
    let b ← readByte P pc.toNat
    match Op.ofByte b with
    | none => .ok none
    | some op => do
      match ← disasmSwitch P pc.toNat op with
      | none => .ok none
      | some (l, pc') => .ok (some (l, if P.length ≤ pc' then -1 else (pc' : Int)))

/-- The way a host prints a whole program: call `Tiny_DisasmOne` from `pc` until it answers `false` or leaves
`-1` in `pc` (bounded by fuel). The result: everything printed with its address, and whether it got to the end. -/
def disasmAll (P : List UInt8) : Nat → Int → Res (List (Int × Listing) × Bool)
  | 0, _ => .timeout
  | n + 1, pc => do
    match ← disasmOne P pc with
    | none => .ok ([], false)
    | some (l, pc') =>
      if pc' < 0 then .ok ([(pc, l)], true)
      else do
        let (ls, b) ← disasmAll P n pc'
        .ok ((pc, l) :: ls, b)

end Tiny
