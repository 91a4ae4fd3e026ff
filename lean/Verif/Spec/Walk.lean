import Verif.Model.Op
import Verif.Model.Ast

/-!
# The layout of bytecode

A reference for where the instructions of a program start, written from the list of opcodes
(tiny/include/opcodes.h and its comments on operands), without reference to the code generator, the interpreter
or the disassembler.
-/

namespace Tiny.Spec

/-- The operands of an opcode: none, a byte, an aligned number of `n` bytes, or a byte followed by an aligned
4-byte number. -/
inductive Operands where
  | none | byte | number (n : Nat) | byteNumber
deriving DecidableEq, Repr

/-- What follows each opcode. -/
def operands : Op → Operands
  | .pushNullN | .pushChar | .pushStringFF | .pushStruct | .structGet | .structSet | .getLocalW => .byte
  | .pushInt | .pushFloat => .number 8
  | .pushString | .set | .get | .goto | .gotoz | .getLocal | .setLocal => .number 4
  | .call | .callf => .byteNumber
  | _ => .none

/-- The first multiple of `n` from `i` on. -/
def alignedFrom (i n : Nat) : Nat := if i % n = 0 then i else i + (n - i % n)

/-- The little-endian number in `n` bytes from `i` on. -/
def numberAt (P : List UInt8) (i : Nat) : Nat → Option Nat
  | 0 => some 0
  | n + 1 => do
    let b ← P[i]?
    let hi ← numberAt P (i + 1) n
    return b.toNat + 256 * hi

/-- Where an instruction starting at `pos` ends. -/
def instrEnd (op : Op) (pos : Nat) : Nat :=
  match operands op with
  | .none => pos + 1
  | .byte => pos + 2
  | .number n => alignedFrom (pos + 1) n + n
  | .byteNumber => alignedFrom (pos + 2) 4 + 4

/-- Where the instruction after the one at `pos` starts; `none` if there is no complete instruction at `pos`. -/
def nextInstr (P : List UInt8) (pos : Nat) : Option Nat :=
  match P[pos]?.bind Op.ofByte with
  | none => none
  | some op => if instrEnd op pos ≤ P.length then some (instrEnd op pos) else none

/-- Reading `P` instruction by instruction from `a` on one comes to `b`. -/
inductive Visits (P : List UInt8) : Nat → Nat → Prop
  | here {a} : Visits P a a
  | next {a b c} : nextInstr P a = some b → Visits P b c → Visits P a c

/-- Where the jump instruction at `pos` jumps to; `none` if there is no jump at `pos`. -/
def jumpTarget (P : List UInt8) (pos : Nat) : Option Nat :=
  match P[pos]?.bind Op.ofByte with
  | some .goto | some .gotoz => numberAt P (alignedFrom (pos + 1) 4) 4
  | _ => none

mutual
/-- A `break` or `continue` in the statement refers to a loop around it. -/
def escapes : Stmt → Bool
  | .node _ s => escapes s
  | .block ss => escapesL ss
  | .ifThen _ s => escapes s
  | .ifElse _ s t => escapes s || escapes t
  | .brk _ => true
  | .cont _ => true
  | _ => false
/-- The same for a list. -/
def escapesL : List Stmt → Bool
  | [] => false
  | s :: ss => escapes s || escapesL ss
end

mutual
/-- The statement contains a `break` or `continue` for which there is no loop: in a function body, or in the
first or third part of a `for`, outside any loop there. -/
def lost : Stmt → Bool
  | .node _ s => lost s
  | .block ss => lostL ss
  | .ifThen _ s => lost s
  | .ifElse _ s t => lost s || lost t
  | .while _ s => lost s
  | .for i _ st b => escapes i || lost i || escapes st || lost st || lost b
  | .proc _ _ _ b => escapes b || lost b
  | _ => false
/-- The same for a list. -/
def lostL : List Stmt → Bool
  | [] => false
  | s :: ss => lost s || lostL ss
end

end Tiny.Spec
