import Verif.Spec.Session
import Verif.Spec.Walk

/-!
# The numbers in the instructions

The spec of C66: which entries of the tables of a state the instructions of its program refer to.
-/

namespace Tiny.Spec

/-- The number in the instruction `op` at `p`: in the byte behind the opcode, in the aligned bytes behind it, or in the aligned bytes
behind that byte (which is the number of arguments of a call). -/
def operandAt (P : List UInt8) (op : Op) (p : Nat) : Option Nat :=
  match operands op with
  | .none => none
  | .byte => P[p + 1]?.map UInt8.toNat
  | .number n => numberAt P (alignedFrom (p + 1) n) n
  | .byteNumber => numberAt P (alignedFrom (p + 2) 4) 4

/-- The position `p` is in the code of the function number `i`: between the address where it is entered, which is the one behind a jump of
the program, and the target of this jump. -/
def InCode (s : TState) (i p : Nat) : Prop :=
  ∃ g q e, Visits s.program 0 g ∧ nextInstr s.program g = some q ∧ jumpTarget s.program g = some e ∧ s.functionPcs[i]? = some q ∧
    q ≤ p ∧ p < e

/-- At `p`, in the code of a function, its frame has a place `k`: its arguments have the places `-n`, ..., `-1`, its locals `0`, `1`, ... -/
def InFrame (s : TState) (p : Nat) (k : Int) : Prop :=
  ∃ fi, Sym.func fi ∈ s.front.syms ∧ InCode s fi.index p ∧ -(fi.args.length : Int) ≤ k ∧ k < fi.locals.length

/-- The number `i` in the instruction `op` at `p` is the number of a string, of a global variable, of a function whose code starts at an
instruction of the program, of a C function of which the state has the pointer, of an argument or local of the function
to whose code the instruction belongs, or the number of a field of a struct, or how many fields a struct has, as one byte; or `op` refers to
none of these. -/
def Refers (s : TState) (p : Nat) (op : Op) (i : Nat) : Prop :=
  match op with
  | .pushString | .pushStringFF => ∃ t, s.front.strings[i]? = some t
  | .get | .set => ∃ v, Sym.glob v ∈ s.front.syms ∧ v.idx = i ∧ i < s.front.numGlobalVars
  | .call => ∃ fi q, Sym.func fi ∈ s.front.syms ∧ fi.index = i ∧ s.functionPcs[i]? = some q ∧ Visits s.program 0 q ∧ q < s.program.length
  | .callf => ∃ n ts va r, Sym.foreign n i ts va r ∈ s.front.syms ∧ s.foreignFns[i]? = some (some n)
  | .getLocal | .setLocal => InFrame s p (BitVec.ofNat 32 i).toInt
  | .getLocalW => InFrame s p i
  | .structGet | .structSet => ∃ n fields, Sym.struct n true fields ∈ s.front.syms ∧ i < fields.length
  | .pushStruct => ∃ n fields, Sym.struct n true fields ∈ s.front.syms ∧ i = fields.length % 256
  | _ => True

/-- All instructions of the program which have a number have one which refers to something. -/
def AllRefer (s : TState) : Prop :=
  ∀ p op, Visits s.program 0 p → s.program[p]? = some op.toByte → operands op ≠ .none →
    ∃ i, operandAt s.program op p = some i ∧ Refers s p op i

end Tiny.Spec
