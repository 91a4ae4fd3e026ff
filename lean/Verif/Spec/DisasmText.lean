import Verif.Model.DisasmText
import Verif.Spec.Print

/-!
# What a line of a listing says
-/

namespace Tiny.Spec

/-- The name of an opcode in tiny/include/opcodes.h, without `TINY_OP_`. -/
def opName : Op → String
  | .pushNull => "PUSH_NULL" | .pushNullN => "PUSH_NULL_N" | .pushTrue => "PUSH_TRUE" | .pushFalse => "PUSH_FALSE"
  | .pushInt => "PUSH_INT" | .push0 => "PUSH_0" | .push1 => "PUSH_1" | .pushChar => "PUSH_CHAR" | .pushFloat => "PUSH_FLOAT"
  | .pushString => "PUSH_STRING" | .pushStringFF => "PUSH_STRING_FF" | .pushStruct => "PUSH_STRUCT"
  | .structGet => "STRUCT_GET" | .structSet => "STRUCT_SET" | .add => "ADD" | .sub => "SUB" | .mul => "MUL" | .div => "DIV"
  | .mod => "MOD" | .or => "OR" | .and => "AND" | .shl => "SHIFT_LEFT" | .shr => "SHIFT_RIGHT" | .lt => "LT" | .lte => "LTE"
  | .gt => "GT" | .gte => "GTE" | .add1 => "ADD1" | .sub1 => "SUB1" | .equ => "EQU" | .logNot => "LOG_NOT" | .set => "SET"
  | .get => "GET" | .goto => "GOTO" | .gotoz => "GOTOZ" | .call => "CALL" | .ret => "RETURN" | .retValue => "RETURN_VALUE"
  | .callf => "CALLF" | .getLocal => "GETLOCAL" | .getLocalW => "GETLOCAL_W" | .setLocal => "SETLOCAL"
  | .getRetVal => "GET_RETVAL" | .halt => "HALT" | .misaligned => "MISALIGNED_INSTRUCTION"

/-- How the operands `ns` of an instruction are shown: a number in decimal, a character between quotes, a string, a function or a
foreign function with what its number stands for in the state. Operands are below 2^31 but for those of `PUSH_INT` and
`PUSH_FLOAT`. -/
inductive ShowsOperands (fmtG : BitVec 64 → List UInt8) (s : TState) : Op → List Nat → List UInt8 → Prop
  | none {op} : ShowsOperands fmtG s op [] []
  | char {c} : c < 256 → ShowsOperands fmtG s .pushChar [c] (bytes " '" ++ [UInt8.ofNat c] ++ bytes "'")
  | int {i : BitVec 64} : ShowsOperands fmtG s .pushInt [i.toNat] (bytes " " ++ number i.toInt)
  | float {f : BitVec 64} : ShowsOperands fmtG s .pushFloat [f.toNat] (bytes " " ++ fmtG f)
  | string {op i t} : op = .pushString ∨ op = .pushStringFF → i < 2 ^ 31 → s.front.strings[i]? = some t →
      ShowsOperands fmtG s op [i] (bytes " " ++ decimal i ++ bytes " (\"" ++ t ++ bytes "\")")
  | number {op n} : op ∈ [Op.pushNullN, .pushStruct, .structGet, .structSet, .set, .get, .goto, .gotoz, .getLocal, .getLocalW, .setLocal] →
      n < 2 ^ 31 → ShowsOperands fmtG s op [n] (bytes " " ++ decimal n)
  | call {k i p} : k < 256 → i < 2 ^ 31 → s.functionPcs[i]? = some p → p < 2 ^ 31 →
      ShowsOperands fmtG s .call [k, i] (bytes " " ++ decimal k ++ bytes " " ++ decimal i ++ bytes " (" ++ decimal p ++ bytes ")")
  | callf {k i f ts va r} : k < 256 → Sym.foreign f i ts va r ∈ s.front.syms →
      (∀ f' ts' va' r', Sym.foreign f' i ts' va' r' ∈ s.front.syms → f' = f) →
      ShowsOperands fmtG s .callf [k, i] (bytes " " ++ f ++ bytes "(" ++ decimal k ++ bytes ")")

/-- The beginning of a line: address, file and line. -/
def lineHead (pc : Nat) (file : List UInt8) (line : Nat) : List UInt8 :=
  decimal pc ++ bytes " (" ++ file ++ bytes ":" ++ decimal line ++ bytes ")\t"

/-- The source position of an address, as `GetFileLineForPC` finds it (C28). -/
def SourceOf (s : TState) (pc : Nat) (file : List UInt8) (line : Nat) : Prop :=
  ∃ i, getFileLineForPC s.lines pc = .found (some i) line ∧ s.front.strings[i]? = some file ∧ line < 2 ^ 31

end Tiny.Spec
