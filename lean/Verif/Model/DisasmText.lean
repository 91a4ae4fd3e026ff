import Verif.Model.Compile
import Verif.Model.Disasm
import Verif.Model.StdString

/-!
# The text the disassembler writes (tiny/src/tiny.c:4116-4374)

`Model/Disasm.lean` has which instruction is listed and where the next one is; here is the text in the buffer.
-/

namespace Tiny

/-- `%d` for a 32-bit number, signed or not. -/
def fmtD (n : Nat) : List UInt8 := Std.fmtInt (BitVec.ofNat 32 n).toInt

/-- The names of the opcodes, as in the `OP_NO_ARGS` lines and the formats of `Tiny_DisasmOne`, tiny.c:4146-4359. -/
def opText : Op → List UInt8
  | .pushNull => nameOf "PUSH_NULL" | .pushNullN => nameOf "PUSH_NULL_N" | .pushTrue => nameOf "PUSH_TRUE"
  | .pushFalse => nameOf "PUSH_FALSE" | .pushInt => nameOf "PUSH_INT" | .push0 => nameOf "PUSH_0" | .push1 => nameOf "PUSH_1"
  | .pushChar => nameOf "PUSH_CHAR" | .pushFloat => nameOf "PUSH_FLOAT" | .pushString => nameOf "PUSH_STRING"
  | .pushStringFF => nameOf "PUSH_STRING_FF" | .pushStruct => nameOf "PUSH_STRUCT" | .structGet => nameOf "STRUCT_GET"
  | .structSet => nameOf "STRUCT_SET" | .add => nameOf "ADD" | .sub => nameOf "SUB" | .mul => nameOf "MUL" | .div => nameOf "DIV"
  | .mod => nameOf "MOD" | .or => nameOf "OR" | .and => nameOf "AND" | .shl => [] | .shr => [] | .lt => nameOf "LT"
  | .lte => nameOf "LTE" | .gt => nameOf "GT" | .gte => nameOf "GTE" | .add1 => nameOf "ADD1" | .sub1 => nameOf "SUB1"
  | .equ => nameOf "EQU" | .logNot => nameOf "LOG_NOT" | .set => nameOf "SET" | .get => nameOf "GET" | .goto => nameOf "GOTO"
  | .gotoz => nameOf "GOTOZ" | .call => nameOf "CALL" | .ret => nameOf "RETURN" | .retValue => nameOf "RETURN_VALUE"
  | .callf => nameOf "CALLF" | .getLocal => nameOf "GETLOCAL" | .getLocalW => nameOf "GETLOCAL_W" | .setLocal => nameOf "SETLOCAL"
  | .getRetVal => nameOf "GET_RETVAL" | .halt => nameOf "HALT" | .misaligned => nameOf "MISALIGNED_INSTRUCTION"

/-- The test in the loop of `CALLF`, tiny.c:4306-4313: the name of the foreign function of that number. -/
def Sym.foreignName (i : Nat) : Sym → Option Name
  | .foreign n j _ _ _ => if j = i then some n else none
  | _ => none

/-- `"NAME %d (\\"%s\\")"`, tiny.c:4190-4191, 4199-4200. Reading outside the table of strings is undefined. -/
def disasmString (s : TState) (op : Op) (i : Nat) : Res (List UInt8) :=
  match s.front.strings[i]? with
  | none => .ub
  | some t => .ok (opText op ++ nameOf " " ++ fmtD i ++ nameOf " (\"" ++ t ++ nameOf "\")")

/-- What the `switch` of `Tiny_DisasmOne` writes, tiny.c:4139-4359; `fmtG` is what `%g` writes. A NULL pointer for `%s`, and
reading outside `functionPcs`, are undefined. -/
def disasmInstr (fmtG : BitVec 64 → List UInt8) (s : TState) (l : Listing) : Res (List UInt8) :=
  match l.op, l.operands with
  | .pushChar, [c] => .ok (nameOf "PUSH_CHAR '" ++ [UInt8.ofNat c] ++ nameOf "'")
  | .pushInt, [v] => .ok (nameOf "PUSH_INT " ++ Std.fmtInt (BitVec.ofNat 64 v).toInt)
  | .pushFloat, [v] => .ok (nameOf "PUSH_FLOAT " ++ fmtG (BitVec.ofNat 64 v))
  | .pushString, [i] => disasmString s .pushString i
  | .pushStringFF, [i] => disasmString s .pushStringFF i
  | .call, [n, i] =>
    match s.functionPcs[i]? with
    | none => .ub
    | some p => .ok (nameOf "CALL " ++ fmtD n ++ nameOf " " ++ fmtD i ++ nameOf " (" ++ fmtD p ++ nameOf ")")
  | .callf, [n, i] =>
    match s.front.syms.findSome? (Sym.foreignName i) with
    | none => .ub
    | some f => .ok (nameOf "CALLF " ++ f ++ nameOf "(" ++ fmtD n ++ nameOf ")")
  | op, [v] => .ok (opText op ++ nameOf " " ++ fmtD v)
  | op, _ => .ok (opText op)

/-- `GetFileLineForPC` with the name of the file, tiny.c:3549-3598: `none` is NULL. -/
def fileLine (s : TState) (pc : Int) : Res (Option (List UInt8) × Nat) :=
  match getFileLineForPC s.lines pc with
  | .nothing => .ok (none, 0)
  | .ub => .ub
  | .found none line => .ok (none, line)
  | .found (some i) line =>
    match s.front.strings[i]? with
    | none => .abort
    | some t => .ok (some t, line)

/-- `snprintf(buf, maxlen, ...)` which would write `x`: the bytes before the NUL. -/
def snprintfN (maxlen : Nat) (x : List UInt8) : List UInt8 := x.take (maxlen - 1)

/-- `Tiny_DisasmOne`, tiny.c:4116-4374: its result, the new value of `*ppc`, and what is in the buffer then, without the NUL behind
it. -/
def disasmText (fmtG : BitVec 64 → List UInt8) (s : TState) (pc : Int) (maxlen : Nat) : Res (Bool × Int × List UInt8) :=
  if pc < 0 ∨ (s.program.length : Int) ≤ pc then .ok (false, pc, snprintfN maxlen (nameOf "PC out of bounds"))
  else do
    let (file, line) ← fileLine s pc
    match file with
    | none => .ub
    | some t => do
      let head := Std.fmtInt pc ++ nameOf " (" ++ t ++ nameOf ":" ++ fmtD line ++ nameOf ")\t"
      if maxlen ≤ head.length then .ok (false, pc, snprintfN maxlen head)
      else do
        let b ← readByte s.program pc.toNat
        let unknown := .ok (false, pc, head ++ snprintfN (maxlen - head.length) (nameOf "(unknown opcode " ++ fmtD b.toNat ++ nameOf ")"))
        match Op.ofByte b with
        | none => unknown
        | some op => do
          match ← disasmSwitch s.program pc.toNat op with
          | none => unknown
          | some (l, pc') => do
            let x ← disasmInstr fmtG s l
            .ok (true, if s.program.length ≤ pc' then -1 else (pc' : Int), head ++ snprintfN (maxlen - head.length) x)

end Tiny
