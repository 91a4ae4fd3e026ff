import Verif.Model.Op
import Verif.Model.Ast
import Verif.Model.Lines

/-!
# The code generator (tiny/src/tiny.c:649-690, 3039-3884)
-/

namespace Tiny

/-- The part of `Tiny_State` the code generator writes: `program`, `pcToFileLine`, `functionPcs`. `file` is the
index of the file name among the strings (registered at tiny.c:3609; the same for one compilation), or `none` if the
source has no file name. -/
structure CS where
  program : List UInt8 := []
  lines : List LineRec := []
  file : Option Nat := none
  functionPcs : List Nat := []
deriving Inhabited

/-- The part it only reads: the fields of each defined struct (`sstruct.fields`) and what a function name
refers to (`ReferenceFunction`, tiny.c:967-985). -/
structure Globals where
  structs : Name → Option (List (Name × Tag)) := fun _ => none
  funcs : Name → Option FnSym := fun _ => none

/-- Outcome of a code generator function: normal, a reported error (`ReportErrorE` does `longjmp` with the
state as it is), a failed assertion, or undefined behaviour. -/
inductive CR (α : Type) where
  | ok (a : α) (s : CS)
  | err (s : CS)
  | abort
  | ub

/-- Code generator actions. -/
def CG (α : Type) := CS → CR α

instance : Monad CG where
  pure a := fun s => .ok a s
  bind x f := fun s => match x s with
    | .ok a s => f a s
    | .err s => .err s
    | .abort => .abort
    | .ub => .ub

/-- `ReportErrorE`: `longjmp` back to `Tiny_CompileString`. -/
def reportError {α : Type} : CG α := fun s => .err s
/-- A failing `assert`. -/
def failAssert {α : Type} : CG α := fun _ => .abort
/-- Undefined behaviour. -/
def undefined {α : Type} : CG α := fun _ => .ub
/-- `sb_count(state->program)`. -/
def programCount : CG Nat := fun s => .ok s.program.length s

/-- `GenerateCode`, tiny.c:649-651. -/
def genByte (b : UInt8) : CG Unit := fun s => .ok () { s with program := s.program ++ [b] }

/-- `GenerateCode` with an opcode. -/
def genOp (o : Op) : CG Unit := genByte o.toByte

/-- The `n` bytes of `v`, least significant first (the machine is little-endian). -/
def leBytes : Nat → Nat → List UInt8
  | 0, _ => []
  | n + 1, v => UInt8.ofNat v :: leBytes n (v / 256)

/-- `GEN_VALUE`, tiny.c:657-670, for a value of `n` bytes with alignment `n`: pad with
`MISALIGNED_INSTRUCTION` bytes, write the bytes, return where they start. -/
def genValue (n v : Nat) : CG Nat := fun s =>
  let count := s.program.length
  let padded := alignUp count n
  .ok padded { s with program := s.program ++ List.replicate (padded - count) Op.misaligned.toByte ++ leBytes n v }

/-- Overwrite bytes from position `i`: `state->program[pc + i] = *wp++` (tiny.c:687). -/
def writeAt (p : List UInt8) (i : Nat) : List UInt8 → List UInt8
  | [] => p
  | b :: bs => writeAt (p.set i b) (i + 1) bs

/-- `GenerateJump`, tiny.c:3039-3048. -/
def genJump (op : Op) (dest : Nat) : CG Nat := do
  genOp op
  genValue 4 dest

/-- `PatchJumpLoc` / `GEN_VALUE_AT`, tiny.c:3050-3052, 682-690. -/
def patchJump (pos v : Nat) : CG Unit := fun s =>
  if pos % 4 ≠ 0 then .abort
  else if pos + 4 ≤ s.program.length then .ok () { s with program := writeAt s.program pos (leBytes 4 v) }
  else .ub

/-- `GeneratePushInt`, tiny.c:3054-3064. -/
def genPushInt (i : BitVec 64) : CG Unit :=
  if i = 0#64 then genOp .push0
  else if i = 1#64 then genOp .push1
  else do
    genOp .pushInt
    let _ ← genValue 8 i.toNat

/-- `GeneratePushFloat`, tiny.c:3066-3071. -/
def genPushFloat (f : BitVec 64) : CG Unit := do
  genOp .pushFloat
  let _ ← genValue 8 f.toNat

/-- `GeneratePushString`, tiny.c:3073-3081. Note that the long form writes 4 bytes. -/
def genPushString (idx : Nat) : CG Unit :=
  if idx ≤ 0xff then do
    genOp .pushStringFF
    genByte (UInt8.ofNat idx)
  else do
    genOp .pushString
    let _ ← genValue 4 idx

/-- `CompileCallSymbolWithArgsPrepared`, tiny.c:3085-3105. -/
def genCall (nargs : Nat) : FnSym → CG Unit
  | .foreign index fNargs varargs => do
    genOp .callf
    if !(varargs && fNargs ≤ nargs) && fNargs ≠ nargs then reportError
    genByte (UInt8.ofNat nargs)
    let _ ← genValue 4 index
  | .tiny index => do
    genOp .call
    genByte (UInt8.ofNat nargs)
    let _ ← genValue 4 index

/-- A `var.index` (C `int`) as the four bytes written for it. -/
def indexBits (i : Int) : Nat := (BitVec.ofInt 32 i).toNat

/-- The variable part of `CompileGetLHS`, tiny.c:3108-3141. -/
def genGetVar : Option VarSym → CG Unit
  | none => reportError
  | some (.glob i) => do
    genOp .get
    let _ ← genValue 4 (indexBits i)
  | some (.loc i) =>
    if i < 0 ∨ 0xff < i then do
      genOp .getLocal
      let _ ← genValue 4 (indexBits i)
    else do
      genOp .getLocalW
      genByte (UInt8.ofNat i.toNat)
  | some (.const (.str i)) => genPushString i
  | some (.const (.bool b)) => genOp (if b then .pushTrue else .pushFalse)
  | some (.const (.int i)) => genPushInt i
  | some (.const (.float f)) => genPushFloat f

/-- `GetFieldTag(tag, field, &idx)` and the assertions around it, tiny.c:1584-1602, 3160-3166: the index
of the field. The assertion that a `named` type is that of a struct, which the type checker has made sure of
(tiny.c:2862), is left out. -/
def fieldIndex (g : Globals) (tag : Option Tag) (field : Name) : CG Nat :=
  match tag.bind Tag.structName with
  | some n =>
    match g.structs n with
    | none => failAssert
    | some fields =>
      let i := fields.findIdx (·.1 = field)
      if i < fields.length ∧ i ≤ 255 then pure i else failAssert
  | _ => failAssert

/-- The opcode of a binary operator compiled as "left, right, opcode", tiny.c:3282-3384. -/
def binOpcode : Tok → Option Op
  | .plus => some .add
  | .minus => some .sub
  | .star => some .mul
  | .slash => some .div
  | .percent => some .mod
  | .or => some .or
  | .and => some .and
  | .shiftLeft => some .shl
  | .shiftRight => some .shr
  | .lt => some .lt
  | .gt => some .gt
  | .equals => some .equ
  | .lte => some .lte
  | .gte => some .gte
  | _ => none

/-- `exp->type == TINY_EXP_INT && exp->iValue == 1` (tiny.c:3286, 3297, 3653, 3665). -/
def Expr.isOne : Expr → Bool
  | .int i => i = 1#32
  | _ => false

/-- The loop over the fields of the struct, tiny.c:3241-3261. -/
def eachField (x : Name → CG Unit) : List Name → CG Unit
  | [] => pure ()
  | f :: fs => do
    x f
    eachField x fs

mutual
/-- `CompileExpr`, tiny.c:3202-3483, with `CompileGetLHS` (3107-3175) for variables, fields and elements. -/
def compileE (g : Globals) : Expr → CG Unit
  | .null => genOp .pushNull
  | .bool b => genOp (if b then .pushTrue else .pushFalse)
  | .int i => genPushInt (i.signExtend 64)
  | .char i => genPushInt (i.signExtend 64)
  | .float f => genPushFloat f
  | .str i => genPushString i
  | .id _ sym => genGetVar sym
  | .index arr elem getF _ => do
    match getF with
    | none => failAssert
    | some f => do
      compileE g arr
      compileE g elem
      genCall 2 f
      genOp .getRetVal
  | .dot l field tag => do
    let idx ← fieldIndex g tag field
    compileE g l
    genOp .structGet
    genByte (UInt8.ofNat idx)
  | .call callee args => do
    let nargs ← compileArgs g 0 args
    match g.funcs callee with
    | none => reportError
    | some f => do
      genCall nargs f
      genOp .getRetVal
  | .ctor name argNames args => do
    match g.structs name with
    | none => failAssert
    | some fields => do
      match argNames with
      | some names => eachField (fun f => compileNamed g f names args) (fields.map Prod.fst)
      | none => compileList g args
      genOp .pushStruct
      genByte (UInt8.ofNat fields.length)
  | .cast e _ => compileE g e
  | .paren e => compileE g e
  | .bin op l r =>
    match op with
    | .plus => do
      compileE g l
      if r.isOne then genOp .add1
      else do
        compileE g r
        genOp .add
    | .minus => do
      compileE g l
      if r.isOne then genOp .sub1
      else do
        compileE g r
        genOp .sub
    | .notEquals => do
      compileE g l
      compileE g r
      genOp .equ
      genOp .logNot
    | .logAnd => do
      compileE g l
      let shortCircuit ← genJump .gotoz 0
      compileE g r
      let exit ← genJump .goto 0
      patchJump shortCircuit (← programCount)
      genOp .pushFalse
      patchJump exit (← programCount)
    | .logOr => do
      compileE g l
      let next ← genJump .gotoz 0
      genOp .pushTrue
      let exit ← genJump .goto 0
      patchJump next (← programCount)
      compileE g r
      patchJump exit (← programCount)
    | op => do
      match binOpcode op with
      | some o => do
        compileE g l
        compileE g r
        genOp o
      | none => reportError
  | .un op e =>
    match op with
    | .minus =>
      match e with
      | .int i => do
        genOp .pushInt
        if i = BitVec.intMin 32 then undefined
        let _ ← genValue 8 ((-i).signExtend 64).toNat
      | e => do
        compileE g e
        genOp .pushInt
        let _ ← genValue 8 (-1#64).toNat
        genOp .mul
    | .bang => do
      compileE g e
      genOp .logNot
    | _ => reportError
  | .ite c a b => do
    compileE g c
    let elseLoc ← genJump .gotoz 0
    compileE g a
    let exitLoc ← genJump .goto 0
    patchJump elseLoc (← programCount)
    compileE g b
    patchJump exitLoc (← programCount)
termination_by structural e => e

/-- The argument loop of `CompileCall`, tiny.c:3180-3188; `n` arguments were compiled before. -/
def compileArgs (g : Globals) (n : Nat) : List Expr → CG Nat
  | [] => pure n
  | a :: as => do
    if 255 ≤ n then reportError
    compileE g a
    compileArgs g (n + 1) as

/-- Constructor arguments in order, tiny.c:3262-3264. -/
def compileList (g : Globals) : List Expr → CG Unit
  | [] => pure ()
  | a :: as => do
    compileE g a
    compileList g as

/-- The search for one designated field, tiny.c:3248-3260. -/
def compileNamed (g : Globals) (field : Name) : List Name → List Expr → CG Unit
  | _, [] => pure ()
  | [], _ :: _ => failAssert
  | n :: ns, a :: as => if n = field then compileE g a else compileNamed g field ns as

end

/-- Constructor arguments by field name, tiny.c:3241-3261. -/
def compileFields (g : Globals) (names : List Name) (args : List Expr) (fs : List Name) : CG Unit :=
  eachField (fun f => compileNamed g f names args) fs

/-- `CompileCall`, tiny.c:3177-3200. -/
def compileCall (g : Globals) (callee : Name) (args : List Expr) : CG Unit := do
  let nargs ← compileArgs g 0 args
  match g.funcs callee with
  | none => reportError
  | some f => genCall nargs f

/-- The record `CompileStatement` adds first, tiny.c:3605-3611. -/
def addLine (line : Nat) : CG Unit := fun s =>
  .ok () { s with lines := addRecord s.lines ⟨s.program.length, s.file, line⟩ }

/-- The operator a compound assignment applies, tiny.c:3646-3708. -/
def compoundOp : Tok → Option Op
  | .plusEqual => some .add
  | .minusEqual => some .sub
  | .starEqual => some .mul
  | .slashEqual => some .div
  | .percentEqual => some .mod
  | .andEqual => some .and
  | .orEqual => some .or
  | _ => none

/-- What follows the computation of the assigned value: `SET`, `SETLOCAL`, the call of the index setter or
`STRUCT_SET` (tiny.c:3714-3760). -/
def compileStore (g : Globals) : Expr → CG Unit
  | .id _ (some (.glob i)) => do
    genOp .set
    let _ ← genValue 4 (indexBits i)
  | .id _ (some (.loc i)) => do
    genOp .setLocal
    let _ ← genValue 4 (indexBits i)
  | .id _ _ => reportError
  | .index _ _ _ setF =>
    match setF with
    | none => reportError
    | some f => genCall 3 f
  | .dot l field tag => do
    let idx ← fieldIndex g tag field
    compileE g l
    genOp .structSet
    genByte (UInt8.ofNat idx)
  | _ => failAssert

/-- The computation of the value to assign, tiny.c:3645-3712. -/
def compileRhs (g : Globals) (op : Tok) (lhs rhs : Expr) : CG Unit :=
  match compoundOp op with
  | none => compileE g rhs
  | some o => do
    compileE g lhs
    if (op = .plusEqual ∨ op = .minusEqual) ∧ rhs.isOne then
      genOp (if op = .plusEqual then .add1 else .sub1)
    else do
      compileE g rhs
      genOp o

/-- Assignable expressions: `TINY_EXP_ID`, `_DOT`, `_INDEX` (tiny.c:3629-3635). -/
def Expr.isLhs : Expr → Bool
  | .id _ _ => true
  | .dot _ _ _ => true
  | .index _ _ _ _ => true
  | _ => false

/-- The assignments of `CompileStatement`, tiny.c:3616-3766. -/
def compileAssign (g : Globals) (op : Tok) (lhs rhs : Expr) : CG Unit :=
  if op = .declareConst then pure ()
  else if op = .equal ∨ op = .declare ∨ (compoundOp op).isSome then do
    if !lhs.isLhs then reportError
    match lhs with
    | .index arr elem _ _ => do
      compileE g arr
      compileE g elem
    | _ => pure ()
    compileRhs g op lhs rhs
    compileStore g lhs
  else reportError

mutual
/-- `PatchBreakContinue`, tiny.c:3485-3531 (the pcs passed are never negative). -/
def patchBC (brk cont : Nat) : Stmt → CG Unit
  | .node _ s => patchBC brk cont s
  | .ifThen _ body => patchBC brk cont body
  | .ifElse _ body alt => do
    patchBC brk cont body
    patchBC brk cont alt
  | .block ss => patchBCs brk cont ss
  | .brk p => patchJump p brk
  | .cont p => patchJump p cont
  | _ => pure ()
/-- The block case of `PatchBreakContinue`. -/
def patchBCs (brk cont : Nat) : List Stmt → CG Unit
  | [] => pure ()
  | s :: ss => do
    patchBC brk cont s
    patchBCs brk cont ss
end

/-- `state->functionPcs[index] = pc`. -/
def setFunctionPc (index pc : Nat) : CG Unit := fun s =>
  if index < s.functionPcs.length then .ok () { s with functionPcs := s.functionPcs.set index pc } else .ub

mutual
/-- `CompileStatement`, tiny.c:3604-3878. Returns the statement with `patchLoc` filled in. -/
def compileS (g : Globals) : Stmt → CG Stmt
  | .node line s => do
    addLine line
    let s ← compileS g s
    pure (.node line s)
  | .call callee args => do
    compileCall g callee args
    pure (.call callee args)
  | .block ss => do
    let ss ← compileSs g ss
    pure (.block ss)
  | .assign op lhs rhs => do
    compileAssign g op lhs rhs
    pure (.assign op lhs rhs)
  | .proc index nargs nlocals body => do
    let skip ← genJump .goto 0
    setFunctionPc index (← programCount)
    if 0xff < nlocals then reportError
    if 0 < nlocals then do
      genOp .pushNullN
      genByte (UInt8.ofNat nlocals)
    let body ← compileS g body
    genOp .ret
    patchJump skip (← programCount)
    pure (.proc index nargs nlocals body)
  | .ifThen c body => do
    compileE g c
    let skip ← genJump .gotoz 0
    let body ← compileS g body
    patchJump skip (← programCount)
    pure (.ifThen c body)
  | .ifElse c body alt => do
    compileE g c
    let skip ← genJump .gotoz 0
    let body ← compileS g body
    let exit ← genJump .goto 0
    patchJump skip (← programCount)
    let alt ← compileS g alt
    patchJump exit (← programCount)
    pure (.ifElse c body alt)
  | .while c body => do
    let condPc ← programCount
    compileE g c
    let skip ← genJump .gotoz 0
    let body ← compileS g body
    let _ ← genJump .goto condPc
    patchJump skip (← programCount)
    patchBC (← programCount) condPc body
    pure (.while c body)
  | .for init c step body => do
    let init ← compileS g init
    let condPc ← programCount
    compileE g c
    let skip ← genJump .gotoz 0
    let body ← compileS g body
    let stepPc ← programCount
    let step ← compileS g step
    let _ ← genJump .goto condPc
    patchJump skip (← programCount)
    patchBC (← programCount) stepPc body
    pure (.for init c step body)
  | .ret none => do
    genOp .ret
    pure (.ret none)
  | .ret (some e) => do
    compileE g e
    genOp .retValue
    pure (.ret (some e))
  | .brk _ => do
    let p ← genJump .goto 0
    pure (.brk p)
  | .cont _ => do
    let p ← genJump .goto 0
    pure (.cont p)
  | .use => pure .use
  | .expr _ => reportError

/-- Consecutive statements: blocks (tiny.c:3620-3624) and `CompileProgram` (3880-3884). -/
def compileSs (g : Globals) : List Stmt → CG (List Stmt)
  | [] => pure []
  | s :: ss => do
    let s ← compileS g s
    let ss ← compileSs g ss
    pure (s :: ss)
end

/-- The code generation part of `CompileState`, tiny.c:3927-3961: drop the `HALT` of an earlier
compilation, compile, append `HALT`. (`functionPcs` is reallocated by the caller to the number of
functions; `newFns` is how many entries that adds, with unspecified contents, here 0.) -/
def compileState (g : Globals) (newFns : Nat) (prog : List Stmt) : CG Unit := do
  fun s => .ok () { s with
    program := if s.program.getLast? = some Op.halt.toByte then s.program.dropLast else s.program
    functionPcs := s.functionPcs ++ List.replicate newFns 0 }
  let _ ← compileSs g prog
  genOp .halt

/-- Several successful compilations in a row into one state (`Tiny_CompileString` called repeatedly,
tiny.c:3963-4081; the code generation part), each with the globals known at that time. -/
def compileUnits : List (Globals × Nat × List Stmt) → CG Unit
  | [] => pure ()
  | (g, newFns, prog) :: us => do
    compileState g newFns prog
    compileUnits us

/-- The same where each source has its own file name (its index among the strings). -/
def compileFiles : List (Option Nat × Globals × Nat × List Stmt) → CG Unit
  | [] => pure ()
  | (file, g, newFns, prog) :: us => do
    fun s => .ok () { s with file := file }
    compileState g newFns prog
    compileFiles us

end Tiny
