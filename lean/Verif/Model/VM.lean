import Verif.Model.Op
import Verif.Model.Heap

/-!
# The interpreter (tiny/src/tiny.c:1101-1442 and the thread API 470-647)
-/

namespace Tiny

/-- Floating point as used by the interpreter: parameters of the model (nothing is assumed about
them). Values are bit patterns of doubles. -/
structure FloatOps where
  add : BitVec 64 → BitVec 64 → BitVec 64
  sub : BitVec 64 → BitVec 64 → BitVec 64
  mul : BitVec 64 → BitVec 64 → BitVec 64
  div : BitVec 64 → BitVec 64 → BitVec 64
  ofInt : BitVec 64 → BitVec 64
  lt : BitVec 64 → BitVec 64 → Bool
  le : BitVec 64 → BitVec 64 → Bool

/-- What foreign functions can see and change: the heap, the global variables, and the history of the
foreign calls made so far (`trace`, ghost state: which function with which arguments). -/
structure World where
  heap : Heap := {}
  globals : List Value := []
  trace : List (Nat × List Value) := []

/-- The compiled state a thread runs (`Tiny_State`) and its surroundings.
* `foreign i args w` – `foreignFunctions[i]`: an arbitrary function of its arguments and the world.
  Simplification: it does not see the operand stack beyond its arguments, nor pc/fp/frames. A foreign
  function which calls back into the interpreter leaves those as they were (theorem
  `c24_call_function`), so its net effect is of this form.
* `cmem p` – the bytes at const string number `p`; numbers below `numStrings` are the string table.
* `stackSize`, `maxDepth` – `TINY_THREAD_STACK_SIZE` and `TINY_THREAD_MAX_CALL_DEPTH`, tiny.h:9-15. -/
structure Env where
  program : List UInt8
  numStrings : Nat := 0
  cmem : Nat → List UInt8 := fun _ => []
  functionPcs : List Nat := []
  numForeign : Nat := 0
  foreign : Nat → List Value → World → Res (Value × World) := fun _ _ _ => .ub
  fl : FloatOps
  stackSize : Nat := 128
  maxDepth : Nat := 64

/-- `Tiny_Frame`, tiny/include/tiny.h:137-140. -/
structure Frame where
  pc : Int
  fp : Nat
  nargs : Nat
deriving DecidableEq, Repr

/-- `Tiny_StateThread`, tiny/include/tiny.h:142-171: `stack` is `stack[0..sp)`, `frames` is
`frames[0..fc)`. -/
structure Thread where
  pc : Int
  fp : Nat
  stack : List Value
  frames : List Frame
  retVal : Value
  world : World

/-- `DoPush`, tiny.c:1133-1135. There is no bound check in C: a push on a full stack writes past the
array (`limit`). -/
def push (env : Env) (t : Thread) (v : Value) : Res Thread :=
  if t.stack.length < env.stackSize then .ok { t with stack := t.stack ++ [v] } else .limit

/-- `DoPop`, tiny.c:1137: popping an empty stack reads `stack[-1]`. -/
def pop (t : Thread) : Res (Value × Thread) :=
  match t.stack.getLast? with
  | some v => .ok (v, { t with stack := t.stack.dropLast })
  | none => .ub

/-- `DoPushIndir`, tiny.c:1139-1144. -/
def pushIndir (env : Env) (t : Thread) (nargs : Nat) : Res Thread :=
  if t.frames.length < env.maxDepth then
    .ok { t with frames := t.frames ++ [⟨t.pc, t.fp, nargs⟩], fp := t.stack.length }
  else .limit

/-- `DoPopIndir`, tiny.c:1146-1156. A frame pointer above the stack pointer, or more arguments than
stack, is out of bounds. -/
def popIndir (t : Thread) : Res Thread :=
  match t.frames.getLast? with
  | none => .abort
  | some f =>
    if t.fp ≤ t.stack.length ∧ f.nargs ≤ t.fp then
      .ok { t with stack := t.stack.take (t.fp - f.nargs), fp := f.fp, pc := f.pc,
                   frames := t.frames.dropLast }
    else .ub

/-- `Tiny_NewInt(int)`, tiny.c:356-363: the argument is narrowed to 32 bits and sign-extended. -/
def narrow (x : BitVec 64) : BitVec 64 := (x.truncate 32).signExtend 64

/-- `a->i operator b.i` in `BIN_OP` (tiny.c:1267-1280): signed overflow and division by zero are
undefined. -/
def intArith : Op → BitVec 64 → BitVec 64 → Res (BitVec 64)
  | .add, a, b => if BitVec.saddOverflow a b then .ub else .ok (a + b)
  | .sub, a, b => if BitVec.ssubOverflow a b then .ub else .ok (a - b)
  | .mul, a, b => if BitVec.smulOverflow a b then .ub else .ok (a * b)
  | .div, a, b => if b = 0#64 ∨ BitVec.sdivOverflow a b then .ub else .ok (a.sdiv b)
  | _, _, _ => .ub

/-- `a->f operator b.f` in `BIN_OP`. -/
def floatArith (fl : FloatOps) : Op → BitVec 64 → BitVec 64 → Res (BitVec 64)
  | .add, a, b => .ok (fl.add a b)
  | .sub, a, b => .ok (fl.sub a b)
  | .mul, a, b => .ok (fl.mul a b)
  | .div, a, b => .ok (fl.div a b)
  | _, _, _ => .ub

/-- `BIN_OP`, tiny.c:1267-1280. Operands which are neither int nor float are reinterpreted by the C
code (the union is read as a double): `ub` here; the type checker excludes it. -/
def binOp (fl : FloatOps) (op : Op) : Value → Value → Res Value
  | .int a, .int b => do .ok (.int (← intArith op a b))
  | .int a, .float b => do .ok (.float (← floatArith fl op (fl.ofInt a) b))
  | .float a, .int b => do .ok (.float (← floatArith fl op a (fl.ofInt b)))
  | .float a, .float b => do .ok (.float (← floatArith fl op a b))
  | _, _ => .ub

/-- `val1.i operator val2.i` in `BIN_OP_INT`, tiny.c:1282-1288, before narrowing. Undefined: remainder
by zero and INT64_MIN % -1; shift counts outside 0..63; left shifts of negative numbers or out of
range (C99 6.5.7). Right shifts are arithmetic. -/
def intOnly : Op → BitVec 64 → BitVec 64 → Res (BitVec 64)
  | .mod, a, b => if b = 0#64 ∨ BitVec.sdivOverflow a b then .ub else .ok (a.srem b)
  | .or, a, b => .ok (a ||| b)
  | .and, a, b => .ok (a &&& b)
  | .shl, a, b =>
    if b.toInt < 0 ∨ 64 ≤ b.toInt ∨ a.toInt < 0 ∨ 2 ^ 63 ≤ a.toInt * 2 ^ b.toNat then .ub
    else .ok (a <<< b.toNat)
  | .shr, a, b => if b.toInt < 0 ∨ 64 ≤ b.toInt then .ub else .ok (a.sshiftRight b.toNat)
  | _, _, _ => .ub

/-- `BIN_OP_INT`, tiny.c:1282-1288 (operands which are not ints are reinterpreted in C: `ub`). -/
def binOpInt (op : Op) : Value → Value → Res Value
  | .int a, .int b => do .ok (.int (narrow (← intOnly op a b)))
  | _, _ => .ub

/-- Comparison of two ints in `REL_OP`. -/
def intRel : Op → BitVec 64 → BitVec 64 → Bool
  | .lt, a, b => a.slt b
  | .lte, a, b => a.sle b
  | .gt, a, b => b.slt a
  | .gte, a, b => b.sle a
  | _, _, _ => false

/-- Comparison of two doubles in `REL_OP`. -/
def floatRel (fl : FloatOps) : Op → BitVec 64 → BitVec 64 → Bool
  | .lt, a, b => fl.lt a b
  | .lte, a, b => fl.le a b
  | .gt, a, b => fl.lt b a
  | .gte, a, b => fl.le b a
  | _, _, _ => false

/-- `REL_OP`, tiny.c:1290-1305 (operands which are neither int nor float: `ub`). -/
def relOp (fl : FloatOps) (op : Op) : Value → Value → Res Value
  | .int a, .int b => .ok (.bool (intRel op a b))
  | .int a, .float b => .ok (.bool (floatRel fl op (fl.ofInt a) b))
  | .float a, .int b => .ok (.bool (floatRel fl op a (fl.ofInt b)))
  | .float a, .float b => .ok (.bool (floatRel fl op a b))
  | _, _ => .ub

/-- `stack[sp-1].i += 1` (`ADD1`, tiny.c:1326-1334) or `-= 1` (`SUB1`): on a float this increments the
bit pattern, because `i` and `f` share storage. -/
def incr (op : Op) : Value → Res Value
  | .int a => do .ok (.int (← intArith op a 1#64))
  | .float a => do .ok (.float (← intArith op a 1#64))
  | _ => .ub

/-- Comparing strings or natives follows their object pointer. -/
def derefable (h : Heap) : Value → Bool
  | .str o => h.list.contains o
  | .native o => h.list.contains o
  | _ => true

/-- `TINY_OP_EQU`'s comparison, tiny.c:1336-1341. -/
def equOp (env : Env) (h : Heap) (a b : Value) : Res Value :=
  if derefable h a ∧ derefable h b then .ok (.bool (areValuesEqual ⟨h.obj, env.cmem⟩ a b)) else .ub

/-- `ExpectBool`, tiny.c:1158-1161. -/
def expectBool : Value → Res Bool
  | .bool b => .ok b
  | _ => .abort

/-- `vstruct.obj->ostruct` after `assert(vstruct.type == TINY_VAL_STRUCT)`. -/
def structFields (h : Heap) : Value → Res (ObjId × List Value)
  | .struct o => do
    match ← h.deref o with
    | .struct fs => .ok (o, fs)
    | _ => .ub
  | _ => .abort

/-- `stack[thread->fp + localIdx]` with an unsigned 32-bit index: the slot. -/
def localSlot (t : Thread) (idx : Nat) : Nat := (t.fp + idx) % 2 ^ 32

/-- Reading a stack slot; slots at or above `sp` hold stale values or lie outside the array: `ub`. -/
def getSlot (t : Thread) (i : Nat) : Res Value :=
  match t.stack[i]? with
  | some v => .ok v
  | none => .ub

/-- Conversion of a `Tiny_ConstantIndex` (uint32) to `int`. -/
def toPc (n : Nat) : Int := (BitVec.ofNat 32 n).toInt

/-- The `switch` of `ExecuteCycle`, tiny.c:1170-1435: executing the opcode at `program[pc]`. -/
def execOp (env : Env) (t : Thread) (pc : Nat) (op : Op) : Res Thread :=
  match op with
  | .pushNull => push env { t with pc := (pc + 1 : Nat) } .null
  | .pushNullN => do
    let n ← readByte env.program (pc + 1)
    if t.stack.length + n.toNat ≤ env.stackSize then
      .ok { t with pc := (pc + 2 : Nat), stack := t.stack ++ List.replicate n.toNat .null }
    else .limit
  | .pushTrue => push env { t with pc := (pc + 1 : Nat) } (.bool true)
  | .pushFalse => push env { t with pc := (pc + 1 : Nat) } (.bool false)
  | .pushInt => do
    let (v, pc') ← readValueAt env.program (pc + 1) 8
    push env { t with pc := (pc' : Nat) } (.int (narrow (BitVec.ofNat 64 v)))
  | .push0 => push env { t with pc := (pc + 1 : Nat) } (.int 0#64)
  | .push1 => push env { t with pc := (pc + 1 : Nat) } (.int 1#64)
  | .pushChar => do
    let c ← readByte env.program (pc + 1)
    push env { t with pc := (pc + 2 : Nat) } (.int (BitVec.ofNat 64 c.toNat))
  | .pushFloat => do
    let (v, pc') ← readValueAt env.program (pc + 1) 8
    push env { t with pc := (pc' : Nat) } (.float (BitVec.ofNat 64 v))
  | .pushString => do
    -- reads a Tiny_Int (8 bytes), although the compiler wrote a 4-byte index
    let (v, pc') ← readValueAt env.program (pc + 1) 8
    if v < env.numStrings then push env { t with pc := (pc' : Nat) } (.cstr v) else .ub
  | .pushStringFF => do
    let i ← readByte env.program (pc + 1)
    if i.toNat < env.numStrings then push env { t with pc := (pc + 2 : Nat) } (.cstr i.toNat) else .ub
  | .pushStruct => do
    let n ← readByte env.program (pc + 1)
    Res.assert (decide (0 < n.toNat))
    if n.toNat ≤ t.stack.length then
      let (o, heap) := t.world.heap.alloc (.struct (t.stack.drop (t.stack.length - n.toNat)))
      push env { t with pc := (pc + 2 : Nat), stack := t.stack.take (t.stack.length - n.toNat),
                        world := { t.world with heap := heap } } (.struct o)
    else .ub
  | .structGet => do
    let i ← readByte env.program (pc + 1)
    let (v, t) ← pop t
    let (_, fs) ← structFields t.world.heap v
    match fs[i.toNat]? with
    | none => .abort
    | some x => push env { t with pc := (pc + 2 : Nat) } x
  | .structSet => do
    let i ← readByte env.program (pc + 1)
    let (vs, t) ← pop t
    let (v, t) ← pop t
    let (o, fs) ← structFields t.world.heap vs
    if i.toNat < fs.length then
      let heap := { t.world.heap with obj := upd t.world.heap.obj o (.struct (fs.set i.toNat v)) }
      .ok { t with pc := (pc + 2 : Nat), world := { t.world with heap := heap } }
    else .abort
  | .add | .sub | .mul | .div => do
    let (b, t) ← pop t
    let (a, t) ← pop t
    push env { t with pc := (pc + 1 : Nat) } (← binOp env.fl op a b)
  | .mod | .or | .and | .shl | .shr => do
    let (b, t) ← pop t
    let (a, t) ← pop t
    push env { t with pc := (pc + 1 : Nat) } (← binOpInt op a b)
  | .lt | .lte | .gt | .gte => do
    let (b, t) ← pop t
    let (a, t) ← pop t
    push env { t with pc := (pc + 1 : Nat) } (← relOp env.fl op a b)
  | .add1 => do
    let (a, t) ← pop t
    push env { t with pc := (pc + 1 : Nat) } (← incr .add a)
  | .sub1 => do
    let (a, t) ← pop t
    push env { t with pc := (pc + 1 : Nat) } (← incr .sub a)
  | .equ => do
    let (b, t) ← pop t
    let (a, t) ← pop t
    push env { t with pc := (pc + 1 : Nat) } (← equOp env t.world.heap a b)
  | .logNot => do
    let (a, t) ← pop t
    let b ← expectBool a
    push env { t with pc := (pc + 1 : Nat) } (.bool (!b))
  | .set => do
    let (i, pc') ← readValueAt env.program (pc + 1) 4
    let (v, t) ← pop t
    if i < t.world.globals.length then
      .ok { t with pc := (pc' : Nat), world := { t.world with globals := t.world.globals.set i v } }
    else .ub
  | .get => do
    let (i, pc') ← readValueAt env.program (pc + 1) 4
    match t.world.globals[i]? with
    | some v => push env { t with pc := (pc' : Nat) } v
    | none => .ub
  | .goto => do
    let (i, _) ← readValueAt env.program (pc + 1) 4
    .ok { t with pc := toPc i }
  | .gotoz => do
    let (i, pc') ← readValueAt env.program (pc + 1) 4
    let (v, t) ← pop t
    let b ← expectBool v
    .ok { t with pc := if b then (pc' : Nat) else toPc i }
  | .call => do
    let nargs ← readByte env.program (pc + 1)
    let (i, pc') ← readValueAt env.program (pc + 2) 4
    let t ← pushIndir env { t with pc := (pc' : Nat) } nargs.toNat
    match env.functionPcs[i]? with
    | some fpc => .ok { t with pc := (fpc : Nat) }
    | none => .ub
  | .ret => popIndir { t with retVal := .null }
  | .retValue => do
    let (v, t) ← pop t
    popIndir { t with retVal := v }
  | .callf => do
    let nargs ← readByte env.program (pc + 1)
    let (i, pc') ← readValueAt env.program (pc + 2) 4
    if nargs.toNat ≤ t.stack.length ∧ i < env.numForeign then
      let prev := t.stack.length - nargs.toNat
      let args := t.stack.drop prev
      let (v, w) ← env.foreign i args t.world
      .ok { t with pc := (pc' : Nat), retVal := v, stack := t.stack.take prev,
                   world := { w with trace := t.world.trace ++ [(i, args)] } }
    else .ub
  | .getLocal => do
    let (i, pc') ← readValueAt env.program (pc + 1) 4
    push env { t with pc := (pc' : Nat) } (← getSlot t (localSlot t i))
  | .getLocalW => do
    let i ← readByte env.program (pc + 1)
    push env { t with pc := (pc + 2 : Nat) } (← getSlot t (t.fp + i.toNat))
  | .setLocal => do
    let (i, pc') ← readValueAt env.program (pc + 1) 4
    let (v, t) ← pop t
    let s := localSlot t i
    if s < t.stack.length then .ok { t with pc := (pc' : Nat), stack := t.stack.set s v } else .ub
  | .getRetVal => push env { t with pc := (pc + 1 : Nat) } t.retVal
  | .halt => .ok { t with pc := -1 }
  | .misaligned => .abort

/-- One instruction of a thread with `pc >= 0`: read the opcode (unknown ones reach `default:`, which
asserts, tiny.c:1432-1434) and execute it. -/
def exec (env : Env) (t : Thread) : Res Thread := do
  let b ← readByte env.program t.pc.toNat
  match Op.ofByte b with
  | none => .abort
  | some op => execOp env t t.pc.toNat op

/-- The roots of `MarkAll`, tiny.c:638-647, in the order it visits them. -/
def Thread.roots (t : Thread) : List Value := t.retVal :: (t.stack ++ t.world.globals)

/-- The end of `ExecuteCycle`, tiny.c:1437-1439: collect when the threshold is reached. -/
def maybeCollect (t : Thread) : Res Thread :=
  if t.world.heap.maxNumObjects ≤ t.world.heap.numObjects then do
    let heap ← t.world.heap.collect t.roots
    .ok { t with world := { t.world with heap := heap } }
  else .ok t

/-- `ExecuteCycle`, tiny.c:1163-1442. -/
def cycle (env : Env) (t : Thread) : Res (Bool × Thread) :=
  if t.pc < 0 then .ok (false, t)
  else do
    let t ← exec env t
    let t ← maybeCollect t
    .ok (true, t)

/-- `Tiny_Run`, tiny.c:622 (bounded by fuel). -/
def run (env : Env) : Nat → Thread → Res Thread
  | 0, _ => .timeout
  | n + 1, t => do
    match ← cycle env t with
    | (true, t) => run env n t
    | (false, t) => .ok t

/-- `Tiny_InitThreadWithContext` then `Tiny_StartThread`, tiny.c:487-535: all globals null, `pc` 0. -/
def startThread (numGlobals : Nat) : Thread where
  pc := 0
  fp := 0
  stack := []
  frames := []
  retVal := .null
  world := { globals := List.replicate numGlobals .null }

/-- The argument loop of `Tiny_CallFunction`, tiny.c:599-601. -/
def pushAll (env : Env) (t : Thread) : List Value → Res Thread
  | [] => .ok t
  | v :: vs => do pushAll env (← push env t v) vs

/-- The loop of `Tiny_CallFunction`, tiny.c:606-607: `while (thread->fc > fc && ExecuteCycle(thread));` -/
def callLoop (env : Env) (fc : Nat) : Nat → Thread → Res Thread
  | 0, _ => .timeout
  | n + 1, t =>
    if fc < t.frames.length then do
      match ← cycle env t with
      | (true, t) => callLoop env fc n t
      | (false, t) => .ok t
    else .ok t

/-- `Tiny_CallFunction`, tiny.c:583-618, on a thread whose globals are allocated. The C code restores
`sp` and `fc` by assignment, which brings back the old contents of the arrays only below what the run
overwrote: modelled by taking the current arrays' first `sp`, `fc` entries (out of bounds if shorter). -/
def callFunction (env : Env) (fuel : Nat) (t : Thread) (f : Nat) (args : List Value) :
    Res (Value × Thread) := do
  let t1 ← pushAll env t args
  match env.functionPcs[f]? with
  | none => .ub
  | some fpc => do
    let t2 ← pushIndir env { t1 with pc := (fpc : Nat) } (args.length % 256)
    let t3 ← callLoop env t.frames.length fuel t2
    if t.stack.length ≤ t3.stack.length ∧ t.frames.length ≤ t3.frames.length then
      .ok (t3.retVal, { pc := t.pc, fp := t.fp, stack := t3.stack.take t.stack.length,
                        frames := t3.frames.take t.frames.length, retVal := t.retVal,
                        world := t3.world })
    else .ub

end Tiny
