import Verif.Model.Ast
import Verif.Model.Codegen
import Verif.Model.VM
import Verif.Spec.Arith

/-!
# The language, by direct interpretation of syntax trees

No program counter, operand stack, frame or byte occurs here: this says what a program means.

Results: `ok`; `abort` – the program ends with a failed run-time check (condition which is not a bool,
field of something which is not a struct, ...); `timeout` – the fuel was not enough; `confused` and `ub` – no claim
is made about the compiled code. `confused` is given
* where a value of one type is used as one of another, or a dangling reference is followed;
* for trees which the earlier compiler phases are meant to exclude (undeclared names, wrong number of
  arguments, `break` outside a loop, ...).
`ub` is given
* where C has undefined behaviour for arithmetic reasons (overflow, division by zero, ...);
* in four cases where the compiled code is wrong (see the theorems named `c20_defect_*`): adding the
  literal 1 to a float, or subtracting it; string constants with an index above 255; integer constants
  bound by the host which do not fit 32 bits; constructors of structs with more than 255 fields.
-/

namespace Tiny.Spec

/-- A function of the program. -/
structure Fn where
  nargs : Nat
  nlocals : Nat
  body : Stmt

/-- What a program is interpreted in: struct definitions and function names, functions by index, the
foreign functions, floating point, the string constants. -/
structure Ctx where
  globals : Globals
  fns : Nat → Option Fn
  numForeign : Nat
  foreign : Nat → List Value → World → Res (Value × World)
  fl : FloatOps
  numStrings : Nat
  cmem : Nat → List UInt8

/-- The variables of a function activation. -/
structure Vars where
  args : List Value := []
  locals : List Value := []

/-- Arguments are numbered from `-nargs` to `-1`, locals from `0`. -/
def Vars.get (ρ : Vars) (i : Int) : Option Value :=
  if 0 ≤ i then ρ.locals[i.toNat]?
  else if 0 ≤ ρ.args.length + i then ρ.args[(ρ.args.length + i).toNat]? else none

/-- Assignment to a variable; `none` if there is no such variable. -/
def Vars.set (ρ : Vars) (i : Int) (v : Value) : Option Vars :=
  if 0 ≤ i then
    if i.toNat < ρ.locals.length then some { ρ with locals := ρ.locals.set i.toNat v } else none
  else if 0 ≤ ρ.args.length + i then some { ρ with args := ρ.args.set (ρ.args.length + i).toNat v }
  else none

/-- See above. (The type of results has no other use for `limit` here.) -/
abbrev confused {α : Type} : Res α := .limit

/-- `none` means a confusion. -/
def known {α : Type} : Option α → Res α
  | some a => .ok a
  | none => confused

/-- `none` means no claim. -/
def ofOption {α : Type} : Option α → Res α
  | some a => .ok a
  | none => .ub

/-- `+ - * /` on two numbers: integers if both are, otherwise floats. -/
def arith (fl : FloatOps) (op : Op) (fop : BitVec 64 → BitVec 64 → BitVec 64) : Value → Value → Res Value
  | .int a, .int b => do .ok (.int (BitVec.ofInt 64 (← ofOption (intOp op a.toInt b.toInt))))
  | .int a, .float b => .ok (.float (fop (fl.ofInt a) b))
  | .float a, .int b => .ok (.float (fop a (fl.ofInt b)))
  | .float a, .float b => .ok (.float (fop a b))
  | _, _ => confused

/-- `% | & << >>` on two integers. -/
def bits (op : Op) : Value → Value → Res Value
  | .int a, .int b => do .ok (.int (BitVec.ofInt 64 (← ofOption (intOp op a.toInt b.toInt))))
  | _, _ => confused

/-- `< <= > >=` on two numbers. -/
def compareNums (fl : FloatOps) (iop : Int → Int → Bool) (fop : BitVec 64 → BitVec 64 → Bool) :
    Value → Value → Res Value
  | .int a, .int b => .ok (.bool (iop a.toInt b.toInt))
  | .int a, .float b => .ok (.bool (fop (fl.ofInt a) b))
  | .float a, .int b => .ok (.bool (fop a (fl.ofInt b)))
  | .float a, .float b => .ok (.bool (fop a b))
  | _, _ => confused

/-- Following the reference of a string or native which was deleted is undefined. -/
def live (h : Heap) : Value → Bool
  | .str o => h.list.contains o
  | .native o => h.list.contains o
  | _ => true

/-- `==`. -/
def equal (c : Ctx) (w : World) (a b : Value) : Res Bool :=
  if live w.heap a ∧ live w.heap b then .ok (areValuesEqual ⟨w.heap.obj, c.cmem⟩ a b) else confused

/-- The strict binary operators. -/
def binary (c : Ctx) (w : World) (op : Tok) (a b : Value) : Res Value :=
  match op with
  | .plus => arith c.fl .add c.fl.add a b
  | .minus => arith c.fl .sub c.fl.sub a b
  | .star => arith c.fl .mul c.fl.mul a b
  | .slash => arith c.fl .div c.fl.div a b
  | .percent => bits .mod a b
  | .or => bits .or a b
  | .and => bits .and a b
  | .shiftLeft => bits .shl a b
  | .shiftRight => bits .shr a b
  | .lt => compareNums c.fl (fun x y => decide (x < y)) c.fl.lt a b
  | .lte => compareNums c.fl (fun x y => decide (x ≤ y)) c.fl.le a b
  | .gt => compareNums c.fl (fun x y => decide (y < x)) (fun x y => c.fl.lt y x) a b
  | .gte => compareNums c.fl (fun x y => decide (y ≤ x)) (fun x y => c.fl.le y x) a b
  | .equals => do .ok (.bool (← equal c w a b))
  | .notEquals => do .ok (.bool (!(← equal c w a b)))
  | _ => confused

/-- The operator of a compound assignment. -/
def compound : Tok → Option Tok
  | .plusEqual => some .plus
  | .minusEqual => some .minus
  | .starEqual => some .star
  | .slashEqual => some .slash
  | .percentEqual => some .percent
  | .andEqual => some .and
  | .orEqual => some .or
  | _ => none

/-- `a + 1` and `a - 1` with a float `a` and a literal `1` are compiled wrongly. -/
def plusOneOnFloat (op : Tok) (a : Value) (r : Expr) : Bool :=
  match op, a, r with
  | .plus, .float _, .int i => i = 1#32
  | .minus, .float _, .int i => i = 1#32
  | _, _, _ => false

/-- Unary minus: multiplication by -1. -/
def negate (c : Ctx) (a : Value) : Res Value := arith c.fl .mul c.fl.mul a (.int (-1#64))

/-- Conditions must be bools. -/
def truth : Value → Res Bool
  | .bool b => .ok b
  | _ => .abort

/-- The fields of a struct value. -/
def fieldsOf (w : World) : Value → Res (ObjId × List Value)
  | .struct o =>
    if o ∈ w.heap.list then
      match w.heap.obj o with
      | .struct fs => .ok (o, fs)
      | _ => confused
    else confused
  | _ => .abort

/-- The position of a field in the struct type found by the type checker. -/
def fieldPos (c : Ctx) (tag : Option Tag) (field : Name) : Option Nat :=
  match tag.bind Tag.structName with
  | some n =>
    match c.globals.structs n with
    | some fields => (fields.map Prod.fst).idxOf? field
    | none => none
  | _ => none

/-- Read a field. -/
def getField (c : Ctx) (w : World) (tag : Option Tag) (field : Name) (v : Value) : Res Value := do
  let i ← known (fieldPos c tag field)
  let (_, fs) ← fieldsOf w v
  match fs[i]? with
  | some x => .ok x
  | none => .abort

/-- Write a field. -/
def setField (c : Ctx) (w : World) (tag : Option Tag) (field : Name) (v x : Value) : Res World := do
  let i ← known (fieldPos c tag field)
  let (o, fs) ← fieldsOf w v
  if i < fs.length then
    .ok { w with heap := { w.heap with obj := upd w.heap.obj o (.struct (fs.set i x)) } }
  else .abort

/-- A new struct. -/
def construct (w : World) (n : Nat) (vs : List Value) : Res (Value × World) :=
  if vs.length ≠ n then confused
  else if n = 0 then .abort
  else
    let (o, heap) := w.heap.alloc (.struct vs)
    .ok (.struct o, { w with heap := heap })

/-- A string constant. -/
def strConst (c : Ctx) (i : Nat) : Res Value := if i < c.numStrings ∧ i ≤ 255 then .ok (.cstr i) else .ub

/-- A variable or constant. (Variable numbers are C `int`s.) -/
def readVar (c : Ctx) (ρ : Vars) (w : World) : VarSym → Res Value
  | .glob i => if i < 2 ^ 31 then known w.globals[i]? else .ub
  | .loc i => known (ρ.get i)
  | .const (.bool b) => .ok (.bool b)
  | .const (.int i) => if -2 ^ 31 ≤ i.toInt ∧ i.toInt < 2 ^ 31 then .ok (.int i) else .ub
  | .const (.float f) => .ok (.float f)
  | .const (.str i) => strConst c i

/-- How a statement ends. -/
inductive Outcome where
  | normal
  | brk
  | cont
  | ret (v : Value)
deriving DecidableEq, Repr

mutual
/-- The value of an expression, and what the world is like afterwards. -/
def evalE (c : Ctx) : Nat → Expr → Vars → World → Res (Value × World)
  | 0, _, _, _ => .timeout
  | n + 1, e, ρ, w =>
    match e with
    | .null => .ok (.null, w)
    | .bool b => .ok (.bool b, w)
    | .int i => .ok (.int (i.signExtend 64), w)
    | .char i => .ok (.int (i.signExtend 64), w)
    | .float f => .ok (.float f, w)
    | .str i => do .ok (← strConst c i, w)
    | .id _ none => confused
    | .id _ (some s) => do .ok (← readVar c ρ w s, w)
    | .paren e => evalE c n e ρ w
    | .cast e _ => evalE c n e ρ w
    | .call callee args => do
      let (vs, w) ← evalList c n args ρ w
      match c.globals.funcs callee with
      | none => confused
      | some f => call c n f vs w
    | .index arr elem getF _ => do
      let (a, w) ← evalE c n arr ρ w
      let (i, w) ← evalE c n elem ρ w
      match getF with
      | none => confused
      | some f => call c n f [a, i] w
    | .dot l field tag => do
      let (v, w) ← evalE c n l ρ w
      .ok (← getField c w tag field v, w)
    | .ctor name names args =>
      match c.globals.structs name with
      | none => confused
      | some fields =>
        if 255 < fields.length then .ub
        else match names with
        | none => do
          let (vs, w) ← evalList c n args ρ w
          construct w fields.length vs
        | some names => do
          let (vs, w) ← evalNamed c n (names.zip args) (fields.map Prod.fst) ρ w
          construct w fields.length vs
    | .un .minus e => do
      let (a, w) ← evalE c n e ρ w
      .ok (← negate c a, w)
    | .un .bang e => do
      let (a, w) ← evalE c n e ρ w
      .ok (.bool (!(← truth a)), w)
    | .un _ _ => confused
    | .bin .logAnd l r => do
      let (a, w) ← evalE c n l ρ w
      if ← truth a then evalE c n r ρ w else .ok (.bool false, w)
    | .bin .logOr l r => do
      let (a, w) ← evalE c n l ρ w
      if ← truth a then .ok (.bool true, w) else evalE c n r ρ w
    | .bin op l r => do
      let (a, w) ← evalE c n l ρ w
      let (b, w) ← evalE c n r ρ w
      if plusOneOnFloat op a r then .ub
      else .ok (← binary c w op a b, w)
    | .ite cond a b => do
      let (v, w) ← evalE c n cond ρ w
      if ← truth v then evalE c n a ρ w else evalE c n b ρ w

/-- Several expressions, in order. -/
def evalList (c : Ctx) : Nat → List Expr → Vars → World → Res (List Value × World)
  | 0, _, _, _ => .timeout
  | n + 1, es, ρ, w =>
    match es with
    | [] => .ok ([], w)
    | e :: es => do
      let (v, w) ← evalE c n e ρ w
      let (vs, w) ← evalList c n es ρ w
      .ok (v :: vs, w)

/-- Designated constructor arguments, in the order of the fields. -/
def evalNamed (c : Ctx) : Nat → List (Name × Expr) → List Name → Vars → World → Res (List Value × World)
  | 0, _, _, _, _ => .timeout
  | n + 1, args, fields, ρ, w =>
    match fields with
    | [] => .ok ([], w)
    | f :: fs =>
      match args.find? (·.1 = f) with
      | none => confused
      | some (_, e) => do
        let (v, w) ← evalE c n e ρ w
        let (vs, w) ← evalNamed c n args fs ρ w
        .ok (v :: vs, w)

/-- A call, with the values of the arguments. -/
def call (c : Ctx) : Nat → FnSym → List Value → World → Res (Value × World)
  | 0, _, _, _ => .timeout
  | n + 1, f, vs, w =>
    match f with
    | .foreign i nargs varargs =>
      if (vs.length = nargs ∨ (varargs ∧ nargs ≤ vs.length)) ∧ i < c.numForeign then do
        let (v, w') ← c.foreign i vs w
        .ok (v, { w' with trace := w.trace ++ [(i, vs)] })
      else confused
    | .tiny i =>
      match c.fns i with
      | none => confused
      | some fn =>
        if vs.length = fn.nargs then do
          let (o, _, w) ← execS c n fn.body ⟨vs, List.replicate fn.nlocals .null⟩ w
          match o with
          | .normal => .ok (.null, w)
          | .ret v => .ok (v, w)
          | _ => confused
        else confused

/-- The value an assignment stores: the right side, or left side `op` right side. -/
def evalRhs (c : Ctx) : Nat → Tok → Expr → Expr → Vars → World → Res (Value × World)
  | 0, _, _, _, _, _ => .timeout
  | n + 1, op, lhs, rhs, ρ, w =>
    match compound op with
    | none => evalE c n rhs ρ w
    | some o => do
      let (a, w) ← evalE c n lhs ρ w
      let (b, w) ← evalE c n rhs ρ w
      if plusOneOnFloat o a rhs then .ub
      else .ok (← binary c w o a b, w)

/-- Assignments. The object whose field is assigned is evaluated after the value; array and index of an
element before it, and once more to read the old element for a compound assignment. -/
def execAssign (c : Ctx) : Nat → Tok → Expr → Expr → Vars → World → Res (Vars × World)
  | 0, _, _, _, _, _ => .timeout
  | n + 1, op, lhs, rhs, ρ, w =>
    if op = .declareConst then .ok (ρ, w)
    else if op = .equal ∨ op = .declare ∨ (compound op).isSome then
      match lhs with
      | .id _ (some (.glob i)) => do
        let (v, w) ← evalRhs c n op lhs rhs ρ w
        if 2 ^ 31 ≤ i then .ub
        else if i < w.globals.length then .ok (ρ, { w with globals := w.globals.set i v }) else confused
      | .id _ (some (.loc i)) => do
        let (v, w) ← evalRhs c n op lhs rhs ρ w
        .ok (← known (ρ.set i v), w)
      | .dot l field tag => do
        let (x, w) ← evalRhs c n op lhs rhs ρ w
        let (v, w) ← evalE c n l ρ w
        .ok (ρ, ← setField c w tag field v x)
      | .index arr elem _ setF => do
        let (a, w) ← evalE c n arr ρ w
        let (i, w) ← evalE c n elem ρ w
        let (x, w) ← evalRhs c n op lhs rhs ρ w
        match setF with
        | none => confused
        | some f => do
          let (_, w) ← call c n f [a, i, x] w
          .ok (ρ, w)
      | _ => confused
    else confused

/-- Running a statement. Function definitions do nothing when they are reached. -/
def execS (c : Ctx) : Nat → Stmt → Vars → World → Res (Outcome × Vars × World)
  | 0, _, _, _ => .timeout
  | n + 1, s, ρ, w =>
    match s with
    | .node _ s => execS c n s ρ w
    | .call callee args => do
      let (vs, w) ← evalList c n args ρ w
      match c.globals.funcs callee with
      | none => confused
      | some f => do
        let (_, w) ← call c n f vs w
        .ok (.normal, ρ, w)
    | .block ss => execSs c n ss ρ w
    | .assign op lhs rhs => do
      let (ρ, w) ← execAssign c n op lhs rhs ρ w
      .ok (.normal, ρ, w)
    | .proc _ _ _ _ => .ok (.normal, ρ, w)
    | .ifThen cond body => do
      let (v, w) ← evalE c n cond ρ w
      if ← truth v then execS c n body ρ w else .ok (.normal, ρ, w)
    | .ifElse cond body alt => do
      let (v, w) ← evalE c n cond ρ w
      if ← truth v then execS c n body ρ w else execS c n alt ρ w
    | .while cond body => execLoop c n cond none body ρ w
    | .for init cond step body => do
      let (o, ρ, w) ← execS c n init ρ w
      match o with
      | .normal => execLoop c n cond (some step) body ρ w
      | .ret v => .ok (.ret v, ρ, w)
      | _ => confused
    | .ret none => .ok (.ret .null, ρ, w)
    | .ret (some e) => do
      let (v, w) ← evalE c n e ρ w
      .ok (.ret v, ρ, w)
    | .brk _ => .ok (.brk, ρ, w)
    | .cont _ => .ok (.cont, ρ, w)
    | .use => .ok (.normal, ρ, w)
    | .expr _ => confused

/-- Statements in order, until one does not end normally. -/
def execSs (c : Ctx) : Nat → List Stmt → Vars → World → Res (Outcome × Vars × World)
  | 0, _, _, _ => .timeout
  | n + 1, ss, ρ, w =>
    match ss with
    | [] => .ok (.normal, ρ, w)
    | s :: ss => do
      let (o, ρ, w) ← execS c n s ρ w
      match o with
      | .normal => execSs c n ss ρ w
      | o => .ok (o, ρ, w)

/-- Loops: while the condition holds, run the body, then the step (if any). `break` ends the loop,
`continue` goes on with the step. -/
def execLoop (c : Ctx) : Nat → Expr → Option Stmt → Stmt → Vars → World → Res (Outcome × Vars × World)
  | 0, _, _, _, _, _ => .timeout
  | n + 1, cond, step, body, ρ, w => do
    let (v, w) ← evalE c n cond ρ w
    if ← truth v then
      let (o, ρ, w) ← execS c n body ρ w
      match o with
      | .brk => .ok (.normal, ρ, w)
      | .ret v => .ok (.ret v, ρ, w)
      | _ =>
        match step with
        | none => execLoop c n cond step body ρ w
        | some s => do
          let (o, ρ, w) ← execS c n s ρ w
          match o with
          | .normal => execLoop c n cond step body ρ w
          | .ret v => .ok (.ret v, ρ, w)
          | _ => confused
    else .ok (.normal, ρ, w)
end

mutual
/-- The functions defined in a statement, with their indices. -/
def procs : Stmt → List (Nat × Fn)
  | .node _ s => procs s
  | .block ss => procsL ss
  | .proc i nargs nlocals body => (i, ⟨nargs, nlocals, body⟩) :: procs body
  | .ifThen _ s => procs s
  | .ifElse _ s t => procs s ++ procs t
  | .while _ s => procs s
  | .for i _ st b => procs i ++ procs b ++ procs st
  | _ => []
/-- The functions defined in a list of statements. -/
def procsL : List Stmt → List (Nat × Fn)
  | [] => []
  | s :: ss => procs s ++ procsL ss
end

/-- A whole program: its statements in order, starting with all globals null. A `return`, `break` or
`continue` at top level has no meaning. -/
def runProgram (c : Ctx) (n numGlobals : Nat) (prog : List Stmt) : Res World := do
  let (o, _, w) ← execSs c n prog {} { globals := List.replicate numGlobals .null }
  match o with
  | .normal => .ok w
  | _ => confused

end Tiny.Spec
