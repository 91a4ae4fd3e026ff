import Verif.Model.Resolve
import Verif.Model.Codegen

/-!
# `Tiny_CompileString` (tiny/src/tiny.c:3886-4081)

The phases of a compilation, and what is undone when one of them reports an error.
-/

namespace Tiny

/-- The part of `Tiny_State` (tiny/include/detail.h:46-91) a compilation uses. `foreignFns` is `foreignFunctions`: the
C function pointers, written as the names under which they were bound. `nest` is `compileCallNestCount`. The lexer and
the parser's arena are saved and restored by each compilation (tiny.c:3967-3971, 4006-4007, 4076-4077) and left out. -/
structure TState where
  front : Front := {}
  program : List UInt8 := []
  lines : List LineRec := []
  functionPcs : List Nat := []
  foreignFns : List (Option Name) := []
  nest : Nat := 0
deriving Inhabited

/-- `TINY_MAX_NESTED_COMPILE_CALLS`, tiny/include/tiny.h:31-33. -/
def maxNest : Nat := 16

/-- A step which uses the symbol table only. -/
def onFront {α : Type} (x : Act Front α) : Act TState α := fun s =>
  match x s.front with
  | .ok a f => .ok a { s with front := f }
  | .err f => .err { s with front := f }
  | .abort => .abort
  | .ub => .ub
  | .timeout => .timeout

/-- The parser, on the tokens of the source. -/
def parseTokens (n : Nat) (ts : List Tk) : Act TState (List CStmt) := fun s =>
  match parseProgram n ⟨ts, s.front⟩ with
  | .ok a q => .ok a { s with front := q.st }
  | .err q => .err { s with front := q.st }
  | .abort => .abort
  | .ub => .ub
  | .timeout => .timeout

/-- A step of the code generator. -/
def onCode {α : Type} (file : Option Nat) (x : CG α) : Act TState α := fun s =>
  match x ⟨s.program, s.lines, file, s.functionPcs⟩ with
  | .ok a c => .ok a { s with program := c.program, lines := c.lines, functionPcs := c.functionPcs }
  | .err c => .err { s with program := c.program, lines := c.lines, functionPcs := c.functionPcs }
  | .abort => .abort
  | .ub => .ub

/-- A bound macro (`Tiny_ModuleFunction`, tiny.h): the arguments, the name after `as`; it may call any function of the
API; `false` is a result other than `TINY_MACRO_SUCCESS`. -/
abbrev Macro := List Name → Option Name → Act TState Bool

/-- What a compilation depends on besides the state and the source: `strtod`, the C functions of the macros by name,
and how long we are prepared to wait for the parser. -/
structure CompileEnv where
  strtod : List UInt8 → BitVec 64
  macros : Name → Macro
  fuel : Nat

/-- One `use`, tiny.c:4023-4057: the module is looked up; more than 128 arguments overrun the buffer (the check at 4034
comes one too late). -/
def useMacro (E : CompileEnv) (m : Name) (args : List Name) (asName : Option Name) : Act TState Unit := do
  let s ← .get
  if s.front.syms.any (· == .module m) then
    if 128 < args.length then .undef
    else do
      let b ← E.macros m args asName
      if b then pure () else .report
  else .report

/-- The macros of the program, tiny.c:4017-4058. -/
def useMacros (E : CompileEnv) : List CStmt → Act TState Unit
  | [] => pure ()
  | .node _ (.use m args a) :: ss => do
    useMacro E m args a
    useMacros E ss
  | _ :: ss => useMacros E ss

/-- Is the symbol an undefined struct? -/
def Sym.undefinedStruct : Sym → Bool
  | .struct _ d _ => !d
  | _ => false

/-- The symbols from position `first` to `last`. -/
def Front.slice (f : Front) (first last : Nat) : List Sym := (f.syms.take last).drop first

/-- tiny.c:4060-4066. -/
def checkStructs (first last : Nat) : Act TState Unit := do
  let s ← .get
  if (s.front.slice first last).any Sym.undefinedStruct then .report else pure ()

/-- What the code generator reads of the symbol table: the fields of defined structs, functions by name. -/
def globalsOf (f : Front) : Globals where
  structs := fun n =>
    match f.syms.findSome? (·.structInfo n) with
    | some (true, fs) => some fs
    | _ => none
  funcs := fun n => (referenceFunction f.syms n).bind Sym.fnSym

/-- `stb__sbn(state->program) -= 1` if the program ends with `HALT`, tiny.c:3930-3934. -/
def dropHalt : Act TState Unit := .modify fun s =>
  { s with program := if s.program.getLast? = some Op.halt.toByte then s.program.dropLast else s.program }

/-- `BuildForeignFunctions`, tiny.c:3917-3924. -/
def buildForeign : List Sym → List (Option Name) → List (Option Name)
  | [], t => t
  | .foreign n i _ _ _ :: ss, t => buildForeign ss (t.set i (some n))
  | _ :: ss, t => buildForeign ss t

/-- tiny.c:3941-3957: `TRealloc` to the number of functions (new entries are unspecified: 0, none), then
`BuildForeignFunctions`. -/
def reallocTables : Act TState Unit := .modify fun s =>
  { s with
    functionPcs := s.functionPcs ++ List.replicate (s.front.numFunctions - s.functionPcs.length) 0
    foreignFns := buildForeign s.front.syms
      (s.foreignFns ++ List.replicate (s.front.numForeign - s.foreignFns.length) none) }

/-- The statements which are in the C tree (struct definitions are not). -/
def isNode : Stmt → Bool
  | .node _ _ => true
  | _ => false

/-- The index of the file name, registered by the first call of `CompileStatement`, tiny.c:3609. -/
def fileIndex (file : Option Name) (ss : List Stmt) : Act TState (Option Nat) :=
  match file with
  | none => pure none
  | some n =>
    if ss.any isNode then do
      let i ← onFront (registerString n)
      pure (some i)
    else pure none

/-- `CompileState`, tiny.c:3926-3961. -/
def compileTree (file : Option Name) (xs : List CStmt) : Act TState (List Stmt) := do
  dropHalt
  let ss ← onFront (resolveSs xs)
  reallocTables
  let i ← fileIndex file ss
  let s ← .get
  onCode i (do let _ ← compileSs (globalsOf s.front) ss; genOp .halt)
  pure ss

mutual
/-- The variables `CompileStatement` marks as initialized (tiny.c:3736): those which are assigned to, with the index of
the function they belong to. -/
def assigned (cur : Option Nat) : Stmt → List (Option Nat × VarSym)
  | .node _ s => assigned cur s
  | .block ss => assignedL cur ss
  | .assign op (.id _ (some s)) _ =>
    if op = .equal ∨ op = .declare ∨ (compoundOp op).isSome then
      [(match s with | .loc _ => cur | _ => none, s)]
    else []
  | .proc i _ _ b => assigned (some i) b
  | .ifThen _ b => assigned cur b
  | .ifElse _ b a => assigned cur b ++ assigned cur a
  | .while _ b => assigned cur b
  | .for i _ s b => assigned cur i ++ (assigned cur s ++ assigned cur b)
  | _ => []
/-- See `assigned`. -/
def assignedL (cur : Option Nat) : List Stmt → List (Option Nat × VarSym)
  | [] => []
  | s :: ss => assigned cur s ++ assignedL cur ss
end

/-- Set `var.initialized` of a variable of this function. -/
def markLocal (l : List (Option Nat × VarSym)) (fn : Nat) (v : VarInfo) : VarInfo :=
  if (some fn, .loc v.idx) ∈ l then { v with init := true } else v

/-- Set `var.initialized` of the variables of the list. -/
def Sym.mark (l : List (Option Nat × VarSym)) : Sym → Sym
  | .glob v => .glob (if (none, .glob v.idx.toNat) ∈ l then { v with init := true } else v)
  | .func fi => .func { fi with args := fi.args.map (markLocal l fi.index), locals := fi.locals.map (markLocal l fi.index) }
  | s => s

/-- The effect of the code generator on `var.initialized`, as one step after it. (If the code generator reports an
error, no flag which was not yet set survives: the new symbols are destroyed.) -/
def markAll (ss : List Stmt) : Act TState Unit := .modify fun s =>
  { s with front := { s.front with syms := s.front.syms.map (Sym.mark (assignedL none ss)) } }

/-- A variable which is not initialized, or a function with such a local, tiny.c:3896-3910. -/
def Sym.uninitialized : Sym → Bool
  | .glob v => !v.init
  | .func fi => fi.locals.any (!·.init)
  | _ => false

/-- `CheckInitialized`, tiny.c:3888-3913. -/
def checkInitialized (first last : Nat) : Act TState Unit := do
  let s ← .get
  if (s.front.slice first last).any Sym.uninitialized then .report else pure ()

/-- The phases, tiny.c:4013-4070, for the tokens of a source. -/
def compilePhases (E : CompileEnv) (file : Option Name) (ts : List Tk) : Act TState Unit := do
  let s0 ← .get
  let xs ← parseTokens E.fuel ts
  let s1 ← .get
  useMacros E xs
  checkStructs s0.front.syms.length s1.front.syms.length
  let ss ← compileTree file xs
  markAll ss
  checkInitialized s0.front.syms.length s1.front.syms.length

/-- tiny.c:3985-3993: the symbols from position `first` on are destroyed. A pointer to one of them in `currFunc` stays;
`currScope`, the counters and the strings stay as they are. -/
def Front.rollback (first : Nat) (f : Front) : Front :=
  { f with
    syms := f.syms.take first
    currFunc := match f.currFunc with
      | .at i => if i < first then .at i else .dangling
      | c => c }

/-- tiny.c:3999-4002: the count is set back. If it had been decremented (3932) and nothing was generated since, the
byte of the old program is still there. -/
def restoreProgram (old new : List UInt8) : List UInt8 := (new ++ old.drop new.length).take old.length

/-- tiny.c:3982-4010: what is undone after an error in state `s`, when the compilation began in state `old`. -/
def rollback (old s : TState) : TState :=
  { s with
    front := s.front.rollback old.front.syms.length
    program := restoreProgram old.program s.program
    nest := s.nest - 1 }

/-- `Tiny_CompileString` on the tokens of a source: `true` is `TINY_COMPILE_SUCCESS`. -/
def compileTokens (E : CompileEnv) (file : Option Name) (ts : List Tk) : Act TState Bool := fun s =>
  if s.nest < maxNest then
    match compilePhases E file ts { s with nest := s.nest + 1 } with
    | .ok _ s' => .ok true { s' with nest := s'.nest - 1 }
    | .err s' => .ok false (rollback s s')
    | .abort => .abort
    | .ub => .ub
    | .timeout => .timeout
  else .abort

/-- The tokens of a source: `GetNextToken` is called less often than this. -/
def sourceTokens (strtod : List UInt8 → BitVec 64) (src : List UInt8) : List Tk :=
  Lexer.stream strtod (src.length + 2) (src.length + 4) (Lexer.init src)

/-- `Tiny_CompileString`, tiny.c:3963-4081. -/
def compileString (E : CompileEnv) (file : Option Name) (src : List UInt8) : Act TState Bool :=
  compileTokens E file (sourceTokens E.strtod src)

/-- `Tiny_BindMacro`, tiny.c:4376-4391; `exit(1)` when the name is taken by another macro. -/
def bindMacro (n : Name) : Act Front Unit := do
  let s ← .get
  if s.syms.any (· == .module n) then .fail else pushSym (.module n)

end Tiny
