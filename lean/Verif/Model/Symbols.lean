import Verif.Model.Ast

/-!
# The symbol table (tiny/src/tiny.c:692-1096, 1506-1631)

Symbols are C structures reached through pointers. The model keeps them by value in the list
`globalSymbols`; a pointer to a global symbol is its position in that list, a pointer to an argument or a
local variable is its position in the lists of the function it belongs to.
-/

namespace Tiny

/-- How a step of the compiler ends: normally, with a reported error (`longjmp` to `Tiny_CompileString`, with
the state as it is then), with a failed `assert`, with undefined behaviour, or not within the given fuel. -/
inductive Out (σ α : Type) where
  | ok (a : α) (s : σ)
  | err (s : σ)
  | abort
  | ub
  | timeout
deriving DecidableEq, Repr

/-- Actions on a state `σ`. -/
def Act (σ α : Type) := σ → Out σ α

instance {σ : Type} : Monad (Act σ) where
  pure a := fun s => .ok a s
  bind x f := fun s => match x s with
    | .ok a s => f a s
    | .err s => .err s
    | .abort => .abort
    | .ub => .ub
    | .timeout => .timeout

/-- `ReportErrorSL`, `ReportErrorE`, `ReportErrorS`, `ReportErrorL` (tiny.c:1467-1500): `longjmp`. -/
def Act.report {σ α : Type} : Act σ α := fun s => .err s
/-- A failing `assert`. -/
def Act.fail {σ α : Type} : Act σ α := fun _ => .abort
/-- Undefined behaviour. -/
def Act.undef {σ α : Type} : Act σ α := fun _ => .ub
/-- The state. -/
def Act.get {σ : Type} : Act σ σ := fun s => .ok s s
/-- Change the state. -/
def Act.modify {σ : Type} (f : σ → σ) : Act σ Unit := fun s => .ok () (f s)

/-- The `var` part of a `Tiny_Symbol` of type `TINY_SYM_GLOBAL` or `TINY_SYM_LOCAL` (tiny/include/tiny.h:493-499),
with its name. `tag` is `none` while it has never been written (`Symbol_create` does not clear memory). -/
structure VarInfo where
  name : Name
  idx : Int
  scope : Int := 0
  ended : Bool := false
  tag : Option Tag := none
  init : Bool := false
deriving DecidableEq, Repr, Inhabited

/-- The `func` part of a `TINY_SYM_FUNCTION` (tiny.h:512-519). `ret` is `none` while not yet written. -/
structure FuncInfo where
  name : Name
  index : Nat
  args : List VarInfo := []
  locals : List VarInfo := []
  ret : Option Tag := none
deriving DecidableEq, Repr, Inhabited

/-- The global symbols (`Tiny_Symbol`, tiny.h:486-549), without positions and without the C function pointers.
* `glob`, `const`, `func` – variables, constants, functions
* `foreign` – bound C functions: index, argument types, varargs, result type
* `ftype` – `TINY_SYM_TAG_FOREIGN`
* `struct` – name, `defined`, fields
* `nullable` – `TINY_SYM_TAG_NULLABLE` with `nullableTag`
* `module` – a bound macro. -/
inductive Sym where
  | glob (v : VarInfo)
  | const (name : Name) (tag : Tag) (val : ConstVal)
  | func (f : FuncInfo)
  | foreign (name : Name) (index : Nat) (argTags : List Tag) (varargs : Bool) (ret : Tag)
  | ftype (name : Name)
  | struct (name : Name) (defined : Bool) (fields : List (Name × Tag))
  | nullable (inner : Tag)
  | module (name : Name)
deriving DecidableEq, Repr, Inhabited

/-- `state->currFunc`: NULL, a pointer to the function symbol at a position of `globalSymbols`, or a pointer to a
symbol which has been freed. -/
inductive Cur where
  | none
  | at (i : Nat)
  | dangling
deriving DecidableEq, Repr, Inhabited

/-- The part of `Tiny_State` (tiny/include/detail.h:46-91) the parser and the type checker use: `globalSymbols`,
`currScope`, `currFunc`, the counters and the string table. -/
structure Front where
  syms : List Sym := []
  currScope : Int := 0
  currFunc : Cur := .none
  numGlobalVars : Nat := 0
  numFunctions : Nat := 0
  numForeign : Nat := 0
  strings : List (List UInt8) := []
deriving DecidableEq, Repr, Inhabited

/-- `MAX_STRINGS`, detail.h:9. -/
def maxStrings : Nat := 1024

/-- `RegisterString`, tiny.c:692-701. -/
def registerString (s : List UInt8) : Act Front Nat := fun f =>
  match f.strings.findIdx? (· == s) with
  | some i => .ok i f
  | none =>
    if f.strings.length < maxStrings then .ok f.strings.length { f with strings := f.strings ++ [s] } else .abort

/-- `sb_push(&state->ctx, state->globalSymbols, sym)`. -/
def pushSym (s : Sym) : Act Front Unit := .modify fun f => { f with syms := f.syms ++ [s] }

/-- `state->currFunc->func`: `none` for NULL. -/
def currentFunc : Act Front (Option FuncInfo) := fun f =>
  match f.currFunc with
  | .none => .ok none f
  | .dangling => .ub
  | .at i =>
    match f.syms[i]? with
    | some (.func fi) => .ok (some fi) f
    | _ => .ub

/-- Write to `state->currFunc->func`. -/
def updateFunc (upd : FuncInfo → FuncInfo) : Act Front Unit := fun f =>
  match f.currFunc with
  | .none => .ub
  | .dangling => .ub
  | .at i =>
    match f.syms[i]? with
    | some (.func fi) => .ok () { f with syms := f.syms.set i (.func (upd fi)) }
    | _ => .ub

/-- `OpenScope`, tiny.c:765. -/
def openScope : Act Front Unit := .modify fun f => { f with currScope := f.currScope + 1 }

/-- `sym->var.scopeEnded = true` for the locals of the current scope, tiny.c:768-777. -/
def endScope (scope : Int) (v : VarInfo) : VarInfo := if v.scope = scope then { v with ended := true } else v

/-- `CloseScope`, tiny.c:767-781. -/
def closeScope : Act Front Unit := do
  let s ← .get
  match s.currFunc with
  | .none => pure ()
  | _ => updateFunc fun fi => { fi with locals := fi.locals.map (endScope s.currScope) }
  .modify fun f => { f with currScope := f.currScope - 1 }

/-- What `ReferenceVariable` returns: a local or an argument of the current function, or a global symbol. -/
inductive SymRef where
  | loc (k : Nat)
  | arg (k : Nat)
  | glob (i : Nat)
deriving DecidableEq, Repr, Inhabited

/-- Is the symbol a global variable or constant of this name (tiny.c:809-815)? -/
def Sym.isVar (n : Name) : Sym → Bool
  | .glob v => v.name == n
  | .const m _ _ => m == n
  | _ => false

/-- The first two loops of `ReferenceVariable`, tiny.c:784-806: open locals, then arguments. -/
def lookupFunc (n : Name) : Option FuncInfo → Option SymRef
  | none => none
  | some fi =>
    match fi.locals.findIdx? (fun v => !v.ended && v.name == n) with
    | some k => some (.loc k)
    | none => (fi.args.findIdx? (fun v => v.name == n)).map .arg

/-- `ReferenceVariable`, tiny.c:783-820. -/
def referenceVariable (n : Name) : Act Front (Option SymRef) := do
  let fi ← currentFunc
  match lookupFunc n fi with
  | some r => pure (some r)
  | none => do
    let s ← .get
    pure ((s.syms.findIdx? (·.isVar n)).map .glob)

/-- `DeclareGlobalVar`, tiny.c:822-844: the position of the new symbol. -/
def declareGlobalVar (n : Name) : Act Front Nat := do
  match ← referenceVariable n with
  | some (.glob _) => .report
  | _ => do
    let s ← .get
    pushSym (.glob { name := n, idx := s.numGlobalVars })
    .modify fun f => { f with numGlobalVars := f.numGlobalVars + 1 }
    pure s.syms.length

/-- `DeclareArgument`, tiny.c:851-878. -/
def declareArgument (n : Name) (tag : Tag) (nargs : Nat) : Act Front Unit := do
  match ← currentFunc with
  | none => .fail
  | some fi =>
    if fi.args.any (fun v => v.name == n) then .report
    else updateFunc fun fi => { fi with
      args := fi.args ++ [{ name := n, idx := -(nargs : Int) + fi.args.length, tag := some tag }] }

/-- The loop of `ParseFunc` which declares the arguments, tiny.c:1729-1732. -/
def declareArguments (nargs : Nat) : List (Name × Tag) → Act Front Unit
  | [] => pure ()
  | a :: as => do
    declareArgument a.1 a.2 nargs
    declareArguments nargs as

/-- `DeclareLocal`, tiny.c:880-906: the position of the new local. -/
def declareLocal (n : Name) : Act Front Nat := do
  match ← currentFunc with
  | none => .fail
  | some fi =>
    if fi.locals.any (fun v => !v.ended && v.name == n) then .report
    else do
      let s ← .get
      updateFunc fun fi => { fi with
        locals := fi.locals ++ [{ name := n, idx := fi.locals.length, scope := s.currScope }] }
      pure fi.locals.length

/-- `DeclareConst`, tiny.c:908-932 (the warning on `stderr` is left out). -/
def declareConst (n : Name) (tag : Tag) (v : ConstVal) : Act Front Unit := do
  match ← referenceVariable n with
  | some _ => .report
  | none => pushSym (.const n tag v)

/-- `DeclareFunction`, tiny.c:934-946: the position of the new symbol. -/
def declareFunction (n : Name) : Act Front Nat := do
  let s ← .get
  pushSym (.func { name := n, index := s.numFunctions })
  .modify fun f => { f with numFunctions := f.numFunctions + 1 }
  pure s.syms.length

/-- Is the symbol a function of this name (tiny.c:952-954)? -/
def Sym.isFunc (n : Name) : Sym → Bool
  | .func f => f.name == n
  | .foreign m _ _ _ _ => m == n
  | _ => false

/-- `ReferenceFunction`, tiny.c:948-958. -/
def referenceFunction (syms : List Sym) (n : Name) : Option Sym := syms.find? (·.isFunc n)

/-- Is the symbol a bound function of this name? -/
def Sym.isForeign (n : Name) : Sym → Bool
  | .foreign m _ _ _ _ => m == n
  | _ => false

/-- `BindFunction`, tiny.c:960-985; `exit(1)` when the name is taken by another bound function. -/
def bindFunction (n : Name) (argTags : List Tag) (varargs : Bool) (ret : Tag) : Act Front Unit := do
  let s ← .get
  if s.syms.any (·.isForeign n) then .fail
  else do
    pushSym (.foreign n s.numForeign argTags varargs ret)
    .modify fun f => { f with numForeign := f.numForeign + 1 }

/-- Is the symbol a struct of this name? -/
def Sym.isStruct (n : Name) : Sym → Bool
  | .struct m _ _ => m == n
  | _ => false

/-- `GetStructTag`, tiny.c:1506-1515. -/
def getStructTag (syms : List Sym) (n : Name) : Option Sym := syms.find? (·.isStruct n)

/-- `DeclareStruct(state, name, true)`, tiny.c:1517-1531. The result, a pointer to the first struct symbol of that
name, is determined by the name. -/
def declareStruct (n : Name) : Act Front Unit := do
  let s ← .get
  if s.syms.any (·.isStruct n) then pure () else pushSym (.struct n false [])

/-- The bytes of a name. -/
def nameOf (s : String) : Name := s.toList.map fun c => UInt8.ofNat c.toNat

/-- The built-in types, tiny.c:1534-1545. -/
def primTag (n : Name) : Option Tag :=
  if n = nameOf "void" then some .void
  else if n = nameOf "bool" then some .bool
  else if n = nameOf "int" then some .int
  else if n = nameOf "float" then some .float
  else if n = nameOf "str" then some .str
  else if n = nameOf "any" then some .any
  else none

/-- A registered or struct type with this name, tiny.c:1547-1554. -/
def Sym.asType (n : Name) : Sym → Option Tag
  | .ftype m => if m = n then some (.named m) else none
  | .struct m _ _ => if m = n then some (.named m) else none
  | _ => none

/-- `GetTagFromName(state, name, true)`, tiny.c:1533-1562: an unknown name becomes an undefined struct. -/
def getTagFromName (n : Name) : Act Front Tag := do
  match primTag n with
  | some t => pure t
  | none => do
    let s ← .get
    match s.syms.findSome? (·.asType n) with
    | some t => pure t
    | none => do
      pushSym (.struct n false [])
      pure (.named n)

/-- `GetOrCreateNullable`, tiny.c:1566-1588 (without the name of the new symbol). -/
def getOrCreateNullable (inner : Tag) : Act Front Tag := do
  let s ← .get
  if s.syms.any (· == .nullable inner) then pure () else pushSym (.nullable inner)
  pure (.nullable inner)

/-- Turning a struct into an opaque type, tiny.c:998: it happens in place, pointers to the struct (`Tag.named`) now point
to the opaque type. -/
def Sym.toForeign : Sym → Sym
  | .struct m _ _ => .ftype m
  | x => x

/-- This is done to the symbol `GetTagFromName` finds, tiny.c:1547-1554. -/
def convertType (n : Name) : List Sym → List Sym
  | [] => []
  | x :: xs => if (x.asType n).isSome then x.toForeign :: xs else x :: convertType n xs

/-- `Tiny_RegisterType`, tiny.c:989-1006. -/
def registerType (n : Name) : Act Front Unit := do
  if (primTag n).isSome then pure ()
  else do
    let s ← .get
    match s.syms.find? (fun x => (x.asType n).isSome) with
    | some (.struct _ false _) => .modify fun f => { f with syms := convertType n f.syms }
    | some _ => pure ()
    | none => pushSym (.ftype n)

/-- `IsTagAssignableTo`, tiny.c:2465-2490. Names are compared only between types of the same kind; the name of
`t?` is never reached for a destination `t?`. -/
def isTagAssignableTo (src : Tag) : Tag → Bool
  | .any => src != .void
  | .nullable t => src != .void && src != .any && isTagAssignableTo src t
  | dest => src != .void && src != .any && src == dest

end Tiny
