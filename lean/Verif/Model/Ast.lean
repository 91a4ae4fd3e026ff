import Verif.Model.Token

/-!
# Syntax trees as the code generator sees them (tiny/include/expr.h)

`Tiny_Expr` is one C structure for expressions and statements; the model has one type for each.
Annotations written by the parser (symbols) and by `ResolveTypes` (types) are part of the tree.
-/

namespace Tiny

/-- A C string used as a name: its bytes without the terminating NUL. -/
abbrev Name := List UInt8

/-- A type: a pointer to a `Tiny_Symbol` with a `TINY_SYM_TAG_*` type (tiny/include/tiny.h:486-549).
* `named n` – the first symbol of that name for a struct or a registered type, which `GetTagFromName` (tiny.c:1533-1561)
  returns. Whether it is a struct is said by the symbol, and may change (tiny.c:992-998).
* `shadowed n` – the struct of that name, when that is not the first one: `GetStructTag` (tiny.c:1506-1515) skips the
  registered type of that name.
There is at most one struct, and at most one registered type, of a name. -/
inductive Tag where
  | void | any | bool | int | float | str
  | named (name : Name)
  | shadowed (name : Name)
  | nullable (inner : Tag)
deriving DecidableEq, Repr, Inhabited

/-- The name of the struct, if the type is one. -/
def Tag.structName : Tag → Option Name
  | .named n => some n
  | .shadowed n => some n
  | _ => none

/-- The value of a constant symbol (`Tiny_Symbol.constant`). -/
inductive ConstVal where
  | str (idx : Nat)
  | bool (b : Bool)
  | int (i : BitVec 64)
  | float (f : BitVec 64)
deriving DecidableEq, Repr

/-- What a variable name refers to (`Tiny_Symbol` of type `TINY_SYM_GLOBAL`, `_LOCAL`, `_CONST`): storage
index as in `var.index`, negative for arguments. -/
inductive VarSym where
  | glob (idx : Nat)
  | loc (idx : Int)
  | const (c : ConstVal)
deriving DecidableEq, Repr

/-- What a function name refers to (`TINY_SYM_FUNCTION`, `TINY_SYM_FOREIGN_FUNCTION`). -/
inductive FnSym where
  | tiny (index : Nat)
  | foreign (index nargs : Nat) (varargs : Bool)
deriving DecidableEq, Repr

/-- Expressions (`Tiny_Expr`, tiny/include/expr.h:47-193).
* `int`, `char` – `iValue`, a C `int`
* `float` – `fValue`: the C field is a `float`; the model keeps the bits of the double it converts to
* `id` – with `id.sym`
* `dot` – with the type of the left side (`dot.lhs->tag` after `ResolveTypes`)
* `index` – with `getIndexFunc`, `setIndexFunc`
* `ctor` – struct name, designated field names (`argNamesHead`, `none` when NULL), arguments. -/
inductive Expr where
  | null
  | bool (b : Bool)
  | int (i : BitVec 32)
  | char (i : BitVec 32)
  | float (f : BitVec 64)
  | str (idx : Nat)
  | id (name : Name) (sym : Option VarSym)
  | call (callee : Name) (args : List Expr)
  | paren (e : Expr)
  | bin (op : Tok) (l r : Expr)
  | un (op : Tok) (e : Expr)
  | dot (l : Expr) (field : Name) (tag : Option Tag)
  | index (arr elem : Expr) (getF setF : Option FnSym)
  | ctor (name : Name) (argNames : Option (List Name)) (args : List Expr)
  | cast (e : Expr) (tag : Tag)
  | ite (c a b : Expr)
deriving Inhabited

/-- Statements. `node line s` carries `lineNumber`: the parser gives every statement one. `patch` is
`breakContinue.patchLoc`. `expr` stands for any expression in statement position which is not a call or
a binary operator. `proc` carries from its `decl`: `func.index`, the number of arguments and locals. -/
inductive Stmt where
  | node (line : Nat) (s : Stmt)
  | call (callee : Name) (args : List Expr)
  | block (ss : List Stmt)
  | assign (op : Tok) (lhs rhs : Expr)
  | proc (index nargs nlocals : Nat) (body : Stmt)
  | ifThen (c : Expr) (body : Stmt)
  | ifElse (c : Expr) (body alt : Stmt)
  | while (c : Expr) (body : Stmt)
  | for (init : Stmt) (c : Expr) (step body : Stmt)
  | ret (e : Option Expr)
  | brk (patch : Nat)
  | cont (patch : Nat)
  | use
  | expr (e : Expr)
deriving Inhabited

end Tiny
