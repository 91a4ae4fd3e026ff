import Verif.Spec.Signature
import Mathlib.Data.List.Forall2

/-!
# What a source declares

The structs, constants, functions and global variables a source declares, and their entries in the symbol table (C52).
-/

namespace Tiny.Spec

/-- A declaration in a source.
* `struct n { field: type ... }`
* `n :: literal`
* `func n(arg: type, ...): type { ... }`
* `n := value`, `n: type = value`, outside of functions -/
inductive Decl where
  | struct (n : Name) (fields : List (Name × SType))
  | const (n : Name) (value : Lit (List UInt8))
  | func (n : Name) (args : List (Name × SType)) (ret : Option SType)
  | var (n : Name) (type : Option SType)

/-- The declaration an assignment is; `fn` says whether it is inside a function. -/
def assignDecls (fn : Bool) (op : Tok) (ann : Option SType) (l r : SExpr) : List Decl :=
  match l with
  | .id n _ =>
    if ann.isSome || op = .declare then if fn then [] else [.var n ann]
    else if op = .declareConst then
      match r.lit with
      | some c => [.const n c]
      | none => []
    else []
  | _ => []

mutual
/-- The declarations in a statement, in order. -/
def declIn (fn : Bool) : SStmt → List Decl
  | .node _ s => declIn fn s
  | .block ss => declInL fn ss
  | .assign op ann l r => assignDecls fn op ann l r
  | .proc _ n ps r b => .func n ps r :: declIn true b
  | .ifThen _ b => declIn fn b
  | .ifElse _ b a => declIn fn b ++ declIn fn a
  | .while _ b => declIn fn b
  | .for i _ s b => declIn fn i ++ declIn fn s ++ declIn fn b
  | .struct n fs => [.struct n fs]
  | .call _ _ | .ret _ | .brk | .cont | .use _ _ _ => []
/-- The declarations in statements. -/
def declInL (fn : Bool) : List SStmt → List Decl
  | [] => []
  | s :: ss => declIn fn s ++ declInL fn ss
end

/-- An entry of the symbol table for a declaration: the type is that of the fields, of the value, of the arguments and the
result, of the variable. -/
inductive Entry where
  | struct (n : Name) (fields : List (Name × Tag))
  | const (n : Name) (tag : Tag) (val : ConstVal)
  | func (n : Name) (args : List (Name × Option Tag)) (ret : Option Tag)
  | var (n : Name) (tag : Option Tag)

/-- The entry a symbol is, if any: structs which have only been mentioned are none. -/
def symEntry : Sym → Option Entry
  | .struct n true fs => some (.struct n fs)
  | .const n t v => some (.const n t v)
  | .func fi => some (.func fi.name (fi.args.map fun v => (v.name, v.tag)) fi.ret)
  | .glob v => some (.var v.name v.tag)
  | _ => none

/-- The entries of a symbol table. -/
def entries (f : Front) : List Entry := f.syms.filterMap symEntry

/-- The constant has the type and the value of the literal; a string is one of the table. -/
inductive ConstIs (strings : List (List UInt8)) : Lit (List UInt8) → Tag → ConstVal → Prop
  | bool {b} : ConstIs strings (.bool b) .bool (.bool b)
  | int {i : BitVec 32} {v : BitVec 64} : v.toInt = i.toInt → ConstIs strings (.int i) .int (.int v)
  | float {x} : ConstIs strings (.float x) .float (.float x)
  | str {s} {i : Nat} : strings[i]? = some s → ConstIs strings (.str s) .str (.str i)

/-- The entry says what the declaration says. Structs have between 1 and 255 fields, with different names; so have the
arguments of a function. -/
inductive EntryIs (strings : List (List UInt8)) : Decl → Entry → Prop
  | struct {n fs} : fs ≠ [] → fs.length ≤ 255 → (fs.map Prod.fst).Nodup →
      EntryIs strings (.struct n fs) (.struct n (fs.map fun x => (x.1, typeMeans x.2)))
  | const {n c t v} : ConstIs strings c t v → EntryIs strings (.const n c) (.const n t v)
  | func {n ps r} : (ps.map Prod.fst).Nodup →
      EntryIs strings (.func n ps r) (.func n (ps.map fun x => (x.1, some (typeMeans x.2))) (some ((r.map typeMeans).getD .void)))
  | var {n ty} : EntryIs strings (.var n ty) (.var n (ty.map typeMeans))

/-- Structs which have only been mentioned have no fields. -/
def Fieldless (f : Front) : Prop := ∀ n fs, Sym.struct n false fs ∈ f.syms → fs = []

/-- The state is ready for the next source: no function or block is open, as it is when nothing has failed yet. -/
structure AtRest (f : Front) : Prop where
  fieldless : Fieldless f
  cur : f.currFunc = .none
  scope : f.currScope = 0

/-- The entry without the type of a variable: the parser enters variables with the type they are declared with, the type
checker adds the types of the others. -/
def Entry.untyped : Entry → Entry
  | .var n _ => .var n none
  | e => e

mutual
/-- `use` occurs, where `out` says whether it is allowed: not in blocks, loops and functions. -/
def UsesOk (out : Bool) : SStmt → Prop
  | .use _ _ _ => out = true
  | .node _ s => UsesOk out s
  | .block ss => UsesOkL false ss
  | .proc _ _ _ _ b => UsesOk false b
  | .ifThen _ b => UsesOk out b
  | .ifElse _ b a => UsesOk out b ∧ UsesOk out a
  | .while _ b => UsesOk false b
  | .for i _ s b => UsesOk false i ∧ UsesOk false s ∧ UsesOk false b
  | _ => True
/-- See `UsesOk`. -/
def UsesOkL (out : Bool) : List SStmt → Prop
  | [] => True
  | s :: ss => UsesOk out s ∧ UsesOkL out ss
end

mutual
/-- The places of `return`, functions and structs: `return` only in functions, with a value only in those
with a result; functions and structs only outside of functions. `fn` is `none` outside of functions, else it says whether
there is a result. -/
def PlacesOk (fn : Option Bool) : SStmt → Prop
  | .node _ s => PlacesOk fn s
  | .block ss => PlacesOkL fn ss
  | .proc _ _ _ r b => fn = none ∧ PlacesOk (some (decide ((r.map typeMeans).getD .void ≠ .void))) b
  | .struct _ _ => fn = none
  | .ret none => fn ≠ none
  | .ret (some _) => fn = some true
  | .ifThen _ b => PlacesOk fn b
  | .ifElse _ b a => PlacesOk fn b ∧ PlacesOk fn a
  | .while _ b => PlacesOk fn b
  | .for i _ s b => PlacesOk fn i ∧ PlacesOk fn s ∧ PlacesOk fn b
  | _ => True
/-- See `PlacesOk`. -/
def PlacesOkL (fn : Option Bool) : List SStmt → Prop
  | [] => True
  | s :: ss => PlacesOk fn s ∧ PlacesOkL fn ss
end

end Tiny.Spec
