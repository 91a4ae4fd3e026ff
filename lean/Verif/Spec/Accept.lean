import Verif.Spec.Crash
import Verif.Spec.Declares
import Verif.Spec.TypeTables

/-!
# The programs which are accepted

The spec of C58: which programs `Tiny_CompileString` accepts. The rules are in three groups: names, structs and places;
types (in `Verif/Spec/Types.lean`); sizes.
-/

namespace Tiny.Spec

/-! ## Names, structs and places -/

/-- Inside a function: the names of its local variables which can be seen, those of its arguments, and whether it
has a result. -/
structure FnNames where
  locals : List Name := []
  args : List Name
  value : Bool

/-- What is known at a point of a source: the names of the global variables and constants, those of the structs which are
defined, the function we are in, and whether we are inside a block or loop. -/
structure Names where
  globals : List Name
  structs : List Name
  fn : Option FnNames := none
  nested : Bool := false

/-- A variable of this name may be declared: outside of functions there must be no global of that name, inside there
must be no local. -/
def Names.Free (N : Names) (n : Name) : Prop :=
  match N.fn with
  | none => n ∉ N.globals
  | some φ => n ∉ φ.locals

/-- The name means nothing. -/
def Names.Unknown (N : Names) (n : Name) : Prop :=
  n ∉ N.globals ∧ ∀ φ, N.fn = some φ → n ∉ φ.locals ∧ n ∉ φ.args

/-- `n` is declared, as a local variable if we are in a function. -/
def Names.var (N : Names) (n : Name) : Names :=
  match N.fn with
  | none => { N with globals := n :: N.globals }
  | some φ => { N with fn := some { φ with locals := n :: φ.locals } }

/-- A scope begins. -/
def Names.enter (N : Names) : Names := { N with nested := true }

/-- The scope which began in `N` ends: globals, constants and structs stay, locals do not. -/
def Names.leave (N M : Names) : Names := { N with globals := M.globals, structs := M.structs }

/-- The function has a result. -/
def hasResult (r : Option SType) : Bool := decide ((r.map typeMeans).getD .void ≠ .void)

/-- A function begins. -/
def Names.body (N : Names) (ps : List (Name × SType)) (r : Option SType) : Names :=
  { N with fn := some { args := ps.map Prod.fst, value := hasResult r }, nested := true }

/-- What an assignment declares. -/
inductive Declaring where
  | var (n : Name) (type : Option SType)
  | const (n : Name)
  | nothing

/-- `n := e` and `n: t = e` declare a variable, `n :: literal` declares a constant. -/
def declaring (op : Tok) (ann : Option SType) (l r : SExpr) : Declaring :=
  match l with
  | .id n _ =>
    if ann.isSome = true ∨ op = .declare then .var n ann
    else if op = .declareConst ∧ r.lit.isSome = true then .const n
    else .nothing
  | _ => .nothing

mutual
/-- What is known after a statement. -/
def Names.after (N : Names) : SStmt → Names
  | .node _ s => N.after s
  | .block ss => N.leave (N.enter.afterL ss)
  | .assign op ann l r =>
    match declaring op ann l r with
    | .var n _ => N.var n
    | .const n => { N with globals := n :: N.globals }
    | .nothing => N
  | .proc _ _ ps r b => N.leave ((N.body ps r).after b)
  | .ifThen _ b => N.after b
  | .ifElse _ b a => (N.after b).after a
  | .while _ b => N.leave (N.enter.after b)
  | .for i _ s b => N.leave (((N.enter.after i).after s).after b)
  | .struct n _ => { N with structs := n :: N.structs }
  | _ => N
/-- What is known after some statements. -/
def Names.afterL (N : Names) : List SStmt → Names
  | [] => N
  | s :: ss => (N.after s).afterL ss
end

/-- There is no type `void?`. -/
def TypeFine (t : SType) : Prop := t ≠ (bytes "void", true)

mutual
/-- All casts are to such types. -/
def CastsFine : SExpr → Prop
  | .call _ as => CastsFineL as
  | .paren e => CastsFine e
  | .bin _ l r => CastsFine l ∧ CastsFine r
  | .un _ e => CastsFine e
  | .dot l _ => CastsFine l
  | .index a i => CastsFine a ∧ CastsFine i
  | .ctor _ _ as => CastsFineL as
  | .cast e t => CastsFine e ∧ TypeFine t
  | .ite c a b => CastsFine c ∧ CastsFine a ∧ CastsFine b
  | _ => True
/-- See `CastsFine`. -/
def CastsFineL : List SExpr → Prop
  | [] => True
  | e :: es => CastsFine e ∧ CastsFineL es
end

mutual
/-- **The statement follows the rules about names, structs and places.** -/
def Scoped (N : Names) : SStmt → Prop
  | .node _ s => Scoped N s
  | .call _ as => CastsFineL as
  | .block ss => ScopedL N.enter ss
  | .assign op ann l r =>
    match declaring op ann l r with
    | .var n t => N.Free n ∧ (∀ x, t = some x → TypeFine x) ∧ CastsFine r
    | .const n => N.Unknown n
    | .nothing => CastsFine l ∧ CastsFine r
  | .proc _ _ ps r b => N.fn.isNone = true ∧ (∀ p ∈ ps, TypeFine p.2) ∧ (ps.map Prod.fst).Nodup ∧ (∀ x, r = some x → TypeFine x) ∧
      Scoped (N.body ps r) b
  | .ifThen c b => CastsFine c ∧ Scoped N b
  | .ifElse c b a => CastsFine c ∧ Scoped N b ∧ Scoped (N.after b) a
  | .while c b => CastsFine c ∧ Scoped N.enter b
  | .for i c s b => Scoped N.enter i ∧ CastsFine c ∧ Scoped (N.enter.after i) s ∧ Scoped ((N.enter.after i).after s) b
  | .ret none => N.fn.isSome = true
  | .ret (some e) => (∃ φ, N.fn = some φ ∧ φ.value = true) ∧ CastsFine e
  | .use _ _ _ => N.fn.isNone = true ∧ N.nested = false
  | .struct n fs => N.fn.isNone = true ∧ n ∉ N.structs ∧ fs ≠ [] ∧ fs.length ≤ 255 ∧ (fs.map Prod.fst).Nodup ∧ ∀ p ∈ fs, TypeFine p.2
  | .brk => True
  | .cont => True
/-- See `Scoped`. -/
def ScopedL (N : Names) : List SStmt → Prop
  | [] => True
  | s :: ss => Scoped N s ∧ ScopedL (N.after s) ss
end

/-- The name of a global variable or constant. -/
def globalName : Sym → Option Name
  | .glob v => some v.name
  | .const n _ _ => some n
  | _ => none

/-- The name of a defined struct. -/
def structName : Sym → Option Name
  | .struct n true _ => some n
  | _ => none

/-- What is known before a source is compiled. (The count of open blocks is not set back when a source is rejected inside
one.) -/
def namesOf (f : Front) : Names where
  globals := f.syms.filterMap globalName
  structs := f.syms.filterMap structName
  nested := decide (f.currScope ≠ 0)

/-! ## The structs and types of which there is mention -/

mutual
/-- The type `n` or `n?` is written in the expression. -/
def TypeInE (n : Name) : SExpr → Prop
  | .call _ as => TypeInEs n as
  | .paren e => TypeInE n e
  | .bin _ l r => TypeInE n l ∨ TypeInE n r
  | .un _ e => TypeInE n e
  | .dot l _ => TypeInE n l
  | .index a i => TypeInE n a ∨ TypeInE n i
  | .ctor _ _ as => TypeInEs n as
  | .cast e t => TypeInE n e ∨ t.1 = n
  | .ite c a b => TypeInE n c ∨ TypeInE n a ∨ TypeInE n b
  | _ => False
/-- See `TypeInE`. -/
def TypeInEs (n : Name) : List SExpr → Prop
  | [] => False
  | e :: es => TypeInE n e ∨ TypeInEs n es
end

mutual
/-- The type `n` or `n?` is written in the statement. -/
def TypeIn (n : Name) : SStmt → Prop
  | .node _ s => TypeIn n s
  | .call _ as => TypeInEs n as
  | .block ss => TypesIn n ss
  | .assign _ ann l r => (∃ m u t, l = .id m u ∧ ann = some t ∧ t.1 = n) ∨ TypeInE n l ∨ TypeInE n r
  | .proc _ _ ps r b => (∃ p ∈ ps, p.2.1 = n) ∨ (∃ t, r = some t ∧ t.1 = n) ∨ TypeIn n b
  | .ifThen c b => TypeInE n c ∨ TypeIn n b
  | .ifElse c b a => TypeInE n c ∨ TypeIn n b ∨ TypeIn n a
  | .while c b => TypeInE n c ∨ TypeIn n b
  | .for i c s b => TypeIn n i ∨ TypeInE n c ∨ TypeIn n s ∨ TypeIn n b
  | .ret (some e) => TypeInE n e
  | .struct _ fs => ∃ p ∈ fs, p.2.1 = n
  | _ => False
/-- See `TypeIn`. -/
def TypesIn (n : Name) : List SStmt → Prop
  | [] => False
  | s :: ss => TypeIn n s ∨ TypesIn n ss
end

/-- The name of a type means something in the table: it is built in, registered by the host, or a struct. -/
def TypeKnown (f : Front) (n : Name) : Prop :=
  (∃ p ∈ builtinTypes, bytes p.1 = n) ∨ ∃ x ∈ f.syms, IsTypeNamed n x = true

/-- **Every type which is written and every struct of which values are made exists**: it is known already, or a struct the
source defines. -/
structure TypesExist (f : Front) (tree : List SStmt) : Prop where
  types : ∀ n, TypesIn n tree → TypeKnown f n ∨ n ∈ ((namesOf f).afterL tree).structs
  made : ∀ n, Makes n tree → n ∈ ((namesOf f).afterL tree).structs

/-! ## Sizes -/

/-- A function may be called with this many arguments: a C function only with as many as it has, and more if its
signature ends with `...`. (The rules about types say that there are not too many.) -/
def FnSym.Takes : FnSym → Nat → Prop
  | .tiny _, _ => True
  | .foreign _ m va, n => (va = true ∧ m ≤ n) ∨ m = n

mutual
/-- The calls in the expression have at most 255 arguments, and C functions are called with enough of them. -/
def FitsE (F : Name → Option FnSym) : Expr → Prop
  | .call n as => as.length ≤ 255 ∧ (∀ f, F n = some f → FnSym.Takes f as.length) ∧ FitsEs F as
  | .index a i get _ => (∀ f, get = some f → FnSym.Takes f 2) ∧ FitsE F a ∧ FitsE F i
  | .dot l _ _ => FitsE F l
  | .ctor _ none as => FitsEs F as
  | .ctor _ (some ns) as => ∀ x ∈ ns, FitsFirst F x ns as
  | .cast e _ => FitsE F e
  | .paren e => FitsE F e
  | .bin _ l r => FitsE F l ∧ FitsE F r
  | .un _ e => FitsE F e
  | .ite c a b => FitsE F c ∧ FitsE F a ∧ FitsE F b
  | _ => True
/-- See `FitsE`. -/
def FitsEs (F : Name → Option FnSym) : List Expr → Prop
  | [] => True
  | e :: es => FitsE F e ∧ FitsEs F es
/-- Of the arguments `x: e` with the same `x`, the first: no code is generated for others. -/
def FitsFirst (F : Name → Option FnSym) (x : Name) : List Name → List Expr → Prop
  | n :: ns, e :: es => if n = x then FitsE F e else FitsFirst F x ns es
  | [], _ => True
  | _, [] => True
end

/-- A value can be stored there: in a variable, in a field, in an element if there is a function for it. -/
def Storable : Expr → Prop
  | .id _ (some (.const _)) => False
  | .id _ _ => True
  | .index _ _ _ set => ∃ f, set = some f ∧ FnSym.Takes f 3
  | .dot _ _ _ => True
  | _ => False

/-- The parts of the left side of an assignment which are evaluated. -/
def FitsTarget (F : Name → Option FnSym) : Expr → Prop
  | .index a i _ _ => FitsE F a ∧ FitsE F i
  | .dot l _ _ => FitsE F l
  | _ => True

mutual
/-- **The statement is not too large**: calls as above, at most 255 local variables in a function; values are only assigned
to what can be assigned to. -/
def Fits (F : Name → Option FnSym) : Stmt → Prop
  | .node _ s => Fits F s
  | .call n as => FitsE F (.call n as)
  | .block ss => FitsL F ss
  | .assign op l r => op = .declareConst ∨
      ((op = .equal ∨ op = .declare ∨ (compound op).isSome = true) ∧ Storable l ∧ FitsTarget F l ∧ FitsE F r ∧
        ((compound op).isSome = true → FitsE F l))
  | .proc _ _ nl b => nl ≤ 255 ∧ Fits F b
  | .ifThen c b => FitsE F c ∧ Fits F b
  | .ifElse c b a => FitsE F c ∧ Fits F b ∧ Fits F a
  | .while c b => FitsE F c ∧ Fits F b
  | .for i c s b => Fits F i ∧ FitsE F c ∧ Fits F s ∧ Fits F b
  | .ret (some e) => FitsE F e
  | _ => True
/-- See `Fits`. -/
def FitsL (F : Name → Option FnSym) : List Stmt → Prop
  | [] => True
  | s :: ss => Fits F s ∧ FitsL F ss
end

/-! ## All together -/

/-- The rules about types, and sizes: when the names in the tree are looked up, the result follows the rules of the type
system, and is not too large. -/
def WellTyped (f : Front) (tree : List SStmt) : Prop :=
  ∃ xs f' ss Γ, nameStmts frontOps tree f = .ok xs f' ∧ ResolvedS f' (.block xs) (.block ss) ∧
    Checks (baseEnv f') none (.block ss) Γ ∧ FitsL (fun n => (Γ.func n).map Prod.fst) ss

/-- **A valid program.** -/
structure Valid (f : Front) (tree : List SStmt) : Prop where
  names : ScopedL (namesOf f) tree
  exist : TypesExist f tree
  typed : WellTyped f tree

/-- The tokens are those of a valid program. -/
def ValidTokens (f : Front) (ts : List Tk) : Prop :=
  ∃ tree us nx rest, ts = us ++ nx :: rest ∧ ProgIs tree us nx ∧ Valid f tree

/-- There is no `use` among the statements of the program the tokens are. -/
def WithoutUse (ts : List Tk) : Prop :=
  ∀ tree us nx rest, ts = us ++ nx :: rest → ProgIs tree us nx → ∀ line m args a, PStmt.node line (.use m args a) ∉ tree

end Tiny.Spec
