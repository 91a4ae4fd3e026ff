import Verif.Model.Parser

/-!
# The type checker: `ResolveTypes` (tiny/src/tiny.c:2492-3035)

`ResolveTypes` walks the tree, writes the type of each node into it, and reports an error when a rule is broken. On
expressions it changes nothing but the tree: the model reads the tables and returns the annotated tree (`Expr`) and
the type. On statements it also writes the types of variables declared by `:=` and, around function bodies,
`currFunc`. The tree is that of the parser: each node is visited once, so `if (exp->tag) return` is left out.
-/

namespace Tiny

/-- How the check of an expression ends: accepted, a reported error, a failed `assert`, undefined behaviour. -/
inductive Chk (α : Type) where
  | ok (a : α)
  | err
  | abort
  | ub
deriving DecidableEq, Repr

instance : Monad Chk where
  pure := .ok
  bind x f := match x with
    | .ok a => f a
    | .err => .err
    | .abort => .abort
    | .ub => .ub

/-- Run a check on the tables. -/
def Act.check {α : Type} (x : Front → Chk α) : Act Front α := fun f =>
  match x f with
  | .ok a => .ok a f
  | .err => .err f
  | .abort => .abort
  | .ub => .ub

/-- The parser's trees in the C code. -/
abbrev CExpr := PExpr (Option SymRef) Nat Tag
/-- The parser's trees in the C code. -/
abbrev CStmt := PStmt (Option SymRef) Nat Tag Nat

/-- `tag->name`, tiny.c:703-718 and 1581 (`snprintf` into 256 bytes). -/
def Tag.name : Tag → Name
  | .void => nameOf "void"
  | .any => nameOf "any"
  | .bool => nameOf "bool"
  | .int => nameOf "int"
  | .float => nameOf "float"
  | .str => nameOf "str"
  | .named n => n
  | .shadowed n => n
  | .nullable t => (t.name ++ nameOf "?").take 255

/-- The name of an index function, tiny.c:2998-3000 and 3022 (`snprintf` into 256 bytes). -/
def indexName (t : Tag) (suffix : String) : Name := (t.name ++ nameOf suffix).take 255

/-- `TINY_EXP_ID`, tiny.c:2524-2541: `id.sym`, its type. A type which was never written is an uninitialised pointer. -/
def symInfo (f : Front) : SymRef → Chk (VarSym × Option Tag)
  | .glob i =>
    match f.syms[i]? with
    | some (.glob v) => .ok (.glob v.idx.toNat, v.tag)
    | some (.const _ t c) => .ok (.const c, some t)
    | _ => .ub
  | .loc k =>
    match f.currFunc with
    | .at i =>
      match f.syms[i]? with
      | some (.func fi) =>
        match fi.locals[k]? with
        | some v => .ok (.loc v.idx, v.tag)
        | none => .ub
      | _ => .ub
    | _ => .ub
  | .arg k =>
    match f.currFunc with
    | .at i =>
      match f.syms[i]? with
      | some (.func fi) =>
        match fi.args[k]? with
        | some v => .ok (.loc v.idx, v.tag)
        | none => .ub
      | _ => .ub
    | _ => .ub

/-- `TINY_EXP_ID`, tiny.c:2524-2541. -/
def resolveId (f : Front) (n : Name) : Option SymRef → Chk (Expr × Tag)
  | none => .err
  | some r =>
    match symInfo f r with
    | .ok (s, some t) => .ok (.id n (some s), t)
    | .ok (_, none) => .ub
    | .err => .err
    | .abort => .abort
    | .ub => .ub

/-- What a call needs to know of a function symbol, tiny.c:2551-2554, 2594-2595: argument types, varargs, result. -/
def Sym.sig : Sym → Option (List (Option Tag) × Bool × Option Tag)
  | .func fi => some (fi.args.map VarInfo.tag, false, fi.ret)
  | .foreign _ _ ts va r => some (ts.map some, va, some r)
  | _ => none

/-- What the code generator needs to know of a function symbol (`GenerateCall`, tiny.c:3085-3121). -/
def Sym.fnSym : Sym → Option FnSym
  | .func fi => some (.tiny fi.index)
  | .foreign _ i ts va _ => some (.foreign i ts.length va)
  | _ => none

/-- The check of one argument, tiny.c:2562-2590, against the argument types which are left: those left for the next
one. -/
def checkArg (varargs : Bool) (t : Tag) : List (Option Tag) → Chk (List (Option Tag))
  | [] => if varargs then .ok [] else .err
  | none :: _ => .ub
  | some p :: ps => if isTagAssignableTo t p then .ok ps else .err

/-- Is it a number type? -/
def Tag.isNum : Tag → Bool
  | .int => true
  | .float => true
  | _ => false

/-- The strict and logical binary operators, tiny.c:2606-2699: the type of the result. (The parser builds no
others inside expressions.) -/
def binTag (op : Tok) (l r : Tag) : Chk Tag :=
  match op with
  | .plus | .minus | .star | .slash =>
    if !(l.isNum && r.isNum) then .err
    else .ok (if l = .int ∧ r = .int then .int else .float)
  | .and | .or | .percent | .shiftLeft | .shiftRight => if !(l = .int && r = .int) then .err else .ok .int
  | .logAnd | .logOr => if l != .bool || r != .bool then .err else .ok .bool
  | .gt | .lt | .lte | .gte => if !(l.isNum && r.isNum) then .err else .ok .bool
  | .equals | .notEquals => if l = .void || r = .void then .err else .ok .bool
  | _ => .ub

/-- Unary operators, tiny.c:2745-2770. -/
def unTag (op : Tok) (t : Tag) : Chk Tag :=
  match op with
  | .minus => if !t.isNum then .err else .ok t
  | .bang => if t != .bool then .err else .ok .bool
  | _ => .abort

/-- A registered type comes before the struct of this name. -/
def Front.hidden (f : Front) (n : Name) : Bool :=
  match f.syms.find? (fun x => (x.asType n).isSome) with
  | some (.ftype _) => true
  | _ => false

/-- The pointer `GetStructTag` (tiny.c:1506-1515) returns for this name, if it returns one. -/
def structTag (f : Front) (n : Name) : Tag := if f.hidden n then .shadowed n else .named n

/-- `GetFieldTag`, tiny.c:1590-1606: the struct of this name. -/
def fieldTag (f : Front) (n field : Name) : Chk Tag :=
  match f.syms.findSome? (·.structInfo n) with
  | some (true, fs) =>
    match fs.find? (·.1 = field) with
    | some (_, ft) => .ok ft
    | none => .err
  | some (false, _) => .abort
  | none => .ub

/-- `TINY_EXP_DOT`, tiny.c:2859-2872. (There is a tag `shadowed n` only if the name is hidden.) -/
def dotTag (f : Front) (t : Tag) (field : Name) : Chk Tag :=
  match t with
  | .named n => if f.hidden n then .err else fieldTag f n field
  | .shadowed n => if f.hidden n then fieldTag f n field else .ub
  | _ => .err

/-- The check of one constructor argument, tiny.c:2887-2942: `i` is its number, `names` the names which are left,
`had` says whether the constructor has names at all. -/
def checkField1 (fields : List (Name × Tag)) (had : Bool) (i : Nat) (names : List Name) (t : Tag) : Chk Unit :=
  if names = [] && had then .err
  else if fields.length ≤ i then .err
  else if had then
    match names with
    | [] => .err
    | n :: _ =>
      match fields.find? (·.1 = n) with
      | some (_, ft) => if isTagAssignableTo t ft then .ok () else .err
      | none => .err
  else
    match fields[i]? with
    | some (_, ft) => if isTagAssignableTo t ft then .ok () else .err
    | none => .ub

/-- `TINY_EXP_INDEX`, tiny.c:2992-3032: the index functions and the type of the element. -/
def indexFuncs (f : Front) (t : Tag) : Chk (FnSym × Option FnSym × Tag) :=
  match referenceFunction f.syms (indexName t "_get_index") with
  | none => .err
  | some g =>
    match g.fnSym, g.sig with
    | some gf, some (_, _, some r) =>
      .ok (gf, (referenceFunction f.syms (indexName t "_set_index")).bind Sym.fnSym, r)
    | _, _ => .ub

mutual
/-- `ResolveTypes` on expressions, tiny.c:2492-3035. -/
def resolveE (f : Front) : CExpr → Chk (Expr × Tag)
  | .null => .ok (.null, .any)
  | .bool b => .ok (.bool b, .bool)
  | .int i => .ok (.int i, .int)
  | .char i => .ok (.char i, .int)
  | .float x => .ok (.float x, .float)
  | .str s => .ok (.str s, .str)
  | .id n sym => resolveId f n sym
  | .call callee args =>
    match referenceFunction f.syms callee with
    | none => .err
    | some g =>
      match g.sig with
      | none => .ub
      | some (ps, va, r) => do
        let args ← resolveArgs f va ps args
        match r with
        | none => .ub
        | some r => .ok (.call callee args, r)
  | .paren e => do
    let (e, t) ← resolveE f e
    .ok (.paren e, t)
  | .bin op l r => do
    let (l, tl) ← resolveE f l
    let (r, tr) ← resolveE f r
    let t ← binTag op tl tr
    .ok (.bin op l r, t)
  | .un op e => do
    let (e, te) ← resolveE f e
    let t ← unTag op te
    .ok (.un op e, t)
  | .dot l field => do
    let (l, tl) ← resolveE f l
    let t ← dotTag f tl field
    .ok (.dot l field (some tl), t)
  | .index arr elem => do
    let (arr, ta) ← resolveE f arr
    let (elem, _) ← resolveE f elem
    let (g, s, t) ← indexFuncs f ta
    .ok (.index arr elem (some g) s, t)
  | .ctor n names args =>
    match f.syms.findSome? (·.structInfo n) with
    | some (true, fields) => do
      let args ← resolveFields f fields (!names.isEmpty) 0 names args
      .ok (.ctor n (if names.isEmpty then none else some names) args, structTag f n)
    | some (false, _) => .abort
    | none => .abort
  | .cast e tag => do
    let (e, te) ← resolveE f e
    if te != .any && tag != .any then .err
    else .ok (.cast e tag, tag)
  | .ite c a b => do
    let (c, tc) ← resolveE f c
    if tc != .bool then .err
    else do
      let (a, ta) ← resolveE f a
      let (b, tb) ← resolveE f b
      if ta != tb then .err
      else .ok (.ite c a b, ta)
/-- The loop over the arguments of a call, tiny.c:2558-2592. (Too few arguments are not noticed.) -/
def resolveArgs (f : Front) (varargs : Bool) (params : List (Option Tag)) : List CExpr → Chk (List Expr)
  | [] => .ok []
  | a :: as => do
    let (a, t) ← resolveE f a
    let params ← checkArg varargs t params
    let as ← resolveArgs f varargs params as
    .ok (a :: as)
/-- The loop over the arguments of a constructor, tiny.c:2881-2947. -/
def resolveFields (f : Front) (fields : List (Name × Tag)) (had : Bool) (i : Nat) (names : List Name) :
    List CExpr → Chk (List Expr)
  | [] => .ok []
  | a :: as => do
    let (a, t) ← resolveE f a
    checkField1 fields had i names t
    let as ← resolveFields f fields had (i + 1) names.tail as
    .ok (a :: as)
end

/-- The symbol of the variable on the left of `:=`, tiny.c:2702-2704. -/
def declared (f : Front) : CExpr → Chk (Name × SymRef × VarSym)
  | .id n (some r) =>
    match symInfo f r with
    | .ok (s, _) => .ok (n, r, s)
    | .err => .err
    | .abort => .abort
    | .ub => .ub
  | _ => .abort

/-- The operators of tiny.c:2719-2726. -/
def Tok.assigns : Tok → Bool
  | .plusEqual => true
  | .minusEqual => true
  | .starEqual => true
  | .slashEqual => true
  | .percentEqual => true
  | .orEqual => true
  | .andEqual => true
  | .equal => true
  | _ => false

/-- The assignments, tiny.c:2701-2740. For other operators (`::` and tokens which are no assignment) only the right
side is looked at; the code generator does not look at the left side then, and the model returns `null` for it. -/
def resolveAssign (op : Tok) (l r : CExpr) : Act Front Stmt :=
  if op = .declare then do
    let (n, x, s) ← .check fun f => declared f l
    let (r, t) ← .check fun f => resolveE f r
    if t = .void then .report
    else do
      setVarTag (some x) t
      pure (.assign .declare (.id n (some s)) r)
  else if op.assigns then do
    let (l, tl) ← .check fun f => resolveE f l
    let (r, tr) ← .check fun f => resolveE f r
    if isTagAssignableTo tr tl then pure (.assign op l r) else .report
  else do
    let (r, _) ← .check fun f => resolveE f r
    pure (.assign op .null r)

/-- A condition, tiny.c:2796-2801, 2837-2842, 2850-2855. -/
def resolveCond (c : CExpr) : Act Front Expr := do
  let (c, t) ← .check fun f => resolveE f c
  if t != .bool then .report else pure c

/-- `TINY_EXP_RETURN`, tiny.c:2812-2834. -/
def resolveRet (e : Option CExpr) : Act Front Stmt := do
  match ← currentFunc with
  | none => .fail
  | some fi =>
    match e with
    | some e => do
      let (e, t) ← .check fun f => resolveE f e
      match fi.ret with
      | none => .undef
      | some r => if isTagAssignableTo t r then pure (.ret (some e)) else .report
    | none =>
      match fi.ret with
      | none => .undef
      | some r => if r != .void then .report else pure (.ret none)

/-- The numbers of the function a `TINY_EXP_PROC` belongs to, as the code generator reads them. -/
def procInfo (f : Front) (decl : Nat) : Chk (Nat × Nat × Nat) :=
  match f.syms[decl]? with
  | some (.func fi) => .ok (fi.index, fi.args.length, fi.locals.length)
  | _ => .ub

mutual
/-- `ResolveTypes` on statements. Struct definitions are not in the C tree; the empty block is compiled to nothing. -/
def resolveS : CStmt → Act Front Stmt
  | .node line s => do
    let s ← resolveS s
    pure (.node line s)
  | .call callee args => do
    let (e, _) ← .check fun f => resolveE f (.call callee args)
    match e with
    | .call callee args => pure (.call callee args)
    | _ => .undef
  | .block ss => do
    let ss ← resolveSs ss
    pure (.block ss)
  | .assign op _ l r => resolveAssign op l r
  | .proc decl _ _ _ body => do
    let prev ← .get
    .modify fun f => { f with currFunc := .at decl }
    let (index, nargs, nlocals) ← .check fun f => procInfo f decl
    let body ← resolveS body
    .modify fun f => { f with currFunc := prev.currFunc }
    pure (.proc index nargs nlocals body)
  | .ifThen c b => do
    let c ← resolveCond c
    let b ← resolveS b
    pure (.ifThen c b)
  | .ifElse c b a => do
    let c ← resolveCond c
    let b ← resolveS b
    let a ← resolveS a
    pure (.ifElse c b a)
  | .while c b => do
    let c ← resolveCond c
    let b ← resolveS b
    pure (.while c b)
  | .for i c s b => do
    let i ← resolveS i
    let c ← resolveCond c
    let s ← resolveS s
    let b ← resolveS b
    pure (.for i c s b)
  | .ret e => resolveRet e
  | .brk => pure (.brk 0)
  | .cont => pure (.cont 0)
  | .use _ _ _ => pure .use
  | .struct _ _ => pure (.block [])
/-- Statements in order: blocks, and the loop of `CompileState`, tiny.c:3937-3939. -/
def resolveSs : List CStmt → Act Front (List Stmt)
  | [] => pure []
  | s :: ss => do
    let s ← resolveS s
    let ss ← resolveSs ss
    pure (s :: ss)
end

end Tiny
