import Verif.Model.Parser

/-!
# The grammar

Which token sequences are expressions, statements and programs, and which trees they denote. `X e us nx` reads:
the tokens `us`, followed by the token `nx`, denote `e`. The following token occurs because Tiny has no
statement separators: a phrase must not be followed by a token which would continue it.

A phrase of the grammar is written with names and types as they stand in the source (`SExpr`, `SStmt`).
-/

namespace Tiny.Spec

/-- The type `name`, or `name?`. -/
abbrev SType := Name × Bool
/-- Expressions as written: identifiers are not resolved, strings are bytes, types are names. -/
abbrev SExpr := PExpr Unit (List UInt8) SType
/-- Statements as written. -/
abbrev SStmt := PStmt Unit (List UInt8) SType Unit

/-- How tightly a binary operator binds; `none` if the token is not one. -/
def level : Tok → Option Nat
  | .star | .slash | .percent | .and | .or => some 5
  | .shiftLeft | .shiftRight | .plus | .minus => some 4
  | .lte | .gte | .equals | .notEquals | .lt | .gt => some 3
  | .logAnd | .logOr => some 2
  | _ => none

/-- The tokens which continue a primary expression: `.`, `->`, `[`. -/
def isSuffix : Tok → Bool
  | .dot | .arrow | .openSquare => true
  | _ => false

/-- The operator at the top of a tree binds at least as tightly as level `k` (trivially if there is none). -/
def AtLeast (k : Nat) : SExpr → Prop
  | .bin op _ _ => ∃ j, level op = some j ∧ k ≤ j
  | _ => True

/-- A type: a name, with or without `?`. -/
inductive TypeIs : SType → List Tk → Tk → Prop
  | plain {t nx : Tk} : t.kind = .ident → nx.kind ≠ .question → TypeIs (t.lexeme, false) [t] nx
  | opt {t q nx : Tk} : t.kind = .ident → q.kind = .question → TypeIs (t.lexeme, true) [t, q] nx

/-- The optional name of a constructor argument: nothing, or `.name =`. -/
inductive Desig : List Name → List Tk → Prop
  | no : Desig [] []
  | yes {d f q : Tk} : d.kind = .dot → f.kind = .ident → q.kind = .equal → Desig [f.lexeme] [d, f, q]

mutual
/-- Primary expressions, with their line number. -/
inductive ValIs : SExpr → Nat → List Tk → Tk → Prop
  | null {t nx : Tk} : t.kind = .null → ValIs .null t.line [t] nx
  | bool {t nx : Tk} : t.kind = .bool → ValIs (.bool t.bValue) t.line [t] nx
  | char {t nx : Tk} : t.kind = .char → ValIs (.char t.iValue) t.line [t] nx
  | int {t nx : Tk} : t.kind = .int → ValIs (.int t.iValue) t.line [t] nx
  | float {t nx : Tk} : t.kind = .float → ValIs (.float t.fValue) t.line [t] nx
  | str {t nx : Tk} : t.kind = .string → ValIs (.str t.lexeme) t.line [t] nx
  /-- `name` -/
  | id {t nx : Tk} : t.kind = .ident → nx.kind ≠ .openParen → ValIs (.id t.lexeme ()) t.line [t] nx
  /-- `name(args)` -/
  | call {t lp nx : Tk} {args : List SExpr} {us : List Tk} :
      t.kind = .ident → lp.kind = .openParen → ArgsIs args us →
      ValIs (.call t.lexeme args) lp.line (t :: lp :: us) nx
  /-- `-e`, `!e` -/
  | un {t nx : Tk} {e : SExpr} {l : Nat} {us : List Tk} :
      (t.kind = .minus ∨ t.kind = .bang) → FacIs e l us nx → isSuffix nx.kind = false →
      ValIs (.un t.kind e) (us.headD nx).line (t :: us) nx
  /-- `(e)` -/
  | paren {lp rp nx : Tk} {e : SExpr} {us : List Tk} :
      lp.kind = .openParen → ExprIs e us rp → rp.kind = .closeParen →
      ValIs (.paren e) nx.line (lp :: us ++ [rp]) nx
  /-- `new name { args }` -/
  | ctor {t m lc nx : Tk} {names : List Name} {args : List SExpr} {us : List Tk} :
      t.kind = .newTok → lc.kind = .openCurly → InitsAre names args us →
      ValIs (.ctor m.lexeme names args) t.line (t :: m :: lc :: us) nx
  /-- `cast(e, type)` -/
  | cast {t lp c rp nx : Tk} {e : SExpr} {ty : SType} {us vs : List Tk} :
      t.kind = .castTok → lp.kind = .openParen → ExprIs e us c → c.kind = .comma →
      TypeIs ty vs rp → rp.kind = .closeParen →
      ValIs (.cast e ty) t.line (t :: lp :: us ++ c :: vs ++ [rp]) nx
  /-- `if c a else b` -/
  | ite {t el nx : Tk} {c a b : SExpr} {us vs ws : List Tk} :
      t.kind = .ifTok → ExprIs c us (vs.headD el) → level (vs.headD el).kind = none →
      ExprIs a vs el → el.kind = .elseTok → ExprIs b ws nx → level nx.kind = none →
      ValIs (.ite c a b) t.line (t :: us ++ vs ++ el :: ws) nx
/-- Primary expressions followed by any number of suffixes. -/
inductive FacIs : SExpr → Nat → List Tk → Tk → Prop
  | val {e : SExpr} {l : Nat} {us : List Tk} {nx : Tk} : ValIs e l us nx → FacIs e l us nx
  /-- `e.field` -/
  | dot {e : SExpr} {l : Nat} {us : List Tk} {d f nx : Tk} :
      FacIs e l us d → d.kind = .dot → f.kind = .ident → FacIs (.dot e f.lexeme) d.line (us ++ [d, f]) nx
  /-- `e[i]` -/
  | index {e i : SExpr} {l : Nat} {us vs : List Tk} {b rb nx : Tk} :
      FacIs e l us b → b.kind = .openSquare → ExprIs i vs rb → rb.kind = .closeSquare →
      FacIs (.index e i) (vs.headD rb).line (us ++ b :: vs ++ [rb]) nx
  /-- `e->f(args)` means `f(e, args)` -/
  | arrow {e : SExpr} {l : Nat} {us vs : List Tk} {a f lp nx : Tk} {args : List SExpr} :
      FacIs e l us a → a.kind = .arrow → f.kind = .ident → lp.kind = .openParen → ArgsIs args vs →
      FacIs (.call f.lexeme (e :: args)) l (us ++ a :: f :: lp :: vs) nx
/-- Expressions: an operator has no weaker-binding one directly on its left, and no weaker or equally binding one
directly on its right. -/
inductive ExprIs : SExpr → List Tk → Tk → Prop
  | fac {e : SExpr} {l : Nat} {us : List Tk} {nx : Tk} :
      FacIs e l us nx → isSuffix nx.kind = false → ExprIs e us nx
  | bin {l r : SExpr} {us vs : List Tk} {op nx : Tk} {k : Nat} :
      level op.kind = some k → ExprIs l us op → ExprIs r vs nx → AtLeast k l → AtLeast (k + 1) r →
      ExprIs (.bin op.kind l r) (us ++ op :: vs) nx
/-- Arguments up to and including `)`: separated by commas, a comma at the end is allowed. -/
inductive ArgsIs : List SExpr → List Tk → Prop
  | nil {rp : Tk} : rp.kind = .closeParen → ArgsIs [] [rp]
  | last {e : SExpr} {us : List Tk} {rp : Tk} : ExprIs e us rp → rp.kind = .closeParen → ArgsIs [e] (us ++ [rp])
  | cons {e : SExpr} {es : List SExpr} {us vs : List Tk} {c : Tk} :
      ExprIs e us c → c.kind = .comma → ArgsIs es vs → ArgsIs (e :: es) (us ++ c :: vs)
/-- Constructor arguments up to and including `}`, each with or without a name. -/
inductive InitsAre : List Name → List SExpr → List Tk → Prop
  | nil {rc : Tk} : rc.kind = .closeCurly → InitsAre [] [] [rc]
  | last {ns : List Name} {e : SExpr} {ds us : List Tk} {rc : Tk} :
      Desig ns ds → ExprIs e us rc → rc.kind = .closeCurly → InitsAre ns [e] (ds ++ us ++ [rc])
  | cons {ns ns' : List Name} {e : SExpr} {es : List SExpr} {ds us vs : List Tk} {c : Tk} :
      Desig ns ds → ExprIs e us c → c.kind = .comma → InitsAre ns' es vs →
      InitsAre (ns ++ ns') (e :: es) (ds ++ us ++ c :: vs)
end

/-- Parameters of a function, up to and including `)`. -/
inductive ParamsAre : List (Name × SType) → List Tk → Prop
  | nil {rp : Tk} : rp.kind = .closeParen → ParamsAre [] [rp]
  | last {n c rp : Tk} {ty : SType} {us : List Tk} :
      n.kind = .ident → c.kind = .colon → TypeIs ty us rp → rp.kind = .closeParen →
      ParamsAre [(n.lexeme, ty)] (n :: c :: us ++ [rp])
  | cons {n c cm : Tk} {ty : SType} {us vs : List Tk} {ps : List (Name × SType)} :
      n.kind = .ident → c.kind = .colon → TypeIs ty us cm → cm.kind = .comma → ParamsAre ps vs →
      ParamsAre ((n.lexeme, ty) :: ps) (n :: c :: us ++ cm :: vs)

/-- The result type of a function: nothing, or `: type`. -/
inductive RetIs : Option SType → List Tk → Tk → Prop
  | no {nx : Tk} : nx.kind ≠ .colon → RetIs none [] nx
  | yes {c nx : Tk} {ty : SType} {us : List Tk} : c.kind = .colon → TypeIs ty us nx → RetIs (some ty) (c :: us) nx

/-- Arguments of `use`, up to and including `)`: strings; commas between them are optional. -/
inductive UseArgs : List Name → List Tk → Prop
  | nil {rp : Tk} : rp.kind = .closeParen → UseArgs [] [rp]
  | cons {t : Tk} {ns : List Name} {us : List Tk} :
      t.kind = .string → UseArgs ns us → UseArgs (t.lexeme :: ns) (t :: us)
  | comma {t c : Tk} {ns : List Name} {us : List Tk} :
      t.kind = .string → c.kind = .comma → UseArgs ns us → UseArgs (t.lexeme :: ns) (t :: c :: us)

/-- The end of `use`: nothing, or `as name`. -/
inductive UseAs : Option Name → List Tk → Tk → Prop
  | no {nx : Tk} : ¬ (nx.kind = .ident ∧ nx.lexeme = nameOf "as") → UseAs none [] nx
  | yes {a t nx : Tk} : a.kind = .ident → a.lexeme = nameOf "as" → t.kind = .ident → UseAs (some t.lexeme) [a, t] nx

/-- A left side: not a call, not a conditional (these are statements of their own). -/
def IsLeft : SExpr → Prop
  | .call _ _ => False
  | .ite _ _ _ => False
  | _ => True

/-- What can be made a constant: a name on the left, a literal on the right. -/
def IsConst : SExpr → SExpr → Prop
  | .id _ _, r => r.lit.isSome
  | _, _ => False

mutual
/-- Statements. -/
inductive StmtIs : SStmt → List Tk → Tk → Prop
  | block {t rc nx : Tk} {ss : List SStmt} {us : List Tk} :
      t.kind = .openCurly → StmtsAre ss us rc → rc.kind = .closeCurly →
      StmtIs (.node t.line (.block ss)) (t :: us ++ [rc]) nx
  /-- `func name(params) : type body` -/
  | func {t m lp nx : Tk} {ps : List (Name × SType)} {r : Option SType} {b : SStmt} {us vs ws : List Tk} :
      t.kind = .funcTok → m.kind = .ident → lp.kind = .openParen → ParamsAre ps us →
      RetIs r vs (ws.headD nx) → StmtIs b ws nx →
      StmtIs (.node t.line (.proc () m.lexeme ps r b)) (t :: m :: lp :: us ++ vs ++ ws) nx
  | ifThen {t nx : Tk} {c : SExpr} {b : SStmt} {us vs : List Tk} :
      t.kind = .ifTok → ExprIs c us (vs.headD nx) → level (vs.headD nx).kind = none → StmtIs b vs nx →
      nx.kind ≠ .elseTok →
      StmtIs (.node t.line (.ifThen c b)) (t :: us ++ vs) nx
  | ifElse {t el nx : Tk} {c : SExpr} {b a : SStmt} {us vs ws : List Tk} :
      t.kind = .ifTok → ExprIs c us (vs.headD el) → level (vs.headD el).kind = none → StmtIs b vs el →
      el.kind = .elseTok → StmtIs a ws nx →
      StmtIs (.node t.line (.ifElse c b a)) (t :: us ++ vs ++ el :: ws) nx
  | while {t nx : Tk} {c : SExpr} {b : SStmt} {us vs : List Tk} :
      t.kind = .whileTok → ExprIs c us (vs.headD nx) → level (vs.headD nx).kind = none → StmtIs b vs nx →
      StmtIs (.node (us.headD nx).line (.while c b)) (t :: us ++ vs) nx
  /-- `for init; cond; step body` -/
  | for {t s1 s2 nx : Tk} {i : SStmt} {c : SExpr} {s b : SStmt} {us vs ws xs : List Tk} :
      t.kind = .forTok → StmtIs i us s1 → s1.kind = .semi → ExprIs c vs s2 → s2.kind = .semi →
      StmtIs s ws (xs.headD nx) → StmtIs b xs nx →
      StmtIs (.node (us.headD nx).line (.for i c s b)) (t :: us ++ s1 :: vs ++ s2 :: ws ++ xs) nx
  | retNone {t s nx : Tk} : t.kind = .returnTok → s.kind = .semi → StmtIs (.node t.line (.ret none)) [t, s] nx
  | ret {t nx : Tk} {e : SExpr} {us : List Tk} :
      t.kind = .returnTok → ExprIs e us nx → level nx.kind = none →
      StmtIs (.node t.line (.ret (some e))) (t :: us) nx
  | brk {t nx : Tk} : t.kind = .breakTok → StmtIs (.node nx.line .brk) [t] nx
  | cont {t nx : Tk} : t.kind = .continueTok → StmtIs (.node t.line .cont) [t] nx
  /-- `use module(args) as name` -/
  | use {t m lp nx : Tk} {ns : List Name} {a : Option Name} {us vs : List Tk} :
      t.kind = .useTok → m.kind = .ident → lp.kind = .openParen → UseArgs ns us → UseAs a vs nx →
      StmtIs (.node t.line (.use m.lexeme ns a)) (t :: m :: lp :: us ++ vs) nx
  /-- a call -/
  | call {f : Name} {args : List SExpr} {l : Nat} {us : List Tk} {nx : Tk} :
      FacIs (.call f args) l us nx → isSuffix nx.kind = false → StmtIs (.node l (.call f args)) us nx
  /-- `name := e` -/
  | declare {t d nx : Tk} {e : SExpr} {us : List Tk} :
      t.kind = .ident → d.kind = .declare → ExprIs e us nx → level nx.kind = none →
      StmtIs (.node d.line (.assign .declare none (.id t.lexeme ()) e)) (t :: d :: us) nx
  /-- `name : type = e` -/
  | typed {t c q nx : Tk} {ty : SType} {e : SExpr} {us vs : List Tk} :
      t.kind = .ident → c.kind = .colon → TypeIs ty us q → q.kind = .equal → ExprIs e vs nx →
      level nx.kind = none →
      StmtIs (.node c.line (.assign .equal (some ty) (.id t.lexeme ()) e)) (t :: c :: us ++ q :: vs) nx
  /-- `left op e` for any token `op` which is neither `:=`, `:` nor a binary operator -/
  | assign {lhs e : SExpr} {l : Nat} {us vs : List Tk} {op nx : Tk} :
      FacIs lhs l us op → isSuffix op.kind = false → IsLeft lhs → level op.kind = none → op.kind ≠ .declare →
      op.kind ≠ .colon → (op.kind = .declareConst → IsConst lhs e) → ExprIs e vs nx → level nx.kind = none →
      StmtIs (.node op.line (.assign op.kind none lhs e)) (us ++ op :: vs) nx
/-- Any number of statements. -/
inductive StmtsAre : List SStmt → List Tk → Tk → Prop
  | nil {nx : Tk} : StmtsAre [] [] nx
  | cons {s : SStmt} {ss : List SStmt} {us vs : List Tk} {nx : Tk} :
      StmtIs s us (vs.headD nx) → StmtsAre ss vs nx → StmtsAre (s :: ss) (us ++ vs) nx
end

/-- The fields of a struct. -/
inductive FieldsAre : List (Name × SType) → List Tk → Tk → Prop
  | nil {nx : Tk} : FieldsAre [] [] nx
  | cons {n c nx : Tk} {ty : SType} {fs : List (Name × SType)} {us vs : List Tk} :
      n.kind = .ident → c.kind = .colon → TypeIs ty us (vs.headD nx) → FieldsAre fs vs nx →
      FieldsAre ((n.lexeme, ty) :: fs) (n :: c :: us ++ vs) nx

/-- Programs: statements and struct definitions, up to the end of the source. -/
inductive ProgIs : List SStmt → List Tk → Tk → Prop
  | nil {nx : Tk} : nx.kind = .eofTok → ProgIs [] [] nx
  | stmt {s : SStmt} {ss : List SStmt} {us vs : List Tk} {nx : Tk} :
      StmtIs s us (vs.headD nx) → ProgIs ss vs nx → ProgIs (s :: ss) (us ++ vs) nx
  /-- `struct name { fields }` -/
  | struct {t m lc rc nx : Tk} {fs : List (Name × SType)} {ss : List SStmt} {us vs : List Tk} :
      t.kind = .structTok → m.kind = .ident → lc.kind = .openCurly → FieldsAre fs us rc → rc.kind = .closeCurly →
      ProgIs ss vs nx →
      ProgIs (.struct m.lexeme fs :: ss) (t :: m :: lc :: us ++ rc :: vs) nx

section Names
variable {σ V S T F : Type}

/-!
The second half of the spec: how the names in a tree are looked up and declared, from left to right.
-/

/-- A type. -/
def nameType (o : Ops σ V S T F) (t : SType) : Act σ T := do
  let s ← o.named t.1
  if t.2 then o.nullable s else pure s

mutual
/-- An expression. -/
def nameExpr (o : Ops σ V S T F) : SExpr → Act σ (PExpr V S T)
  | .null => pure .null
  | .bool b => pure (.bool b)
  | .int i => pure (.int i)
  | .char i => pure (.char i)
  | .float f => pure (.float f)
  | .str s => do
    let i ← o.str s
    pure (.str i)
  | .id n _ => do
    let v ← o.ref n
    pure (.id n v)
  | .call f args => do
    let args ← nameExprs o args
    pure (.call f args)
  | .paren e => do
    let e ← nameExpr o e
    pure (.paren e)
  | .bin op l r => do
    let l ← nameExpr o l
    let r ← nameExpr o r
    pure (.bin op l r)
  | .un op e => do
    let e ← nameExpr o e
    pure (.un op e)
  | .dot l f => do
    let l ← nameExpr o l
    pure (.dot l f)
  | .index a i => do
    let a ← nameExpr o a
    let i ← nameExpr o i
    pure (.index a i)
  | .ctor n names args => do
    o.struct n
    let args ← nameExprs o args
    pure (.ctor n names args)
  | .cast e ty => do
    let e ← nameExpr o e
    let ty ← nameType o ty
    pure (.cast e ty)
  | .ite c a b => do
    let c ← nameExpr o c
    let a ← nameExpr o a
    let b ← nameExpr o b
    pure (.ite c a b)
/-- Expressions in order. -/
def nameExprs (o : Ops σ V S T F) : List SExpr → Act σ (List (PExpr V S T))
  | [] => pure []
  | e :: es => do
    let e ← nameExpr o e
    let es ← nameExprs o es
    pure (e :: es)
end

/-- Parameters. -/
def nameParams (o : Ops σ V S T F) : List (Name × SType) → Act σ (List (Name × T))
  | [] => pure []
  | p :: ps => do
    let ty ← nameType o p.2
    let ps ← nameParams o ps
    pure ((p.1, ty) :: ps)

/-- A result type. -/
def nameRet (o : Ops σ V S T F) : Option SType → Act σ (Option T)
  | none => pure none
  | some ty => do
    let ty ← nameType o ty
    pure (some ty)

/-- A declaration: the name is declared before the right side is looked at. -/
def nameDecl (o : Ops σ V S T F) (op : Tok) (ann : Option SType) (n : Name) (r : SExpr) : Act σ (PStmt V S T F) := do
  let _ ← o.ref n
  let v ← o.declare n
  match ann with
  | none => do
    let r ← nameExpr o r
    pure (.assign op none (.id n v) r)
  | some ty => do
    let ty ← nameType o ty
    o.setTag v ty
    let r ← nameExpr o r
    pure (.assign op (some ty) (.id n v) r)

/-- An assignment; a constant is declared after its value was looked at. -/
def nameAssign (o : Ops σ V S T F) (op : Tok) (l r : SExpr) : Act σ (PStmt V S T F) := do
  let l' ← nameExpr o l
  let r' ← nameExpr o r
  match op, l, r'.lit with
  | .declareConst, .id n _, some c => do
    o.const n c
    pure (.assign op none l' r')
  | _, _, _ => pure (.assign op none l' r')

/-- The fields of a struct, each checked before its type is looked at. -/
def nameFields (o : Ops σ V S T F) (n : Name) : List (Name × SType) → Act σ (List (Name × T))
  | [] => pure []
  | f :: fs => do
    o.checkField n f.1
    let ty ← nameType o f.2
    o.addField n f.1 ty
    let fs ← nameFields o n fs
    pure ((f.1, ty) :: fs)

mutual
/-- A statement: blocks, the body of a function, the body of a `while`, and a whole `for` are scopes. -/
def nameStmt (o : Ops σ V S T F) : SStmt → Act σ (PStmt V S T F)
  | .node line s => do
    let s ← nameStmt o s
    pure (.node line s)
  | .call f args => do
    let args ← nameExprs o args
    pure (.call f args)
  | .block ss => do
    o.openScope
    let ss ← nameStmts o ss
    o.closeScope
    pure (.block ss)
  | .assign op (some ty) (.id n _) r => nameDecl o op (some ty) n r
  | .assign .declare none (.id n _) r => nameDecl o .declare none n r
  | .assign op _ l r => nameAssign o op l r
  | .proc _ n ps r b => do
    o.noFunc
    let f ← o.beginFunc n
    let ps ← nameParams o ps
    o.params ps
    let r ← nameRet o r
    o.setRet r
    o.openScope
    let b ← nameStmt o b
    o.closeScope
    o.endFunc
    pure (.proc f n ps r b)
  | .ifThen c b => do
    let c ← nameExpr o c
    let b ← nameStmt o b
    pure (.ifThen c b)
  | .ifElse c b a => do
    let c ← nameExpr o c
    let b ← nameStmt o b
    let a ← nameStmt o a
    pure (.ifElse c b a)
  | .while c b => do
    let c ← nameExpr o c
    o.openScope
    let b ← nameStmt o b
    o.closeScope
    pure (.while c b)
  | .for i c s b => do
    o.openScope
    let i ← nameStmt o i
    let c ← nameExpr o c
    let s ← nameStmt o s
    let b ← nameStmt o b
    o.closeScope
    pure (.for i c s b)
  | .ret none => do
    o.inFunc
    pure (.ret none)
  | .ret (some e) => do
    o.inFunc
    o.valueFunc
    let e ← nameExpr o e
    pure (.ret (some e))
  | .brk => pure .brk
  | .cont => pure .cont
  | .use m args a => do
    o.topLevel
    pure (.use m args a)
  | .struct n fs => do
    o.noFunc
    o.beginStruct n
    let fs ← nameFields o n fs
    o.endStruct n
    pure (.struct n fs)
/-- Statements in order. -/
def nameStmts (o : Ops σ V S T F) : List SStmt → Act σ (List (PStmt V S T F))
  | [] => pure []
  | s :: ss => do
    let s ← nameStmt o s
    let ss ← nameStmts o ss
    pure (s :: ss)
end

end Names

end Tiny.Spec
