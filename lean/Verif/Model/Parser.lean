import Verif.Model.Lexer
import Verif.Model.Symbols

/-!
# The parser (tiny/src/tiny.c:1467-1504, 1608-2458)

The parser reads tokens one at a time and calls the symbol table as it goes along. The functions below are generic
in the symbol table: `Ops` lists the operations the C code performs on it, `frontOps` is the C code's.
Recursion and loops take fuel.
-/

namespace Tiny

/-- What the parser sees of `state->l` while a token is current: `lastTok`, `lexeme`, the union, `lineNumber`
(tiny/include/lexer.h:9-31). Positions, used in messages only, are left out. -/
structure Tk where
  kind : Tok
  lexeme : Name
  val : LexVal
  line : Nat
deriving DecidableEq, Repr, Inhabited

/-- `l.bValue`; the lexer has stored a `bool` in the union when the token is `TINY_TOK_BOOL`. -/
def Tk.bValue (t : Tk) : Bool :=
  match t.val with
  | .bool b => b
  | _ => false

/-- `l.iValue`, see `Tk.bValue`. -/
def Tk.iValue (t : Tk) : BitVec 32 :=
  match t.val with
  | .int i => i
  | _ => 0

/-- `l.fValue`, see `Tk.bValue`. -/
def Tk.fValue (t : Tk) : BitVec 64 :=
  match t.val with
  | .float f => f
  | _ => 0

/-- The results of the first `n` calls of `Tiny_GetToken`; fewer if one of them does not return. -/
def Lexer.stream (strtod : List UInt8 → BitVec 64) (fuel : Nat) : Nat → Lexer → List Tk
  | 0, _ => []
  | n + 1, l =>
    match l.getToken strtod fuel with
    | .ok (k, l) => ⟨k, l.lexeme, l.val, l.line⟩ :: stream strtod fuel n l
    | _ => []

/-- Expressions as the parser builds them (`Tiny_Expr`, tiny/include/expr.h:47-193), generic in what the symbol
table returns: `V` for the variable an identifier refers to (`id.sym`), `S` for the index of a string constant, `T`
for types. `argNames` is empty when `argNamesHead` is NULL. -/
inductive PExpr (V S T : Type) where
  | null
  | bool (b : Bool)
  | int (i : BitVec 32)
  | char (i : BitVec 32)
  | float (f : BitVec 64)
  | str (s : S)
  | id (name : Name) (sym : V)
  | call (callee : Name) (args : List (PExpr V S T))
  | paren (e : PExpr V S T)
  | bin (op : Tok) (l r : PExpr V S T)
  | un (op : Tok) (e : PExpr V S T)
  | dot (l : PExpr V S T) (field : Name)
  | index (arr elem : PExpr V S T)
  | ctor (name : Name) (argNames : List Name) (args : List (PExpr V S T))
  | cast (e : PExpr V S T) (tag : T)
  | ite (c a b : PExpr V S T)
deriving Inhabited

/-- Statements as the parser builds them; `node line s` carries `lineNumber`. `F` is what the symbol table returns
for a function. The type `ann` of a declaration, the name, parameters and result type of a function and struct
definitions are not stored in the C tree (they are in the symbol table). -/
inductive PStmt (V S T F : Type) where
  | node (line : Nat) (s : PStmt V S T F)
  | call (callee : Name) (args : List (PExpr V S T))
  | block (ss : List (PStmt V S T F))
  | assign (op : Tok) (ann : Option T) (lhs rhs : PExpr V S T)
  | proc (decl : F) (name : Name) (params : List (Name × T)) (ret : Option T) (body : PStmt V S T F)
  | ifThen (c : PExpr V S T) (body : PStmt V S T F)
  | ifElse (c : PExpr V S T) (body alt : PStmt V S T F)
  | while (c : PExpr V S T) (body : PStmt V S T F)
  | for (init : PStmt V S T F) (c : PExpr V S T) (step body : PStmt V S T F)
  | ret (e : Option (PExpr V S T))
  | brk
  | cont
  | use (module : Name) (args : List Name) (asName : Option Name)
  | struct (name : Name) (fields : List (Name × T))
deriving Inhabited

/-- The literals a constant can be bound to, tiny.c:2393-2410. -/
inductive Lit (S : Type) where
  | bool (b : Bool)
  | int (i : BitVec 32)
  | float (f : BitVec 64)
  | str (s : S)
deriving DecidableEq, Repr

/-- `rhs->type` in tiny.c:2393-2413: `none` is the last `else`. -/
def PExpr.lit {V S T : Type} : PExpr V S T → Option (Lit S)
  | .bool b => some (.bool b)
  | .char i => some (.int i)
  | .int i => some (.int i)
  | .float f => some (.float f)
  | .str s => some (.str s)
  | _ => none

/-- The operations of the symbol table the parser uses; `frontOps` says which C code each one is. -/
structure Ops (σ V S T F : Type) where
  ref : Name → Act σ V
  str : List UInt8 → Act σ S
  struct : Name → Act σ Unit
  named : Name → Act σ T
  nullable : T → Act σ T
  openScope : Act σ Unit
  closeScope : Act σ Unit
  noFunc : Act σ Unit
  inFunc : Act σ Unit
  valueFunc : Act σ Unit
  topLevel : Act σ Unit
  beginFunc : Name → Act σ F
  params : List (Name × T) → Act σ Unit
  setRet : Option T → Act σ Unit
  endFunc : Act σ Unit
  declare : Name → Act σ V
  setTag : V → T → Act σ Unit
  const : Name → Lit S → Act σ Unit
  beginStruct : Name → Act σ Unit
  checkField : Name → Name → Act σ Unit
  addField : Name → Name → T → Act σ Unit
  endStruct : Name → Act σ Unit

/-- The state of the parser: the current token (first of `toks`), the tokens which will follow, the symbol table. -/
structure PS (σ : Type) where
  toks : List Tk
  st : σ

section Parse
variable {σ V S T F : Type}

/-- `state->l` as it is now. -/
def cur : Act (PS σ) Tk := fun s =>
  match s.toks with
  | [] => .timeout
  | t :: _ => .ok t s

/-- `GetNextToken`, tiny.c:1608. It does not return if the lexer does not. -/
def next : Act (PS σ) Unit := fun s =>
  match s.toks with
  | _ :: t :: ts => .ok () { s with toks := t :: ts }
  | _ => .timeout

/-- `ReportErrorSL`, tiny.c:1443-1500. After an error nothing looks at the lexer any more (`Tiny_CompileString` frees
it and restores the previous one, tiny.c:3982-4008), so its tokens are dropped. -/
def reject {α : Type} : Act (PS σ) α := fun s => .err ⟨[], s.st⟩

/-- An operation on the symbol table. -/
def lift {α : Type} (a : Act σ α) : Act (PS σ) α := fun s =>
  match a s.st with
  | .ok x st => .ok x { s with st }
  | .err st => .err ⟨[], st⟩
  | .abort => .abort
  | .ub => .ub
  | .timeout => .timeout

/-- `ExpectTokenSL`, tiny.c:1484-1504. -/
def expect (k : Tok) : Act (PS σ) Unit := do
  let t ← cur
  if t.kind = k then pure () else reject

/-- `GetExpectTokenSL`, tiny.c:1491-1496. -/
def getExpect (k : Tok) : Act (PS σ) Unit := do
  next
  expect k

/-- `GetTokenPrec`, tiny.c:2123-2157. -/
def tokenPrec : Tok → Int
  | .star | .slash | .percent | .and | .or => 5
  | .shiftLeft | .shiftRight | .plus | .minus => 4
  | .lte | .gte | .equals | .notEquals | .lt | .gt => 3
  | .logAnd | .logOr => 2
  | _ => -1

/-- `ParseTypeSL`, tiny.c:1610-1635. -/
def parseType (o : Ops σ V S T F) : Act (PS σ) T := do
  expect .ident
  let t ← cur
  let s ← lift (o.named t.lexeme)
  next
  let t ← cur
  if t.kind = .question then do
    let s ← lift (o.nullable s)
    next
    pure s
  else pure s

mutual
/-- `ParseExpr`, tiny.c:2184-2187. -/
def parseExpr (o : Ops σ V S T F) : Nat → Act (PS σ) (PExpr V S T)
  | 0 => fun _ => .timeout
  | n + 1 => do
    let f ← parseFactor o n
    parseBinRhs o n 0 f.1

/-- `ParseFactor`, tiny.c:2118-2121. The second component of a factor is its `lineNumber`. -/
def parseFactor (o : Ops σ V S T F) : Nat → Act (PS σ) (PExpr V S T × Nat)
  | 0 => fun _ => .timeout
  | n + 1 => do
    let v ← parseValue o n
    parseSuffix o n v

/-- `ParseBinRhs`, tiny.c:2159-2182. The line numbers of binary operators, used in messages only, are left out. -/
def parseBinRhs (o : Ops σ V S T F) : Nat → Int → PExpr V S T → Act (PS σ) (PExpr V S T)
  | 0, _, _ => fun _ => .timeout
  | n + 1, exprPrec, lhs => do
    let t ← cur
    if tokenPrec t.kind < exprPrec then pure lhs
    else do
      next
      let rhs ← parseFactor o n
      let t2 ← cur
      let rhs ← if tokenPrec t.kind < tokenPrec t2.kind then parseBinRhs o n (tokenPrec t.kind + 1) rhs.1 else pure rhs.1
      parseBinRhs o n exprPrec (.bin t.kind lhs rhs)

/-- `ParseSuffix`, tiny.c:2061-2116. -/
def parseSuffix (o : Ops σ V S T F) : Nat → PExpr V S T × Nat → Act (PS σ) (PExpr V S T × Nat)
  | 0, _ => fun _ => .timeout
  | n + 1, lhs => do
    let t ← cur
    if t.kind = .openSquare then do
      next
      let t ← cur
      let e ← parseExpr o n
      expect .closeSquare
      next
      parseSuffix o n (.index lhs.1 e, t.line)
    else if t.kind = .arrow then do
      getExpect .ident
      let f ← cur
      getExpect .openParen
      let c ← parseCall o n
      parseSuffix o n (.call f.lexeme (lhs.1 :: c.1), lhs.2)
    else if t.kind = .dot then do
      getExpect .ident
      let f ← cur
      next
      parseSuffix o n (.dot lhs.1 f.lexeme, t.line)
    else pure lhs

/-- `ParseCall`, tiny.c:1824-1848: the arguments and the line number. -/
def parseCall (o : Ops σ V S T F) : Nat → Act (PS σ) (List (PExpr V S T) × Nat)
  | 0 => fun _ => .timeout
  | n + 1 => do
    let t ← cur
    next
    let args ← parseArgs o n
    next
    pure (args, t.line)

/-- The loop of `ParseCall`, tiny.c:1834-1842. -/
def parseArgs (o : Ops σ V S T F) : Nat → Act (PS σ) (List (PExpr V S T))
  | 0 => fun _ => .timeout
  | n + 1 => do
    let t ← cur
    if t.kind = .closeParen then pure []
    else do
      let e ← parseExpr o n
      let t ← cur
      if t.kind = .comma then do
        next
        let es ← parseArgs o n
        pure (e :: es)
      else if t.kind = .closeParen then do
        let es ← parseArgs o n
        pure (e :: es)
      else reject

/-- The loop over constructor arguments in `ParseValue`, tiny.c:1959-1985: the names and the arguments. -/
def parseCtorArgs (o : Ops σ V S T F) : Nat → Act (PS σ) (List Name × List (PExpr V S T))
  | 0 => fun _ => .timeout
  | n + 1 => do
    let t ← cur
    if t.kind = .closeCurly then pure ([], [])
    else do
      let name ← if t.kind = .dot then do
          getExpect .ident
          let f ← cur
          getExpect .equal
          next
          pure [f.lexeme]
        else pure []
      let e ← parseExpr o n
      let t ← cur
      if t.kind ≠ .closeCurly ∧ t.kind ≠ .comma then reject
      else do
        if t.kind = .comma then next else pure ()
        let r ← parseCtorArgs o n
        pure (name ++ r.1, e :: r.2)

/-- The loop after a cast in `ParseValue`, tiny.c:2011-2022. -/
def parseDots (o : Ops σ V S T F) : Nat → PExpr V S T × Nat → Act (PS σ) (PExpr V S T × Nat)
  | 0, _ => fun _ => .timeout
  | n + 1, lhs => do
    let t ← cur
    if t.kind = .dot then do
      getExpect .ident
      let f ← cur
      next
      parseDots o n (.dot lhs.1 f.lexeme, t.line)
    else pure lhs

/-- `ParseValue`, tiny.c:1852-2059. -/
def parseValue (o : Ops σ V S T F) : Nat → Act (PS σ) (PExpr V S T × Nat)
  | 0 => fun _ => .timeout
  | n + 1 => do
    let t ← cur
    match t.kind with
    | .null => do next; pure (.null, t.line)
    | .bool => do next; pure (.bool t.bValue, t.line)
    | .ident => do
      next
      let t2 ← cur
      if t2.kind = .openParen then do
        let c ← parseCall o n
        pure (.call t.lexeme c.1, c.2)
      else do
        let v ← lift (o.ref t.lexeme)
        pure (.id t.lexeme v, t.line)
    | .minus => do
      next
      let t2 ← cur
      let e ← parseFactor o n
      pure (.un .minus e.1, t2.line)
    | .bang => do
      next
      let t2 ← cur
      let e ← parseFactor o n
      pure (.un .bang e.1, t2.line)
    | .char => do next; pure (.char t.iValue, t.line)
    | .int => do next; pure (.int t.iValue, t.line)
    | .float => do next; pure (.float t.fValue, t.line)
    | .string => do
      let s ← lift (o.str t.lexeme)
      next
      pure (.str s, t.line)
    | .openParen => do
      next
      let e ← parseExpr o n
      expect .closeParen
      next
      let t2 ← cur
      pure (.paren e, t2.line)
    | .newTok => do
      next
      let t2 ← cur
      lift (o.struct t2.lexeme)
      getExpect .openCurly
      next
      let r ← parseCtorArgs o n
      next
      pure (.ctor t2.lexeme r.1 r.2, t.line)
    | .castTok => do
      getExpect .openParen
      next
      let e ← parseExpr o n
      expect .comma
      next
      let ty ← parseType o
      expect .closeParen
      next
      parseDots o n (.cast e ty, t.line)
    | .ifTok => do
      next
      let c ← parseExpr o n
      let a ← parseExpr o n
      expect .elseTok
      next
      let b ← parseExpr o n
      pure (.ite c a b, t.line)
    | _ => reject
end

/-- The parameters of a function, tiny.c:1703-1727. -/
def parseParams (o : Ops σ V S T F) : Nat → Act (PS σ) (List (Name × T))
  | 0 => fun _ => .timeout
  | n + 1 => do
    let t ← cur
    if t.kind = .closeParen then pure []
    else do
      expect .ident
      let t ← cur
      getExpect .colon
      next
      let ty ← parseType o
      let t2 ← cur
      if t2.kind ≠ .closeParen ∧ t2.kind ≠ .comma then reject
      else do
        if t2.kind = .comma then next else pure ()
        let ps ← parseParams o n
        pure ((t.lexeme, ty) :: ps)

/-- The result type of a function, tiny.c:1738-1743. -/
def parseRet (o : Ops σ V S T F) : Act (PS σ) (Option T) := do
  let t ← cur
  if t.kind ≠ .colon then pure none
  else do
    next
    let ty ← parseType o
    pure (some ty)

/-- The arguments of `use`, tiny.c:2312-2331. -/
def parseUseArgs : Nat → Act (PS σ) (List Name)
  | 0 => fun _ => .timeout
  | n + 1 => do
    let t ← cur
    if t.kind = .closeParen then pure []
    else do
      expect .string
      next
      let t2 ← cur
      if t2.kind = .comma then next else pure ()
      let r ← parseUseArgs n
      pure (t.lexeme :: r)

/-- The word `as` in a `use`, tiny.c:2337-2343. -/
def parseUseAs : Act (PS σ) (Option Name) := do
  let t ← cur
  if t.kind = .ident ∧ t.lexeme = nameOf "as" then do
    getExpect .ident
    let t ← cur
    next
    pure (some t.lexeme)
  else pure none

/-- The declaration part of a statement, tiny.c:2359-2379: called when the current token is `:=` or `:`, with the
left side. The result is the new left side, the type, the operator. -/
def parseDeclare (o : Ops σ V S T F) (t : Tk) : PExpr V S T → Act (PS σ) (PExpr V S T × Option T × Tok)
  | .id name _ => do
    let v ← lift (o.declare name)
    if t.kind = .colon then do
      next
      let ty ← parseType o
      lift (o.setTag v ty)
      expect .equal
      pure (.id name v, some ty, .equal)
    else pure (.id name v, none, t.kind)
  | _ => reject

/-- The constant part of a statement, tiny.c:2388-2414. -/
def parseConst (o : Ops σ V S T F) (op : Tok) (lhs rhs : PExpr V S T) : Act (PS σ) Unit :=
  if op = .declareConst then
    match lhs, rhs.lit with
    | .id name _, some l => lift (o.const name l)
    | _, _ => reject
  else pure ()

/-- The rest of a statement which begins with the left side of an assignment, tiny.c:2356-2426. -/
def parseAssign (o : Ops σ V S T F) (n : Nat) (lhs : PExpr V S T) : Act (PS σ) (PStmt V S T F) := do
  let t ← cur
  let d ← if t.kind = .declare ∨ t.kind = .colon then parseDeclare o t lhs else pure (lhs, none, t.kind)
  if 0 ≤ tokenPrec d.2.2 then reject
  else do
    next
    let rhs ← parseExpr o n
    parseConst o d.2.2 d.1 rhs
    pure (.node t.line (.assign d.2.2 d.2.1 d.1 rhs))

/-- A statement which begins with an expression, tiny.c:2348-2427. -/
def parseSimple (o : Ops σ V S T F) (n : Nat) : Act (PS σ) (PStmt V S T F) := do
  let l ← parseFactor o n
  match l with
  | (.call f args, line) => pure (.node line (.call f args))
  | (lhs, _) => parseAssign o n lhs

mutual
/-- `ParseStatement`, tiny.c:2189-2432, with `ParseIf` (1637-1652) and `ParseFunc` (1681-1756). -/
def parseStmt (o : Ops σ V S T F) : Nat → Act (PS σ) (PStmt V S T F)
  | 0 => fun _ => .timeout
  | n + 1 => do
    let t ← cur
    match t.kind with
    | .openCurly => do
      next
      lift o.openScope
      let ss ← parseBlock o n
      next
      lift o.closeScope
      pure (.node t.line (.block ss))
    | .funcTok => do
      lift o.noFunc
      getExpect .ident
      let name ← cur
      let f ← lift (o.beginFunc name.lexeme)
      getExpect .openParen
      next
      let ps ← parseParams o n
      lift (o.params ps)
      next
      let r ← parseRet o
      lift (o.setRet r)
      lift o.openScope
      let b ← parseStmt o n
      lift o.closeScope
      lift o.endFunc
      pure (.node t.line (.proc f name.lexeme ps r b))
    | .ifTok => do
      next
      let c ← parseExpr o n
      let b ← parseStmt o n
      let t2 ← cur
      if t2.kind = .elseTok then do
        next
        let a ← parseStmt o n
        pure (.node t.line (.ifElse c b a))
      else pure (.node t.line (.ifThen c b))
    | .whileTok => do
      next
      let t2 ← cur
      let c ← parseExpr o n
      lift o.openScope
      let b ← parseStmt o n
      lift o.closeScope
      pure (.node t2.line (.while c b))
    | .forTok => do
      next
      let t2 ← cur
      lift o.openScope
      let i ← parseStmt o n
      expect .semi
      next
      let c ← parseExpr o n
      expect .semi
      next
      let s ← parseStmt o n
      let b ← parseStmt o n
      lift o.closeScope
      pure (.node t2.line (.for i c s b))
    | .returnTok => do
      lift o.inFunc
      next
      let t2 ← cur
      if t2.kind = .semi then do
        next
        pure (.node t.line (.ret none))
      else do
        lift o.valueFunc
        let e ← parseExpr o n
        pure (.node t.line (.ret (some e)))
    | .breakTok => do
      next
      let t2 ← cur
      pure (.node t2.line .brk)
    | .continueTok => do
      next
      pure (.node t.line .cont)
    | .useTok => do
      lift o.topLevel
      getExpect .ident
      let m ← cur
      getExpect .openParen
      next
      let args ← parseUseArgs n
      next
      let a ← parseUseAs
      pure (.node t.line (.use m.lexeme args a))
    | _ => parseSimple o n

/-- The loop of `ParseBlock`, tiny.c:1666-1671. -/
def parseBlock (o : Ops σ V S T F) : Nat → Act (PS σ) (List (PStmt V S T F))
  | 0 => fun _ => .timeout
  | n + 1 => do
    let t ← cur
    if t.kind = .closeCurly then pure []
    else do
      let s ← parseStmt o n
      let ss ← parseBlock o n
      pure (s :: ss)
end

/-- The fields of a struct, tiny.c:1783-1813. -/
def parseFields (o : Ops σ V S T F) (name : Name) : Nat → Act (PS σ) (List (Name × T))
  | 0 => fun _ => .timeout
  | n + 1 => do
    let t ← cur
    if t.kind = .closeCurly then pure []
    else do
      expect .ident
      let t ← cur
      lift (o.checkField name t.lexeme)
      getExpect .colon
      next
      let ty ← parseType o
      lift (o.addField name t.lexeme ty)
      let fs ← parseFields o name n
      pure ((t.lexeme, ty) :: fs)

/-- `ParseStruct`, tiny.c:1758-1822. -/
def parseStruct (o : Ops σ V S T F) (n : Nat) : Act (PS σ) (PStmt V S T F) := do
  lift o.noFunc
  getExpect .ident
  let t ← cur
  lift (o.beginStruct t.lexeme)
  getExpect .openCurly
  next
  let fs ← parseFields o t.lexeme n
  next
  lift (o.endStruct t.lexeme)
  pure (.struct t.lexeme fs)

/-- The loop of `ParseProgram`, tiny.c:2444-2455. The C code does not put struct definitions in the list. -/
def parseItems (o : Ops σ V S T F) : Nat → Act (PS σ) (List (PStmt V S T F))
  | 0 => fun _ => .timeout
  | n + 1 => do
    let t ← cur
    if t.kind = .eofTok then pure []
    else do
      let s ← if t.kind = .structTok then parseStruct o n else parseStmt o n
      let ss ← parseItems o n
      pure (s :: ss)

end Parse

/-- `state->currFunc`, as a condition, and errors when it is (not) set: tiny.c:1684-1687, 1759-1762, 2236-2240. -/
def requireFunc (b : Bool) : Act Front Unit := do
  let s ← .get
  if (s.currFunc != .none) = b then pure () else .report

/-- tiny.c:2251-2255: `currFunc->func.returnTag` must not be void. -/
def requireValueFunc : Act Front Unit := do
  match ← currentFunc with
  | some { ret := some .void, .. } => .report
  | some { ret := some _, .. } => pure ()
  | _ => .undef

/-- tiny.c:2294-2297. -/
def requireTopLevel : Act Front Unit := do
  let s ← .get
  if s.currFunc != .none || s.currScope != 0 then .report else pure ()

/-- tiny.c:1693-1694: `DeclareFunction`, then `state->currFunc = exp->proc.decl`. -/
def beginFunc (n : Name) : Act Front Nat := do
  let i ← declareFunction n
  .modify fun f => { f with currFunc := .at i }
  pure i

/-- tiny.c:2366-2370. -/
def declareVar (n : Name) : Act Front (Option SymRef) := do
  let s ← .get
  if s.currFunc != .none then do
    let k ← declareLocal n
    pure (some (.loc k))
  else do
    let i ← declareGlobalVar n
    pure (some (.glob i))

/-- `lhs->id.sym->var.tag = …`, tiny.c:2374. -/
def setVarTag (v : Option SymRef) (t : Tag) : Act Front Unit := fun f =>
  match v with
  | some (.loc k) => updateFunc (fun fi => { fi with locals := fi.locals.modify k fun v => { v with tag := some t } }) f
  | some (.arg k) => updateFunc (fun fi => { fi with args := fi.args.modify k fun v => { v with tag := some t } }) f
  | some (.glob i) =>
    match f.syms[i]? with
    | some (.glob v) => .ok () { f with syms := f.syms.set i (.glob { v with tag := some t }) }
    | _ => .ub
  | none => .ub

/-- The type and the value of a constant, tiny.c:2393-2410: an `int` is stored in a `Tiny_Int`. -/
def Lit.const : Lit Nat → Tag × ConstVal
  | .bool b => (.bool, .bool b)
  | .int i => (.int, .int (i.signExtend 64))
  | .float f => (.float, .float f)
  | .str s => (.str, .str s)

/-- The struct symbol of a name: `GetStructTag`, its `defined` and fields. -/
def Sym.structInfo (n : Name) : Sym → Option (Bool × List (Name × Tag))
  | .struct m d fs => if m = n then some (d, fs) else none
  | _ => none

/-- Write to the first struct symbol of a name. -/
def updateStruct (n : Name) (s : Sym) : List Sym → List Sym
  | [] => []
  | x :: xs => if x.isStruct n then s :: xs else x :: updateStruct n s xs

/-- tiny.c:1768-1777: `DeclareStruct`, must be undefined, becomes defined. -/
def beginStruct (n : Name) : Act Front Unit := do
  declareStruct n
  let s ← .get
  match s.syms.findSome? (·.structInfo n) with
  | some (false, fs) => .modify fun f => { f with syms := updateStruct n (.struct n true fs) f.syms }
  | _ => .report

/-- tiny.c:1786-1797: at most 255 fields (`UCHAR_MAX`), different names. -/
def checkField (n field : Name) : Act Front Unit := do
  let s ← .get
  match s.syms.findSome? (·.structInfo n) with
  | some (_, fs) =>
    if 255 ≤ fs.length then .report
    else if fs.any (fun f => f.1 == field) then .report
    else pure ()
  | none => .undef

/-- tiny.c:1799, 1805-1807. -/
def addField (n field : Name) (t : Tag) : Act Front Unit := do
  let s ← .get
  match s.syms.findSome? (·.structInfo n) with
  | some (d, fs) => .modify fun f => { f with syms := updateStruct n (.struct n d (fs ++ [(field, t)])) f.syms }
  | none => .undef

/-- tiny.c:1817-1819. -/
def endStruct (n : Name) : Act Front Unit := do
  let s ← .get
  match s.syms.findSome? (·.structInfo n) with
  | some (_, fs) => if fs = [] then .report else pure ()
  | none => .undef

/-- tiny.c:1622-1629. -/
def makeNullable (t : Tag) : Act Front Tag := if t = .void then .report else getOrCreateNullable t

/-- The operations of the C code. -/
def frontOps : Ops Front (Option SymRef) Nat Tag Nat where
  ref := referenceVariable
  str := registerString
  struct := declareStruct
  named := getTagFromName
  nullable := makeNullable
  openScope := openScope
  closeScope := closeScope
  noFunc := requireFunc false
  inFunc := requireFunc true
  valueFunc := requireValueFunc
  topLevel := requireTopLevel
  beginFunc := beginFunc
  params := fun ps => declareArguments ps.length ps
  setRet := fun r => updateFunc fun fi => { fi with ret := some (r.getD .void) }
  endFunc := .modify fun f => { f with currFunc := .none }
  declare := declareVar
  setTag := setVarTag
  const := fun n l => declareConst n l.const.1 l.const.2
  beginStruct := beginStruct
  checkField := checkField
  addField := addField
  endStruct := endStruct

/-- `ParseProgram`, tiny.c:2434-2458, on the tokens of a source. -/
def parseProgram (n : Nat) : Act (PS Front) (List (PStmt (Option SymRef) Nat Tag Nat)) := parseItems frontOps n

end Tiny
