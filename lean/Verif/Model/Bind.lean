import Verif.Model.Compile

/-!
# `Tiny_BindFunction`, `Tiny_FindTypeSymbol`, `Tiny_FindFuncSymbol` (tiny/src/tiny.c:1010-1079, 4393-4408)

The signature is a text, read with a lexer of its own; types are read by the function the parser uses (`ParseTypeL`,
tiny.c:1610-1631).
-/

namespace Tiny

/-- The loop over the arguments, tiny.c:1041-1060: the types, and whether there was a `...`. The `assert`s on NULL
results of `ParseTypeL`, which never returns NULL, are left out. -/
def parseSigArgs : Nat → Act (PS Front) (List Tag × Bool)
  | 0 => fun _ => .timeout
  | n + 1 => do
    let t ← cur
    if t.kind = .closeParen then pure ([], false)
    else if t.kind = .comma then do
      next
      parseSigArgs n
    else if t.kind = .ellipsis then do
      next
      let r ← parseSigArgs n
      pure (r.1, true)
    else if t.kind = .ident then do
      let x ← parseType frontOps
      let r ← parseSigArgs n
      pure (x :: r.1, r.2)
    else .fail

/-- The result type, tiny.c:1064-1073. -/
def parseSigRet : Act (PS Front) Tag := do
  let t ← cur
  if t.kind = .colon then do
    next
    let t ← cur
    if t.kind = .ident then parseType frontOps else .fail
  else pure .any

/-- `Tiny_BindFunction` on the tokens of the signature, tiny.c:1015-1078. -/
def bindSig (n : Nat) : Act (PS Front) Unit := do
  let t ← cur
  if t.kind = .ident then do
    next
    let u ← cur
    if u.kind = .openParen then do
      next
      let as ← parseSigArgs n
      next
      let r ← parseSigRet
      lift (bindFunction t.lexeme as.1 as.2 r)
    else lift (bindFunction t.lexeme [] true .any)
  else .fail

/-- `Tiny_BindFunction`, tiny.c:1010-1079. An error reported by `ParseTypeL` ends the compilation under way; if there is
none, `ReportErrorL` (tiny.c:43-57) jumps to `compileErrorJmpBufs[-1]`. -/
def tinyBindFunction (strtod : List UInt8 → BitVec 64) (sig : List UInt8) : Act TState Unit := fun s =>
  match bindSig (sig.length + 5) ⟨sourceTokens strtod sig, s.front⟩ with
  | .ok _ q => .ok () { s with front := q.st }
  | .err q => if s.nest = 0 then .ub else .err { s with front := q.st }
  | .abort => .abort
  | .ub => .ub
  | .timeout => .timeout

/-- `Tiny_FindTypeSymbol`, tiny.c:4395-4404, with `GetTagFromName(state, name, false)`, tiny.c:1533-1562. -/
def findTypeSymbol (n : Name) (f : Front) : Option Tag :=
  match primTag n with
  | some t => some t
  | none =>
    match f.syms.find? (fun x => (x.asType n).isSome) with
    | some (.struct _ false _) => none
    | some x => x.asType n
    | none => none

/-- `Tiny_FindFuncSymbol`, tiny.c:4406-4408. -/
def findFuncSymbol (n : Name) (f : Front) : Option Sym := referenceFunction f.syms n

end Tiny
