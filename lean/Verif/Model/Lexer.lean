import Verif.Model.CType
import Verif.Model.Token
import Verif.Model.Pos

/-!
# The lexer: tiny/src/lexer.c

The source is a C string: the list of its bytes before the terminating NUL (so no byte of it is 0). Loops
take fuel; `timeout` means "still running".
-/

namespace Tiny

/-- The anonymous union of `Tiny_Lexer` (tiny/include/lexer.h:24-28). `float` holds the bits of the `float`
widened to a `double`. -/
inductive LexVal where
  | none
  | bool (b : Bool)
  | int (i : BitVec 32)
  | float (f : BitVec 64)
deriving DecidableEq, Repr, Inhabited

/-- The messages `GetToken` puts in `errorMsg` (lexer.c:258, 286). -/
inductive LexErr where
  | expectedQuote
  | unexpectedChar
deriving DecidableEq, Repr

/-- `Tiny_Lexer`, tiny/include/lexer.h:9-31. `rest` is the source from `src[pos]` up to its end; `lexeme` is
the buffer without the final NUL; `lastTok` is the result of `getToken`. -/
structure Lexer where
  rest : List UInt8
  pos : Nat
  last : UInt8
  line : Nat
  lexeme : List UInt8
  val : LexVal
  err : Option LexErr
deriving DecidableEq, Repr, Inhabited

/-- `l->last = GetChar(l)`, lexer.c:15-18. -/
def Lexer.advance (l : Lexer) : Lexer :=
  match l.rest with
  | [] => { l with last := 0 }
  | c :: r => { l with last := c, rest := r, pos := l.pos + 1 }

/-- `Peek`, lexer.c:20. -/
def Lexer.peek (l : Lexer) : UInt8 := l.rest.headD 0

/-- `Peek2`, lexer.c:21-27. -/
def Lexer.peek2 (l : Lexer) : UInt8 :=
  match l.rest with
  | [] => 0
  | _ :: r => r.headD 0

/-- `l->pos += n`: going past the terminating NUL would make later reads out of bounds. -/
def Lexer.skip (l : Lexer) (n : Nat) : Res Lexer :=
  if n ≤ l.rest.length then .ok { l with rest := l.rest.drop n, pos := l.pos + n } else .ub

/-- `Tiny_InitLexer`, lexer.c:28-42. -/
def Lexer.init (src : List UInt8) : Lexer :=
  { rest := src, pos := 0, last := b! ' ', line := 1, lexeme := [], val := .none, err := none }

/-- `sb_push(&l->ctx, l->lexeme, c)`. -/
def Lexer.add (l : Lexer) (c : UInt8) : Lexer := { l with lexeme := l.lexeme ++ [c] }

/-- `ResetLexeme`, lexer.c:11-13. -/
def Lexer.reset (l : Lexer) : Lexer := { l with lexeme := [] }

/-- White space, lexer.c:45-48. -/
def Lexer.spaceLoop : Nat → Lexer → Res Lexer
  | 0, _ => .timeout
  | fuel + 1, l =>
    if isspace l.last then
      spaceLoop fuel (if l.last = nl then { l with line := l.line + 1 } else l).advance
    else .ok l

/-- The body of a comment, lexer.c:55-57. -/
def Lexer.commentLoop : Nat → Lexer → Res Lexer
  | 0, _ => .timeout
  | fuel + 1, l => if l.last ≠ 0 ∧ l.last ≠ nl then commentLoop fuel l.advance else .ok l

/-- The `MATCH2` lines in order, lexer.c:89-112. -/
def match2Table : List (UInt8 × UInt8 × Tok) :=
  [(b! '&', b! '&', .logAnd), (b! '|', b! '|', .logOr),
   (b! ':', b! '=', .declare), (b! ':', b! ':', .declareConst),
   (b! '+', b! '=', .plusEqual), (b! '-', b! '=', .minusEqual), (b! '*', b! '=', .starEqual),
   (b! '/', b! '=', .slashEqual), (b! '%', b! '=', .percentEqual), (b! '|', b! '=', .orEqual),
   (b! '&', b! '=', .andEqual),
   (b! '=', b! '=', .equals), (b! '!', b! '=', .notEquals),
   (b! '<', b! '=', .lte), (b! '>', b! '=', .gte),
   (b! '-', b! '>', .arrow),
   (b! '<', b! '<', .shiftLeft), (b! '>', b! '>', .shiftRight)]

/-- The `MATCH` lines in order, lexer.c:125-146. -/
def match1Table : List (UInt8 × Tok) :=
  [(b! '(', .openParen), (b! ')', .closeParen), (b! '{', .openCurly), (b! '}', .closeCurly),
   (b! '[', .openSquare), (b! ']', .closeSquare), (b! '+', .plus), (b! '-', .minus), (b! '*', .star),
   (b! '/', .slash), (b! '%', .percent), (b! '>', .gt), (b! '<', .lt), (b! '=', .equal), (b! '!', .bang),
   (b! '&', .and), (b! '|', .or), (b! ',', .comma), (b! ';', .semi), (b! ':', .colon), (b! '.', .dot),
   (b! '?', .question)]

/-- The keyword comparisons in order, lexer.c:158-185, with the value stored for `true` and `false`. -/
def keywordTable : List (List UInt8 × Tok × LexVal) :=
  [(ascii "null", .null, .none), (ascii "true", .bool, .bool true), (ascii "false", .bool, .bool false),
   (ascii "if", .ifTok, .none), (ascii "func", .funcTok, .none), (ascii "foreign", .foreignTok, .none),
   (ascii "return", .returnTok, .none), (ascii "while", .whileTok, .none), (ascii "for", .forTok, .none),
   (ascii "else", .elseTok, .none), (ascii "struct", .structTok, .none), (ascii "new", .newTok, .none),
   (ascii "cast", .castTok, .none), (ascii "break", .breakTok, .none),
   (ascii "continue", .continueTok, .none), (ascii "use", .useTok, .none),
   (ascii "foreach", .foreachTok, .none)]

/-- The loop of an identifier, lexer.c:151-154. -/
def Lexer.wordLoop : Nat → Lexer → Res Lexer
  | 0, _ => .timeout
  | fuel + 1, l =>
    if isalnum l.last ∨ l.last = b! '_' then wordLoop fuel (l.add l.last).advance else .ok l

/-- After an identifier, lexer.c:156-187. The union keeps its old value for keywords without one. -/
def Lexer.word (l : Lexer) : Tok × Lexer :=
  match keywordTable.find? (fun k => k.1 == l.lexeme) with
  | some (_, k, .none) => (k, l)
  | some (_, k, v) => (k, { l with val := v })
  | none => (.ident, l)

/-- The loop of a number, lexer.c:194-204: `isHex`, `isFloat`, lexer. -/
def Lexer.numLoop : Nat → Bool → Bool → Lexer → Res (Bool × Bool × Lexer)
  | 0, _, _, _ => .timeout
  | fuel + 1, isHex, isFloat, l =>
    if isdigit l.last ∨ (l.last = b! 'x' ∧ ¬ isHex) ∨ (isHex ∧ isxdigit l.last) ∨
        (l.last = b! '.' ∧ ¬ isFloat) then
      numLoop fuel (isHex || l.last = b! 'x') (isFloat || (l.last ≠ b! 'x' && l.last = b! '.'))
        (l.add l.last).advance
    else .ok (isHex, isFloat, l)

/-- After a number, lexer.c:206-218; `strtod` stands for `(float)strtod(lexeme, NULL)`. -/
def Lexer.number (strtod : List UInt8 → BitVec 64) : Bool × Bool × Lexer → Tok × Lexer
  | (_, true, l) => (.float, { l with val := .float (strtod l.lexeme) })
  | (true, false, l) => (.int, { l with val := .int (BitVec.ofInt 32 (strtol 16 l.lexeme)) })
  | (false, false, l) => (.int, { l with val := .int (BitVec.ofInt 32 (strtol 10 l.lexeme)) })

/-- `CHECK_ESCAPE`, lexer.c:221-246. -/
def Lexer.escape (l : Lexer) : Lexer :=
  if l.last = b! '\\' then
    let l := l.advance
    if l.last = b! 't' then { l with last := 9 }
    else if l.last = b! 'n' then { l with last := 10 }
    else if l.last = b! 'r' then { l with last := 13 }
    else if l.last = b! 'b' then { l with last := 8 }
    else l
  else l

/-- A character literal, lexer.c:248-265 (`char` is signed). -/
def Lexer.charLit (l : Lexer) : Tok × Lexer :=
  let l := l.advance.escape
  let l := { l with val := .int (l.last.toBitVec.signExtend 32) }.advance
  if l.last ≠ b! '\'' then (.lexerError, { l with err := some .expectedQuote })
  else (.char, l.advance)

/-- The loop of a string literal, lexer.c:272-277. -/
def Lexer.strLoop : Nat → Lexer → Res Lexer
  | 0, _ => .timeout
  | fuel + 1, l =>
    if l.last ≠ b! '"' then
      let l := l.escape
      strLoop fuel (l.add l.last).advance
    else .ok l

/-- Everything after white space and comments, lexer.c:67-287. -/
def Lexer.scan (strtod : List UInt8 → BitVec 64) (fuel : Nat) (l : Lexer) : Res (Tok × Lexer) :=
  if l.last = b! '.' ∧ l.peek = b! '.' ∧ l.peek2 = b! '.' then do
    let l ← { l with lexeme := ascii "..." }.skip 2
    pure (.ellipsis, l.advance)
  else
    match match2Table.find? (fun e => l.last == e.1 && l.peek == e.2.1) with
    | some (a, b, k) => do
      let l ← { l with lexeme := [a, b] }.skip 1
      pure (k, l.advance)
    | none =>
      match match1Table.find? (fun e => l.last == e.1) with
      | some (a, k) => pure (k, { l with lexeme := [a] }.advance)
      | none =>
        if isalpha l.last then do
          let l ← l.reset.wordLoop fuel
          pure l.word
        else if isdigit l.last then do
          let r ← l.reset.numLoop fuel false false
          pure (Lexer.number strtod r)
        else if l.last = b! '\'' then pure l.charLit
        else if l.last = b! '"' then do
          let l ← l.reset.advance.strLoop fuel
          pure (.string, l.advance)
        else pure (.lexerError, { l with err := some .unexpectedChar })

/-- `GetToken` / `Tiny_GetToken`, lexer.c:44-290. -/
def Lexer.getToken (strtod : List UInt8 → BitVec 64) : Nat → Lexer → Res (Tok × Lexer)
  | 0, _ => .timeout
  | fuel + 1, l => do
    let l ← l.spaceLoop (fuel + 1)
    if l.last = 0 then pure (.eofTok, l)
    else if l.last = b! '/' ∧ l.peek = b! '/' then do
      let l ← l.commentLoop (fuel + 1)
      let l := if l.last ≠ 0 then { l.advance with line := l.advance.line + 1 } else l
      getToken strtod fuel l
    else l.scan strtod (fuel + 1)

/-- Calling `Tiny_GetToken` until `TINY_TOK_EOF` or `TINY_TOK_LEXER_ERROR` (as `ParseProgram` does when it never
rejects a token, tiny.c:2439-2458): the states of the lexer after each call, each with its token. -/
def Lexer.tokens (strtod : List UInt8 → BitVec 64) : Nat → Lexer → Res (List (Tok × Lexer))
  | 0, _ => .timeout
  | fuel + 1, l => do
    let (k, l) ← l.getToken strtod (fuel + 1)
    if k = .eofTok ∨ k = .lexerError then pure [(k, l)]
    else do
      let ts ← tokens strtod fuel l
      pure ((k, l) :: ts)

end Tiny
