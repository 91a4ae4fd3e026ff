import Verif.Model.Lexer
import Verif.Spec.Lex

/-!
# What a caller of the lexer sees

`Tiny_GetToken` returns a kind and leaves the data of the token in the lexer: the parser reads `lexeme` after
identifiers and strings, `bValue`, `iValue` or `fValue` after literals (tiny.c:1837-2130).
-/

namespace Tiny.Spec

/-- The token a call of `Tiny_GetToken` delivered; `none` at the end of the source and after an error. -/
def tokenOf (strtod : List UInt8 → BitVec 64) (k : Tok) (l : Lexer) : Option Token :=
  match k, l.val with
  | .eofTok, _ => none
  | .lexerError, _ => none
  | .ident, _ => some (.ident l.lexeme)
  | .string, _ => some (.str l.lexeme)
  | .bool, .bool b => some (.bool b)
  | .bool, _ => none
  | .int, .int i => some (.int i)
  | .int, _ => none
  | .char, .int i => some (.char i)
  | .char, _ => none
  | .float, .float f => if f = strtod l.lexeme then some (.float l.lexeme) else none
  | .float, _ => none
  | k, _ => some (.sym k)

end Tiny.Spec
