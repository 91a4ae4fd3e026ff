/-!
# Token kinds (tiny/include/tokens.h)
-/

namespace Tiny

/-- `Tiny_TokenKind`, tiny/include/tokens.h. `eofTok` and `lexerError` are `TINY_TOK_EOF` and
`TINY_TOK_LEXER_ERROR`. -/
inductive Tok where
  | openParen | closeParen | openCurly | closeCurly | openSquare | closeSquare
  | plus | minus | star | slash | percent | gt | lt | equal | bang | and | or | shiftLeft | shiftRight
  | comma | semi | colon | dot | ellipsis
  | logAnd | logOr | declare | declareConst
  | plusEqual | minusEqual | starEqual | slashEqual | percentEqual | orEqual | andEqual
  | equals | notEquals | lte | gte
  | null | bool | char | int | float | string | ident
  | ifTok | elseTok | whileTok | forTok | returnTok | funcTok | foreignTok | structTok | newTok | castTok
  | breakTok | continueTok | useTok | foreachTok
  | arrow | question | eofTok | lexerError
deriving DecidableEq, Repr, Inhabited

end Tiny
