import Verif.Spec.Grammar

/-!
# Precedence

The spec of C16.
-/

namespace Tiny.Spec

/-- A piece of an expression: an operand, or a binary operator between two operands. -/
inductive Piece where
  | operand (e : SExpr)
  | op (k : Tok)

/-- The operands and binary operators of a tree, read from left to right. -/
def flat : SExpr → List Piece
  | .bin k l r => flat l ++ .op k :: flat r
  | e => [.operand e]

/-- No operator has a weaker-binding one as its left child, nor a weaker or equally binding one as its right child. -/
def Grouped : SExpr → Prop
  | .bin k l r => (∃ j, level k = some j ∧ AtLeast j l ∧ AtLeast (j + 1) r) ∧ Grouped l ∧ Grouped r
  | _ => True

/-- The tokens, followed by the token, are this sequence of operands with operators between them. -/
inductive ChainIs : List Piece → List Tk → Tk → Prop
  | one {e : SExpr} {l : Nat} {us : List Tk} {nx : Tk} :
      FacIs e l us nx → isSuffix nx.kind = false → ChainIs [.operand e] us nx
  | cons {e : SExpr} {l j : Nat} {us vs : List Tk} {items : List Piece} {op nx : Tk} :
      FacIs e l us op → level op.kind = some j → ChainIs items vs nx →
      ChainIs (.operand e :: .op op.kind :: items) (us ++ op :: vs) nx

end Tiny.Spec
