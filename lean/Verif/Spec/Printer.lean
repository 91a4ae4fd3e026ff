import Verif.Spec.Grammar

/-!
# Printing expressions

The spec of C17: which trees can be written down without further parentheses, how they are written as tokens, and
where parentheses are put in other trees.
-/

namespace Tiny.Spec

mutual
/-- The tree without its parentheses. -/
def strip : SExpr → SExpr
  | .paren e => strip e
  | .call f args => .call f (strips args)
  | .bin k l r => .bin k (strip l) (strip r)
  | .un k e => .un k (strip e)
  | .dot l f => .dot (strip l) f
  | .index l i => .index (strip l) (strip i)
  | .ctor n ns args => .ctor n ns (strips args)
  | .cast e ty => .cast (strip e) ty
  | .ite c a b => .ite (strip c) (strip a) (strip b)
  | e => e
/-- Several trees. -/
def strips : List SExpr → List SExpr
  | [] => []
  | e :: es => strip e :: strips es
end

mutual
/-- Trees which have a written form: binary and unary nodes carry binary and unary operators, a constructor has no
more names than arguments. -/
def writable : SExpr → Bool
  | .call _ args => writables args
  | .paren e => writable e
  | .bin k l r => (level k).isSome && writable l && writable r
  | .un k e => (k == .minus || k == .bang) && writable e
  | .dot l _ => writable l
  | .index l i => writable l && writable i
  | .ctor _ ns args => ns.length ≤ args.length && writables args
  | .cast e _ => writable e
  | .ite c a b => writable c && writable a && writable b
  | _ => true
/-- Several trees. -/
def writables : List SExpr → Bool
  | [] => true
  | e :: es => writable e && writables es
end

/-- Does the operator at the top bind at least as tightly as level `k`? -/
def atLeast (k : Nat) : SExpr → Bool
  | .bin op _ _ =>
    match level op with
    | some j => k ≤ j
    | none => false
  | _ => true

/-- Can `.`, `->` or `[` follow directly? -/
def isBase : SExpr → Bool
  | .bin _ _ _ | .un _ _ | .ite _ _ _ => false
  | _ => true

/-- Can the tree be an operand? -/
def isOperand : SExpr → Bool
  | .bin _ _ _ => false
  | _ => true

/-- Does the text end in the `else` part of a conditional, which would swallow an operator after it? -/
def openRight : SExpr → Bool
  | .ite _ _ _ => true
  | .bin _ _ r => openRight r
  | .un _ e => openRight e
  | _ => false

/-- Does the text end in a name, which `(` after it would make a call? -/
def endsName : SExpr → Bool
  | .id _ _ => true
  | .bin _ _ r => endsName r
  | .un _ e => endsName e
  | .ite _ _ b => endsName b
  | _ => false

/-- Does the text begin with a minus sign? -/
def startsMinus : SExpr → Bool
  | .un k _ => k == .minus
  | .bin _ l _ => startsMinus l
  | .dot l _ => startsMinus l
  | .index l _ => startsMinus l
  | _ => false

/-- Does the text begin with `(`? -/
def startsParen : SExpr → Bool
  | .paren _ => true
  | .bin _ l _ => startsParen l
  | .dot l _ => startsParen l
  | .index l _ => startsParen l
  | _ => false

mutual
/-- Trees whose parentheses suffice. -/
def enough : SExpr → Bool
  | .call _ args => enoughs args
  | .paren e => enough e
  | .bin k l r =>
    match level k with
    | some j => atLeast j l && atLeast (j + 1) r && !openRight l && enough l && enough r
    | none => false
  | .un k e => (k == .minus || k == .bang) && isOperand e && enough e
  | .dot l _ => isBase l && enough l
  | .index l i => isBase l && enough l && enough i
  | .ctor _ ns args => ns.length ≤ args.length && enoughs args
  | .cast e _ => enough e
  | .ite c a b => !startsMinus a && !(endsName c && startsParen a) && enough c && enough a && enough b
  | _ => true
/-- Several trees. -/
def enoughs : List SExpr → Bool
  | [] => true
  | e :: es => enough e && enoughs es
end

/-- A token without a name or value. -/
def tok (ln : Nat) (k : Tok) : Tk := ⟨k, [], .none, ln⟩
/-- A name. -/
def word (ln : Nat) (n : Name) : Tk := ⟨.ident, n, .none, ln⟩

/-- A type as tokens. -/
def typeToks (ln : Nat) (t : SType) : List Tk := if t.2 then [word ln t.1, tok ln .question] else [word ln t.1]

mutual
/-- An expression as tokens, all on line `ln`. -/
def toks (ln : Nat) : SExpr → List Tk
  | .null => [tok ln .null]
  | .bool b => [⟨.bool, [], .bool b, ln⟩]
  | .int i => [⟨.int, [], .int i, ln⟩]
  | .char i => [⟨.char, [], .int i, ln⟩]
  | .float f => [⟨.float, [], .float f, ln⟩]
  | .str s => [⟨.string, s, .none, ln⟩]
  | .id n _ => [word ln n]
  | .call f args => word ln f :: tok ln .openParen :: argToks ln args
  | .paren e => tok ln .openParen :: toks ln e ++ [tok ln .closeParen]
  | .bin k l r => toks ln l ++ tok ln k :: toks ln r
  | .un k e => tok ln k :: toks ln e
  | .dot l f => toks ln l ++ [tok ln .dot, word ln f]
  | .index l i => toks ln l ++ tok ln .openSquare :: toks ln i ++ [tok ln .closeSquare]
  | .ctor n ns args => tok ln .newTok :: word ln n :: tok ln .openCurly :: initToks ln ns args
  | .cast e ty => tok ln .castTok :: tok ln .openParen :: toks ln e ++ tok ln .comma :: typeToks ln ty ++ [tok ln .closeParen]
  | .ite c a b => tok ln .ifTok :: toks ln c ++ toks ln a ++ tok ln .elseTok :: toks ln b
/-- Arguments and `)`. -/
def argToks (ln : Nat) : List SExpr → List Tk
  | [] => [tok ln .closeParen]
  | [e] => toks ln e ++ [tok ln .closeParen]
  | e :: es => toks ln e ++ tok ln .comma :: argToks ln es
/-- Constructor arguments and `}`; the names go to the first ones. -/
def initToks (ln : Nat) : List Name → List SExpr → List Tk
  | _, [] => [tok ln .closeCurly]
  | [], e :: es => toks ln e ++ tok ln .comma :: initToks ln [] es
  | n :: ns, e :: es =>
    tok ln .dot :: word ln n :: tok ln .equal :: toks ln e ++ tok ln .comma :: initToks ln ns es
end

/-- Parentheses if needed. -/
def wrap (needed : Bool) (e : SExpr) : SExpr := if needed then .paren e else e

mutual
/-- Parentheses put where they are needed. -/
def deco : SExpr → SExpr
  | .call f args => .call f (decos args)
  | .paren e => .paren (deco e)
  | .bin k l r =>
    .bin k (wrap (!(atLeast ((level k).getD 0) (deco l) && !openRight (deco l))) (deco l))
      (wrap (!atLeast ((level k).getD 0 + 1) (deco r)) (deco r))
  | .un k e => .un k (wrap (!isOperand (deco e)) (deco e))
  | .dot l f => .dot (wrap (!isBase (deco l)) (deco l)) f
  | .index l i => .index (wrap (!isBase (deco l)) (deco l)) (deco i)
  | .ctor n ns args => .ctor n ns (decos args)
  | .cast e ty => .cast (deco e) ty
  | .ite c a b =>
    .ite (wrap (endsName (deco c) && startsParen (wrap (startsMinus (deco a)) (deco a))) (deco c))
      (wrap (startsMinus (deco a)) (deco a)) (deco b)
  | e => e
/-- Several trees. -/
def decos : List SExpr → List SExpr
  | [] => []
  | e :: es => deco e :: decos es
end

end Tiny.Spec
