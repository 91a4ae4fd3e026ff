import Verif.Model.Token
import Verif.Spec.Pos

/-!
# Lexical grammar of Tiny

Which texts spell which tokens, what may stand between tokens, and which of several possible readings is taken
(the longest). Nothing here refers to the lexer.
-/

namespace Tiny.Spec

/-- Bytes of an ASCII string. -/
def bytes (s : String) : List UInt8 := s.toList.map (fun c => c.toNat.toUInt8)

/-- White space: blank, tab, newline, vertical tab, form feed, carriage return. -/
def Blank (c : UInt8) : Prop := c ∈ ([32, 9, 10, 11, 12, 13] : List UInt8)

instance : DecidablePred Blank := fun _ => inferInstanceAs (Decidable (_ ∈ _))

/-- What may stand before a token: white space and comments, each of which ends with its line. -/
inductive Layout : List UInt8 → Prop
  | nil : Layout []
  | blank {c w} : Blank c → Layout w → Layout (c :: w)
  | comment {body w} : (10 : UInt8) ∉ body → Layout w → Layout (bytes "//" ++ body ++ 10 :: w)

/-- What may stand after the last token: layout, then possibly a comment without a final newline. -/
inductive LastLayout : List UInt8 → Prop
  | done {w} : Layout w → LastLayout w
  | comment {w body} : Layout w → (10 : UInt8) ∉ body → LastLayout (w ++ (bytes "//" ++ body))

/-- Operators and punctuation. -/
def symbols : List (String × Tok) :=
  [("(", .openParen), (")", .closeParen), ("{", .openCurly), ("}", .closeCurly), ("[", .openSquare),
   ("]", .closeSquare), ("+", .plus), ("-", .minus), ("*", .star), ("/", .slash), ("%", .percent),
   ("<", .lt), (">", .gt), ("=", .equal), ("!", .bang), ("&", .and), ("|", .or), ("<<", .shiftLeft),
   (">>", .shiftRight), (",", .comma), (";", .semi), (":", .colon), (".", .dot), ("...", .ellipsis),
   ("&&", .logAnd), ("||", .logOr), (":=", .declare), ("::", .declareConst), ("+=", .plusEqual),
   ("-=", .minusEqual), ("*=", .starEqual), ("/=", .slashEqual), ("%=", .percentEqual), ("|=", .orEqual),
   ("&=", .andEqual), ("==", .equals), ("!=", .notEquals), ("<=", .lte), (">=", .gte), ("->", .arrow),
   ("?", .question)]

/-- Reserved words other than `true` and `false`. -/
def keywords : List (String × Tok) :=
  [("null", .null), ("if", .ifTok), ("else", .elseTok), ("while", .whileTok), ("for", .forTok),
   ("return", .returnTok), ("func", .funcTok), ("foreign", .foreignTok), ("struct", .structTok),
   ("new", .newTok), ("cast", .castTok), ("break", .breakTok), ("continue", .continueTok), ("use", .useTok),
   ("foreach", .foreachTok)]

/-- A token with the data the parser takes from it. A floating-point literal is kept as its text: its value is
what the C library makes of that text. -/
inductive Token where
  | sym (k : Tok)
  | bool (b : Bool)
  | ident (name : List UInt8)
  | int (i : BitVec 32)
  | float (text : List UInt8)
  | str (content : List UInt8)
  | char (c : BitVec 32)
deriving DecidableEq, Repr

/-- Letters, decimal digits, hexadecimal digits. -/
def Letter (c : UInt8) : Prop := (65 ≤ c ∧ c ≤ 90) ∨ (97 ≤ c ∧ c ≤ 122)
def Digit (c : UInt8) : Prop := 48 ≤ c ∧ c ≤ 57
def HexLetter (c : UInt8) : Prop := (65 ≤ c ∧ c ≤ 70) ∨ (97 ≤ c ∧ c ≤ 102)

instance : DecidablePred Letter := fun _ => inferInstanceAs (Decidable (_ ∨ _))
instance : DecidablePred Digit := fun _ => inferInstanceAs (Decidable (_ ∧ _))
instance : DecidablePred HexLetter := fun _ => inferInstanceAs (Decidable (_ ∨ _))

/-- Identifiers and keywords: a letter, then letters, digits and underscores. -/
def IsWord : List UInt8 → Prop
  | [] => False
  | c :: cs => Letter c ∧ ∀ d ∈ cs, Letter d ∨ Digit d ∨ d = 95

/-- Value of a digit. -/
def digitValue (c : UInt8) : Nat :=
  if 97 ≤ c then c.toNat - 87 else if 65 ≤ c then c.toNat - 55 else c.toNat - 48

/-- Value of a string of digits, most significant first. -/
def valueIn (base : Nat) (ds : List UInt8) : Nat := ds.foldl (fun a c => a * base + digitValue c) 0

/-- Numerals as the language has them: a digit first; then digits, at most one `x`, at most one point, and
after the `x` also the letters a-f, A-F. (So `1.5`, `0xff`, but also `12x` or `0x1.8`.) -/
def IsNumeral (s : List UInt8) : Prop :=
  (∃ d ds, s = d :: ds ∧ Digit d) ∧
  (∀ c ∈ s, Digit c ∨ c = 120 ∨ c = 46 ∨ HexLetter c) ∧
  s.count 120 ≤ 1 ∧ s.count 46 ≤ 1 ∧
  (∀ a c b, s = a ++ c :: b → HexLetter c → 120 ∈ a)

/-- The number written by a numeral with an `x`: the digits after `0x` if there are any, otherwise what
precedes the `x`, in base 16. -/
def hexValue : List UInt8 → Nat
  | 48 :: 120 :: d :: ds => valueIn 16 (d :: ds)
  | s => valueIn 16 (s.takeWhile (· != 120))

/-- An integer literal is clamped to 64 bits and then reduced to a 32-bit `int`. -/
def toInt32 (n : Nat) : BitVec 32 := BitVec.ofNat 32 (min n (2 ^ 63 - 1))

/-- What `\c` stands for. -/
def unescape (c : UInt8) : UInt8 :=
  if c = 116 then 9 else if c = 110 then 10 else if c = 114 then 13 else if c = 98 then 8 else c

/-- `Quoted s b`: `s`, between double quotes, denotes the bytes `b`. -/
inductive Quoted : List UInt8 → List UInt8 → Prop
  | nil : Quoted [] []
  | plain {c s b} : c ≠ 34 → c ≠ 92 → Quoted s b → Quoted (c :: s) (c :: b)
  | escape {c s b} : Quoted s b → Quoted (92 :: c :: s) (unescape c :: b)

/-- `CharText s c`: `s`, between single quotes, denotes the byte `c`. -/
inductive CharText : List UInt8 → UInt8 → Prop
  | plain {c} : c ≠ 92 → CharText [c] c
  | escape {c} : CharText [92, c] (unescape c)

/-- `Spelled s t`: `s` is a spelling of the token `t`. -/
inductive Spelled : List UInt8 → Token → Prop
  | sym {s k} : (s, k) ∈ symbols → Spelled (bytes s) (.sym k)
  | keyword {s k} : (s, k) ∈ keywords → Spelled (bytes s) (.sym k)
  | true : Spelled (bytes "true") (.bool true)
  | false : Spelled (bytes "false") (.bool false)
  | ident {s} : IsWord s → (∀ k ∈ keywords, s ≠ bytes k.1) → s ≠ bytes "true" → s ≠ bytes "false" →
      Spelled s (.ident s)
  | dec {s} : IsNumeral s → 120 ∉ s → 46 ∉ s → Spelled s (.int (toInt32 (valueIn 10 s)))
  | hex {s} : IsNumeral s → 120 ∈ s → 46 ∉ s → Spelled s (.int (toInt32 (hexValue s)))
  | float {s} : IsNumeral s → 46 ∈ s → Spelled s (.float s)
  | str {s b} : Quoted s b → Spelled (34 :: s ++ [34]) (.str b)
  | char {s c} : CharText s c → Spelled (39 :: s ++ [39]) (.char (c.toBitVec.signExtend 32))

/-- The longest reading is taken: in `s ++ u`, the token `s` ends where `u` starts only if no longer prefix
spells a token; and a `//` would start a comment. -/
def Longest (s u : List UInt8) : Prop :=
  (∀ s' t', Spelled s' t' → s' <+: s ++ u → s'.length ≤ s.length) ∧ ¬ bytes "//" <+: s ++ u

/-- A token in a source: what it is, its line as the lexer counts lines, its text, the text after it. -/
structure Item where
  tok : Token
  line : Nat
  text : List UInt8
  after : List UInt8

/-- `Reads n src ts m`: the source `src`, starting on line `n`, consists of the tokens `ts`; lines are counted by
the newlines *between* tokens; the end of the source is on line `m`. -/
inductive Reads : Nat → List UInt8 → List Item → Nat → Prop
  | done {n w} : LastLayout w → Reads n w [] (n + newlines w)
  | token {n w s u t ts m} : Layout w → Spelled s t → Longest s u → Reads (n + newlines w) u ts m →
      Reads n (w ++ s ++ u) (⟨t, n + newlines w, s, u⟩ :: ts) m

/-- An unterminated string literal: from a double quote on, no closing one. -/
inductive OpenString : List UInt8 → Prop
  | plain {s b} : Quoted s b → OpenString (34 :: s)
  | escape {s b} : Quoted s b → OpenString (34 :: s ++ [92])

/-- A source in which, after some tokens, a string literal is opened and never closed. -/
inductive Unterminated : List UInt8 → Prop
  | here {w X} : Layout w → OpenString X → Unterminated (w ++ X)
  | later {w s u t} : Layout w → Spelled s t → Longest s u → Unterminated u → Unterminated (w ++ s ++ u)

/-- A source which, after some tokens, has a text that is neither layout nor starts with a token, nor with an
unterminated string. -/
inductive Malformed : List UInt8 → Prop
  | here {w c X} : Layout w → ¬ Blank c → ¬ bytes "//" <+: c :: X → ¬ OpenString (c :: X) →
      (∀ s t, Spelled s t → ¬ s <+: c :: X) → Malformed (w ++ c :: X)
  | later {w s u t} : Layout w → Spelled s t → Longest s u → Malformed u → Malformed (w ++ s ++ u)

/-- Separators: `weave w₀ [(s₁, w₁), (s₂, w₂), ...]` is `w₀ s₁ w₁ s₂ w₂ ...`. -/
def weave (w : List UInt8) : List (List UInt8 × List UInt8) → List UInt8
  | [] => w
  | (s, w') :: r => w ++ s ++ weave w' r

/-- The decimal digits of a number. -/
def decimal (n : Nat) : List UInt8 :=
  if n < 10 then [UInt8.ofNat (48 + n)] else decimal (n / 10) ++ [UInt8.ofNat (48 + n % 10)]
termination_by n

/-- A way to write a byte between double quotes. -/
def escapeByte (c : UInt8) : List UInt8 :=
  if c = 34 then [92, 34] else if c = 92 then [92, 92] else if c = 10 then [92, 110]
  else if c = 9 then [92, 116] else if c = 13 then [92, 114] else if c = 8 then [92, 98] else [c]

end Tiny.Spec
