import Verif.Model.Basic

/-!
# Character classes and number conversion of the C library

`isspace`, `isdigit`, `isalpha`, `isalnum`, `isxdigit` in the "C" locale and `strtol`/`strtoll`, as used by
tiny/src/lexer.c and tiny/src/std.c. A `char` is a byte; bytes from 128 on belong to no class (the
C code passes them as negative numbers, which glibc answers the same way).
-/

namespace Tiny

/-- The byte of an ASCII character literal: `b! 'x'`. -/
macro "b!" c:char : term =>
  `(($(Lean.Syntax.mkNumLit (toString c.getChar.toNat)) : UInt8))

/-- `isspace` (C locale): blank, `\t`, `\n`, `\v`, `\f`, `\r`. -/
def isspace (c : UInt8) : Bool := c == b! ' ' || (9 ≤ c && c ≤ 13)

/-- `isdigit`. -/
def isdigit (c : UInt8) : Bool := b! '0' ≤ c && c ≤ b! '9'

/-- `islower`. -/
def islower (c : UInt8) : Bool := b! 'a' ≤ c && c ≤ b! 'z'

/-- `isupper`. -/
def isupper (c : UInt8) : Bool := b! 'A' ≤ c && c ≤ b! 'Z'

/-- `isalpha`. -/
def isalpha (c : UInt8) : Bool := islower c || isupper c

/-- `isalnum`. -/
def isalnum (c : UInt8) : Bool := isalpha c || isdigit c

/-- `isxdigit`. -/
def isxdigit (c : UInt8) : Bool :=
  isdigit c || (b! 'a' ≤ c && c ≤ b! 'f') || (b! 'A' ≤ c && c ≤ b! 'F')

/-- Value of a digit in `strtol`'s sense: `0`-`9`, then `a`-`z` or `A`-`Z` from 10 on, if below `base`. -/
def digitOf (base : Nat) (c : UInt8) : Option Nat :=
  let d :=
    if isdigit c then c.toNat - 48
    else if islower c then c.toNat - 97 + 10
    else if isupper c then c.toNat - 65 + 10
    else base
  if d < base then some d else none

/-- Accumulate digits up to the first byte that is not one. -/
def digitsFrom (base : Nat) : Nat → List UInt8 → Nat
  | acc, [] => acc
  | acc, c :: cs =>
    match digitOf base c with
    | some d => digitsFrom base (acc * base + d) cs
    | none => acc

/-- The optional `0x` of base 16, which a digit must follow. -/
def skipPrefix (base : Nat) (s : List UInt8) : List UInt8 :=
  match s with
  | z :: x :: c :: r =>
    if base = 16 ∧ z = b! '0' ∧ (x = b! 'x' ∨ x = b! 'X') ∧ (digitOf 16 c).isSome then c :: r else s
  | _ => s

/-- `strtol` and `strtoll` with 64-bit `long` (tiny/src/lexer.c:211, 215; tiny/src/std.c:518) for bases 2..36:
skip white space, an optional sign, for base 16 an optional `0x` which a digit must follow, the digits; values
outside the range are clamped. Base 0 (auto-detection) is not modelled. -/
def strtol (base : Nat) (s : List UInt8) : Int :=
  let s := s.dropWhile isspace
  let neg := s.head? == some (b! '-')
  let s := if neg || s.head? == some (b! '+') then s.tail else s
  let n : Int := digitsFrom base 0 (skipPrefix base s)
  let v := if neg then -n else n
  max (-2 ^ 63) (min (2 ^ 63 - 1) v)

end Tiny
