import Verif.Model.StdPrint
import Verif.Spec.Str
import Verif.Spec.Lex

/-!
# What `printf` is to write
-/

namespace Tiny.Spec
open Tiny.Std

/-- The directives. `other c` is one which is not documented. -/
inductive Directive where
  | int | float | str | char | quote
  | other (c : UInt8)
deriving DecidableEq, Repr

/-- How a directive is written in a format, after the `%`. -/
def Directive.letter : Directive → UInt8
  | .int => b! 'i'
  | .float => b! 'f'
  | .str => b! 's'
  | .char => b! 'c'
  | .quote => b! 'q'
  | .other c => c

/-- A part of a format. -/
inductive FormatPart where
  | text (b : List UInt8)
  | dir (d : Directive)
deriving DecidableEq, Repr

/-- A format as text. -/
def formatText : List FormatPart → List UInt8
  | [] => []
  | .text b :: ps => b ++ formatText ps
  | .dir d :: ps => b! '%' :: d.letter :: formatText ps

/-- No NUL, no `%` in the text between directives; `other` is no other directive (and not the end of the format). -/
def GoodPart : FormatPart → Prop
  | .text b => ∀ c ∈ b, c ≠ 0 ∧ c ≠ b! '%'
  | .dir (.other c) => c ∉ (bytes "ifscq") ∧ c ≠ 0
  | .dir _ => True

/-- The decimal text of an integer: digits, with a minus sign in front of negative ones. -/
def number (n : Int) : List UInt8 := if n < 0 then bytes "-" ++ decimal n.natAbs else decimal n.natAbs

/-- Texts with `", "` in between. -/
def commas : List (List UInt8) → List UInt8
  | [] => []
  | [t] => t
  | t :: ts => t ++ bytes ", " ++ commas ts

/-- `%q`: how a value is shown. Strings are quoted, up to their first NUL; of arrays and structs all elements and fields
are shown; nothing is shown of a bool. -/
inductive Shows (E : PrintEnv) (h : Heap) : Value → List UInt8 → Prop where
  | null : Shows E h .null (bytes "<null>")
  | bool {b} : Shows E h (.bool b) []
  | int {i} : Shows E h (.int i) (number i.toInt)
  | float {f} : Shows E h (.float f) (E.fmtF f)
  | string {v s} : IsStr E.cmem h v s → s.length < 2 ^ 31 → Shows E h v (bytes "\"" ++ s.takeWhile (· ≠ 0) ++ bytes "\"")
  | light {p} : Shows E h (.light p) (bytes "<light native at " ++ E.fmtP p ++ bytes ">")
  | named {o a p n} : o ∈ h.list → h.obj o = .native a p → p ≠ arrayProp → E.propName p = some n →
      Shows E h (.native o) (bytes "<native '" ++ n ++ bytes "' at " ++ E.fmtP a ++ bytes ">")
  | unnamed {o a p} : o ∈ h.list → h.obj o = .native a p → p ≠ arrayProp → E.propName p = none →
      Shows E h (.native o) (bytes "<native at " ++ E.fmtP a ++ bytes ">")
  | array {o a} {ts : List (List UInt8)} : o ∈ h.list → h.obj o = .native a arrayProp → ts.length = (h.natRefs a arrayProp).length →
      (∀ (k : Nat) v t, (h.natRefs a arrayProp)[k]? = some v → ts[k]? = some t → Shows E h v t) →
      Shows E h (.native o) (bytes "[" ++ commas ts ++ bytes "]")
  | struct {o fs} {ts : List (List UInt8)} : o ∈ h.list → h.obj o = .struct fs → ts.length = fs.length →
      (∀ (k : Nat) v t, fs[k]? = some v → ts[k]? = some t → Shows E h v t) →
      Shows E h (.struct o) (bytes "struct {" ++ commas ts ++ bytes "}")

/-- What is written for a directive and its argument. -/
inductive Fills (E : PrintEnv) (h : Heap) : Directive → Value → List UInt8 → Prop where
  | int {i} : Fills E h .int (.int i) (number i.toInt)
  | float {f} : Fills E h .float (.float f) (E.fmtF f)
  | str {v s} : IsStr E.cmem h v s → s.length < 2 ^ 31 → Fills E h .str v (s.takeWhile (· ≠ 0))
  | char {c : UInt8} : Fills E h .char (.int (BitVec.ofNat 64 c.toNat)) [c]
  | quote {v t} : Shows E h v t → Fills E h .quote v t
  | other {c v} : Fills E h (.other c) v ((if c = b! '%' then bytes "%" else []) ++ (bytes "\nInvalid format specifier '" ++ [c] ++ bytes "'\n"))

/-- What is written for a format and arguments: the text as it is, for each directive its own argument, in order;
arguments left over are ignored. -/
inductive Prints (E : PrintEnv) (h : Heap) : List FormatPart → List Value → List UInt8 → Prop where
  | done {vs} : Prints E h [] vs []
  | text {b ps vs out} : Prints E h ps vs out → Prints E h (.text b :: ps) vs (b ++ out)
  | dir {d v t ps vs out} : Fills E h d v t → Prints E h ps vs out → Prints E h (.dir d :: ps) (v :: vs) (t ++ out)

/-- The directives for which there are arguments can be written, and then there is one without. -/
inductive TooFew (E : PrintEnv) (h : Heap) : List FormatPart → List Value → Prop where
  | here {d ps} : TooFew E h (.dir d :: ps) []
  | text {b ps vs} : TooFew E h ps vs → TooFew E h (.text b :: ps) vs
  | dir {d v t ps vs} : Fills E h d v t → TooFew E h ps vs → TooFew E h (.dir d :: ps) (v :: vs)

end Tiny.Spec
