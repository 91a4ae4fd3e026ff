import Verif.Model.Op

/-!
# Integer arithmetic of the language, on mathematical integers
-/

namespace Tiny.Spec

/-- The number keeps only its low 32 bits, read as a signed number. -/
def wrap32 (x : Int) : Int := (x + 2 ^ 31) % 2 ^ 32 - 2 ^ 31

/-- The number fits a 64-bit signed integer. -/
def Fits64 (x : Int) : Prop := -2 ^ 63 ≤ x ∧ x < 2 ^ 63

instance (x : Int) : Decidable (Fits64 x) := inferInstanceAs (Decidable (_ ∧ _))

/-- The integer operators; `none` where the C program has undefined behaviour: overflow of 64 bits,
division by zero, shift counts outside 0..63, left shifts of negative numbers. Division truncates
towards zero. `%`, `|`, `&`, `<<`, `>>` keep 32 bits. -/
def intOp : Op → Int → Int → Option Int
  | .add, x, y => if Fits64 (x + y) then some (x + y) else none
  | .sub, x, y => if Fits64 (x - y) then some (x - y) else none
  | .mul, x, y => if Fits64 (x * y) then some (x * y) else none
  | .div, x, y => if y ≠ 0 ∧ Fits64 (x.tdiv y) then some (x.tdiv y) else none
  | .mod, x, y => if y ≠ 0 ∧ Fits64 (x.tdiv y) then some (wrap32 (x.tmod y)) else none
  | .or, x, y => some (wrap32 (BitVec.ofInt 64 x ||| BitVec.ofInt 64 y).toInt)
  | .and, x, y => some (wrap32 (BitVec.ofInt 64 x &&& BitVec.ofInt 64 y).toInt)
  | .shl, x, y =>
    if 0 ≤ y ∧ y < 64 ∧ 0 ≤ x ∧ Fits64 (x * 2 ^ y.toNat) then some (wrap32 (x * 2 ^ y.toNat)) else none
  | .shr, x, y => if 0 ≤ y ∧ y < 64 then some (wrap32 (x / 2 ^ y.toNat)) else none
  | _, _, _ => none

/-- The integer comparisons. -/
def intCmp : Op → Int → Int → Option Bool
  | .lt, x, y => some (decide (x < y))
  | .lte, x, y => some (decide (x ≤ y))
  | .gt, x, y => some (decide (x > y))
  | .gte, x, y => some (decide (x ≥ y))
  | _, _, _ => none

end Tiny.Spec
