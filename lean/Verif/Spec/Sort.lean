import Verif.Model.Value
import Verif.Model.Basic

/-!
# What sorting should be
-/

namespace Tiny

/-- The contract of `qsort` (C11 7.22.5.2) with the comparison `cmp`: if on the elements of the list every comparison
returns and the comparisons are consistent with a total preorder (`cmp a b ≤ 0` is transitive, and `cmp a b` and
`cmp b a` have opposite signs), the result is a rearrangement in which no element compares greater than a later
one. -/
def QsortContract (cmp : Value → Value → Res (BitVec 32)) (qsort : List Value → List Value) : Prop :=
  ∀ l : List Value, ∀ c : Value → Value → Int,
    (∀ a ∈ l, ∀ b ∈ l, ∃ x, cmp a b = .ok x ∧ x.toInt = c a b) →
    (∀ a ∈ l, ∀ b ∈ l, (c a b < 0 ↔ 0 < c b a)) →
    (∀ a ∈ l, ∀ b ∈ l, ∀ d ∈ l, c a b ≤ 0 → c b d ≤ 0 → c a d ≤ 0) →
    (qsort l).Perm l ∧ (qsort l).Pairwise (fun a b => c a b ≤ 0)

/-- The value of an integer. -/
def intOf : Value → Int
  | .int i => i.toInt
  | _ => 0

end Tiny
