import Verif.Model.Array

/-!
# What an array should be

A mathematical list; `touched` records whether the array ever got storage (clearing an array that
never held anything is undefined in the C code).  `none` means: the history resizes a non-empty
array upwards, about which this specification says nothing (see C06).
-/

namespace Tiny.Spec
open Arr

variable {α : Type}

/-- List after an operation, its output, and whether the call is allowed. -/
def arrStep (touched : Bool) (l : List α) : Op α → Option (Res (Bool × List α × Out α))
  | .push v => some (.ok (true, l ++ [v], .unit))
  | .pop => some (match l.getLast? with
      | some v => .ok (true, l.dropLast, .val v)
      | none => .abort)
  | .shift => some (match l with
      | v :: t => .ok (true, t, .val v)
      | [] => .abort)
  | .insert i v => some (if 0 ≤ i ∧ i < l.length then .ok (true, l.insertIdx i.toNat v, .unit) else .abort)
  | .remove i => some (if 0 ≤ i ∧ i < l.length then .ok (true, l.eraseIdx i.toNat, .unit) else .abort)
  | .set i v => some (if 0 ≤ i ∧ i < l.length then .ok (true, l.set i.toNat v, .unit) else .abort)
  | .get i => some (match (if 0 ≤ i then l[i.toNat]? else none) with
      | some v => .ok (true, l, .val v)
      | none => .abort)
  | .len => some (.ok (touched, l, .num l.length))
  | .clear => some (if touched then .ok (true, [], .unit) else .ub)
  | .resize n v =>
    if n < 0 then some .abort
    else if n ≤ l.length then some (if touched then .ok (true, l.take n.toNat, .unit) else .ub)
    else if l = [] then some (.ok (true, List.replicate n.toNat v, .unit))
    else none

/-- Outputs of a history. -/
def arrRun (touched : Bool) (l : List α) : List (Op α) → Option (Res (List (Out α)))
  | [] => some (.ok [])
  | op :: ops =>
    match arrStep touched l op with
    | none => none
    | some (.ok (t, l', o)) =>
      match arrRun t l' ops with
      | none => none
      | some r => some (do let os ← r; pure (o :: os))
    | some .abort => some .abort
    | some .ub => some .ub
    | some .limit => some .limit
    | some .timeout => some .timeout

end Tiny.Spec
