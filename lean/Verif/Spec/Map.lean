import Verif.Model.Dict

/-!
# What a dictionary should be

Written without reference to buckets, hashes or probing.
-/

namespace Tiny.Spec

/-- Keys a script may use: everything but null, floats, and natives with a NULL address. -/
def ValidKey (m : Mem) : Value → Prop
  | .null => False
  | .float _ => False
  | .light a => a ≠ 0
  | .native o => m.natAddr o ≠ 0
  | _ => True

/-- All keys used by a history are valid. -/
def ValidOp (m : Mem) : Dict.Op → Prop
  | .set k _ => ValidKey m k
  | .remove k => ValidKey m k
  | .clear => True

/-- The value a map should hold for `k` after a history, *most recent call first*: look back for the
last call that concerns `k`. -/
def lastBinding (m : Mem) (k : Value) : List Dict.Op → Option Value
  | [] => none
  | .set k' v :: earlier => if areValuesEqual m k' k then some v else lastBinding m k earlier
  | .remove k' :: earlier => if areValuesEqual m k' k then none else lastBinding m k earlier
  | .clear :: _ => none

/-- The same for a history written in the order of the calls. -/
def valueAfter (m : Mem) (ops : List Dict.Op) (k : Value) : Option Value :=
  lastBinding m k ops.reverse

end Tiny.Spec
