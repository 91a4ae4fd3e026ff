import Verif.Model.StdString

/-!
# What the string functions are about: values that are strings
-/

namespace Tiny.Spec

/-- `v` is a string of these bytes: a constant whose text is `b`, or a live string object holding `b`. -/
def IsStr (cmem : Nat → List UInt8) (h : Heap) : Value → List UInt8 → Prop
  | .cstr p, b => b = (cmem p).takeWhile (· ≠ 0)
  | .str o, b => o ∈ h.list ∧ h.obj o = .str b
  | _, _ => False

/-- The values `vs` are strings, of the bytes `bs` in order. -/
def AreStrs (cmem : Nat → List UInt8) (h : Heap) : List Value → List (List UInt8) → Prop
  | [], [] => True
  | v :: vs, b :: bs => IsStr cmem h v b ∧ AreStrs cmem h vs bs
  | _, _ => False

/-- `h'` extends `h`: whatever was live still is, unchanged. -/
structure Extends (h h' : Heap) : Prop where
  live : ∀ o ∈ h.list, o ∈ h'.list
  same : ∀ o ∈ h.list, h'.obj o = h.obj o
  fresh : ∀ o ∈ h'.list, o < h'.next
  freed : h'.freed = h.freed

/-- A `Value` for a number. -/
def intVal (n : Int) : Value := .int (BitVec.ofInt 64 n)

/-- A C `int`. -/
def Fits32 (n : Int) : Prop := -2 ^ 31 ≤ n ∧ n < 2 ^ 31

instance (n : Int) : Decidable (Fits32 n) := inferInstanceAs (Decidable (_ ∧ _))

end Tiny.Spec
