import Verif.Proofs.Value

/-!
# C04: equality of values
-/

namespace Tiny

/-- **C04**, symmetry of `Tiny_AreValuesEqual`. -/
theorem c04_equal_symm (m : Mem) (a b : Value) :
    areValuesEqual m a b = areValuesEqual m b a := areValuesEqual_comm m a b

/-- **C04**, transitivity. -/
theorem c04_equal_trans (m : Mem) (a b c : Value) (h : areValuesEqual m a b = true)
    (h' : areValuesEqual m b c = true) : areValuesEqual m a c = true := areValuesEqual_trans m h h'

/-- **C04**, reflexivity: exactly the NaN floats are not equal to themselves. -/
theorem c04_equal_refl (m : Mem) (a : Value) :
    areValuesEqual m a a = true ↔ ¬ ∃ f, a = .float f ∧ isNaNBits f = true := by
  constructor
  · rintro h ⟨f, rfl, hf⟩
    simp [areValuesEqual, floatEq, hf] at h
  · intro h
    apply areValuesEqual_refl
    rintro f rfl
    rw [Bool.eq_false_iff]
    exact fun hf => h ⟨f, rfl, hf⟩

/-- **C04**, equal values have the same hash (or both refuse to hash). -/
theorem c04_equal_hash (m : Mem) (a b : Value) (h : areValuesEqual m a b = true) :
    hashValue m a = hashValue m b := hashValue_congr m h

/-- **C04**, two strings, of either kind, are equal exactly when they have the same length and the
same bytes up to the first NUL. -/
theorem c04_strings (m : Mem) (a b : Value) (x y : List UInt8) (ha : a.bytes m = some x)
    (hb : b.bytes m = some y) :
    areValuesEqual m a b = true ↔
      x.length = y.length ∧ x.takeWhile (· ≠ 0) = y.takeWhile (· ≠ 0) := by
  cases a <;> cases b <;> simp only [Value.bytes, Option.some.injEq, reduceCtorEq] at ha hb
  all_goals
    subst ha hb
    first
    | (rw [cstrEq_iff, stringsEq_iff]; rfl)
    | (simp only [areValuesEqual]; rw [stringsEq_iff]; rfl)

/-- **C04**, so for strings without NUL bytes equality is equality of contents, whichever way the
strings are stored. -/
theorem c04_strings_without_nul (m : Mem) (a b : Value) (x y : List UInt8) (ha : a.bytes m = some x)
    (hb : b.bytes m = some y) (hx : 0 ∉ x) (hy : 0 ∉ y) :
    areValuesEqual m a b = true ↔ x = y := by
  have tw : ∀ l : List UInt8, 0 ∉ l → l.takeWhile (· ≠ 0) = l := by
    intro l hl
    induction l with
    | nil => rfl
    | cons c l ih =>
      simp only [List.mem_cons, not_or] at hl
      rw [List.takeWhile_cons]
      have : c ≠ 0 := fun h => hl.1 h.symm
      simp only [ne_eq, this, not_false_eq_true, decide_true, if_true]
      exact congrArg (c :: ·) (ih hl.2)
  rw [c04_strings m a b x y ha hb, tw x hx, tw y hy]
  constructor
  · exact fun h => h.2
  · rintro rfl; exact ⟨rfl, rfl⟩

/-- **C04**, a value and a value of another kind are never equal, except two kinds of string. -/
theorem c04_kinds (m : Mem) (a b : Value) (h : areValuesEqual m a b = true) :
    a.ctorIdx = b.ctorIdx ∨ ((a.bytes m).isSome ∧ (b.bytes m).isSome) := by
  cases a <;> cases b <;> first
    | (left; rfl)
    | (right; simp [Value.bytes]; done)
    | (simp [areValuesEqual] at h; done)

/-- **C04**, the values which are not strings: booleans, integers and light natives are equal exactly if they are the
same value, structs exactly if they are the same object, natives exactly if they wrap the same address (whichever
objects hold it), floats exactly if they have the same value (equal bits, or both a zero; NaN equals nothing), `null` equals `null`. -/
theorem c04_other_kinds (m : Mem) :
    areValuesEqual m .null .null = true ∧
    (∀ a b, areValuesEqual m (.bool a) (.bool b) = true ↔ a = b) ∧
    (∀ a b, areValuesEqual m (.int a) (.int b) = true ↔ a = b) ∧
    (∀ a b, areValuesEqual m (.light a) (.light b) = true ↔ a = b) ∧
    (∀ a b, areValuesEqual m (.struct a) (.struct b) = true ↔ a = b) ∧
    (∀ a b, areValuesEqual m (.native a) (.native b) = true ↔ m.natAddr a = m.natAddr b) ∧
    (∀ a b, areValuesEqual m (.float a) (.float b) = true ↔
      isNaNBits a = false ∧ isNaNBits b = false ∧ (a = b ∨ (a.toNat % 2 ^ 63 = 0 ∧ b.toNat % 2 ^ 63 = 0))) := by
  refine ⟨rfl, ?_, ?_, ?_, ?_, ?_, ?_⟩ <;> intro a b
  · simp [areValuesEqual]
  · simp [areValuesEqual]
  · simp [areValuesEqual]
  · simp [areValuesEqual]
  · simp [areValuesEqual]
  · have z : ∀ x : BitVec 64, x <<< 1 = 0#64 ↔ x.toNat % 2 ^ 63 = 0 := by
      intro x
      rw [← BitVec.toNat_inj, BitVec.toNat_shiftLeft]
      simp only [BitVec.toNat_ofNat, Nat.shiftLeft_eq]
      omega
    simp [areValuesEqual, floatEq, z, and_assoc]

/-- Two different native objects which wrap the same address are equal, two which wrap different ones are not. -/
example : ∃ m : Mem, areValuesEqual m (.native 1) (.native 2) = true ∧ areValuesEqual m (.native 1) (.native 3) = false :=
  ⟨⟨fun o => .native (if o = 3 then 8 else 7) default, fun _ => []⟩, by decide⟩

/-- Strings with embedded NUL bytes: the equality ignores what follows the NUL, so two strings
with different contents compare equal.  (Why the theorem above needs its hypothesis.) -/
theorem c04_embedded_nul_witness : ∃ (m : Mem) (a b : Value), a.bytes m ≠ b.bytes m ∧
    areValuesEqual m a b = true :=
  ⟨⟨fun o => if o = 0 then .str [97, 0, 98] else .str [97, 0, 99], fun _ => []⟩, .str 0, .str 1,
    by decide, by decide⟩

example : ∃ m : Mem, (Value.str 1).bytes m = some [97, 98] ∧ (Value.cstr 1).bytes m = some [97, 98] ∧
    areValuesEqual m (.str 1) (.cstr 1) = true ∧ areValuesEqual m (.str 1) (.cstr 2) = false :=
  ⟨⟨fun _ => .str [97, 98], fun p => if p = 1 then [97, 98] else [97]⟩, by decide⟩

end Tiny
