import Verif.Model.Value

/-! Helper lemmas about value equality and hashing. -/

namespace Tiny

/-- The part of a byte string that `strncmp` and the hash look at. -/
def untilNul (bs : List UInt8) : List UInt8 := bs.takeWhile (· ≠ 0)

theorem untilNul_cons (c : UInt8) (cs : List UInt8) :
    untilNul (c :: cs) = if c = 0 then [] else c :: untilNul cs := by
  by_cases h : c = 0 <;> simp [untilNul, List.takeWhile, h]

theorem strncmpEq_iff : ∀ (n : Nat) (a b : List UInt8), a.length = n → b.length = n →
    (strncmpEq n a b = true ↔ untilNul a = untilNul b)
  | 0, a, b, ha, hb => by
    rw [List.length_eq_zero_iff] at ha hb
    subst ha hb
    simp [strncmpEq]
  | n + 1, [], _, ha, _ => by simp at ha
  | n + 1, _ :: _, [], _, hb => by simp at hb
  | n + 1, x :: a, y :: b, ha, hb => by
    simp only [List.length_cons, Nat.add_right_cancel_iff] at ha hb
    have ih := strncmpEq_iff n a b ha hb
    simp only [strncmpEq, untilNul_cons]
    by_cases hxy : x = y
    · subst hxy
      by_cases hx : x = 0
      · simp [hx]
      · simp [hx, ih]
    · by_cases hx : x = 0
      · have hy : y ≠ 0 := fun h => hxy (hx.trans h.symm)
        simp [hxy, hx, hy]
        exact fun h => absurd h.symm hy
      · by_cases hy : y = 0
        · simp [hy, hx]
        · simp [hxy, hx, hy]

theorem stringsEq_iff (a b : List UInt8) :
    stringsEq a b = true ↔ a.length = b.length ∧ untilNul a = untilNul b := by
  unfold stringsEq
  by_cases h : a.length = b.length
  · simp [h, strncmpEq_iff b.length a b h rfl]
  · simp [h]

theorem hashLoop_untilNul : ∀ (bs : List UInt8) (h : BitVec 64),
    hashLoop h bs = hashLoop h (untilNul bs)
  | [], _ => rfl
  | c :: cs, h => by
    rw [untilNul_cons]
    by_cases hc : c = 0
    · simp [hashLoop, hc]
    · simp only [hashLoop, hc, if_false]
      exact hashLoop_untilNul cs _

theorem hashBytes_congr {a b : List UInt8} (h : stringsEq a b = true) :
    hashBytes a = hashBytes b := by
  rw [stringsEq_iff] at h
  unfold hashBytes
  rw [hashLoop_untilNul a, hashLoop_untilNul b, h.2]

theorem stringsEq_refl (a : List UInt8) : stringsEq a a = true := by simp [stringsEq_iff]

theorem stringsEq_symm {a b : List UInt8} (h : stringsEq a b = true) : stringsEq b a = true := by
  rw [stringsEq_iff] at *; exact ⟨h.1.symm, h.2.symm⟩

theorem stringsEq_trans {a b c : List UInt8} (h : stringsEq a b = true)
    (h' : stringsEq b c = true) : stringsEq a c = true := by
  rw [stringsEq_iff] at *; exact ⟨h.1.trans h'.1, h.2.trans h'.2⟩

theorem floatEq_symm {a b : BitVec 64} (h : floatEq a b = true) : floatEq b a = true := by
  simp only [floatEq, Bool.and_eq_true, Bool.or_eq_true, Bool.not_eq_true', beq_iff_eq] at *
  obtain ⟨⟨h1, h2⟩, h3⟩ := h
  refine ⟨⟨h2, h1⟩, ?_⟩
  rcases h3 with h3 | h3
  · exact Or.inl h3.symm
  · exact Or.inr ⟨h3.2, h3.1⟩

theorem floatEq_trans {a b c : BitVec 64} (h : floatEq a b = true) (h' : floatEq b c = true) :
    floatEq a c = true := by
  simp only [floatEq, Bool.and_eq_true, Bool.or_eq_true, Bool.not_eq_true', beq_iff_eq] at *
  obtain ⟨⟨h1, h2⟩, h3⟩ := h
  obtain ⟨⟨h1', h2'⟩, h3'⟩ := h'
  refine ⟨⟨h1, h2'⟩, ?_⟩
  rcases h3 with h3 | h3 <;> rcases h3' with h3' | h3'
  · exact Or.inl (h3.trans h3')
  · right; subst h3; exact h3'
  · right; subst h3'; exact h3
  · right; exact ⟨h3.1, h3'.2⟩

theorem cstrEq_iff (m : Mem) (a b : Nat) :
    areValuesEqual m (.cstr a) (.cstr b) = stringsEq (m.cstrBytes a) (m.cstrBytes b) := by
  simp only [areValuesEqual]
  split
  · next h => subst h; simp [stringsEq_refl]
  · rfl

theorem areValuesEqual_symm (m : Mem) {a b : Value} (h : areValuesEqual m a b = true) :
    areValuesEqual m b a = true := by
  cases a <;> cases b <;> first
    | (simp [areValuesEqual] at h; done)
    | (rw [cstrEq_iff] at *; exact stringsEq_symm h)
    | (simp only [areValuesEqual] at *; exact stringsEq_symm h)
    | (simp only [areValuesEqual] at *; exact floatEq_symm h)
    | (simp only [areValuesEqual, beq_iff_eq] at *; exact h.symm)
    | exact h

theorem areValuesEqual_trans (m : Mem) {a b c : Value} (h : areValuesEqual m a b = true)
    (h' : areValuesEqual m b c = true) : areValuesEqual m a c = true := by
  cases a <;> cases b <;> first
    | (simp [areValuesEqual] at h; done)
    | (cases c <;> first
        | (simp [areValuesEqual] at h'; done)
        | (simp only [cstrEq_iff] at *; simp only [areValuesEqual] at *
           exact stringsEq_trans h h')
        | (simp only [cstrEq_iff] at *; exact stringsEq_trans h h')
        | (simp only [areValuesEqual] at *; exact stringsEq_trans h h')
        | (simp only [areValuesEqual] at *; exact floatEq_trans h h')
        | (simp only [areValuesEqual, beq_iff_eq] at *; exact h.trans h')
        | exact h')

/-- Equal values hash alike (floats and null do not hash at all). -/
theorem hashValue_congr (m : Mem) {a b : Value} (h : areValuesEqual m a b = true) :
    hashValue m a = hashValue m b := by
  cases a <;> cases b <;> first
    | (simp [areValuesEqual] at h; done)
    | (rw [cstrEq_iff] at h; simp only [hashValue]; rw [hashBytes_congr h])
    | (simp only [areValuesEqual] at h; simp only [hashValue]; rw [hashBytes_congr h])
    | (simp only [areValuesEqual, beq_iff_eq] at h; simp only [hashValue]; rw [h])
    | rfl

theorem areValuesEqual_refl (m : Mem) {a : Value} (h : ∀ f, a = .float f → isNaNBits f = false) :
    areValuesEqual m a a = true := by
  cases a <;> simp [areValuesEqual, stringsEq_refl, floatEq]
  exact h _ rfl

theorem areValuesEqual_comm (m : Mem) (a b : Value) :
    areValuesEqual m a b = areValuesEqual m b a := by
  rw [Bool.eq_iff_iff]
  exact ⟨areValuesEqual_symm m, areValuesEqual_symm m⟩

theorem areValuesEqual_null_left (m : Mem) (b : Value) :
    areValuesEqual m .null b = true → b = .null := by
  cases b <;> simp [areValuesEqual]

theorem isNull_iff (v : Value) : v.isNull = true ↔ v = .null := by
  cases v <;> simp [Value.isNull]

theorem isNull_false_iff (v : Value) : v.isNull = false ↔ v ≠ .null := by
  cases v <;> simp [Value.isNull]

end Tiny
