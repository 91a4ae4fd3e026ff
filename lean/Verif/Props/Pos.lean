import Verif.Proofs.Pos

/-!
# C09–C10: source positions and error messages
-/

namespace Tiny
open Spec

/-- **C09**, line numbers: for every position inside (or just after) the source the result is one
plus the number of newlines before the position; beyond the end the assertion fails. -/
theorem c09_line_number (src : List UInt8) (pos : Int) :
    translatePosToLineNumber src pos =
      if pos.toNat ≤ src.length then .ok (1 + newlines (src.take pos.toNat)) else .abort := by
  unfold translatePosToLineNumber
  split
  · next h => exact translateLoop_spec src _ 1 h
  · next h => exact translateLoop_abort src _ 1 (by omega)

/-- **C09**, friendly positions: line index = newlines before the position; column = distance from the
preceding newline (or the start). -/
theorem c09_friendly_pos (src : List UInt8) (pos : Nat) (h : pos < src.length) :
    posToFriendlyPos src pos =
      .ok ⟨newlines (src.take pos), lastLineLength (src.take pos)⟩ := by
  have := friendlyLoop_spec (src.length + 1) src [] pos (by omega) (by simp; omega) (by simp)
    (Or.inl rfl)
  simp only [posToFriendlyPos, Res.assert, h, decide_true, if_true, Res.bind_ok]
  simpa [newlines] using this

/-- **C09**, the two functions agree. -/
theorem c09_agree (src : List UInt8) (pos : Nat) (h : pos < src.length) (fp : FriendlyPos)
    (hf : posToFriendlyPos src pos = .ok fp) :
    translatePosToLineNumber src pos = .ok (fp.lineIndex + 1) := by
  rw [c09_friendly_pos src pos h] at hf
  cases hf
  rw [c09_line_number]
  simp only [Int.toNat_natCast]
  rw [if_pos (by omega), Nat.add_comm]

theorem newlines_append (a b : List UInt8) : newlines (a ++ b) = newlines a + newlines b := by
  simp [newlines]

theorem lastLineLength_le (t : List UInt8) : lastLineLength t ≤ t.length := by
  unfold lastLineLength
  have := (List.takeWhile_sublist (· ≠ (10 : UInt8)) (l := t.reverse)).length_le
  simpa using this

theorem lastLine_append_no_nl (a b : List UInt8) (h : newlines b = 0) :
    lastLineLength (a ++ b) = lastLineLength a + b.length := by
  unfold lastLineLength
  rw [List.reverse_append, List.takeWhile_append_of_pos]
  · simp; omega
  · intro c hc
    rw [List.mem_reverse] at hc
    rw [newlines, List.count_eq_zero] at h
    simp only [ne_eq, decide_eq_true_eq]
    rintro rfl
    exact h hc

/-- **C09**, line and column determine the position. -/
theorem c09_friendly_injective (src : List UInt8) (p q : Nat) (hp : p < src.length)
    (hq : q < src.length) (h : posToFriendlyPos src p = posToFriendlyPos src q) : p = q := by
  rw [c09_friendly_pos src p hp, c09_friendly_pos src q hq] at h
  injection h with h
  injection h with h1 h2
  have key : ∀ p q, p ≤ q → q < src.length → newlines (src.take p) = newlines (src.take q) →
      lastLineLength (src.take p) = lastLineLength (src.take q) → p = q := by
    intro p q hpq hq h1 h2
    have e : src.take q = src.take p ++ (src.drop p).take (q - p) := by
      have := List.take_add (l := src) (i := p) (j := q - p)
      rw [Nat.add_sub_cancel' hpq] at this
      exact this
    rw [e, newlines_append] at h1
    rw [e, lastLine_append_no_nl _ _ (by omega)] at h2
    have : ((src.drop p).take (q - p)).length = q - p := by simp; omega
    omega
  rcases Nat.le_total p q with hpq | hpq
  · exact key p q hpq hq h1 h2
  · exact (key q p hpq hp h1.symm h2.symm).symm

/-- "ab\n\nc": position 4 is the `c`, on line index 2, column 0. -/
example : posToFriendlyPos [97, 98, 10, 10, 99] 4 = .ok ⟨2, 0⟩ ∧
    posToFriendlyPos [97, 98, 10, 10, 99] 2 = .ok ⟨0, 2⟩ ∧
    translatePosToLineNumber [97, 98, 10, 10, 99] 4 = .ok 3 := by decide

/-- **C10.** For every buffer size, previous memory contents, file name, source, position inside the
source and message: formatting terminates, leaves every byte from `buf+bufsize` on untouched, and the
buffer holds the longest fitting prefix of the full message followed by a NUL. -/
theorem c10_format_error (bufsize : Nat) (mem : Nat → UInt8) (fileName src msg : List UInt8)
    (pos : Int) (hpos : pos.toNat ≤ src.length) :
    ∃ mem', formatError bufsize mem fileName (some src) pos msg = .ok mem' ∧
      HoldsPrefix bufsize mem mem'
        (fullMessage fileName src (1 + newlines (src.take pos.toNat)) msg) := by
  have hl := c09_line_number src pos
  rw [if_pos hpos] at hl
  generalize hline : 1 + newlines (src.take pos.toNat) = line at hl
  have h1 := append_inv (inv_start bufsize mem) [nl]
  obtain ⟨s', e1, e2⟩ := excerptLoop_spec (line := line) (src.length + 1) src 1 _ _ (by omega) h1
  have h2 := append_inv e2 [nl]
  have h3 := append_inv h2 (ascii "ERROR " ++ fileName ++ ascii "(" ++ fmtNat line ++ ascii "): ")
  have h4 := append_inv h3 msg
  have h5 := append_inv h4 [nl]
  refine ⟨_, by simp only [formatError, hl, Res.bind_ok, e1]; rfl, ?_⟩
  have := h5.holds (by simp)
  rw [← hline] at this ⊢
  exact this

/-- **C10** without a source text. -/
theorem c10_format_error_no_source (bufsize : Nat) (mem : Nat → UInt8) (fileName msg : List UInt8)
    (pos : Int) :
    ∃ mem', formatError bufsize mem fileName none pos msg = .ok mem' ∧
      HoldsPrefix bufsize mem mem' (shortMessage msg) := by
  have h1 := append_inv (inv_start bufsize mem) [nl]
  have h2 := append_inv h1 (ascii "ERROR: ")
  have h3 := append_inv h2 msg
  have h4 := append_inv h3 [nl]
  exact ⟨_, rfl, h4.holds (by simp)⟩

example : (2 : Int).toNat ≤ (ascii "a\nb").length ∧
    fullMessage (ascii "f") (ascii "a\nb") (1 + newlines ((ascii "a\nb").take 2)) (ascii "oops") =
      ascii "\n1\ta\n2 ->\tb\nERROR f(2): oops\n" := by decide +kernel

end Tiny
