import Verif.Proofs.Lex

/-!
# The lexer's loops, in terms of the text that is left
-/

namespace Tiny

open Spec

/-- The lexer stands at the text `T`, the end of a source of `n` bytes: `last` is the first byte of `T`, the rest
is unread. -/
structure View (n : Nat) (l : Lexer) (T : List UInt8) : Prop where
  last : l.last = T.headD 0
  rest : l.rest = T.tail
  pos : l.pos + l.rest.length = n
  nz : 0 ∉ T

@[simp] theorem Lexer.advance_line (l : Lexer) : l.advance.line = l.line := by
  unfold Lexer.advance; split <;> rfl
@[simp] theorem Lexer.advance_lexeme (l : Lexer) : l.advance.lexeme = l.lexeme := by
  unfold Lexer.advance; split <;> rfl
@[simp] theorem Lexer.advance_val (l : Lexer) : l.advance.val = l.val := by
  unfold Lexer.advance; split <;> rfl
@[simp] theorem Lexer.advance_err (l : Lexer) : l.advance.err = l.err := by
  unfold Lexer.advance; split <;> rfl

theorem View.tail {n l c T} (h : View n l (c :: T)) : View n l.advance T := by
  obtain ⟨h1, h2, h3, h4⟩ := h
  simp at h1 h2
  unfold Lexer.advance
  cases T with
  | nil => rw [h2]; exact ⟨rfl, by simp [h2], by simpa [h2] using h3, by simp⟩
  | cons d T =>
    rw [h2]
    refine ⟨rfl, rfl, ?_, fun h => h4 (List.mem_cons_of_mem _ h)⟩
    simp [h2] at h3
    simp; omega

theorem View.nil {n l} (h : View n l []) : View n l.advance [] := by
  obtain ⟨h1, h2, h3, h4⟩ := h
  simp at h1 h2
  unfold Lexer.advance
  rw [h2]; exact ⟨rfl, by simp [h2], by simpa [h2] using h3, by simp⟩

/-- `View` does not depend on the other fields. -/
theorem View.other {n l T} (h : View n l T) {l' : Lexer} (h1 : l'.last = l.last) (h2 : l'.rest = l.rest)
    (h3 : l'.pos = l.pos) : View n l' T :=
  ⟨h1 ▸ h.last, h2 ▸ h.rest, by rw [h2, h3]; exact h.pos, h.nz⟩

theorem View.last_zero {n l T} (h : View n l T) : l.last = 0 ↔ T = [] := by
  rw [h.last]
  cases T with
  | nil => simp
  | cons c T =>
    simp
    intro hc; exact h.nz (by simp [hc])

theorem View.peek {n l c T} (h : View n l (c :: T)) : l.peek = T.headD 0 := by
  simp [Lexer.peek, h.rest]

theorem View.peek2 {n l c d T} (h : View n l (c :: d :: T)) : l.peek2 = T.headD 0 := by
  simp [Lexer.peek2, h.rest]

/-- `l->pos += 1; l->last = GetChar(l)`. -/
theorem View.skip1 {n l c d T} (h : View n l (c :: d :: T)) :
    ∃ l', l.skip 1 = .ok l' ∧ View n l'.advance T ∧ l'.line = l.line ∧ l'.lexeme = l.lexeme ∧ l'.val = l.val ∧
      l'.err = l.err := by
  have hr := h.rest
  simp at hr
  refine ⟨{ l with rest := l.rest.drop 1, pos := l.pos + 1 }, by rw [Lexer.skip, if_pos (by simp [hr])], ?_, rfl, rfl, rfl, rfl⟩
  have h' : View n { l with last := d, rest := T, pos := l.pos + 1 } (d :: T) :=
    ⟨rfl, rfl, by have := h.pos; simp [hr] at this; simp; omega, fun hm => h.nz (List.mem_cons_of_mem _ hm)⟩
  have := h'.tail
  have e : ({ l with rest := l.rest.drop 1, pos := l.pos + 1 } : Lexer).advance =
      ({ l with last := d, rest := T, pos := l.pos + 1 } : Lexer).advance := by
    simp [Lexer.advance, hr]
  rw [e]; exact this

theorem View.skip2 {n l c d e T} (h : View n l (c :: d :: e :: T)) :
    ∃ l', l.skip 2 = .ok l' ∧ View n l'.advance T ∧ l'.line = l.line ∧ l'.lexeme = l.lexeme ∧ l'.val = l.val ∧
      l'.err = l.err := by
  have hr := h.rest
  simp at hr
  refine ⟨{ l with rest := l.rest.drop 2, pos := l.pos + 2 }, by rw [Lexer.skip, if_pos (by simp [hr])], ?_, rfl, rfl, rfl, rfl⟩
  have h' : View n { l with last := e, rest := T, pos := l.pos + 2 } (e :: T) :=
    ⟨rfl, rfl, by have := h.pos; simp [hr] at this; simp; omega,
      fun hm => h.nz (List.mem_cons_of_mem _ (List.mem_cons_of_mem _ hm))⟩
  have := h'.tail
  have e : ({ l with rest := l.rest.drop 2, pos := l.pos + 2 } : Lexer).advance =
      ({ l with last := e, rest := T, pos := l.pos + 2 } : Lexer).advance := by
    simp [Lexer.advance, hr]
  rw [e]; exact this

theorem newlines_cons (c : UInt8) (w : List UInt8) :
    newlines (c :: w) = newlines w + if c = 10 then 1 else 0 := by
  simp only [newlines, List.count_cons, beq_iff_eq]

theorem nls_append (a b : List UInt8) : newlines (a ++ b) = newlines a + newlines b :=
  List.count_append

/-! ### White space and comments -/

/-- White space is skipped, counting lines. -/
theorem spaceLoop_ok {n} : ∀ {w T l fuel}, View n l (w ++ T) → (∀ c ∈ w, Blank c) →
    (∀ c T', T = c :: T' → ¬ Blank c) → w.length < fuel →
    ∃ l', l.spaceLoop fuel = .ok l' ∧ View n l' T ∧ l'.line = l.line + newlines w ∧ l'.lexeme = l.lexeme ∧
      l'.val = l.val ∧ l'.err = l.err := by
  intro w
  induction w with
  | nil =>
    intro T l fuel hv _ hT hf
    obtain ⟨fuel, rfl⟩ : ∃ k, fuel = k + 1 := ⟨fuel - 1, by simp at hf; omega⟩
    refine ⟨l, ?_, hv, rfl, rfl, rfl, rfl⟩
    rw [Lexer.spaceLoop, if_neg]
    rw [isspace_iff, hv.last]
    cases T with
    | nil => decide
    | cons c T => exact hT c T rfl
  | cons c w ih =>
    intro T l fuel hv hw hT hf
    obtain ⟨fuel, rfl⟩ : ∃ k, fuel = k + 1 := ⟨fuel - 1, by simp at hf; omega⟩
    have hlast : l.last = c := hv.last
    have hb : isspace l.last = true := by rw [hlast, isspace_iff]; exact hw c (by simp)
    rw [Lexer.spaceLoop, if_pos hb]
    have hv' : View n (if l.last = nl then { l with line := l.line + 1 } else l).advance (w ++ T) := by
      apply View.tail (c := c)
      split
      · exact hv.other rfl rfl rfl
      · exact hv
    obtain ⟨l', e, h1, h2, h3, h4, h5⟩ := ih hv' (fun d hd => hw d (by simp [hd])) hT
      (by simp at hf; omega)
    refine ⟨l', e, h1, ?_, ?_, ?_, ?_⟩
    · rw [h2, Lexer.advance_line, newlines_cons, hlast]
      show (if c = 10 then _ else _ : Lexer).line + _ = _
      split <;> simp <;> omega
    · rw [h3, Lexer.advance_lexeme]; split <;> rfl
    · rw [h4, Lexer.advance_val]; split <;> rfl
    · rw [h5, Lexer.advance_err]; split <;> rfl

/-- The rest of a line is skipped. -/
theorem commentLoop_ok {n} : ∀ {body T l fuel}, View n l (body ++ T) → (10 : UInt8) ∉ body →
    (∀ c T', T = c :: T' → c = 10) → body.length < fuel →
    ∃ l', l.commentLoop fuel = .ok l' ∧ View n l' T ∧ l'.line = l.line ∧ l'.lexeme = l.lexeme ∧
      l'.val = l.val ∧ l'.err = l.err := by
  intro body
  induction body with
  | nil =>
    intro T l fuel hv _ hT hf
    obtain ⟨fuel, rfl⟩ : ∃ k, fuel = k + 1 := ⟨fuel - 1, by simp at hf; omega⟩
    refine ⟨l, ?_, hv, rfl, rfl, rfl, rfl⟩
    rw [Lexer.commentLoop, if_neg]
    rw [hv.last]
    cases T with
    | nil => simp
    | cons c T => rw [hT c T rfl]; simp [nl]
  | cons c w ih =>
    intro T l fuel hv hw hT hf
    obtain ⟨fuel, rfl⟩ : ∃ k, fuel = k + 1 := ⟨fuel - 1, by simp at hf; omega⟩
    have hlast : l.last = c := hv.last
    have hc : l.last ≠ 0 ∧ l.last ≠ nl := by
      rw [hlast]
      exact ⟨fun h => hv.nz (by simp [h]), fun h => hw (by simp [h, nl])⟩
    rw [Lexer.commentLoop, if_pos hc]
    obtain ⟨l', e, h1, h2, h3, h4, h5⟩ := ih hv.tail (fun h => hw (by simp [h])) hT (by simp at hf; omega)
    exact ⟨l', e, h1, by simpa using h2, by simpa using h3, by simpa using h4, by simpa using h5⟩

/-! ### Words and numbers -/

theorem wordLoop_ok {n} : ∀ {T l fuel}, View n l T → T.length < fuel →
    ∃ l', l.wordLoop fuel = .ok l' ∧ View n l' (T.dropWhile wordByte) ∧ l'.line = l.line ∧
      l'.lexeme = l.lexeme ++ T.takeWhile wordByte ∧ l'.val = l.val ∧ l'.err = l.err := by
  intro T
  induction T with
  | nil =>
    intro l fuel hv hf
    obtain ⟨fuel, rfl⟩ : ∃ k, fuel = k + 1 := ⟨fuel - 1, by simp at hf; omega⟩
    refine ⟨l, ?_, by simpa using hv, rfl, by simp, rfl, rfl⟩
    rw [Lexer.wordLoop, if_neg]
    rw [hv.last]; decide
  | cons c T ih =>
    intro l fuel hv hf
    obtain ⟨fuel, rfl⟩ : ∃ k, fuel = k + 1 := ⟨fuel - 1, by simp at hf; omega⟩
    have hlast : l.last = c := hv.last
    by_cases hc : wordByte c = true
    · rw [Lexer.wordLoop, if_pos (by simpa [wordByte, hlast] using hc)]
      have hv' : View n (l.add l.last).advance T := (hv.other (l' := l.add l.last) rfl rfl rfl).tail
      obtain ⟨l', e, h1, h2, h3, h4, h5⟩ := ih hv' (by simp at hf; omega)
      refine ⟨l', e, by simpa [hc] using h1, by simpa [Lexer.add] using h2, ?_, by simpa [Lexer.add] using h4,
        by simpa [Lexer.add] using h5⟩
      rw [h3]; simp [Lexer.add, hc, hlast]
    · rw [Lexer.wordLoop, if_neg (by simpa [wordByte, hlast] using hc)]
      exact ⟨l, rfl, by simpa [hc] using hv, rfl, by simp [hc], rfl, rfl⟩

theorem mem_snoc_dec (s : List UInt8) (c x : UInt8) :
    (decide (x ∈ s) || decide (c = x)) = decide (x ∈ s ++ [c]) := by
  by_cases h1 : x ∈ s <;> by_cases h2 : c = x <;> simp [h1, h2, eq_comm]

theorem numLoop_ok {n} : ∀ {T l fuel s}, View n l T → T.length < fuel → IsNumeral s → l.lexeme = s →
    ∃ v u l', T = v ++ u ∧ l.numLoop fuel (decide (120 ∈ s)) (decide (46 ∈ s)) =
        .ok (decide (120 ∈ s ++ v), decide (46 ∈ s ++ v), l') ∧
      View n l' u ∧ l'.line = l.line ∧ l'.lexeme = s ++ v ∧ l'.err = l.err ∧ IsNumeral (s ++ v) ∧
      ∀ c u', u = c :: u' → ¬ IsNumeral (s ++ v ++ [c]) := by
  intro T
  induction T with
  | nil =>
    intro l fuel s hv hf hs hl
    obtain ⟨fuel, rfl⟩ : ∃ k, fuel = k + 1 := ⟨fuel - 1, by simp at hf; omega⟩
    refine ⟨[], [], l, rfl, ?_, hv, rfl, by simpa using hl, rfl, by simpa using hs, by simp⟩
    rw [Lexer.numLoop, if_neg]
    · simp
    · rw [hv.last]; simp [isdigit, isxdigit]
  | cons c T ih =>
    intro l fuel s hv hf hs hl
    obtain ⟨fuel, rfl⟩ : ∃ k, fuel = k + 1 := ⟨fuel - 1, by simp at hf; omega⟩
    have hlast : l.last = c := hv.last
    by_cases hc : numByte (decide (120 ∈ s)) (decide (46 ∈ s)) c
    · rw [Lexer.numLoop, if_pos (by rw [hlast]; exact hc)]
      have hv' : View n (l.add l.last).advance T := (hv.other (l' := l.add l.last) rfl rfl rfl).tail
      obtain ⟨v, u, l', rfl, e, h1, h2, h3, h4, h5, h6⟩ := ih (s := s ++ [c]) hv' (by simp at hf; omega)
        ((isNumeral_snoc hs).mpr hc) (by simp [Lexer.add, hl, hlast])
      refine ⟨c :: v, u, l', rfl, ?_, h1, by simpa [Lexer.add] using h2, by simpa using h3,
        by simpa [Lexer.add] using h4, by simpa using h5, by simpa using h6⟩
      have e2 : (decide (46 ∈ s) || (decide (l.last ≠ 120) && decide (l.last = 46))) =
          decide (46 ∈ s ++ [c]) := by
        rw [← mem_snoc_dec, hlast]
        by_cases h46 : c = 46
        · simp [h46]
        · simp [h46]
      have e1 : (decide (120 ∈ s) || decide (l.last = 120)) = decide (120 ∈ s ++ [c]) := by
        rw [← mem_snoc_dec, hlast]
      rw [e1, e2, e]
      simp
    · rw [Lexer.numLoop, if_neg (by rw [hlast]; exact hc)]
      refine ⟨[], c :: T, l, rfl, by simp, hv, rfl, by simpa using hl, rfl, by simpa using hs, ?_⟩
      rintro d u' e
      simp at e
      rw [List.append_nil, isNumeral_snoc hs, ← e.1]; exact hc

/-! ### String and character literals -/

/-- One element of a literal: `CHECK_ESCAPE`, then the byte is used, then the next byte is read. -/
theorem escape_plain {n l c T} (h : View n l (c :: T)) (hc : c ≠ 92) : l.escape = l := by
  have hlast : l.last = c := h.last
  rw [Lexer.escape, if_neg (by rw [hlast]; exact hc)]

/-- After a backslash, the byte that `c` stands for is taken; the next `GetChar` goes on after `c`. -/
theorem escape_escape {n l c T} (h : View n l (92 :: c :: T)) : ∃ l', l.escape = { l' with last := unescape c } ∧
    View n l' (c :: T) ∧ l'.line = l.line ∧ l'.lexeme = l.lexeme ∧ l'.val = l.val ∧ l'.err = l.err := by
  have hlast : l.last = 92 := h.last
  have hv := h.tail
  have hl : l.advance.last = c := hv.last
  refine ⟨l.advance, ?_, hv, by simp, by simp, by simp, by simp⟩
  rw [Lexer.escape, if_pos hlast]
  simp only [hl, unescape]
  by_cases h1 : c = 116
  · rw [if_pos h1, if_pos h1]
  · by_cases h2 : c = 110
    · rw [if_neg h1, if_neg h1, if_pos h2, if_pos h2]
    · by_cases h3 : c = 114
      · rw [if_neg h1, if_neg h1, if_neg h2, if_neg h2, if_pos h3, if_pos h3]
      · by_cases h4 : c = 98
        · rw [if_neg h1, if_neg h1, if_neg h2, if_neg h2, if_neg h3, if_neg h3, if_pos h4, if_pos h4]
        · rw [if_neg h1, if_neg h1, if_neg h2, if_neg h2, if_neg h3, if_neg h3, if_neg h4, if_neg h4, ← hl]

/-- `GetChar` overwrites `last`. -/
theorem advance_last (l : Lexer) (c : UInt8) : ({ l with last := c } : Lexer).advance = l.advance := by
  unfold Lexer.advance; cases l.rest <;> rfl

theorem strLoop_ok {n} {q b} (hq : Quoted q b) : ∀ {u l fuel}, View n l (q ++ 34 :: u) → q.length < fuel →
    ∃ l', l.strLoop fuel = .ok l' ∧ View n l' (34 :: u) ∧ l'.line = l.line ∧ l'.lexeme = l.lexeme ++ b ∧
      l'.val = l.val ∧ l'.err = l.err := by
  induction hq with
  | nil =>
    intro u l fuel hv hf
    obtain ⟨fuel, rfl⟩ : ∃ k, fuel = k + 1 := ⟨fuel - 1, by simp at hf; omega⟩
    have hlast : l.last = 34 := hv.last
    rw [Lexer.strLoop, if_neg (by simp [hlast])]
    exact ⟨l, rfl, hv, rfl, by simp, rfl, rfl⟩
  | plain h1 h2 _ ih =>
    intro u l fuel hv hf
    obtain ⟨fuel, rfl⟩ : ∃ k, fuel = k + 1 := ⟨fuel - 1, by simp at hf; omega⟩
    have hlast := hv.last
    simp at hlast
    rw [Lexer.strLoop, if_pos (by rw [hlast]; exact h1)]
    simp only [escape_plain hv h2]
    have hv' : View n (l.add l.last).advance _ := (hv.other (l' := l.add l.last) rfl rfl rfl).tail
    obtain ⟨l', e, g1, g2, g3, g4, g5⟩ := ih hv' (by simp at hf; omega)
    refine ⟨l', e, g1, by simpa [Lexer.add] using g2, ?_, by simpa [Lexer.add] using g4,
      by simpa [Lexer.add] using g5⟩
    rw [g3]; simp [Lexer.add, hlast]
  | @escape c s b _ ih =>
    intro u l fuel hv hf
    obtain ⟨fuel, rfl⟩ : ∃ k, fuel = k + 1 := ⟨fuel - 1, by simp at hf; omega⟩
    have hlast := hv.last
    simp at hlast
    rw [Lexer.strLoop, if_pos (by rw [hlast]; decide)]
    obtain ⟨k, hk, k1, k2, k3, k4, k5⟩ := escape_escape hv
    simp only [hk]
    have e : (({ k with last := unescape c } : Lexer).add (unescape c)).advance =
        (k.add (unescape c)).advance := advance_last (k.add (unescape c)) (unescape c)
    rw [e]
    have hv' : View n (k.add (unescape c)).advance _ := (k1.other (l' := k.add (unescape c)) rfl rfl rfl).tail
    obtain ⟨l', e, g1, g2, g3, g4, g5⟩ := ih (fuel := fuel) hv' (by simp only [List.length_cons] at hf; omega)
    refine ⟨l', e, g1, by simpa [Lexer.add, k2] using g2, ?_, by simpa [Lexer.add, k4] using g4,
      by simpa [Lexer.add, k5] using g5⟩
    rw [g3]; simp [Lexer.add, k3]

/-- At the end of the source the loop of a string literal goes on for ever. -/
theorem strLoop_end {n} : ∀ {fuel l}, View n l [] → l.strLoop fuel = .timeout := by
  intro fuel
  induction fuel with
  | zero => intros; rfl
  | succ fuel ih =>
    intro l hv
    have hlast : l.last = 0 := hv.last
    rw [Lexer.strLoop, if_pos (by rw [hlast]; decide)]
    have e : l.escape = l := by rw [Lexer.escape, if_neg (by rw [hlast]; decide)]
    simp only [e]
    apply ih
    exact (hv.other (l' := l.add l.last) rfl rfl rfl).nil

theorem strLoop_open {n} {q b} (hq : Quoted q b) : ∀ {l fuel}, (View n l q ∨ View n l (q ++ [92])) →
    l.strLoop fuel = .timeout := by
  induction hq with
  | nil =>
    rintro l fuel (hv | hv)
    · exact strLoop_end hv
    · cases fuel with
      | zero => rfl
      | succ fuel =>
        have hlast : l.last = 92 := hv.last
        rw [Lexer.strLoop, if_pos (by rw [hlast]; decide)]
        have hv' : View n l.advance [] := hv.tail
        have hl' : l.advance.last = 0 := hv'.last
        have e : l.escape = l.advance := by
          rw [Lexer.escape, if_pos hlast]; simp only [hl']; rfl
        simp only [e]
        exact strLoop_end ((hv'.other (l' := l.advance.add l.advance.last) rfl rfl rfl).nil)
  | @plain c s b h1 h2 _ ih =>
    rintro l fuel hv
    cases fuel with
    | zero => rfl
    | succ fuel =>
      have hlast : l.last = c := by rcases hv with hv | hv <;> exact hv.last
      rw [Lexer.strLoop, if_pos (by rw [hlast]; exact h1)]
      have e : l.escape = l := by rw [Lexer.escape, if_neg (by rw [hlast]; exact h2)]
      simp only [e]
      apply ih
      rcases hv with hv | hv
      · exact .inl ((hv.other (l' := l.add l.last) rfl rfl rfl).tail)
      · exact .inr ((hv.other (l' := l.add l.last) rfl rfl rfl).tail)
  | @escape c s b _ ih =>
    rintro l fuel hv
    cases fuel with
    | zero => rfl
    | succ fuel =>
      have hlast : l.last = 92 := by rcases hv with hv | hv <;> exact hv.last
      rw [Lexer.strLoop, if_pos (by rw [hlast]; decide)]
      have e (k : Lexer) : (({ k with last := unescape c } : Lexer).add (unescape c)).advance =
        (k.add (unescape c)).advance := advance_last (k.add (unescape c)) (unescape c)
      rcases hv with hv | hv
      · obtain ⟨k, hk, k1, _⟩ := escape_escape hv
        simp only [hk]
        rw [e]
        exact ih (.inl ((k1.other (l' := k.add (unescape c)) rfl rfl rfl).tail))
      · obtain ⟨k, hk, k1, _⟩ := escape_escape hv
        simp only [hk]
        rw [e]
        exact ih (.inr ((k1.other (l' := k.add (unescape c)) rfl rfl rfl).tail))

/-- A complete character literal. -/
theorem charLit_ok {n q c u l} (hq : CharText q c) (hv : View n l (39 :: q ++ 39 :: u)) :
    ∃ l', l.charLit = (.char, l') ∧ View n l' u ∧ l'.line = l.line ∧
      l'.val = .int (c.toBitVec.signExtend 32) ∧ l'.err = l.err := by
  have hv1 := hv.tail
  cases hq with
  | plain h1 =>
    have hl : l.advance.last = c := hv1.last
    have e := escape_plain hv1 h1
    have e3 := advance_last { l.advance with val := .int (c.toBitVec.signExtend 32) } c
    have hv2 := hv1.other (l' := { l.advance with val := .int (c.toBitVec.signExtend 32) }) rfl rfl rfl
    have hv3 := hv2.tail
    have hl3 := hv3.last
    simp only [List.headD_cons] at hl3
    refine ⟨({ l.advance with val := .int (c.toBitVec.signExtend 32) } : Lexer).advance.advance, ?_, hv3.tail,
      by simp, by simp, by simp⟩
    simp only [Lexer.charLit, e, hl]
    try rw [e3]
    rw [if_neg (by rw [hl3]; simp)]
  | @escape c =>
    obtain ⟨k, hk, k1, k2, k3, k4, k5⟩ := escape_escape hv1
    have hv2 := k1.other (l' := { k with val := .int ((unescape c).toBitVec.signExtend 32) }) rfl rfl rfl
    have hv3 := hv2.tail
    have hl3 := hv3.last
    simp at hl3
    have e := advance_last { k with val := .int ((unescape c).toBitVec.signExtend 32) } (unescape c)
    refine ⟨({ k with val := .int ((unescape c).toBitVec.signExtend 32) } : Lexer).advance.advance, ?_, hv3.tail,
      by simp [k2], by simp, by simp [k5]⟩
    simp only [Lexer.charLit, hk]
    rw [e, if_neg (by rw [hl3]; simp)]

/-- An incomplete character literal is an error. -/
theorem charLit_err {n T l} (hv : View n l (39 :: T)) (h : ∀ q b, CharText q b → ¬ q ++ [39] <+: T) :
    ∃ l', l.charLit = (.lexerError, l') ∧ l'.line = l.line ∧ l'.err = some .expectedQuote ∧
      ∃ Y, View n l' Y ∧ Y <:+ T := by
  have hv1 := hv.tail
  simp only [Lexer.charLit]
  generalize hk : ({ l.advance.escape with val := .int (l.advance.escape.last.toBitVec.signExtend 32) } : Lexer).advance = k
  have hline : k.line = l.line := by
    rw [← hk]; simp
    unfold Lexer.escape
    split
    · simp only []
      split
      · simp
      · split
        · simp
        · split
          · simp
          · split <;> simp
    · simp
  suffices hne : ∃ Y, View n k Y ∧ Y <:+ T ∧ k.last ≠ 39 by
    obtain ⟨Y, hY, hlen, hne⟩ := hne
    rw [if_pos hne]
    exact ⟨_, rfl, hline, rfl, Y, hY.other rfl rfl rfl, hlen⟩
  match T with
  | [] =>
    have hl : l.advance.last = 0 := hv1.last
    have e : l.advance.escape = l.advance := by rw [Lexer.escape, if_neg (by rw [hl]; decide)]
    rw [e] at hk
    have := (hv1.other (l' := { l.advance with val := .int (l.advance.last.toBitVec.signExtend 32) }) rfl rfl rfl).nil
    rw [hk] at this
    refine ⟨_, this, List.nil_suffix, fun he => ?_⟩
    have := this.last
    rw [he] at this; simp at this
  | c :: T' =>
    have key : ∀ {k' : Lexer} {U : List UInt8}, View n k' U → k'.last = 39 → ∃ U', U = 39 :: U' := by
      intro k' U hU h39
      cases U with
      | nil => have := hU.last; rw [h39] at this; simp at this
      | cons d U => have := hU.last; rw [h39] at this; simp at this; exact ⟨U, by rw [this]⟩
    by_cases hc : c = 92
    · subst hc
      match T' with
      | [] =>
        have hl : l.advance.last = 92 := hv1.last
        have hv2 := hv1.tail
        have hl2 : l.advance.advance.last = 0 := hv2.last
        have e : l.advance.escape = l.advance.advance := by
          rw [Lexer.escape, if_pos hl]; simp only [hl2]; rfl
        rw [e] at hk
        have := (hv2.other (l' := { l.advance.advance with
          val := .int (l.advance.advance.last.toBitVec.signExtend 32) }) rfl rfl rfl).nil
        rw [hk] at this
        refine ⟨_, this, List.nil_suffix, fun he => ?_⟩
        have := this.last
        rw [he] at this; simp at this
      | d :: T' =>
        obtain ⟨k2, hk2, k1, _⟩ := escape_escape hv1
        rw [hk2] at hk
        have e := advance_last { k2 with val := .int ((unescape d).toBitVec.signExtend 32) } (unescape d)
        rw [e] at hk
        have hv3 := (k1.other (l' := { k2 with val := .int ((unescape d).toBitVec.signExtend 32) }) rfl rfl rfl).tail
        rw [hk] at hv3
        refine ⟨_, hv3, (List.suffix_cons _ _).trans (List.suffix_cons _ _), fun he => ?_⟩
        obtain ⟨U, rfl⟩ := key hv3 he
        exact h _ _ (.escape (c := d)) ⟨U, by simp⟩
    · have e := escape_plain hv1 hc
      rw [e] at hk
      have hv3 := (hv1.other (l' := { l.advance with val := .int (l.advance.last.toBitVec.signExtend 32) }) rfl rfl rfl).tail
      rw [hk] at hv3
      refine ⟨_, hv3, List.suffix_cons _ _, fun he => ?_⟩
      obtain ⟨U, rfl⟩ := key hv3 he
      exact h _ _ (.plain hc) ⟨U, by simp⟩

end Tiny
