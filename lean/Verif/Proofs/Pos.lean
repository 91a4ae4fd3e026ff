import Verif.Spec.Pos

namespace Tiny
open Spec

theorem translateLoop_spec : ∀ (src : List UInt8) (n line : Nat), n ≤ src.length →
    translateLoop src n line = .ok (line + newlines (src.take n))
  | src, 0, line, _ => by simp [translateLoop, newlines]
  | [], n + 1, line, h => by simp at h
  | c :: rest, n + 1, line, h => by
    rw [translateLoop, translateLoop_spec rest n _ (by simpa using h)]
    by_cases hc : c = nl
    · subst hc; simp [newlines, nl]; omega
    · have : c ≠ 10 := hc
      simp [newlines, hc, List.count_cons, this]

theorem translateLoop_abort : ∀ (src : List UInt8) (n line : Nat), src.length < n →
    translateLoop src n line = .abort
  | src, 0, line, h => by omega
  | [], n + 1, line, h => rfl
  | c :: rest, n + 1, line, h => by
    rw [translateLoop]; exact translateLoop_abort rest n _ (by simpa using h)

theorem findIdx?_nl {rest : List UInt8} {k : Nat} (h : rest.findIdx? (· == nl) = some k) :
    k < rest.length ∧ newlines (rest.take k) = 0 ∧ rest[k]? = some nl := by
  rw [List.findIdx?_eq_some_iff_getElem] at h
  obtain ⟨hk, h1, h2⟩ := h
  refine ⟨hk, ?_, ?_⟩
  · rw [newlines, List.count_eq_zero]
    intro hm
    obtain ⟨j, hj, he⟩ := List.getElem_of_mem hm
    simp only [List.length_take] at hj
    rw [List.getElem_take] at he
    have := h2 j (by omega)
    rw [he] at this
    simp [nl] at this
  · rw [List.getElem?_eq_getElem hk]
    simpa using h1

theorem takeWhile_all (l : List UInt8) (h : newlines l = 0) : l.takeWhile (· ≠ 10) = l := by
  induction l with
  | nil => rfl
  | cons c l ih =>
    rw [newlines, List.count_cons] at h
    have hc : c ≠ 10 := by rintro rfl; simp at h
    have hl : newlines l = 0 := by rw [newlines]; omega
    rw [List.takeWhile_cons]
    simp only [ne_eq, hc, not_false_eq_true, decide_true, if_true]
    exact congrArg (c :: ·) (ih hl)

theorem lastLine_no_nl {t : List UInt8} (h : newlines t = 0) : lastLineLength t = t.length := by
  unfold lastLineLength
  rw [takeWhile_all _ (by rw [newlines, List.count_reverse]; exact h), List.length_reverse]

theorem takeWhile_stop (l r : List UInt8) (h : newlines l = 0) :
    (l ++ 10 :: r).takeWhile (· ≠ 10) = l := by
  induction l with
  | nil => simp
  | cons c l ih =>
    rw [newlines, List.count_cons] at h
    have hc : c ≠ 10 := by rintro rfl; simp at h
    have hl : newlines l = 0 := by rw [newlines]; omega
    rw [List.cons_append, List.takeWhile_cons]
    simp only [ne_eq, hc, not_false_eq_true, decide_true, if_true]
    exact congrArg (c :: ·) (ih hl)

theorem lastLine_append {a b : List UInt8} (h : newlines b = 0) :
    lastLineLength (a ++ 10 :: b) = b.length := by
  unfold lastLineLength
  have : (a ++ 10 :: b).reverse = b.reverse ++ 10 :: a.reverse := by simp
  rw [this, takeWhile_stop _ _ (by rw [newlines, List.count_reverse]; exact h), List.length_reverse]

/-- The loop, from a line start: `done` is everything before, ending in a newline or empty. -/
theorem friendlyLoop_spec : ∀ (fuel : Nat) (rest done : List UInt8) (pos : Nat),
    rest.length < fuel → pos ≤ (done ++ rest).length → done.length ≤ pos →
    (done = [] ∨ ∃ d, done = d ++ [10]) →
    friendlyLoop fuel rest done.length (newlines done) pos =
      .ok ⟨newlines ((done ++ rest).take pos), lastLineLength ((done ++ rest).take pos)⟩
  | 0, rest, done, pos, hf, _, _, _ => by omega
  | fuel + 1, rest, done, pos, hf, hp, hd, hdone => by
    have finish : newlines (rest.take (pos - done.length)) = 0 →
        newlines ((done ++ rest).take pos) = newlines done ∧
        lastLineLength ((done ++ rest).take pos) = pos - done.length := by
      intro h0
      have htake : (done ++ rest).take pos = done ++ rest.take (pos - done.length) := by
        rw [List.take_append, List.take_of_length_le hd]
      have hlen : (rest.take (pos - done.length)).length = pos - done.length := by
        simp at hp ⊢; omega
      rw [htake]
      constructor
      · rw [newlines, List.count_append]; rw [newlines] at h0; rw [h0]; rfl
      · rcases hdone with rfl | ⟨d, rfl⟩
        · rw [List.nil_append, lastLine_no_nl h0]; exact hlen
        · rw [List.append_assoc, List.singleton_append, lastLine_append h0]; exact hlen
    have hasrt : Res.assert (decide (done.length ≤ pos)) = .ok () := by simp [Res.assert, hd]
    unfold friendlyLoop
    cases hfi : rest.findIdx? (· == nl) with
    | none =>
      simp only [hasrt, Res.bind_ok, Res.pure_eq]
      have h0 : newlines (rest.take (pos - done.length)) = 0 := by
        rw [newlines, List.count_eq_zero]
        intro hm
        have := List.findIdx?_eq_none_iff.1 hfi _ (List.mem_of_mem_take hm)
        simp [nl] at this
      obtain ⟨e1, e2⟩ := finish h0
      rw [e1, e2]
    | some k =>
      obtain ⟨hk, h0, hget⟩ := findIdx?_nl hfi
      simp only
      split
      · next hge =>
        simp only [hasrt, Res.bind_ok, Res.pure_eq]
        have h0' : newlines (rest.take (pos - done.length)) = 0 := by
          have : rest.take (pos - done.length) = (rest.take k).take (pos - done.length) := by
            rw [List.take_take, Nat.min_eq_left (by omega)]
          rw [this]
          rw [newlines, List.count_eq_zero] at h0 ⊢
          exact fun hm => h0 (List.mem_of_mem_take hm)
        obtain ⟨e1, e2⟩ := finish h0'
        rw [e1, e2]
      · next hlt =>
        have hsplit : rest = rest.take k ++ 10 :: rest.drop (k + 1) := by
          have := List.getElem?_eq_some_iff.1 hget
          obtain ⟨hk', he⟩ := this
          conv => lhs; rw [← List.take_append_drop k rest, List.drop_eq_getElem_cons hk', he]
          rfl
        have hdl : (done ++ rest.take k ++ [10]).length = done.length + k + 1 := by
          simp; omega
        have hnl : newlines (done ++ rest.take k ++ [10]) = newlines done + 1 := by
          simp only [newlines, List.count_append] at h0 ⊢
          rw [h0]; simp
        have hcat : done ++ rest.take k ++ [10] ++ rest.drop (k + 1) = done ++ rest := by
          conv => rhs; rw [hsplit]
          simp
        have ih := friendlyLoop_spec fuel (rest.drop (k + 1)) (done ++ rest.take k ++ [10]) pos
          (by simp; omega) (by rw [hcat]; exact hp) (by omega) (Or.inr ⟨_, rfl⟩)
        rw [hdl, hnl, hcat] at ih
        exact ih

/-! ### Formatting -/

/-- `s.mem` holds the prefix of the text appended so far. -/
def FmtInv (bufsize : Nat) (mem0 : Nat → UInt8) (s : FmtState) (text : List UInt8) : Prop :=
  s.used = text.length ∧ (∀ i, bufsize ≤ i → s.mem i = mem0 i) ∧
  (0 < bufsize → (∀ i, i < min text.length (bufsize - 1) → some (s.mem i) = text[i]?) ∧
    (text ≠ [] → s.mem (min text.length (bufsize - 1)) = 0))

theorem append_inv {bufsize : Nat} {mem0 : Nat → UInt8} {s : FmtState} {text : List UInt8}
    (h : FmtInv bufsize mem0 s text) (t : List UInt8) :
    FmtInv bufsize mem0 (append bufsize s t) (text ++ t) := by
  obtain ⟨hu, hout, hin⟩ := h
  refine ⟨by simp [append, hu], ?_, ?_⟩
  · intro i hi
    by_cases hfull : bufsize ≤ s.used
    · have hr : (if (bufsize : Int) - s.used < 0 then 0 else bufsize - s.used) = 0 := by
        by_cases h0 : (bufsize : Int) - s.used < 0
        · rw [if_pos h0]
        · rw [if_neg h0]; omega
      simp only [append, snprintf, hr, if_true]
      exact hout i hi
    · have hr : (if (bufsize : Int) - s.used < 0 then 0 else bufsize - s.used) = bufsize - s.used := by
        rw [if_neg (by omega)]
      have hne : ¬ (bufsize - s.used = 0) := by omega
      have h1 : ¬ (s.used ≤ i ∧ i < s.used + min t.length (bufsize - s.used - 1)) := by omega
      have h2 : i ≠ s.used + min t.length (bufsize - s.used - 1) := by omega
      simp only [append, snprintf, hr, hne, h1, h2, if_false]
      exact hout i hi
  · intro hb
    obtain ⟨hin1, hin2⟩ := hin hb
    by_cases hfull : bufsize ≤ s.used
    · -- nothing is written any more
      have hr : (if (bufsize : Int) - s.used < 0 then 0 else bufsize - s.used) = 0 := by
        split <;> omega
      have hmem : (append bufsize s t).mem = s.mem := by
        simp only [append, snprintf, hr, if_true]
      rw [hmem]
      have hm1 : min text.length (bufsize - 1) = bufsize - 1 := by omega
      have hm2 : min (text ++ t).length (bufsize - 1) = bufsize - 1 := by simp; omega
      rw [hm1] at hin1 hin2
      rw [hm2]
      refine ⟨?_, ?_⟩
      · intro i hi
        rw [hin1 i hi, List.getElem?_append_left (by omega)]
      · intro _
        apply hin2
        intro he
        rw [he] at hu
        simp at hu
        omega
    · have hr : (if (bufsize : Int) - s.used < 0 then 0 else bufsize - s.used) = bufsize - s.used := by
        rw [if_neg (by omega)]
      have hne : ¬ (bufsize - s.used = 0) := by omega
      have hm2 : min (text ++ t).length (bufsize - 1) =
          s.used + min t.length (bufsize - s.used - 1) := by simp; omega
      refine ⟨?_, ?_⟩
      · intro i hi
        rw [hm2] at hi
        simp only [append, snprintf, hr, hne, if_false]
        by_cases hlt : i < s.used
        · have h1 : ¬ (s.used ≤ i ∧ i < s.used + min t.length (bufsize - s.used - 1)) := by omega
          have h2 : i ≠ s.used + min t.length (bufsize - s.used - 1) := by omega
          simp only [h1, h2, if_false]
          rw [hin1 i (by omega), List.getElem?_append_left (by omega)]
        · have h1 : (s.used ≤ i ∧ i < s.used + min t.length (bufsize - s.used - 1)) := by omega
          rw [if_pos h1, List.getElem?_append_right (by omega), ← hu,
            List.getD_eq_getElem?_getD, List.getElem?_eq_getElem (by omega)]
          rfl
      · intro _
        rw [hm2]
        simp only [append, snprintf, hr, hne, if_false]
        have h1 : ¬ (s.used ≤ s.used + min t.length (bufsize - s.used - 1) ∧
          s.used + min t.length (bufsize - s.used - 1) <
            s.used + min t.length (bufsize - s.used - 1)) := by omega
        simp only [if_neg h1, if_true]

theorem appendLine_spec {bufsize : Nat} {mem0 : Nat → UInt8} : ∀ (src : List UInt8) (s : FmtState)
    (text : List UInt8), FmtInv bufsize mem0 s text →
    FmtInv bufsize mem0 (appendLine bufsize s src).1 (text ++ src.takeWhile (· ≠ 10)) ∧
    (appendLine bufsize s src).2 = src.dropWhile (· ≠ 10)
  | [], s, text, h => by simpa [appendLine] using h
  | c :: rest, s, text, h => by
    by_cases hc : c = nl
    · have hc' : c = 10 := hc
      simp only [appendLine, hc, if_true]
      simp [nl]; exact h
    · have hc' : c ≠ 10 := hc
      have ih := appendLine_spec rest _ _ (append_inv h [c])
      simp only [appendLine, hc, if_false]
      rw [List.takeWhile_cons, List.dropWhile_cons]
      simp only [ne_eq, hc', not_false_eq_true, decide_true, if_true]
      rw [List.append_assoc, List.singleton_append] at ih
      exact ih

theorem splitLines_cons_line : ∀ (src : List UInt8), src ≠ [] →
    splitLines src = (src.takeWhile (· ≠ 10), decide (src.dropWhile (· ≠ 10) ≠ [])) ::
      splitLines (src.dropWhile (· ≠ 10)).tail
  | [], h => absurd rfl h
  | c :: rest, _ => by
    by_cases hc : c = 10
    · subst hc
      simp [splitLines]
    · rw [List.takeWhile_cons, List.dropWhile_cons]
      simp only [ne_eq, hc, not_false_eq_true, decide_true, if_true]
      by_cases hr : rest = []
      · subst hr; simp [splitLines, hc]
      · simp only [splitLines, if_neg hc]
        rw [splitLines_cons_line rest hr]

theorem excerptLoop_spec {bufsize line : Nat} {mem0 : Nat → UInt8} :
    ∀ (fuel : Nat) (src : List UInt8) (cur : Nat) (s : FmtState) (text : List UInt8),
    src.length < fuel → FmtInv bufsize mem0 s text →
    ∃ s', excerptLoop bufsize line fuel s src cur = .ok s' ∧
      FmtInv bufsize mem0 s' (text ++ excerpt line cur (splitLines src))
  | 0, src, cur, s, text, hf, _ => by omega
  | fuel + 1, [], cur, s, text, hf, h => ⟨s, rfl, by simpa [splitLines, excerpt] using h⟩
  | fuel + 1, c :: rest, cur, s, text, hf, h => by
    by_cases hw : within3 line cur = true
    · have hw' : cur ≤ line + 3 ∧ line ≤ cur + 3 := by
        simp only [within3, Bool.and_eq_true, decide_eq_true_eq] at hw; omega
      simp only [excerptLoop, hw, if_true]
      let hdr : List UInt8 :=
        (if cur = line then fmtNat cur ++ ascii " ->\t" else fmtNat cur ++ ascii "\t")
      have h1 := append_inv h hdr
      obtain ⟨h2, h3⟩ := appendLine_spec (c :: rest) _ _ h1
      have hex : excerpt line cur (splitLines (c :: rest)) =
          hdr ++ (c :: rest).takeWhile (· ≠ 10) ++
            (if (c :: rest).dropWhile (· ≠ 10) ≠ [] then [10] else []) ++
            excerpt line (cur + 1) (splitLines ((c :: rest).dropWhile (· ≠ 10)).tail) := by
        rw [splitLines_cons_line _ (by simp)]
        simp only [excerpt, hw', and_self, if_true, excerptLine, hdr]
        by_cases hcl : cur = line <;> simp [hcl]
      show ∃ s', (match (appendLine bufsize (append bufsize s hdr) (c :: rest)).2 with
        | [] => excerptLoop bufsize line fuel
            (appendLine bufsize (append bufsize s hdr) (c :: rest)).1 [] (cur + 1)
        | _ :: src => excerptLoop bufsize line fuel
            (append bufsize (appendLine bufsize (append bufsize s hdr) (c :: rest)).1 [nl]) src
              (cur + 1)) = .ok s' ∧ _
      rw [h3, hex]
      cases hdw : (c :: rest).dropWhile (· ≠ 10) with
      | nil =>
        obtain ⟨s', e1, e2⟩ := excerptLoop_spec fuel [] (cur + 1) _ _ (by simp at hf ⊢; omega) h2
        refine ⟨s', e1, ?_⟩
        have : (text ++ (hdr ++ (c :: rest).takeWhile (· ≠ 10) ++ [] ++
          excerpt line (cur + 1) (splitLines []))) =
          (text ++ hdr ++ (c :: rest).takeWhile (· ≠ 10) ++ excerpt line (cur + 1) (splitLines [])) := by
          simp
        simpa [this] using e2
      | cons x src =>
        have hlen : src.length < fuel := by
          have : ((c :: rest).dropWhile (· ≠ 10)).length ≤ (c :: rest).length :=
            (List.dropWhile_sublist _).length_le
          rw [hdw] at this
          simp at this hf
          omega
        obtain ⟨s', e1, e2⟩ := excerptLoop_spec fuel src (cur + 1) _ _ hlen (append_inv h2 [nl])
        refine ⟨s', e1, ?_⟩
        simpa [nl] using e2
    · have hw' : ¬ (cur ≤ line + 3 ∧ line ≤ cur + 3) := by
        intro hc; apply hw
        simp only [within3, Bool.and_eq_true, decide_eq_true_eq]; omega
      simp only [excerptLoop, hw, Bool.false_eq_true, if_false]
      have hlen : rest.length < fuel := by simp at hf; omega
      by_cases hc : c = nl
      · have hc' : c = 10 := hc
        obtain ⟨s', e1, e2⟩ := excerptLoop_spec fuel rest (cur + 1) s text hlen h
        refine ⟨s', by simp only [hc, if_true]; exact e1, ?_⟩
        simp only [splitLines, hc', if_true, excerpt, hw', if_false, List.nil_append]
        exact e2
      · have hc' : c ≠ 10 := hc
        obtain ⟨s', e1, e2⟩ := excerptLoop_spec fuel rest cur s text hlen h
        refine ⟨s', by simp only [hc, if_false]; exact e1, ?_⟩
        have : excerpt line cur (splitLines (c :: rest)) = excerpt line cur (splitLines rest) := by
          simp only [splitLines, hc', if_false]
          cases splitLines rest with
          | nil => simp [excerpt, hw']
          | cons l ls => simp [excerpt, hw']
        rw [this]; exact e2

theorem inv_start (bufsize : Nat) (mem : Nat → UInt8) : FmtInv bufsize mem ⟨mem, 0⟩ [] :=
  ⟨rfl, fun _ _ => rfl, fun _ => ⟨fun i hi => by simp at hi, fun h => absurd rfl h⟩⟩

theorem FmtInv.holds {bufsize : Nat} {mem0 : Nat → UInt8} {s : FmtState} {text : List UInt8}
    (h : FmtInv bufsize mem0 s text) (hne : text ≠ []) : HoldsPrefix bufsize mem0 s.mem text :=
  ⟨h.2.1, fun hb => ⟨(h.2.2 hb).1, (h.2.2 hb).2 hne⟩⟩

end Tiny
