import Verif.Proofs.LexScan

/-!
# Layout, then one token; and the whole source
-/

namespace Tiny

open Spec

/-! ### Layout -/

/-- A text at which layout has ended. -/
def Stop (X : List UInt8) : Prop := (∀ c X', X = c :: X' → ¬ Blank c) ∧ ¬ bytes "//" <+: X

theorem Layout.append {a b} (h : Layout a) (h' : Layout b) : Layout (a ++ b) := by
  induction h with
  | nil => exact h'
  | blank hb _ ih => exact .blank hb ih
  | @comment body w hb _ ih =>
    have := Layout.comment hb ih
    simpa using this

theorem Layout.blanks {w} (h : ∀ c ∈ w, Blank c) : Layout w := by
  induction w with
  | nil => exact .nil
  | cons c w ih => exact .blank (h c (by simp)) (ih (fun d hd => h d (by simp [hd])))

/-- Layout is white space, then nothing or a comment and more layout. -/
theorem Layout.split {w} (h : Layout w) : ∃ bs, (∀ c ∈ bs, Blank c) ∧
    (w = bs ∨ ∃ body w', w = bs ++ (bytes "//" ++ body ++ 10 :: w') ∧ (10 : UInt8) ∉ body ∧ Layout w') := by
  induction h with
  | nil => exact ⟨[], by simp, .inl rfl⟩
  | @blank c w hb _ ih =>
    obtain ⟨bs, h1, h2⟩ := ih
    refine ⟨c :: bs, ?_, ?_⟩
    · intro d hd
      rcases List.mem_cons.mp hd with rfl | hd
      · exact hb
      · exact h1 d hd
    · rcases h2 with rfl | ⟨body, w', rfl, h3, h4⟩
      · exact .inl rfl
      · exact .inr ⟨body, w', rfl, h3, h4⟩
  | @comment body w hb hw _ => exact ⟨[], by simp, .inr ⟨body, w, by simp, hb, hw⟩⟩

/-- Every text is layout, then a text at which layout has ended or a comment up to the end. -/
theorem layout_split : ∀ (N : Nat) (T : List UInt8), T.length ≤ N → ∃ w X, T = w ++ X ∧ Layout w ∧
    (Stop X ∨ ∃ body, X = bytes "//" ++ body ∧ (10 : UInt8) ∉ body) := by
  intro N
  induction N with
  | zero =>
    intro T h
    obtain rfl : T = [] := by simpa using h
    exact ⟨[], [], rfl, .nil, .inl ⟨by simp, by decide⟩⟩
  | succ N ih =>
    intro T h
    by_cases hcom : bytes "//" <+: T
    · obtain ⟨r, rfl⟩ := hcom
      by_cases h10 : (10 : UInt8) ∈ r
      · have hsplit : ∃ body r', r = body ++ 10 :: r' ∧ (10 : UInt8) ∉ body := by
          clear h
          induction r with
          | nil => simp at h10
          | cons c r ih2 =>
            by_cases hc : c = 10
            · exact ⟨[], r, by simp [hc], by simp⟩
            · have : (10 : UInt8) ∈ r := by
                simp at h10
                rcases h10 with h | h
                · exact absurd h.symm hc
                · exact h
              obtain ⟨body, r', rfl, h⟩ := ih2 this
              exact ⟨c :: body, r', rfl, by simp [Ne.symm hc, h]⟩
        obtain ⟨body, r', rfl, hb⟩ := hsplit
        obtain ⟨w, X, rfl, hw, hX⟩ := ih r' (by simp at h; omega)
        exact ⟨_, X, by simp, .comment hb hw, hX⟩
      · exact ⟨[], _, rfl, .nil, .inr ⟨r, rfl, h10⟩⟩
    · match T with
      | [] => exact ⟨[], [], rfl, .nil, .inl ⟨by simp, hcom⟩⟩
      | c :: T =>
        by_cases hb : Blank c
        · obtain ⟨w, X, rfl, hw, hX⟩ := ih T (by simp at h; omega)
          exact ⟨c :: w, X, rfl, .blank hb hw, hX⟩
        · refine ⟨[], c :: T, rfl, .nil, .inl ⟨?_, hcom⟩⟩
          rintro d X' e; simp at e; rw [← e.1]; exact hb

theorem newlines_none {w : List UInt8} (h : (10 : UInt8) ∉ w) : newlines w = 0 :=
  List.count_eq_zero_of_not_mem h

/-- White space before a comment. -/
theorem stop_comment {body X : List UInt8} : ∀ c X', bytes "//" ++ body ++ X = c :: X' → ¬ Blank c := by
  intro c X' e
  have : c = 47 := by
    have e' : (47 : UInt8) :: 47 :: (body ++ X) = c :: X' := by rw [← e]; simp [bytes]
    simp at e'; exact e'.1.symm
  rw [this]; decide

/-- `GetToken` up to a comment: white space, the comment, then it starts again. -/
theorem getToken_comment (strtod) {n l bs body U fuel} (hv : View n l (bs ++ (bytes "//" ++ body ++ U)))
    (hb : ∀ c ∈ bs, Blank c) (hbody : (10 : UInt8) ∉ body) (hU : ∀ c U', U = c :: U' → c = 10)
    (hf : (bs ++ (bytes "//" ++ body ++ U)).length < fuel + 1) :
    ∃ l', l.getToken strtod (fuel + 1) = l'.getToken strtod fuel ∧ View n l' U.tail ∧
      l'.line = l.line + newlines bs + (if U = [] then 0 else 1) := by
  have h2 : (bytes "//").length = 2 := rfl
  simp only [List.length_append, h2] at hf
  obtain ⟨l1, e1, v1, i1, _⟩ := spaceLoop_ok (fuel := fuel + 1) hv hb stop_comment (by omega)
  have v1' : View n l1 (47 :: 47 :: (body ++ U)) := by simpa [bytes] using v1
  have hl : l1.last = 47 := v1'.last
  have hp : l1.peek = 47 := by rw [v1'.peek]; rfl
  have hb2 : (10 : UInt8) ∉ bytes "//" ++ body := by simp [hbody, bytes]
  obtain ⟨l2, e2, v2, i2, _⟩ := commentLoop_ok (fuel := fuel + 1) v1 hb2 hU (by simp only [List.length_append, h2]; omega)
  rw [Lexer.getToken, e1]
  simp only [Res.bind_ok]
  rw [if_neg (by rw [hl]; decide), if_pos ⟨hl, hp⟩, e2]
  simp only [Res.bind_ok]
  cases U with
  | nil =>
    refine ⟨l2, ?_, v2, by rw [i2, i1]; simp⟩
    rw [if_neg (by simp [v2.last])]
  | cons c U =>
    have hc : c = 10 := hU c U rfl
    refine ⟨_, ?_, (v2.tail).other (l' := { l2.advance with line := l2.advance.line + 1 }) rfl rfl rfl, ?_⟩
    · rw [if_pos (by rw [v2.last, hc]; simp)]
    · simp [i2, i1]

/-- `GetToken` skips layout and then scans a token, or finds the end of the source. -/
theorem getToken_layout (strtod) {n} : ∀ {N w X l fuel}, w.length ≤ N → Layout w → View n l (w ++ X) → Stop X →
    (w ++ X).length < fuel → ∃ l' fuel', X.length < fuel' ∧ View n l' X ∧ l'.line = l.line + newlines w ∧
      l.getToken strtod fuel = (if X = [] then .ok (.eofTok, l') else l'.scan strtod fuel') := by
  intro N
  induction N with
  | zero =>
    intro w X l fuel hw hlay hv hX hf
    obtain rfl : w = [] := by simpa using hw
    obtain ⟨fuel, rfl⟩ : ∃ k, fuel = k + 1 := ⟨fuel - 1, by simp at hf; omega⟩
    obtain ⟨l1, e1, v1, i1, _⟩ := spaceLoop_ok (w := []) (fuel := fuel + 1) hv (by simp) hX.1 (by simp)
    refine ⟨l1, fuel + 1, by simpa using hf, v1, i1, ?_⟩
    rw [Lexer.getToken, e1]
    simp only [Res.bind_ok]
    by_cases h0 : X = []
    · rw [if_pos (v1.last_zero.mpr h0), if_pos h0]; rfl
    · rw [if_neg (fun h => h0 (v1.last_zero.mp h)), if_neg h0, if_neg]
      rintro ⟨h1, h2⟩
      cases X with
      | nil => exact h0 rfl
      | cons c X =>
        rw [v1.peek] at h2
        rw [v1.last] at h1
        simp at h1; subst h1
        cases X with
        | nil => simp at h2
        | cons d X =>
          simp at h2; subst h2
          exact hX.2 ⟨X, rfl⟩
  | succ N ih =>
    intro w X l fuel hw hlay hv hX hf
    obtain ⟨fuel, rfl⟩ : ∃ k, fuel = k + 1 := ⟨fuel - 1, by simp at hf; omega⟩
    obtain ⟨bs, hb, h⟩ := Layout.split hlay
    rcases h with rfl | ⟨body, w', rfl, hbody, hlay'⟩
    · obtain ⟨l1, e1, v1, i1, _⟩ := spaceLoop_ok (fuel := fuel + 1) hv hb hX.1 (by simp at hf; omega)
      refine ⟨l1, fuel + 1, by simp at hf; omega, v1, i1, ?_⟩
      rw [Lexer.getToken, e1]
      simp only [Res.bind_ok]
      by_cases h0 : X = []
      · rw [if_pos (v1.last_zero.mpr h0), if_pos h0]; rfl
      · rw [if_neg (fun h => h0 (v1.last_zero.mp h)), if_neg h0, if_neg]
        rintro ⟨h1, h2⟩
        cases X with
        | nil => exact h0 rfl
        | cons c X =>
          rw [v1.peek] at h2
          rw [v1.last] at h1
          simp at h1; subst h1
          cases X with
          | nil => simp at h2
          | cons d X =>
            simp at h2; subst h2
            exact hX.2 ⟨X, rfl⟩
    · have hv' : View n l (bs ++ (bytes "//" ++ body ++ (10 :: (w' ++ X)))) := by simpa using hv
      have h2 : (bytes "//").length = 2 := rfl
      obtain ⟨l1, e1, v1, i1⟩ := getToken_comment strtod (fuel := fuel) hv' hb hbody
        (by rintro c U' e; simp at e; exact e.1.symm) (by simp at hf ⊢; omega)
      obtain ⟨l2, fuel2, f2, v2, i2, e2⟩ := ih (w := w') (X := X) (l := l1) (fuel := fuel)
        (by simp only [List.length_append, List.length_cons, h2] at hw; omega) hlay' v1 hX
        (by simp only [List.length_append, List.length_cons, h2] at hf ⊢; omega)
      refine ⟨l2, fuel2, f2, v2, ?_, by rw [e1, e2]⟩
      have hb2 : newlines (bytes "//") = 0 := rfl
      rw [i2, i1]
      simp [nls_append, newlines_cons, newlines_none hbody, hb2]; omega

/-- The last comment. -/
theorem getToken_last (strtod) {n w body l fuel} (hlay : Layout w) (hbody : (10 : UInt8) ∉ body)
    (hv : View n l (w ++ (bytes "//" ++ body))) (hf : (w ++ (bytes "//" ++ body)).length < fuel) :
    ∃ l', View n l' [] ∧ l'.line = l.line + newlines w ∧ l.getToken strtod fuel = .ok (.eofTok, l') := by
  obtain ⟨N, hN⟩ : ∃ N, w.length ≤ N := ⟨_, Nat.le_refl _⟩
  have h2 : (bytes "//").length = 2 := rfl
  induction N generalizing w l fuel with
  | zero =>
    obtain rfl : w = [] := by simpa using hN
    obtain ⟨fuel, rfl⟩ : ∃ k, fuel = k + 2 := ⟨fuel - 2, by simp [h2] at hf; omega⟩
    obtain ⟨l1, e1, v1, i1⟩ := getToken_comment strtod (bs := []) (body := body) (U := []) (fuel := fuel + 1)
      (by simpa using hv) (by simp) hbody (by simp) (by simpa using hf)
    obtain ⟨l2, f2, _, v2, i2, e2⟩ := getToken_layout strtod (N := 0) (w := []) (X := []) (l := l1)
      (fuel := fuel + 1) (by simp) .nil (by simpa using v1) ⟨by simp, by decide⟩ (by simp)
    refine ⟨l2, v2, ?_, by rw [e1, e2]; simp⟩
    rw [i2, i1]; simp [newlines]
  | succ N ih =>
    obtain ⟨bs, hb, h⟩ := Layout.split hlay
    rcases h with rfl | ⟨body', w', rfl, hbody', hlay'⟩
    · obtain ⟨fuel, rfl⟩ : ∃ k, fuel = k + 2 := ⟨fuel - 2, by simp only [List.length_append, h2] at hf; omega⟩
      obtain ⟨l1, e1, v1, i1⟩ := getToken_comment strtod (bs := w) (body := body) (U := []) (fuel := fuel + 1)
        (by simpa using hv) hb hbody (by simp) (by simpa using hf)
      obtain ⟨l2, f2, _, v2, i2, e2⟩ := getToken_layout strtod (N := 0) (w := []) (X := []) (l := l1)
        (fuel := fuel + 1) (by simp) .nil (by simpa using v1) ⟨by simp, by decide⟩ (by simp)
      refine ⟨l2, v2, ?_, by rw [e1, e2]; simp⟩
      rw [i2, i1]; simp [newlines]
    · obtain ⟨fuel, rfl⟩ : ∃ k, fuel = k + 1 := ⟨fuel - 1, by simp only [List.length_append, h2] at hf; omega⟩
      have hv' : View n l (bs ++ (bytes "//" ++ body' ++ (10 :: (w' ++ (bytes "//" ++ body))))) := by simpa using hv
      obtain ⟨l1, e1, v1, i1⟩ := getToken_comment strtod (fuel := fuel) hv' hb hbody'
        (by rintro c U' e; simp at e; exact e.1.symm) (by simp at hf ⊢; omega)
      obtain ⟨l2, v2, i2, e2⟩ := ih (w := w') (l := l1) (fuel := fuel) hlay' v1
        (by simp only [List.length_append, List.length_cons, h2] at hf ⊢; omega)
        (by simp only [List.length_append, List.length_cons, h2] at hN; omega)
      refine ⟨l2, v2, ?_, by rw [e1, e2]⟩
      have hb2 : newlines (bytes "//") = 0 := rfl
      rw [i2, i1]
      simp [nls_append, newlines_cons, newlines_none hbody', hb2]; omega

/-! ### One call -/

/-- A spelling with a proper continuation ends layout. -/
theorem Longest.stop {s u t} (h : Spelled s t) (hl : Longest s u) : Stop (s ++ u) ∧ s ++ u ≠ [] := by
  obtain ⟨c, cs, rfl, hc⟩ := h.class.head
  refine ⟨⟨?_, hl.2⟩, by simp⟩
  intro d X' e
  obtain rfl : c = d := by simp at e; exact e.1
  have H := head_classes c
  rcases hc with ⟨k, _⟩ | ⟨k, _⟩ | ⟨k, _⟩ | ⟨rfl, _⟩ | ⟨rfl, _⟩
  · exact (H.1 k).2.2.2.2.1
  · exact (H.2.1 k).2.2.2.1
  · exact (H.2.2.1 k).2.2.1
  · exact H.2.2.2.1
  · exact H.2.2.2.2

/-- What one call of `Tiny_GetToken` did at the text `T`. -/
inductive Got (strtod : List UInt8 → BitVec 64) (n : Nat) (l : Lexer) (T : List UInt8) : Res (Tok × Lexer) → Prop
  | token {w s u t k l'} : T = w ++ s ++ u → Layout w → Spelled s t → Longest s u →
      tokenOf strtod k l' = some t → View n l' u → l'.line = l.line + newlines w → Got strtod n l T (.ok (k, l'))
  | eof {l'} : LastLayout T → View n l' [] → l'.line = l.line + newlines T → Got strtod n l T (.ok (.eofTok, l'))
  | loop {w X} : T = w ++ X → Layout w → OpenString X → Got strtod n l T .timeout
  | error {w X l'} : T = w ++ X → Layout w → Stop X → X ≠ [] → ¬ OpenString X →
      (∀ s t, Spelled s t → ¬ s <+: X) → l'.line = l.line + newlines w →
      l'.err = some (if X.head? = some 39 then .expectedQuote else .unexpectedChar) →
      (∃ Y, View n l' Y ∧ (X.head? = some 39 ∧ Y <:+ X.tail ∨ X.head? ≠ some 39 ∧ Y = X)) →
      Got strtod n l T (.ok (.lexerError, l'))

theorem getToken_got (strtod) {n l T fuel} (hv : View n l T) (hf : T.length < fuel) :
    Got strtod n l T (l.getToken strtod fuel) := by
  obtain ⟨w, X, rfl, hw, hX | ⟨body, rfl, hb⟩⟩ := layout_split T.length T (Nat.le_refl _)
  · obtain ⟨l', fuel', f', v', i', e'⟩ := getToken_layout strtod (Nat.le_refl _) hw hv hX hf
    rw [e']
    cases X with
    | nil => rw [if_pos rfl]; exact .eof (by simpa using .done hw) v' (by simpa using i')
    | cons c X =>
      rw [if_neg (by simp)]
      have hs := scan_ok strtod v' f' hX.2
      generalize l'.scan strtod fuel' = r at hs
      cases hs with
      | token hT h1 h2 h3 h4 h5 =>
        exact .token (w := w) (by rw [hT]; simp) hw h1 h2 h3 h4 (by rw [h5, i'])
      | loop h1 h2 => exact .loop rfl hw h1
      | error h1 h2 h3 h4 h5 => exact .error rfl hw hX (by simp) h1 h2 (by rw [h3, i']) h4 h5
  · obtain ⟨l', v', i', e'⟩ := getToken_last strtod hw hb hv hf
    rw [e']
    refine .eof (.comment hw hb) v' ?_
    have hb2 : newlines (bytes "//") = 0 := rfl
    rw [i', nls_append, nls_append, newlines_none hb, hb2]; omega

/-- A token with its layout is delivered. -/
theorem getToken_token (strtod) {n l w s u t fuel} (hv : View n l (w ++ s ++ u)) (hw : Layout w)
    (hs : Spelled s t) (hl : Longest s u) (hf : (w ++ s ++ u).length < fuel) :
    ∃ k l', l.getToken strtod fuel = .ok (k, l') ∧ tokenOf strtod k l' = some t ∧ View n l' u ∧
      l'.line = l.line + newlines w := by
  obtain ⟨hst, hne⟩ := Longest.stop hs hl
  obtain ⟨l', fuel', f', v', i', e'⟩ := getToken_layout strtod (Nat.le_refl _) hw (X := s ++ u) (by simpa using hv)
    hst (by simpa using hf)
  rw [if_neg hne] at e'
  rw [e']
  obtain ⟨c, X, hX⟩ : ∃ c X, s ++ u = c :: X := by
    cases h : s ++ u with
    | nil => exact absurd h hne
    | cons c X => exact ⟨c, X, rfl⟩
  rw [hX] at v' f' hst
  have hsc := scan_ok strtod v' f' hst.2
  generalize l'.scan strtod fuel' = r at hsc
  cases hsc with
  | token hT h1 h2 h3 h4 h5 =>
    obtain ⟨rfl, rfl, rfl⟩ := longest_unique hs hl h1 h2 (by rw [hX, hT])
    exact ⟨_, _, rfl, h3, h4, by rw [h5, i']⟩
  | loop _ h => exact absurd (hX ▸ List.prefix_append s u) (h _ _ hs)
  | error _ h => exact absurd (hX ▸ List.prefix_append s u) (h _ _ hs)

/-- The end of the source is found. -/
theorem getToken_eof (strtod) {n l w fuel} (hv : View n l w) (hw : LastLayout w) (hf : w.length < fuel) :
    ∃ l', l.getToken strtod fuel = .ok (.eofTok, l') ∧ View n l' [] ∧ l'.line = l.line + newlines w := by
  cases hw with
  | done h =>
    obtain ⟨l', f', _, v', i', e'⟩ := getToken_layout strtod (X := []) (Nat.le_refl _) h (by simpa using hv)
      ⟨by simp, by decide⟩ (by simpa using hf)
    exact ⟨l', by simpa using e', v', i'⟩
  | comment h hb =>
    obtain ⟨l', v', i', e'⟩ := getToken_last strtod h hb hv hf
    refine ⟨l', e', v', ?_⟩
    have hb2 : newlines (bytes "//") = 0 := rfl
    rw [i', nls_append, nls_append, newlines_none hb, hb2]; omega

theorem tokenOf_some {strtod k l t} (h : tokenOf strtod k l = some t) : k ≠ .eofTok ∧ k ≠ .lexerError := by
  constructor <;> (rintro rfl; simp [tokenOf] at h)

/-- Position of the lexer: one past its lookahead byte. -/
theorem View.pos_eq {n l T} (h : View n l T) : l.pos = n - T.tail.length := by
  have h1 := h.pos; rw [h.rest] at h1; omega

/-! ### The whole source -/

theorem tokens_reads (strtod) {n m src ts e} (h : Reads m src ts e) : ∀ {l fuel}, View n l src → l.line = m →
    src.length < fuel → ∃ L l', l.tokens strtod fuel = .ok (L ++ [(.eofTok, l')]) ∧ l'.line = e ∧ l'.pos = n ∧
      L.map (fun x => (tokenOf strtod x.1 x.2, x.2.line, x.2.pos)) =
        ts.map (fun x => (some x.tok, x.line, n - x.after.tail.length)) := by
  induction h with
  | done hw =>
    intro l fuel hv hl hf
    obtain ⟨fuel, rfl⟩ : ∃ k, fuel = k + 1 := ⟨fuel - 1, by omega⟩
    obtain ⟨l', e', v', i'⟩ := getToken_eof strtod hv hw hf
    refine ⟨[], l', ?_, by rw [i', hl], by simpa using v'.pos_eq, rfl⟩
    rw [Lexer.tokens, e']; simp
  | @token m w s u t ts e hw hs hlong _ ih =>
    intro l fuel hv hl hf
    obtain ⟨fuel, rfl⟩ : ∃ k, fuel = k + 1 := ⟨fuel - 1, by omega⟩
    obtain ⟨k, l1, e1, t1, v1, i1⟩ := getToken_token strtod hv hw hs hlong hf
    have hs0 : s ≠ [] := by
      obtain ⟨c, cs, rfl, _⟩ := hs.class.head; simp
    have hs1 : 0 < s.length := List.length_pos_iff.mpr hs0
    obtain ⟨L, l2, e2, g1, g2, g3⟩ := ih (fuel := fuel) v1 (by rw [i1, hl]) (by simp at hf; omega)
    refine ⟨(k, l1) :: L, l2, ?_, g1, g2, ?_⟩
    · rw [Lexer.tokens, e1]
      simp only [Res.bind_ok]
      rw [if_neg (by have := tokenOf_some t1; simp [this.1, this.2]), e2]; rfl
    · simp only [List.map_cons, g3, t1, i1, hl, v1.pos_eq]

/-- The three ways in which lexing a source can end. -/
inductive Lexed (src : List UInt8) (m : Nat) : Res (List (Tok × Lexer)) → Prop
  | all {L ts e} : Reads m src ts e → Lexed src m (.ok L)
  | error {L l'} : Malformed src → Lexed src m (.ok (L ++ [(.lexerError, l')]))
  | loop : Unterminated src → Lexed src m .timeout

theorem tokens_lexed (strtod) {n} : ∀ {N src l fuel}, src.length ≤ N → View n l src → src.length < fuel →
    Lexed src l.line (l.tokens strtod fuel) := by
  intro N
  induction N with
  | zero =>
    intro src l fuel hN hv hf
    obtain rfl : src = [] := by simpa using hN
    obtain ⟨L, l', e, _⟩ := tokens_reads strtod (.done (.done .nil)) hv rfl hf
    rw [e]
    exact .all (.done (.done .nil))
  | succ N ih =>
    intro src l fuel hN hv hf
    obtain ⟨fuel, rfl⟩ : ∃ k, fuel = k + 1 := ⟨fuel - 1, by omega⟩
    have hg := getToken_got strtod hv hf
    rw [Lexer.tokens]
    generalize l.getToken strtod (fuel + 1) = r at hg
    cases hg with
    | @token w s u t k l1 hT hw hs hlong ht hv1 hl1 =>
      simp only [Res.bind_ok]
      have hk := tokenOf_some ht
      rw [if_neg (by simp [hk.1, hk.2])]
      have hs0 : s ≠ [] := by obtain ⟨c, cs, rfl, _⟩ := hs.class.head; simp
      have hs1 : 0 < s.length := List.length_pos_iff.mpr hs0
      rw [hT] at hN hf
      have hi := ih (src := u) (l := l1) (fuel := fuel) (by simp at hN; omega) hv1 (by simp at hf; omega)
      generalize l1.tokens strtod fuel = r at hi
      cases hi with
      | all h =>
        rw [hl1] at h
        rw [hT]; exact .all (Reads.token hw hs hlong h)
      | @error L l' h1 =>
        exact .error (L := (k, l1) :: L) (hT ▸ .later hw hs hlong h1)
      | loop h1 => exact .loop (hT ▸ .later hw hs hlong h1)
    | eof h1 h2 h3 =>
      simp only [Res.bind_ok, true_or, if_true]
      exact .all (.done h1)
    | loop h1 h2 h3 => exact .loop (h1 ▸ .here h2 h3)
    | @error w X l' h1 h2 h3 h4 h5 h6 h7 =>
      simp only [Res.bind_ok, or_true, if_true]
      cases X with
      | nil => exact absurd rfl h4
      | cons c X => exact .error (L := []) (h1 ▸ .here h2 (h3.1 c X rfl) h3.2 h5 h6)

/-! ### More fuel changes nothing -/

theorem bind_mono {α β : Type} {x y : Res α} {f g : α → Res β} (hxy : x ≠ .timeout → y = x)
    (hfg : ∀ a, f a ≠ .timeout → g a = f a) (h : (x >>= f) ≠ .timeout) : (y >>= g) = (x >>= f) := by
  cases x with
  | ok a => rw [hxy (by simp)]; exact hfg a h
  | abort => rw [hxy (by simp)]; rfl
  | ub => rw [hxy (by simp)]; rfl
  | limit => rw [hxy (by simp)]; rfl
  | timeout => exact absurd rfl h

theorem spaceLoop_mono : ∀ {f l}, Lexer.spaceLoop f l ≠ .timeout →
    Lexer.spaceLoop (f + 1) l = Lexer.spaceLoop f l := by
  intro f
  induction f with
  | zero => intro l h; exact absurd rfl h
  | succ f ih =>
    intro l h
    rw [Lexer.spaceLoop] at h
    show ite _ _ _ = ite _ _ _
    by_cases hc : isspace l.last = true
    · rw [if_pos hc] at h ⊢
      rw [if_pos hc]; exact ih h
    · rw [if_neg hc, if_neg hc]

theorem commentLoop_mono : ∀ {f l}, Lexer.commentLoop f l ≠ .timeout →
    Lexer.commentLoop (f + 1) l = Lexer.commentLoop f l := by
  intro f
  induction f with
  | zero => intro l h; exact absurd rfl h
  | succ f ih =>
    intro l h
    rw [Lexer.commentLoop] at h
    show ite _ _ _ = ite _ _ _
    by_cases hc : l.last ≠ 0 ∧ l.last ≠ nl
    · rw [if_pos hc] at h ⊢
      rw [if_pos hc]; exact ih h
    · rw [if_neg hc, if_neg hc]

theorem wordLoop_mono : ∀ {f l}, Lexer.wordLoop f l ≠ .timeout →
    Lexer.wordLoop (f + 1) l = Lexer.wordLoop f l := by
  intro f
  induction f with
  | zero => intro l h; exact absurd rfl h
  | succ f ih =>
    intro l h
    rw [Lexer.wordLoop] at h
    show ite _ _ _ = ite _ _ _
    by_cases hc : isalnum l.last = true ∨ l.last = 95
    · rw [if_pos hc] at h ⊢
      rw [if_pos hc]; exact ih h
    · rw [if_neg hc, if_neg hc]

theorem numLoop_mono : ∀ {f a b l}, Lexer.numLoop f a b l ≠ .timeout →
    Lexer.numLoop (f + 1) a b l = Lexer.numLoop f a b l := by
  intro f
  induction f with
  | zero => intro a b l h; exact absurd rfl h
  | succ f ih =>
    intro a b l h
    rw [Lexer.numLoop] at h
    show ite _ _ _ = ite _ _ _
    by_cases hc : isdigit l.last = true ∨ l.last = 120 ∧ ¬a = true ∨ a = true ∧ isxdigit l.last = true ∨
        l.last = 46 ∧ ¬b = true
    · rw [if_pos hc] at h ⊢
      rw [if_pos hc]; exact ih h
    · rw [if_neg hc, if_neg hc]

theorem strLoop_mono : ∀ {f l}, Lexer.strLoop f l ≠ .timeout →
    Lexer.strLoop (f + 1) l = Lexer.strLoop f l := by
  intro f
  induction f with
  | zero => intro l h; exact absurd rfl h
  | succ f ih =>
    intro l h
    rw [Lexer.strLoop] at h
    show ite _ _ _ = ite _ _ _
    by_cases hc : l.last ≠ 34
    · rw [if_pos hc] at h ⊢
      rw [if_pos hc]; exact ih h
    · rw [if_neg hc, if_neg hc]

theorem scan_mono (strtod) {f l} (h : Lexer.scan strtod f l ≠ .timeout) :
    Lexer.scan strtod (f + 1) l = Lexer.scan strtod f l := by
  unfold Lexer.scan at h ⊢
  by_cases h1 : l.last = 46 ∧ l.peek = 46 ∧ l.peek2 = 46
  · rw [if_pos h1, if_pos h1]
  · rw [if_neg h1] at h ⊢
    rw [if_neg h1]
    cases h2 : match2Table.find? (fun e => l.last == e.1 && l.peek == e.2.1) with
    | some e => rfl
    | none =>
      rw [h2] at h
      dsimp only at h ⊢
      cases h3 : match1Table.find? (fun e => l.last == e.1) with
      | some e => rfl
      | none =>
        rw [h3] at h
        dsimp only at h ⊢
        by_cases h4 : isalpha l.last = true
        · rw [if_pos h4] at h ⊢
          rw [if_pos h4]
          exact bind_mono wordLoop_mono (fun _ _ => rfl) h
        · rw [if_neg h4] at h ⊢
          rw [if_neg h4]
          by_cases h5 : isdigit l.last = true
          · rw [if_pos h5] at h ⊢
            rw [if_pos h5]
            exact bind_mono numLoop_mono (fun _ _ => rfl) h
          · rw [if_neg h5] at h ⊢
            rw [if_neg h5]
            by_cases h6 : l.last = 39
            · rw [if_pos h6, if_pos h6]
            · rw [if_neg h6] at h ⊢
              rw [if_neg h6]
              by_cases h7 : l.last = 34
              · rw [if_pos h7] at h ⊢
                rw [if_pos h7]
                exact bind_mono strLoop_mono (fun _ _ => rfl) h
              · rw [if_neg h7, if_neg h7]

theorem getToken_mono (strtod) : ∀ {f l}, Lexer.getToken strtod f l ≠ .timeout →
    Lexer.getToken strtod (f + 1) l = Lexer.getToken strtod f l := by
  intro f
  induction f with
  | zero => intro l h; exact absurd rfl h
  | succ f ih =>
    intro l h
    rw [Lexer.getToken] at h
    show (_ >>= _) = (_ >>= _)
    refine bind_mono spaceLoop_mono (fun l' h' => ?_) h
    by_cases h1 : l'.last = 0
    · rw [if_pos h1, if_pos h1]
    · rw [if_neg h1] at h' ⊢
      rw [if_neg h1]
      by_cases h2 : l'.last = 47 ∧ l'.peek = 47
      · rw [if_pos h2] at h' ⊢
        rw [if_pos h2]
        exact bind_mono commentLoop_mono (fun l2 h2 => ih h2) h'
      · rw [if_neg h2] at h' ⊢
        rw [if_neg h2]
        exact scan_mono strtod h'

theorem tokens_mono (strtod) : ∀ {f l}, Lexer.tokens strtod f l ≠ .timeout →
    Lexer.tokens strtod (f + 1) l = Lexer.tokens strtod f l := by
  intro f
  induction f with
  | zero => intro l h; exact absurd rfl h
  | succ f ih =>
    intro l h
    rw [Lexer.tokens] at h
    show (_ >>= _) = (_ >>= _)
    refine bind_mono (getToken_mono strtod) (fun a h' => ?_) h
    obtain ⟨k, l'⟩ := a
    dsimp only at h' ⊢
    by_cases h1 : k = .eofTok ∨ k = .lexerError
    · rw [if_pos h1, if_pos h1]
    · rw [if_neg h1] at h' ⊢
      rw [if_neg h1]
      exact bind_mono ih (fun _ _ => rfl) h'

theorem tokens_mono' (strtod) {f g l} (h : f ≤ g) (e : Lexer.tokens strtod f l ≠ .timeout) :
    Lexer.tokens strtod g l = Lexer.tokens strtod f l := by
  induction g with
  | zero =>
    obtain rfl : f = 0 := by omega
    rfl
  | succ g ih =>
    rcases Nat.lt_or_ge g f with h' | h'
    · obtain rfl : f = g + 1 := by omega
      rfl
    · have := ih h'
      rw [tokens_mono strtod (by rw [this]; exact e), this]

/-! ### The first blank -/

/-- The lexer starts as if a blank preceded the source. -/
theorem init_view {src : List UInt8} (h : 0 ∉ src) : View src.length (Lexer.init src) (32 :: src) :=
  ⟨rfl, rfl, by simp [Lexer.init], by simp [h]⟩

theorem Reads.blank {n src ts m} (h : Reads n src ts m) : Reads n (32 :: src) ts m := by
  cases h with
  | done h =>
    have e : newlines (32 :: src) = newlines src := by simp [newlines_cons]
    rw [← e]
    cases h with
    | done h => exact .done (.done (.blank (by decide) h))
    | comment h hb => exact .done (.comment (w := 32 :: _) (.blank (by decide) h) hb)
  | @token _ w s u t ts _ hw hs hl h =>
    have e : newlines (32 :: w) = newlines w := by simp [newlines_cons]
    have := Reads.token (n := n) (w := 32 :: w) (.blank (by decide) hw) hs hl (by rw [e]; exact h)
    rw [e] at this
    exact this

theorem Layout.unblank {w X src} (h : Layout w) (e : w ++ X = 32 :: src) :
    (w = [] ∧ X = 32 :: src) ∨ ∃ w', w = 32 :: w' ∧ Layout w' ∧ src = w' ++ X := by
  cases h with
  | nil => exact .inl ⟨rfl, e⟩
  | blank _ h' => simp at e; exact .inr ⟨_, by rw [e.1], h', e.2.symm⟩
  | comment => simp [bytes] at e

theorem spelled_not_blank {s u t src} (hs : Spelled s t) (hl : Longest s u) : s ++ u ≠ 32 :: src := by
  intro e
  exact ((Longest.stop hs hl).1.1 32 src e) (by decide)

theorem Reads.unblank {n src ts m} (h : Reads n (32 :: src) ts m) : Reads n src ts m := by
  generalize e : (32 :: src : List UInt8) = T at h
  cases h with
  | done h =>
    have e2 : newlines T = newlines src := by rw [← e]; simp [newlines_cons]
    rw [e2]
    refine .done ?_
    cases h with
    | done h =>
      rcases Layout.unblank (X := []) h (by simpa using e.symm) with ⟨_, h⟩ | ⟨w', rfl, h', rfl⟩
      · simp at h
      · exact .done (by simpa using h')
    | comment h hb =>
      rcases Layout.unblank h e.symm with ⟨_, h⟩ | ⟨w', rfl, h', rfl⟩
      · simp [bytes] at h
      · exact .comment h' hb
  | @token _ w s u t ts _ hw hs hl h =>
    rcases Layout.unblank (X := s ++ u) hw (by simpa using e.symm) with ⟨_, h⟩ | ⟨w', rfl, h', rfl⟩
    · exact absurd h (spelled_not_blank hs hl)
    · have e : newlines (32 :: w') = newlines w' := by simp [newlines_cons]
      rw [e] at h ⊢
      rw [← List.append_assoc]
      exact .token h' hs hl h

theorem Unterminated.unblank {src} (h : Unterminated (32 :: src)) : Unterminated src := by
  generalize e : (32 :: src : List UInt8) = T at h
  cases h with
  | here hw ho =>
    rcases Layout.unblank hw e.symm with ⟨_, h⟩ | ⟨w', rfl, h', rfl⟩
    · rw [h] at ho; exact absurd ho (not_open_of_head (by decide))
    · exact .here h' ho
  | @later w s u t hw hs hl h =>
    rcases Layout.unblank (X := s ++ u) hw (by simpa using e.symm) with ⟨_, h⟩ | ⟨w', rfl, h', rfl⟩
    · exact absurd h (spelled_not_blank hs hl)
    · rw [← List.append_assoc]; exact .later h' hs hl h

theorem Unterminated.blank {src} (h : Unterminated src) : Unterminated (32 :: src) := by
  cases h with
  | here hw ho => exact .here (w := 32 :: _) (.blank (by decide) hw) ho
  | later hw hs hl h => exact .later (w := 32 :: _) (.blank (by decide) hw) hs hl h

theorem Malformed.unblank {src} (h : Malformed (32 :: src)) : Malformed src := by
  generalize e : (32 :: src : List UInt8) = T at h
  cases h with
  | @here w c X hw hb h1 h2 h3 =>
    rcases Layout.unblank hw e.symm with ⟨_, h⟩ | ⟨w', rfl, h', rfl⟩
    · simp at h; rw [h.1] at hb; exact absurd (by decide) hb
    · exact .here h' hb h1 h2 h3
  | @later w s u t hw hs hl h =>
    rcases Layout.unblank (X := s ++ u) hw (by simpa using e.symm) with ⟨_, h⟩ | ⟨w', rfl, h', rfl⟩
    · exact absurd h (spelled_not_blank hs hl)
    · rw [← List.append_assoc]; exact .later h' hs hl h

/-! ### Unterminated strings -/

theorem openString_no_prefix {X s t} (h : OpenString X) (hs : Spelled s t) : ¬ s <+: X := by
  intro hp
  obtain ⟨T, rfl, hT⟩ : ∃ T, X = 34 :: T ∧ ((∃ b, Quoted T b) ∨ ∃ q b, Quoted q b ∧ T = q ++ [92]) := by
    cases h with
    | plain h => exact ⟨_, rfl, .inl ⟨_, h⟩⟩
    | escape h => exact ⟨_, rfl, .inr ⟨_, _, h, rfl⟩⟩
  have H := head_classes 34
  rcases hs.head_of_prefix hp with ⟨h, _⟩ | ⟨h, _⟩ | ⟨h, _⟩ | ⟨_, q', b', hq', rfl, _⟩ | ⟨h, _⟩
  · exact (H.1 h).2.2.1 rfl
  · exact absurd h (by decide)
  · exact absurd h (by decide)
  · obtain ⟨u', hu'⟩ := hp
    have hnot := hq'.not_open (u := u') (T := T) (by simpa using hu')
    rcases hT with ⟨b, hqt⟩ | ⟨q, b, hqt, rfl⟩
    · exact hnot.1 _ hqt
    · exact hnot.2 _ _ hqt rfl
  · exact absurd h (by decide)

theorem tokens_unterminated (strtod) {n src} (h : Unterminated src) : ∀ {l fuel}, View n l src →
    src.length < fuel → l.tokens strtod fuel = .timeout := by
  induction h with
  | @here w X hw ho =>
    intro l fuel hv hf
    obtain ⟨fuel, rfl⟩ : ∃ k, fuel = k + 1 := ⟨fuel - 1, by omega⟩
    have hX : ∃ c T, X = c :: T ∧ Stop X := by
      cases ho with
      | plain h => exact ⟨_, _, rfl, ⟨by rintro c X' e; simp at e; rw [← e.1]; decide, by simp [bytes]⟩⟩
      | escape h => exact ⟨_, _, rfl, ⟨by rintro c X' e; simp at e; rw [← e.1]; decide, by simp [bytes]⟩⟩
    obtain ⟨c, T, rfl, hst⟩ := hX
    obtain ⟨l', fuel', f', v', i', e'⟩ := getToken_layout strtod (Nat.le_refl _) hw hv hst hf
    rw [if_neg (by simp)] at e'
    rw [Lexer.tokens, e']
    have hsc := scan_ok strtod v' f' hst.2
    generalize l'.scan strtod fuel' = r at hsc
    cases hsc with
    | token hT h1 => exact absurd (hT ▸ List.prefix_append ..) (openString_no_prefix ho h1)
    | loop => rfl
    | error h => exact absurd ho h
  | @later w s u t hw hs hlong _ ih =>
    intro l fuel hv hf
    obtain ⟨fuel, rfl⟩ : ∃ k, fuel = k + 1 := ⟨fuel - 1, by omega⟩
    obtain ⟨k, l1, e1, t1, v1, i1⟩ := getToken_token strtod hv hw hs hlong hf
    have hs0 : s ≠ [] := by obtain ⟨c, cs, rfl, _⟩ := hs.class.head; simp
    have hs1 : 0 < s.length := List.length_pos_iff.mpr hs0
    rw [Lexer.tokens, e1]
    simp only [Res.bind_ok]
    rw [if_neg (by have := tokenOf_some t1; simp [this.1, this.2]), ih v1 (by simp at hf; omega)]
    rfl

end Tiny
