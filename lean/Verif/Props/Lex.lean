import Verif.Proofs.LexToken
import Verif.Props.Pos

/-!
# C11–C15, C40 (literals), C44: the lexer

The grammar is in `Verif/Spec/Lex.lean`; what a caller sees of a token in `Verif/Spec/LexView.lean`. `strtod` is the
C library's conversion of floating-point literals, which is not modelled.
-/

namespace Tiny

open Spec

/-! ## C11: tokens -/

/-- **C11.** If a source consists of the tokens `ts` – each spelled by its text, where the longest reading is taken
and layout may precede each – then calling `Tiny_GetToken` until the end of the source delivers exactly these
tokens with these contents, then the end of the source. The line numbers and the positions of the lexer are those
stated (C15, C44). -/
theorem c11_lex (strtod : List UInt8 → BitVec 64) {src : List UInt8} (hz : 0 ∉ src) {ts : List Item} {e : Nat}
    (h : Reads 1 src ts e) :
    ∃ fuel L l', (Lexer.init src).tokens strtod fuel = .ok (L ++ [(.eofTok, l')]) ∧ l'.line = e ∧
      L.map (fun x => (tokenOf strtod x.1 x.2, x.2.line, x.2.pos)) =
        ts.map (fun i => (some i.tok, i.line, src.length - i.after.tail.length)) := by
  obtain ⟨L, l', h1, h2, _, h3⟩ := tokens_reads strtod (Reads.blank h) (init_view hz) (l := Lexer.init src) rfl
    (fuel := src.length + 2) (by simp)
  exact ⟨_, L, l', h1, h2, h3⟩

/-- **C11**, converse: whatever `Tiny_GetToken` delivers until the end of the source are the tokens the source
consists of. -/
theorem c11_lex_sound (strtod : List UInt8 → BitVec 64) {src : List UInt8} (hz : 0 ∉ src) {fuel : Nat}
    {L : List (Tok × Lexer)} {l' : Lexer}
    (h : (Lexer.init src).tokens strtod fuel = .ok (L ++ [(.eofTok, l')])) :
    ∃ ts e, Reads 1 src ts e ∧ l'.line = e ∧
      L.map (fun x => (tokenOf strtod x.1 x.2, x.2.line, x.2.pos)) =
        ts.map (fun i => (some i.tok, i.line, src.length - i.after.tail.length)) := by
  have hv := init_view hz
  have hl := tokens_lexed strtod (Nat.le_refl _) hv (fuel := max fuel (src.length + 2)) (by simp; omega)
  rw [tokens_mono' strtod (Nat.le_max_left _ _) (by rw [h]; simp), h] at hl
  generalize hr : L ++ [(Tok.eofTok, l')] = r at hl
  have hread : ∃ ts e, Reads 1 src ts e := by
    generalize hR : Res.ok r = R at hl
    cases hl with
    | all h => exact ⟨_, _, Reads.unblank h⟩
    | error =>
      cases hR
      have := List.append_inj' hr rfl
      simp at this
    | loop => simp at hR
  obtain ⟨ts, e, hread⟩ := hread
  obtain ⟨fuel', L', l'', h1, h2, h3⟩ := c11_lex strtod hz hread
  have e1 := tokens_mono' strtod (Nat.le_max_left fuel fuel') (by rw [h]; simp)
  have e2 := tokens_mono' strtod (Nat.le_max_right fuel fuel') (by rw [h1]; simp)
  rw [e1, h, h1] at e2
  cases hr
  simp only [Res.ok.injEq] at e2
  have := List.append_inj' e2 rfl
  obtain ⟨rfl, hh⟩ := this
  simp at hh
  subst hh
  exact ⟨ts, e, hread, h2, h3⟩

/-- The reading of a source is unique: the grammar is unambiguous. -/
theorem c11_unambiguous {n src ts e ts' e'} (hz : 0 ∉ src) (h : Reads n src ts e) (h' : Reads n src ts' e') :
    ts.map Item.tok = ts'.map Item.tok ∧ e = e' := by
  have hv : View src.length { Lexer.init src with line := n } (32 :: src) := (init_view hz).other rfl rfl rfl
  obtain ⟨L, l, h1, h2, _, h3⟩ := tokens_reads (fun _ => 0) (Reads.blank h) hv rfl (fuel := src.length + 2) (by simp)
  obtain ⟨L', l', h1', h2', _, h3'⟩ := tokens_reads (fun _ => 0) (Reads.blank h') hv rfl (fuel := src.length + 2) (by simp)
  rw [h1] at h1'
  simp only [Res.ok.injEq] at h1'
  obtain ⟨rfl, hh⟩ := List.append_inj' h1' rfl
  simp at hh; subst hh
  refine ⟨?_, h2.symm.trans h2'⟩
  have := congrArg (List.map Prod.fst) (h3.symm.trans h3')
  simp only [List.map_map] at this
  have h4 : (ts.map Item.tok).map some = (ts'.map Item.tok).map some := by
    rw [List.map_map, List.map_map]; exact this
  exact (List.map_inj_right (fun _ _ h => Option.some.inj h)).mp h4

/-! ### Tokens separated by layout -/

theorem sym_tail : ∀ e ∈ symbols, ∀ c ∈ (bytes e.1).tail, ¬ Blank c ∧ c ≠ 47 := by decide +kernel

theorem word_sep (c : UInt8) : (wordByte c = true → ¬ Blank c ∧ c ≠ 47) ∧
    (Digit c ∨ c = 120 ∨ c = 46 ∨ HexLetter c → ¬ Blank c ∧ c ≠ 47) :=
  byte_all (p := fun c => (wordByte c = true → ¬ Blank c ∧ c ≠ 47) ∧
    (Digit c ∨ c = 120 ∨ c = 46 ∨ HexLetter c → ¬ Blank c ∧ c ≠ 47)) (by decide +kernel) c

/-- No token continues with white space or a slash after another token. -/
theorem no_longer {s t s' t' c r} (h : Spelled s t) (h' : Spelled s' t') (e : s' = s ++ c :: r) :
    ¬ Blank c ∧ c ≠ 47 := by
  obtain ⟨d, ds, rfl, hd⟩ := h.class.head
  have hp : s' <+: d :: (ds ++ c :: r) := by rw [e]; exact List.prefix_refl _
  have hc : c ∈ s' := by rw [e]; simp
  have H := head_classes d
  rcases h'.head_of_prefix hp with ⟨k, x, y, hm, hs', _⟩ | ⟨k, hw⟩ | ⟨k, hn⟩ | ⟨rfl, q', b', hq', hs', _⟩ | ⟨rfl, q', b', hq', hs', _⟩
  · refine sym_tail _ hm c ?_
    simp only
    rw [← hs', e]; simp
  · exact (word_sep c).1 (isWord_all hw c hc)
  · exact (word_sep c).2 (hn.2.1 c hc)
  · exfalso
    rcases hd with ⟨k, _⟩ | ⟨k, _⟩ | ⟨k, _⟩ | ⟨_, q, b, hq, hs, _⟩ | ⟨k, _⟩
    · exact (H.1 k).2.2.1 rfl
    · exact absurd k (by decide)
    · exact absurd k (by decide)
    · have e2 : q' ++ 34 :: [] = q ++ 34 :: (c :: r) := by
        rw [hs', hs] at e; simpa using e
      have := (hq'.unique hq e2).2.2
      simp at this
    · exact absurd k (by decide)
  · exfalso
    rcases hd with ⟨k, _⟩ | ⟨k, _⟩ | ⟨k, _⟩ | ⟨k, _⟩ | ⟨_, q, b, hq, hs, _⟩
    · exact (H.1 k).2.2.2.1 rfl
    · exact absurd k (by decide)
    · exact absurd k (by decide)
    · exact absurd k (by decide)
    · have e2 : q' ++ 39 :: [] = q ++ 39 :: (c :: r) := by
        rw [hs', hs] at e; simpa using e
      have := (hq'.unique hq e2).2.2
      simp at this

/-- White space, a comment (not directly after `/`) or the end of the source end a token. -/
theorem longest_layout {s t u} (h : Spelled s t)
    (hu : u = [] ∨ (∃ c u', u = c :: u' ∧ Blank c) ∨ (bytes "//" <+: u ∧ s ≠ bytes "/")) : Longest s u := by
  have hne : s ≠ [] := by obtain ⟨c, cs, rfl, _⟩ := h.class.head; simp
  refine ⟨?_, ?_⟩
  · intro s' t' h' hp
    rcases Nat.lt_or_ge s.length s'.length with hlt | hge
    · exfalso
      obtain ⟨y, rfl⟩ : s <+: s' := List.prefix_of_prefix_length_le (List.prefix_append _ u) hp (by omega)
      cases y with
      | nil => simp at hlt
      | cons c r =>
        have hc := no_longer h h' rfl
        obtain ⟨z, hz⟩ := hp
        rw [List.append_assoc] at hz
        have hu' : c :: (r ++ z) = u := List.append_cancel_left hz
        rcases hu with rfl | ⟨c', u', rfl, hb⟩ | ⟨⟨w, hw⟩, _⟩
        · simp at hu'
        · simp at hu'; rw [hu'.1] at hc; exact hc.1 hb
        · rw [← hu'] at hw
          have : (47 : UInt8) = c := by simp [bytes] at hw; exact hw.1
          exact hc.2 this.symm
    · exact hge
  · rintro ⟨z, hz⟩
    cases s with
    | nil => exact hne rfl
    | cons a s =>
      have e : (47 : UInt8) :: 47 :: z = a :: (s ++ u) := by simpa [bytes] using hz
      simp at e
      obtain ⟨rfl, e⟩ := e
      cases s with
      | nil =>
        simp at e
        rcases hu with rfl | ⟨c', u', rfl, hb⟩ | ⟨_, hs⟩
        · simp at e
        · simp at e; rw [← e.1] at hb; exact absurd hb (by decide)
        · exact hs rfl
      | cons b s =>
        simp at e
        obtain ⟨rfl, -⟩ := e
        have h1 : Spelled (bytes "/") (.sym .slash) := .sym (by decide)
        exact (no_longer h1 h (c := 47) (r := s) rfl).2 rfl

/-- Separators are layout; only the last may be empty, and a comment does not directly follow a `/`. -/
def Separated : List UInt8 → List (List UInt8 × List UInt8) → Prop
  | w, [] => LastLayout w
  | w, (s, w') :: r => Layout w ∧ ((w' = [] ∧ r = []) ∨ (∃ c u, w' = c :: u ∧ Blank c) ∨
      (bytes "//" <+: w' ∧ s ≠ bytes "/")) ∧ Separated w' r

theorem weave_reads : ∀ {ps : List (List UInt8 × Token)} {w : List UInt8} {ws : List (List UInt8)} {n : Nat},
    ws.length = ps.length → (∀ p ∈ ps, Spelled p.1 p.2) → Separated w ((ps.map Prod.fst).zip ws) →
    ∃ ts e, Reads n (weave w ((ps.map Prod.fst).zip ws)) ts e ∧ ts.map Item.tok = ps.map Prod.snd := by
  intro ps
  induction ps with
  | nil =>
    intro w ws n hl _ hs
    obtain rfl : ws = [] := by simpa using hl
    exact ⟨[], _, .done hs, rfl⟩
  | cons p ps ih =>
    intro w ws n hl hp hs
    obtain ⟨s, t⟩ := p
    cases ws with
    | nil => simp at hl
    | cons w' ws =>
      simp only [List.map_cons, List.zip_cons_cons] at hs ⊢
      obtain ⟨hw, hsep, hr⟩ := hs
      obtain ⟨ts, e, h1, h2⟩ := ih (n := n + newlines w) (by simpa using hl) (fun q hq => hp q (by simp [hq])) hr
      have hspell : Spelled s t := hp (s, t) (by simp)
      refine ⟨_, e, .token hw hspell (longest_layout hspell ?_) h1, by simp [h2]⟩
      rcases hsep with ⟨rfl, h⟩ | ⟨c, u, rfl, hb⟩ | ⟨⟨z, rfl⟩, hne⟩
      · rw [h]; exact .inl rfl
      · refine .inr (.inl ?_)
        cases hz : (ps.map Prod.fst).zip ws with
        | nil => exact ⟨c, u, rfl, hb⟩
        | cons x r => obtain ⟨a, b⟩ := x; exact ⟨c, _, rfl, hb⟩
      · refine .inr (.inr ⟨?_, hne⟩)
        cases hz : (ps.map Prod.fst).zip ws with
        | nil => exact ⟨z, rfl⟩
        | cons x r =>
          obtain ⟨a, b⟩ := x
          exact ⟨z ++ a ++ weave b r, by simp [weave]⟩

/-- **C11/C14.** For every list of tokens and every choice of layout between their spellings, lexing the text
delivers exactly these tokens, whatever the layout. Separators are white space or comments; only after the last
token may there be none, and a comment must not directly follow a `/`. -/
theorem c14_layout (strtod : List UInt8 → BitVec 64) (ps : List (List UInt8 × Token)) (w : List UInt8)
    (ws : List (List UInt8)) (hl : ws.length = ps.length) (hp : ∀ p ∈ ps, Spelled p.1 p.2)
    (hs : Separated w ((ps.map Prod.fst).zip ws)) (hz : 0 ∉ weave w ((ps.map Prod.fst).zip ws)) :
    ∃ fuel L l', (Lexer.init (weave w ((ps.map Prod.fst).zip ws))).tokens strtod fuel =
        .ok (L ++ [(.eofTok, l')]) ∧
      L.map (fun x => tokenOf strtod x.1 x.2) = ps.map (fun p => some p.2) := by
  obtain ⟨ts, e, h1, h2⟩ := weave_reads (n := 1) hl hp hs
  obtain ⟨fuel, L, l', h3, _, h4⟩ := c11_lex strtod hz h1
  refine ⟨fuel, L, l', h3, ?_⟩
  have := congrArg (List.map Prod.fst) h4
  simp only [List.map_map] at this
  rw [show (fun x : Tok × Lexer => tokenOf strtod x.1 x.2) =
    Prod.fst ∘ fun x => (tokenOf strtod x.1 x.2, x.2.line, x.2.pos) from rfl, this]
  have e2 : ps.map (fun p => some p.2) = (ps.map Prod.snd).map some := by simp
  rw [e2, ← h2]; simp

/-- **C11.** The case of single blanks: any list of tokens, each followed by a blank. -/
theorem c11_roundtrip (strtod : List UInt8 → BitVec 64) (ps : List (List UInt8 × Token))
    (hp : ∀ p ∈ ps, Spelled p.1 p.2) (hz : ∀ p ∈ ps, 0 ∉ p.1) :
    ∃ fuel L l', (Lexer.init (ps.flatMap (fun p => p.1 ++ bytes " "))).tokens strtod fuel =
        .ok (L ++ [(.eofTok, l')]) ∧
      L.map (fun x => tokenOf strtod x.1 x.2) = ps.map (fun p => some p.2) := by
  have hw : ∀ (qs : List (List UInt8 × Token)) (w : List UInt8),
      weave w ((qs.map Prod.fst).zip (qs.map (fun _ => [32]))) =
        w ++ qs.flatMap (fun p => p.1 ++ bytes " ") := by
    intro qs
    induction qs with
    | nil => intro w; simp [weave]
    | cons q qs ih => intro w; simp [weave, ih, bytes]
  have hsep : ∀ (qs : List (List UInt8 × Token)) (w : List UInt8), Layout w →
      Separated w ((qs.map Prod.fst).zip (qs.map (fun _ => [32]))) := by
    intro qs
    induction qs with
    | nil => intro w h; exact .done h
    | cons q qs ih =>
      intro w h
      exact ⟨h, .inr (.inl ⟨32, [], rfl, by decide⟩), ih [32] (.blank (by decide) .nil)⟩
  have hflat := hw ps []
  rw [List.nil_append] at hflat
  have := c14_layout strtod ps [] (ps.map (fun _ => [32])) (by simp) hp (hsep ps [] .nil) (by
    rw [hflat]
    simp only [List.mem_flatMap, not_exists, not_and]
    intro p hp' h
    rw [List.mem_append] at h
    rcases h with h | h
    · exact hz p hp' h
    · exact absurd h (by decide))
  rwa [hflat] at this

/-! ### Every token value can be written -/

theorem digitValue_ofNat : ∀ d < 10, Digit (UInt8.ofNat (48 + d)) ∧ digitValue (UInt8.ofNat (48 + d)) = d := by
  decide

theorem decimal_digits (n : Nat) : ∀ c ∈ decimal n, Digit c := by
  induction n using decimal.induct with
  | case1 n h => rw [decimal, if_pos h]; simpa using (digitValue_ofNat n h).1
  | case2 n h ih =>
    rw [decimal, if_neg h]
    intro c hc
    rcases List.mem_append.mp hc with hc | hc
    · exact ih c hc
    · rw [List.mem_singleton] at hc
      rw [hc]; exact (digitValue_ofNat (n % 10) (by omega)).1

theorem decimal_value (n : Nat) : valueIn 10 (decimal n) = n := by
  induction n using decimal.induct with
  | case1 n h => rw [decimal, if_pos h]; simp only [valueIn, List.foldl_cons, List.foldl_nil, (digitValue_ofNat n h).2]; omega
  | case2 n h ih =>
    rw [decimal, if_neg h, valueIn, List.foldl_append]
    show List.foldl _ (valueIn 10 (decimal (n / 10))) _ = n
    rw [ih]
    simp only [List.foldl_cons, List.foldl_nil, (digitValue_ofNat (n % 10) (by omega)).2]; omega

theorem decimal_ne_nil (n : Nat) : decimal n ≠ [] := by
  rw [decimal]; split <;> simp

theorem digits_numeral {s : List UInt8} (hs : s ≠ []) (h : ∀ c ∈ s, Digit c) :
    IsNumeral s ∧ 120 ∉ s ∧ 46 ∉ s := by
  have hx : (120 : UInt8) ∉ s := fun hm => (digit_other _ (h _ hm)).1 rfl
  have hp : (46 : UInt8) ∉ s := fun hm => (digit_other _ (h _ hm)).2.1 rfl
  refine ⟨⟨?_, fun c hc => .inl (h c hc), ?_, ?_, ?_⟩, hx, hp⟩
  · cases s with
    | nil => exact absurd rfl hs
    | cons d ds => exact ⟨d, ds, rfl, h d (by simp)⟩
  · rw [List.count_eq_zero_of_not_mem hx]; omega
  · rw [List.count_eq_zero_of_not_mem hp]; omega
  · intro a c b e hc
    exact absurd hc (digit_other _ (h c (by rw [e]; simp))).2.2

/-- **C11/C40.** The decimal digits of a number below 2^63 spell the integer literal with the low 32 bits of that
number; in particular every `int` from 0 on is spelled by its digits. -/
theorem c40_literal (n : Nat) (h : n < 2 ^ 63) : Spelled (decimal n) (.int (BitVec.ofNat 32 n)) := by
  obtain ⟨h1, h2, h3⟩ := digits_numeral (decimal_ne_nil n) (decimal_digits n)
  have := Spelled.dec h1 h2 h3
  rw [decimal_value, toInt32, Nat.min_eq_left (by omega)] at this
  exact this

/-- **C13.** Every byte string without NUL can be written as a string literal: quotes and backslashes (and, by
choice, newlines and the like) escaped, everything else as it is. -/
theorem c13_quote (b : List UInt8) : Quoted (b.flatMap escapeByte) b := by
  induction b with
  | nil => exact .nil
  | cons c b ih =>
    rw [List.flatMap_cons]
    unfold escapeByte
    by_cases h1 : c = 34
    · subst h1; exact .escape (c := 34) ih
    · rw [if_neg h1]
      by_cases h2 : c = 92
      · subst h2; exact .escape (c := 92) ih
      · rw [if_neg h2]
        by_cases h3 : c = 10
        · subst h3; exact .escape (c := 110) ih
        · rw [if_neg h3]
          by_cases h4 : c = 9
          · subst h4; exact .escape (c := 116) ih
          · rw [if_neg h4]
            by_cases h5 : c = 13
            · subst h5; exact .escape (c := 114) ih
            · rw [if_neg h5]
              by_cases h6 : c = 8
              · subst h6; exact .escape (c := 98) ih
              · rw [if_neg h6]; exact .plain h1 h2 ih

/-- **C13.** Wherever the lexer meets a string literal that denotes the bytes `b`, it delivers a string token with
exactly these bytes, and goes on directly after the closing quote. -/
theorem c13_string (strtod : List UInt8 → BitVec 64) {n : Nat} {l : Lexer} {q b u : List UInt8} (hq : Quoted q b)
    (hv : View n l (34 :: q ++ 34 :: u)) : ∃ fuel l', l.getToken strtod fuel = .ok (.string, l') ∧
      l'.lexeme = b ∧ View n l' u ∧ l'.line = l.line := by
  have hs : Spelled (34 :: q ++ [34]) (.str b) := .str hq
  have hlong : Longest (34 :: q ++ [34]) u := by
    refine ⟨?_, by simp [bytes]⟩
    intro s' t' h' hp
    have hp' : s' <+: 34 :: (q ++ 34 :: u) := by simpa using hp
    have H := head_classes 34
    rcases h'.head_of_prefix hp' with ⟨h, _⟩ | ⟨h, _⟩ | ⟨h, _⟩ | ⟨_, q', b', hq', rfl, _⟩ | ⟨h, _⟩
    · exact absurd rfl (H.1 h).2.2.1
    · exact absurd h (by decide)
    · exact absurd h (by decide)
    · obtain ⟨u', hu'⟩ := hp'
      have : q' ++ 34 :: u' = q ++ 34 :: u := by simpa using hu'
      rw [(hq'.unique hq this).1]
      exact Nat.le_refl _
    · exact absurd h (by decide)
  obtain ⟨k, l', h1, h2, h3, h4⟩ := getToken_token strtod (w := []) (s := 34 :: q ++ [34]) (u := u)
    (by simpa using hv) .nil hs hlong (Nat.lt_succ_self _)
  have hk : k = .string ∧ l'.lexeme = b := by
    unfold tokenOf at h2
    split at h2 <;> simp_all
  exact ⟨_, l', by rw [h1, hk.1], hk.2, h3, by simpa [newlines] using h4⟩

/-- **C13.** The same for character literals: `'c'`, `'\c'`. The value is the byte as a signed `char`. -/
theorem c13_char (strtod : List UInt8 → BitVec 64) {n : Nat} {l : Lexer} {q u : List UInt8} {c : UInt8}
    (hq : CharText q c) (hv : View n l (39 :: q ++ 39 :: u)) :
    ∃ fuel l', l.getToken strtod fuel = .ok (.char, l') ∧ l'.val = .int (c.toBitVec.signExtend 32) ∧
      View n l' u ∧ l'.line = l.line := by
  have hs : Spelled (39 :: q ++ [39]) (.char (c.toBitVec.signExtend 32)) := .char hq
  have hlong : Longest (39 :: q ++ [39]) u := by
    refine ⟨?_, by simp [bytes]⟩
    intro s' t' h' hp
    have hp' : s' <+: 39 :: (q ++ 39 :: u) := by simpa using hp
    have H := head_classes 39
    rcases h'.head_of_prefix hp' with ⟨h, _⟩ | ⟨h, _⟩ | ⟨h, _⟩ | ⟨h, _⟩ | ⟨_, q', b', hq', rfl, _⟩
    · exact absurd rfl (H.1 h).2.2.2.1
    · exact absurd h (by decide)
    · exact absurd h (by decide)
    · exact absurd h (by decide)
    · obtain ⟨u', hu'⟩ := hp'
      have : q' ++ 39 :: u' = q ++ 39 :: u := by simpa using hu'
      rw [(hq'.unique hq this).1]
      exact Nat.le_refl _
  obtain ⟨k, l', h1, h2, h3, h4⟩ := getToken_token strtod (w := []) (s := 39 :: q ++ [39]) (u := u)
    (by simpa using hv) .nil hs hlong (Nat.lt_succ_self _)
  have hk : k = .char ∧ l'.val = .int (c.toBitVec.signExtend 32) := by
    unfold tokenOf at h2
    split at h2 <;> simp_all
  exact ⟨_, l', by rw [h1, hk.1], hk.2, h3, by simpa [newlines] using h4⟩

/-- Every byte but NUL has a character literal. -/
theorem c13_char_all (c : UInt8) : ∃ q, CharText q c ∧ q = if c = 92 then [92, 92] else [c] := by
  by_cases h : c = 92
  · exact ⟨_, by rw [if_pos h, h]; exact .escape (c := 92), rfl⟩
  · exact ⟨_, by rw [if_neg h]; exact .plain h, rfl⟩

/-- A source with most kinds of tokens, a comment and odd layout: what the theorems promise is what the model
computes. -/
example : ∃ L, (Lexer.init (bytes "foreach x := 0x1F...// c\n'\\n' \"a\\\"b\" 12 1.5 foo_2<<=->\t/ //end")).tokens
    (fun _ => 7) 80 = .ok L ∧ L.map (fun p => tokenOf (fun _ => 7) p.1 p.2) =
    [some (.sym .foreachTok), some (.ident (bytes "x")), some (.sym .declare),
     some (.float (bytes "0x1F.")), some (.sym .dot), some (.sym .dot), some (.char 10), some (.str (bytes "a\"b")), some (.int 12),
     some (.float (bytes "1.5")), some (.ident (bytes "foo_2")), some (.sym .shiftLeft), some (.sym .equal),
     some (.sym .arrow), some (.sym .slash), none] :=
  ⟨_, rfl, by decide +kernel⟩

/-- The hypotheses of `c14_layout`: `a/b` written with a comment and a tab. -/
example : ∃ ps w ws, ws.length = List.length ps ∧ (∀ p ∈ ps, Spelled p.1 p.2) ∧
    Separated w ((ps.map Prod.fst).zip ws) ∧
    weave w ((ps.map Prod.fst).zip ws) = bytes "\t a//x\n/ b" := by
  have ha : Spelled (bytes "a") (.ident (bytes "a")) := .ident ⟨by decide, by simp⟩
    (by decide +kernel) (by decide) (by decide)
  have hb : Spelled (bytes "b") (.ident (bytes "b")) := .ident ⟨by decide, by simp⟩
    (by decide +kernel) (by decide) (by decide)
  have hd : Spelled (bytes "/") (.sym .slash) := .sym (by decide)
  refine ⟨[(bytes "a", .ident (bytes "a")), (bytes "/", .sym .slash), (bytes "b", .ident (bytes "b"))], bytes "\t ", [bytes "//x\n", bytes " ", []], rfl, ?_, ?_, ?_⟩
  · simp only [List.mem_cons, List.not_mem_nil, or_false, forall_eq_or_imp, forall_eq]
    exact ⟨ha, hd, hb⟩
  · exact ⟨.blank (by decide) (.blank (by decide) .nil), .inr (.inr ⟨⟨bytes "x\n", rfl⟩, by decide⟩),
      .comment (body := bytes "x") (by decide) .nil, .inr (.inl ⟨32, [], rfl, by decide⟩),
      .blank (by decide) .nil, .inl ⟨rfl, rfl⟩, .done .nil⟩
  · decide +kernel

/-! ## C12: termination -/

/-- **C12.** Lexing a source ends, in a number of steps bounded by the length of the source, exactly when no string
literal is left open; it never reads outside the source (no undefined behaviour). It then ends with the end of the
source or with an error token. -/
theorem c12_terminates (strtod : List UInt8 → BitVec 64) (src : List UInt8) (hz : 0 ∉ src) :
    (¬ Unterminated src ∧ ∃ L k l', (Lexer.init src).tokens strtod (src.length + 2) = .ok (L ++ [(k, l')]) ∧
        ((k = .eofTok ∧ ∃ ts e, Reads 1 src ts e) ∨ (k = .lexerError ∧ Malformed src))) ∨
    (Unterminated src ∧ ∀ fuel, (Lexer.init src).tokens strtod fuel = .timeout) := by
  have hv := init_view hz
  by_cases hu : Unterminated src
  · refine .inr ⟨hu, fun fuel => ?_⟩
    have hbig := tokens_unterminated strtod (Unterminated.blank hu) hv (fuel := max fuel (src.length + 2))
      (by simp; omega)
    -- with less fuel the result cannot be anything else
    cases hr : decide ((Lexer.init src).tokens strtod fuel = .timeout) with
    | true => exact of_decide_eq_true hr
    | false =>
      have hr := of_decide_eq_false hr
      rw [tokens_mono' strtod (Nat.le_max_left _ _) hr] at hbig
      exact absurd hbig hr
  · refine .inl ⟨hu, ?_⟩
    have hl := tokens_lexed strtod (Nat.le_refl _) hv (fuel := src.length + 2) (by simp)
    generalize hr : (Lexer.init src).tokens strtod (src.length + 2) = r at hl
    cases hl with
    | all h =>
      obtain ⟨L, l', h1, h2, _, h3⟩ := tokens_reads strtod h hv (l := Lexer.init src) rfl
        (fuel := src.length + 2) (by simp)
      rw [hr] at h1
      exact ⟨L, _, l', h1, .inl ⟨rfl, _, _, Reads.unblank h⟩⟩
    | error h => exact ⟨_, _, _, rfl, .inr ⟨rfl, Malformed.unblank h⟩⟩
    | loop h => exact absurd (Unterminated.unblank h) hu

/-- A single call of `Tiny_GetToken` returns within as many steps as the text that is left is long, unless that text
starts (after layout) with a string literal that is never closed. -/
theorem c12_call (strtod : List UInt8 → BitVec 64) {n : Nat} {l : Lexer} {T : List UInt8} (hv : View n l T) :
    (∃ k l', l.getToken strtod (T.length + 1) = .ok (k, l')) ∨
      (∃ w X, T = w ++ X ∧ Layout w ∧ OpenString X) := by
  have h := getToken_got strtod hv (Nat.lt_succ_self _)
  generalize l.getToken strtod (T.length + 1) = r at h
  cases h with
  | token => exact .inl ⟨_, _, rfl⟩
  | eof => exact .inl ⟨_, _, rfl⟩
  | loop h1 h2 h3 => exact .inr ⟨_, _, h1, h2, h3⟩
  | error => exact .inl ⟨_, _, rfl⟩

/-- A source which is not terminated: after `x = ` a literal whose last quote is escaped. -/
example : Unterminated (bytes "x \"ab\\\"") := by
  have hx : Spelled (bytes "x") (.ident (bytes "x")) := .ident ⟨by decide, by simp⟩
    (by decide +kernel) (by decide) (by decide)
  exact .later (w := []) (s := bytes "x") (u := bytes " \"ab\\\"") .nil hx
    (longest_layout hx (.inr (.inl ⟨32, bytes "\"ab\\\"", rfl, by decide⟩)))
    (.here (w := [32]) (X := bytes "\"ab\\\"") (.blank (by decide) .nil)
      (.plain (s := bytes "ab\\\"") (.plain (by decide) (by decide) (.plain (by decide) (by decide) (.escape .nil)))))

/-! ## C15: line numbers -/

/-- **C15.** The line number of a token plus the newlines inside the earlier tokens is the number of the first line
plus the newlines before the token. (By `c11_lex` the line number is the lexer's `lineNumber` when it delivers the
token.) -/
theorem c15_line {n : Nat} {src : List UInt8} {ts : List Item} {e : Nat} (h : Reads n src ts e) :
    ∀ {ts₁ i ts₂}, ts = ts₁ ++ i :: ts₂ → ∃ pre, src = pre ++ i.text ++ i.after ∧
      i.line + (ts₁.map (fun j => newlines j.text)).sum = n + newlines pre := by
  induction h with
  | done => intro ts₁ i ts₂ e; simp at e
  | @token n w s u t ts m hw hs hl _ ih =>
    intro ts₁ i ts₂ e
    cases ts₁ with
    | nil =>
      simp at e
      obtain ⟨rfl, rfl⟩ := e
      exact ⟨w, rfl, by simp⟩
    | cons j ts₁ =>
      simp at e
      obtain ⟨rfl, rfl⟩ := e
      obtain ⟨pre, rfl, h2⟩ := ih rfl
      refine ⟨w ++ s ++ pre, by simp, ?_⟩
      simp only [List.map_cons, List.sum_cons, nls_append]
      omega

/-- Newlines inside a token occur only in string and character literals. -/
theorem newline_in_token {s t} (h : Spelled s t) (hn : newlines s ≠ 0) : (∃ b, t = .str b) ∨ ∃ c, t = .char c := by
  have hm : (10 : UInt8) ∈ s := by
    apply Classical.byContradiction
    intro hm; exact hn (newlines_none hm)
  cases h with
  | sym h =>
    exact absurd hm ((by decide +kernel : ∀ e ∈ symbols, (10 : UInt8) ∉ bytes e.1) _ h)
  | keyword h =>
    exact absurd (isWord_all (keyword_word _ h) _ hm) (by decide)
  | true => exact absurd hm (by decide)
  | false => exact absurd hm (by decide)
  | ident h => exact absurd (isWord_all h _ hm) (by decide)
  | dec h => exact absurd (h.2.1 _ hm) (by decide)
  | hex h => exact absurd (h.2.1 _ hm) (by decide)
  | float h => exact absurd (h.2.1 _ hm) (by decide)
  | str => exact .inl ⟨_, rfl⟩
  | char => exact .inr ⟨_, rfl⟩

/-- **C15.** As long as no earlier string or character literal contains a newline, the line number of a token is one
plus the number of newlines before it. -/
theorem c15_exact {src : List UInt8} {ts : List Item} {e : Nat} (h : Reads 1 src ts e) {ts₁ i ts₂}
    (hs : ts = ts₁ ++ i :: ts₂) (hn : ∀ j ∈ ts₁, newlines j.text = 0) :
    ∃ pre, src = pre ++ i.text ++ i.after ∧ i.line = 1 + newlines pre := by
  obtain ⟨pre, h1, h2⟩ := c15_line h hs
  have : (ts₁.map (fun j => newlines j.text)).sum = 0 := by
    clear hs h2
    induction ts₁ with
    | nil => rfl
    | cons j ts₁ ih => simp [hn j (by simp), ih (fun k hk => hn k (by simp [hk]))]
  exact ⟨pre, h1, by omega⟩

/-- **C15, defect.** A raw newline inside a string literal is not counted: in the source `"<newline>" x` the
identifier stands on line 2, and the lexer says 1. -/
theorem c15_defect (strtod : List UInt8 → BitVec 64) : ∃ L, (Lexer.init (bytes "\"\n\" x")).tokens strtod 20 =
    .ok L ∧ L.map (fun p => (tokenOf strtod p.1 p.2, p.2.line)) =
      [(some (.str [10]), 1), (some (.ident (bytes "x")), 1), (none, 1)] ∧ newlines (bytes "\"\n\" ") = 1 :=
  ⟨_, rfl, rfl, rfl⟩

/-! ## C44: positions of errors -/

/-- **C44.** An error reported right after a token has been read is reported for the lexer's position, which is one
past the byte after the token. The line it names is therefore that of the end of the token – unless a newline
directly follows the token, when it is the next line. -/
theorem c44_error_line {src : List UInt8} {ts : List Item} {e : Nat} (h : Reads 1 src ts e) {ts₁ i ts₂}
    (hs : ts = ts₁ ++ i :: ts₂) : ∃ pre, src = pre ++ i.text ++ i.after ∧
      translatePosToLineNumber src ((src.length - i.after.tail.length : Nat) : Int) =
        .ok (1 + newlines (pre ++ i.text) + if i.after.head? = some 10 then 1 else 0) := by
  obtain ⟨pre, h1, _⟩ := c15_line h hs
  refine ⟨pre, h1, ?_⟩
  rw [c09_line_number, Int.toNat_natCast, if_pos (by omega)]
  congr 1
  generalize i.after = u at h1
  subst h1
  cases u with
  | nil =>
    rw [List.take_of_length_le (by simp)]; simp
  | cons c u =>
    have e1 : (pre ++ i.text ++ c :: u).length - (c :: u).tail.length = (pre ++ i.text ++ [c]).length := by
      simp; omega
    have e2 : pre ++ i.text ++ c :: u = (pre ++ i.text ++ [c]) ++ u := by simp
    rw [e1, e2, List.take_left, nls_append, newlines_cons]
    simp [newlines, Nat.add_assoc]

/-- **C44, defect.** In the source `x<newline>y` the error position after the first token is on line 2. -/
theorem c44_defect : ∃ ts e, Reads 1 (bytes "x\ny") ts e ∧ ts.map Item.line = [1, 2] ∧
    (ts.map (fun i => translatePosToLineNumber (bytes "x\ny")
      (((bytes "x\ny").length - i.after.tail.length : Nat) : Int))) = [.ok 2, .ok 2] := by
  have hx : Spelled (bytes "x") (.ident (bytes "x")) := .ident ⟨by decide, by simp [bytes]⟩
    (by decide +kernel) (by decide) (by decide)
  have hy : Spelled (bytes "y") (.ident (bytes "y")) := .ident ⟨by decide, by simp [bytes]⟩
    (by decide +kernel) (by decide) (by decide)
  refine ⟨_, _, .token (w := []) .nil hx (longest_layout hx (.inr (.inl ⟨10, [121], rfl, by decide⟩)))
    (.token (w := [10]) (.blank (by decide) .nil) hy (longest_layout hy (.inl rfl)) (.done (.done .nil))), rfl, rfl⟩

end Tiny
