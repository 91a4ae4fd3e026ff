import Verif.Proofs.LexRun

/-!
# One token: `scan` takes the longest spelling
-/

namespace Tiny

open Spec

theorem mem_takeWhile {p : UInt8 → Bool} {c : UInt8} : ∀ {T : List UInt8}, c ∈ T.takeWhile p → p c = true := by
  intro T
  induction T with
  | nil => simp
  | cons d T ih =>
    rw [List.takeWhile_cons]
    cases h : p d with
    | true =>
      intro hm
      simp at hm
      rcases hm with rfl | hm
      · exact h
      · exact ih hm
    | false => simp

/-! ### Numbers -/

theorem digitOf_eq (c : UInt8) : (Digit c → digitOf 10 c = some (digitValue c)) ∧
    (Digit c ∨ HexLetter c → digitOf 16 c = some (digitValue c)) ∧ digitOf 16 120 = none :=
  byte_all (p := fun c => (Digit c → digitOf 10 c = some (digitValue c)) ∧
    (Digit c ∨ HexLetter c → digitOf 16 c = some (digitValue c)) ∧ digitOf 16 120 = none) (by decide +kernel) c

theorem digitsFrom_eq {base : Nat} : ∀ {s : List UInt8} {acc : Nat}, (∀ c ∈ s, digitOf base c = some (digitValue c)) →
    digitsFrom base acc s = s.foldl (fun a c => a * base + digitValue c) acc := by
  intro s
  induction s with
  | nil => intros; rfl
  | cons c s ih =>
    intro acc h
    rw [digitsFrom, h c (by simp)]
    exact ih (fun d hd => h d (by simp [hd]))

theorem digitsFrom_stop {base : Nat} : ∀ {s : List UInt8} {acc : Nat} {x : UInt8} {r : List UInt8},
    (∀ c ∈ s, digitOf base c = some (digitValue c)) → digitOf base x = none →
    digitsFrom base acc (s ++ x :: r) = s.foldl (fun a c => a * base + digitValue c) acc := by
  intro s
  induction s with
  | nil => intro acc x r _ hx; simp [digitsFrom, hx]
  | cons c s ih =>
    intro acc x r h hx
    rw [List.cons_append, digitsFrom, h c (by simp)]
    exact ih (fun d hd => h d (by simp [hd])) hx

theorem clamp_eq (n : Nat) :
    BitVec.ofInt 32 (max (-2 ^ 63) (min (2 ^ 63 - 1) (n : Int))) = toInt32 n := by
  have : max (-2 ^ 63) (min (2 ^ 63 - 1) (n : Int)) = ((min n (2 ^ 63 - 1) : Nat) : Int) := by omega
  rw [this, BitVec.ofInt_natCast]; rfl

/-- No space, no sign. -/
theorem strtol_eq {base d ds} (hd : Digit d) : strtol base (d :: ds) =
    max (-2 ^ 63) (min (2 ^ 63 - 1) ((digitsFrom base 0 (skipPrefix base (d :: ds)) : Nat) : Int)) := by
  have h1 : isspace d = false := by
    have := ((head_classes d).2.2.1 hd).2.2.1
    rw [← isspace_iff] at this; simpa using this
  have h2 : d ≠ 45 ∧ d ≠ 43 :=
    byte_all (p := fun d => Digit d → d ≠ 45 ∧ d ≠ 43) (by decide +kernel) d hd
  simp [strtol, List.dropWhile, h1, h2.1, h2.2]

theorem dec_value {s} (h : IsNumeral s) (hx : 120 ∉ s) (hp : 46 ∉ s) :
    BitVec.ofInt 32 (strtol 10 s) = toInt32 (valueIn 10 s) := by
  obtain ⟨⟨d, ds, rfl, hd⟩, h2, _, _, h5⟩ := h
  have hall : ∀ c ∈ d :: ds, digitOf 10 c = some (digitValue c) := by
    intro c hc
    refine (digitOf_eq c).1 ?_
    rcases h2 c hc with h | rfl | rfl | h
    · exact h
    · exact absurd hc hx
    · exact absurd hc hp
    · obtain ⟨a, b, e⟩ := List.append_of_mem hc
      have := h5 a c b e h
      exact absurd (e ▸ List.mem_append_left _ this) hx
  rw [strtol_eq hd, clamp_eq]
  have e : ∀ (L : List UInt8), skipPrefix 10 L = L := by
    intro L; unfold skipPrefix; split <;> simp
  rw [e, digitsFrom_eq hall]; rfl

theorem hex_value {s} (h : IsNumeral s) (hx : 120 ∈ s) (hp : 46 ∉ s) :
    BitVec.ofInt 32 (strtol 16 s) = toInt32 (hexValue s) := by
  obtain ⟨⟨d, ds, rfl, hd⟩, h2, h3, _, h5⟩ := h
  rw [strtol_eq hd, clamp_eq]
  congr 1
  -- digits before the `x`
  have hsplit : ∃ p q, d :: ds = p ++ 120 :: q ∧ 120 ∉ p ∧ 120 ∉ q := by
    obtain ⟨p, q, e⟩ := List.append_of_mem hx
    have h3' := h3
    rw [e, List.count_append, List.count_cons_self] at h3'
    exact ⟨p, q, e, fun h => by have := List.count_pos_iff.mpr h; omega,
      fun h => by have := List.count_pos_iff.mpr h; omega⟩
  obtain ⟨p, q, e, hpp, hq⟩ := hsplit
  have hpd : ∀ c ∈ p, digitOf 16 c = some (digitValue c) := by
    intro c hc
    refine (digitOf_eq c).2.1 ?_
    rcases h2 c (e ▸ List.mem_append_left _ hc) with h | rfl | rfl | h
    · exact .inl h
    · exact absurd hc hpp
    · exact absurd (e ▸ List.mem_append_left _ hc) hp
    · exact .inr h
  have hqd : ∀ c ∈ q, digitOf 16 c = some (digitValue c) := by
    intro c hc
    refine (digitOf_eq c).2.1 ?_
    rcases h2 c (e ▸ List.mem_append_right _ (List.mem_cons_of_mem _ hc)) with h | rfl | rfl | h
    · exact .inl h
    · exact absurd hc hq
    · exact absurd (e ▸ List.mem_append_right _ (List.mem_cons_of_mem _ hc)) hp
    · exact .inr h
  have htw : (p ++ 120 :: q).takeWhile (· != 120) = p := by
    rw [List.takeWhile_append_of_pos]
    · simp
    · intro a ha
      simp; rintro rfl; exact hpp ha
  rw [e]
  have key : digitsFrom 16 0 (p ++ 120 :: q) = valueIn 16 p := digitsFrom_stop hpd (digitOf_eq 0).2.2
  -- the form `0x...`
  by_cases h0 : p = [48]
  · subst h0
    cases q with
    | nil =>
      decide
    | cons c q =>
      have hc : (digitOf 16 c).isSome = true := by rw [hqd c (by simp)]; rfl
      show digitsFrom 16 0 (skipPrefix 16 (48 :: 120 :: c :: q)) = valueIn 16 (c :: q)
      rw [skipPrefix, if_pos ⟨rfl, rfl, .inl rfl, hc⟩, digitsFrom_eq hqd]; rfl
  · have hhex : hexValue (p ++ 120 :: q) = valueIn 16 p := by
      unfold hexValue
      split
      · rename_i _ a as e'
        exfalso
        match p, e' with
        | [], e' => simp at e'
        | [x], e' => simp at e'; exact h0 (by rw [e'.1])
        | x :: y :: p, e' => simp at e'; exact hpp (by simp [e'.2.1])
      · rw [htw]
    rw [hhex, ← key]
    congr 1
    unfold skipPrefix
    split
    · rename_i z x c r e'
      rw [if_neg]
      rintro ⟨_, rfl, hx', _⟩
      match p, e' with
      | [], e' => simp at e'
      | [y], e' => simp at e'; exact h0 (by rw [e'.1])
      | y :: y' :: p, e' =>
        simp at e'
        rcases hx' with rfl | rfl
        · exact hpp (by simp [e'.2.1])
        · have := hpd y' (by simp)
          have h88 : y' = 88 := e'.2.1
          subst h88
          exact absurd this (by decide)
    · rfl

/-! ### Tables -/

theorem tokenOf_sym (strtod) {k : Tok} (l : Lexer)
    (h : k ∉ [Tok.eofTok, .lexerError, .ident, .string, .bool, .int, .char, .float]) :
    tokenOf strtod k l = some (.sym k) := by
  cases k <;> first | rfl | simp at h

theorem symbols_plain : ∀ e ∈ symbols, e.2 ∉ [Tok.eofTok, .lexerError, .ident, .string, .bool, .int, .char, .float] := by
  decide +kernel

theorem keywords_plain : ∀ e ∈ keywords, e.2 ∉ [Tok.eofTok, .lexerError, .ident, .string, .bool, .int, .char, .float] := by
  decide +kernel

theorem symbols_short : ∀ e ∈ symbols, (bytes e.1).length ≤ 3 := by decide +kernel

theorem symbols_three : ∀ e ∈ symbols, (bytes e.1).length = 3 → bytes e.1 = [46, 46, 46] := by decide +kernel

theorem symbols_two : ∀ e ∈ symbols, (bytes e.1).length = 2 →
    ∃ f ∈ match2Table, bytes e.1 = [f.1, f.2.1] := by decide +kernel

theorem match2_sym : ∀ e ∈ match2Table, ∃ f ∈ symbols, bytes f.1 = [e.1, e.2.1] ∧ f.2 = e.2.2 := by
  decide +kernel

theorem match1_sym : ∀ e ∈ match1Table, ∃ f ∈ symbols, bytes f.1 = [e.1] ∧ f.2 = e.2 := by decide +kernel

theorem match2_nz : ∀ e ∈ match2Table, e.2.1 ≠ 0 := by decide +kernel

theorem symHead_match1 (c : UInt8) : SymHead c → (match1Table.find? (fun e => c == e.1)).isSome = true :=
  byte_all (p := fun c => SymHead c → (match1Table.find? (fun e => c == e.1)).isSome = true)
    (by decide +kernel) c

theorem keywordTable_sound : ∀ e ∈ keywordTable,
    (e.2.2 = .none ∧ ∃ f ∈ keywords, e.1 = bytes f.1 ∧ f.2 = e.2.1) ∨
    (e.1 = bytes "true" ∧ e.2.1 = .bool ∧ e.2.2 = .bool true) ∨
    (e.1 = bytes "false" ∧ e.2.1 = .bool ∧ e.2.2 = .bool false) := by decide +kernel

theorem keywordTable_complete : (∀ e ∈ keywords, ∃ f ∈ keywordTable, f.1 = bytes e.1) ∧
    (∃ f ∈ keywordTable, f.1 = bytes "true") ∧ (∃ f ∈ keywordTable, f.1 = bytes "false") := by decide +kernel

/-- A spelling which is a prefix of a text starting with `c` starts with `c`. -/
theorem Spec.Spelled.head_of_prefix {s t c T} (h : Spelled s t) (hp : s <+: c :: T) :
    ((SymHead c ∧ ∃ x k, (x, k) ∈ symbols ∧ s = bytes x ∧ t = .sym k) ∨ (Letter c ∧ IsWord s) ∨
      (Digit c ∧ IsNumeral s) ∨
      (c = 34 ∧ ∃ q b, Quoted q b ∧ s = 34 :: q ++ [34] ∧ t = .str b) ∨
      (c = 39 ∧ ∃ q b, CharText q b ∧ s = 39 :: q ++ [39] ∧ t = .char (b.toBitVec.signExtend 32))) := by
  obtain ⟨d, ds, hs, hc⟩ := h.class.head
  obtain ⟨u, hu⟩ := hp
  have : d = c := by rw [hs] at hu; simp at hu; exact hu.1
  rw [← this]; exact hc

/-! ### The classification -/

/-- What `scan` did at the text `T`. -/
inductive Scanned (strtod : List UInt8 → BitVec 64) (n : Nat) (l : Lexer) (T : List UInt8) :
    Res (Tok × Lexer) → Prop
  | token {s u t k l'} : T = s ++ u → Spelled s t → Longest s u → tokenOf strtod k l' = some t →
      View n l' u → l'.line = l.line → Scanned strtod n l T (.ok (k, l'))
  | loop : OpenString T → (∀ s t, Spelled s t → ¬ s <+: T) → Scanned strtod n l T .timeout
  | error {l'} : ¬ OpenString T → (∀ s t, Spelled s t → ¬ s <+: T) → l'.line = l.line →
      l'.err = some (if T.head? = some 39 then .expectedQuote else .unexpectedChar) →
      (∃ Y, View n l' Y ∧ (T.head? = some 39 ∧ Y <:+ T.tail ∨ T.head? ≠ some 39 ∧ Y = T)) →
      Scanned strtod n l T (.ok (.lexerError, l'))

theorem not_open_of_head {c T} (h : c ≠ 34) : ¬ OpenString (c :: T) := by
  intro ho
  generalize e : c :: T = X at ho
  cases ho with
  | plain => simp at e; exact h e.1
  | escape => simp at e; exact h e.1

theorem scan_ok (strtod) {n l c T fuel} (hv : View n l (c :: T)) (hf : (c :: T).length < fuel)
    (hcom : ¬ bytes "//" <+: c :: T) : Scanned strtod n l (c :: T) (l.scan strtod fuel) := by
  have hlast : l.last = c := hv.last
  have hpeek := hv.peek
  have HC := head_classes c
  unfold Lexer.scan
  by_cases he : l.last = 46 ∧ l.peek = 46 ∧ l.peek2 = 46
  · -- `...`
    rw [if_pos he]
    obtain ⟨e1, e2, e3⟩ := he
    rw [hlast] at e1; subst e1
    cases T with
    | nil => rw [hpeek] at e2; simp at e2
    | cons d T =>
      rw [hpeek] at e2; simp at e2; subst e2
      rw [hv.peek2] at e3
      cases T with
      | nil => simp at e3
      | cons e T =>
        simp at e3; subst e3
        obtain ⟨l', g1, g2, g3, g4, g5, g6⟩ :=
          (hv.other (l' := { l with lexeme := ascii "..." }) rfl rfl rfl).skip2
        rw [g1]
        refine .token (s := [46, 46, 46]) (u := T) (t := .sym .ellipsis) rfl ?_ ⟨?_, hcom⟩ ?_ g2 ?_
        · exact Spelled.sym (s := "...") (k := .ellipsis) (by decide)
        · intro s' t' h' hp
          rcases h'.head_of_prefix hp with ⟨_, x, k, hm, rfl, _⟩ | ⟨h, _⟩ | ⟨h, _⟩ | ⟨h, _⟩ | ⟨h, _⟩
          · exact symbols_short _ hm
          all_goals exact absurd h (by decide)
        · rfl
        · simpa using g3
  · rw [if_neg he]
    -- no spelling of three bytes
    have hthree : ∀ x k, (x, k) ∈ symbols → bytes x <+: c :: T → (bytes x).length ≤ 2 := by
      intro x k hm hp
      have h3 := symbols_short _ hm
      rcases Nat.lt_or_ge 2 (bytes x).length with h | h
      · exfalso
        have := symbols_three _ hm (by simp only at h3 ⊢; omega)
        simp only at this
        rw [this] at hp
        obtain ⟨u, hu⟩ := hp
        simp at hu
        obtain ⟨rfl, rfl⟩ := hu
        refine he ⟨hlast, by rw [hpeek]; rfl, by rw [hv.peek2]; rfl⟩
      · exact h
    cases h2 : match2Table.find? (fun e => l.last == e.1 && l.peek == e.2.1) with
    | some e =>
      -- two bytes
      obtain ⟨a, b, k⟩ := e
      have hm := List.mem_of_find?_eq_some h2
      have hp := List.find?_some h2
      simp at hp
      obtain ⟨p1, p2⟩ := hp
      rw [hlast] at p1; subst p1
      have hb := match2_nz _ hm
      simp only at hb
      cases T with
      | nil => rw [hpeek] at p2; simp at p2; exact absurd p2.symm hb
      | cons d T =>
        rw [hpeek] at p2; simp at p2; subst p2
        obtain ⟨l', g1, g2, g3, g4, g5, g6⟩ :=
          (hv.other (l' := { l with lexeme := [c, d] }) rfl rfl rfl).skip1
        simp only [g1]
        obtain ⟨⟨x, k'⟩, hx, hxb, hk⟩ := match2_sym _ hm
        simp only at hxb hk; subst hk
        refine .token (s := [c, d]) (u := T) (t := .sym k') rfl ?_ ⟨?_, hcom⟩ ?_ g2 ?_
        · rw [← hxb]; exact .sym hx
        · intro s' t' h' hp
          rcases h'.head_of_prefix hp with ⟨_, x', k, hm', rfl, _⟩ | ⟨h, _⟩ | ⟨h, _⟩ | ⟨h, _⟩ | ⟨h, _⟩
          · exact hthree _ _ hm' hp
          all_goals
            have hsh : SymHead c := ⟨_, hx, by simp [hxb]⟩
            first
            | exact absurd h (HC.1 hsh).1
            | exact absurd h (HC.1 hsh).2.1
            | exact absurd h (HC.1 hsh).2.2.1
            | exact absurd h (HC.1 hsh).2.2.2.1
        · exact tokenOf_sym _ _ (symbols_plain _ hx)
        · simpa using g3
    | none =>
      -- no spelling of two bytes
      have htwo : ∀ x k, (x, k) ∈ symbols → bytes x <+: c :: T → (bytes x).length ≤ 1 := by
        intro x k hm hp
        have h3 := hthree x k hm hp
        rcases Nat.lt_or_ge 1 (bytes x).length with h | h
        · exfalso
          obtain ⟨f, hfm, hfb⟩ := symbols_two _ hm (by simp only; omega)
          simp only at hfb
          rw [hfb] at hp
          obtain ⟨u, hu⟩ := hp
          simp at hu
          obtain ⟨hc1, hc2⟩ := hu
          have := List.find?_eq_none.mp h2 f hfm
          apply this
          simp [hlast, hpeek, hc1, ← hc2]
        · exact h
      dsimp only
      cases h1 : match1Table.find? (fun e => l.last == e.1) with
      | some e =>
        obtain ⟨a, k⟩ := e
        have hm := List.mem_of_find?_eq_some h1
        have hp := List.find?_some h1
        simp at hp
        rw [hlast] at hp; subst hp
        obtain ⟨⟨x, k'⟩, hx, hxb, hk⟩ := match1_sym _ hm
        simp only at hxb hk; subst hk
        refine .token (s := [c]) (u := T) (t := .sym k') rfl ?_ ⟨?_, hcom⟩ ?_
          (hv.other (l' := { l with lexeme := [c] }) rfl rfl rfl).tail ?_
        · rw [← hxb]; exact .sym hx
        · intro s' t' h' hp
          rcases h'.head_of_prefix hp with ⟨_, x', k, hm', rfl, _⟩ | ⟨h, _⟩ | ⟨h, _⟩ | ⟨h, _⟩ | ⟨h, _⟩
          · exact htwo _ _ hm' hp
          all_goals
            have hsh : SymHead c := ⟨_, hx, by simp [hxb]⟩
            first
            | exact absurd h (HC.1 hsh).1
            | exact absurd h (HC.1 hsh).2.1
            | exact absurd h (HC.1 hsh).2.2.1
            | exact absurd h (HC.1 hsh).2.2.2.1
        · exact tokenOf_sym _ _ (symbols_plain _ hx)
        · simp
      | none =>
        dsimp only
        have hns : ¬ SymHead c := by
          intro h
          have := symHead_match1 c h
          rw [hlast] at h1
          rw [h1] at this; simp at this
        by_cases ha : isalpha l.last = true
        · -- a word
          rw [if_pos ha]
          have hL : Letter c := by rw [hlast, isalpha_iff] at ha; exact ha
          obtain ⟨l', g1, g2, g3, g4, g5, g6⟩ :=
            wordLoop_ok (hv.other (l' := l.reset) rfl rfl rfl) hf
          simp only [g1, Res.bind_ok, Res.pure_eq]
          have g4' : l'.lexeme = (c :: T).takeWhile wordByte := by simpa [Lexer.reset] using g4
          generalize hw : (c :: T).takeWhile wordByte = w at g4'
          generalize hr : (c :: T).dropWhile wordByte = r at g2
          have hT : c :: T = w ++ r := by rw [← hw, ← hr]; exact (List.takeWhile_append_dropWhile ..).symm
          have hcw : wordByte c = true := by rw [wordByte_iff]; exact .inl hL
          have hword : IsWord w := by
            rw [← hw, List.takeWhile_cons, hcw]
            refine ⟨hL, fun d hd => ?_⟩
            rw [← wordByte_iff]
            have hmem := mem_takeWhile hd
            exact hmem
          have hlong : Longest w r := by
            refine ⟨?_, hT ▸ hcom⟩
            intro s' t' h' hp
            rw [← hT] at hp
            rcases h'.head_of_prefix hp with ⟨h, _⟩ | ⟨h, hw'⟩ | ⟨h, _⟩ | ⟨h, _⟩ | ⟨h, _⟩
            · exact absurd h hns
            · rw [← hw]; exact prefix_takeWhile hp (isWord_all hw')
            · exact absurd h (HC.2.1 hL).1
            · exact absurd h (HC.2.1 hL).2.1
            · exact absurd h (HC.2.1 hL).2.2.1
          have gl : l'.line = l.line := by simpa [Lexer.reset] using g3
          unfold Lexer.word
          rw [g4']
          cases hk : keywordTable.find? (fun k => k.1 == w) with
          | none =>
            have hno := List.find?_eq_none.mp hk
            refine .token hT (.ident hword ?_ ?_ ?_) hlong (k := .ident) ?_ g2 gl
            · rintro e he rfl
              obtain ⟨f, hf1, hf2⟩ := keywordTable_complete.1 e he
              exact hno f hf1 (by simp [hf2])
            · rintro rfl
              obtain ⟨f, hf1, hf2⟩ := keywordTable_complete.2.1
              exact hno f hf1 (by simp [hf2])
            · rintro rfl
              obtain ⟨f, hf1, hf2⟩ := keywordTable_complete.2.2
              exact hno f hf1 (by simp [hf2])
            · show some (Token.ident l'.lexeme) = _
              rw [g4']
          | some e =>
            obtain ⟨x, k, v⟩ := e
            have hm := List.mem_of_find?_eq_some hk
            have hp := List.find?_some hk
            simp at hp
            subst hp
            rcases keywordTable_sound _ hm with ⟨hv0, ⟨y, k'⟩, hy, hxy, hkk⟩ | ⟨hx, hk1, hk2⟩ | ⟨hx, hk1, hk2⟩
            · simp only at hv0 hxy hkk; subst hv0 hxy hkk
              exact .token hT (.keyword hy) hlong (tokenOf_sym _ _ (keywords_plain _ hy)) g2 gl
            · simp only at hx hk1 hk2; subst hx hk1 hk2
              exact .token hT .true hlong rfl (g2.other rfl rfl rfl) gl
            · simp only at hx hk1 hk2; subst hx hk1 hk2
              exact .token hT .false hlong rfl (g2.other rfl rfl rfl) gl
        · rw [if_neg ha]
          have hnL : ¬ Letter c := by rw [hlast, isalpha_iff] at ha; exact ha
          by_cases hd : isdigit l.last = true
          · -- a number
            rw [if_pos hd]
            have hD : Digit c := by rw [hlast, isdigit_iff] at hd; exact hd
            obtain ⟨fuel, rfl⟩ : ∃ k, fuel = k + 1 := ⟨fuel - 1, by simp at hf; omega⟩
            have hdo := digit_other c hD
            have hstep : l.reset.numLoop (fuel + 1) false false =
                (l.reset.add c).advance.numLoop fuel (decide (120 ∈ [c])) (decide (46 ∈ [c])) := by
              have hl' : l.reset.last = c := hlast
              rw [Lexer.numLoop, if_pos (by rw [hl']; exact .inl ((isdigit_iff c).mpr hD)), hl']
              congr 1
              · simp [hdo.1, Ne.symm hdo.1]
              · simp [hdo.2.1, Ne.symm hdo.2.1]
            obtain ⟨v, u, l', hT, g1, g2, g3, g4, g5, g6, g7⟩ :=
              numLoop_ok (s := [c]) (fuel := fuel)
                (hv.other (l' := l.reset.add c) rfl rfl rfl).tail (by simp at hf; omega)
                (isNumeral_single hD) (by simp [Lexer.add, Lexer.reset])
            rw [hstep, g1]
            simp only [Res.bind_ok, Res.pure_eq]
            have hT' : c :: T = ([c] ++ v) ++ u := by rw [hT]; simp
            have gl : l'.line = l.line := by simpa [Lexer.reset, Lexer.add] using g3
            have hlong : Longest ([c] ++ v) u := by
              refine ⟨?_, hT' ▸ hcom⟩
              intro s' t' h' hp
              rw [← hT'] at hp
              rcases h'.head_of_prefix hp with ⟨h, _⟩ | ⟨h, _⟩ | ⟨h, hn⟩ | ⟨h, _⟩ | ⟨h, _⟩
              · exact absurd h hns
              · exact absurd h hnL
              · rcases Nat.lt_or_ge ([c] ++ v).length s'.length with hlt | hge
                · exfalso
                  rw [hT'] at hp
                  obtain ⟨y, rfl⟩ : [c] ++ v <+: s' :=
                    List.prefix_of_prefix_length_le (List.prefix_append _ u) hp (by omega)
                  cases y with
                  | nil => simp at hlt
                  | cons y0 y =>
                    have hu : ∃ u', u = y0 :: u' := by
                      obtain ⟨z, hz⟩ := hp
                      rw [List.append_assoc] at hz
                      have := List.append_cancel_left hz
                      exact ⟨_, this.symm⟩
                    obtain ⟨u', rfl⟩ := hu
                    refine g7 y0 u' rfl (isNumeral_prefix (v := y) ?_ (by simp))
                    simpa using hn
                · exact hge
              · exact absurd h (HC.2.2.1 hD).1
              · exact absurd h (HC.2.2.1 hD).2.1
            by_cases hpt : (46 : UInt8) ∈ [c] ++ v
            · have e2 : decide ((46 : UInt8) ∈ [c] ++ v) = true := by simpa using hpt
              rw [e2]
              show Scanned _ _ _ _ (.ok (Tok.float, { l' with val := .float (strtod l'.lexeme) }))
              refine .token hT' (.float g6 hpt) hlong ?_ (g2.other rfl rfl rfl) gl
              simp [tokenOf, g4]
            · have e2 : decide ((46 : UInt8) ∈ [c] ++ v) = false := by simpa using hpt
              rw [e2]
              by_cases hxx : (120 : UInt8) ∈ [c] ++ v
              · have e1 : decide ((120 : UInt8) ∈ [c] ++ v) = true := by simpa using hxx
                rw [e1]
                show Scanned _ _ _ _ (.ok (Tok.int, { l' with val := .int (BitVec.ofInt 32 (strtol 16 l'.lexeme)) }))
                refine .token hT' (.hex g6 hxx hpt) hlong ?_ (g2.other rfl rfl rfl) gl
                show some (Token.int _) = _
                rw [g4, hex_value g6 hxx hpt]
              · have e1 : decide ((120 : UInt8) ∈ [c] ++ v) = false := by simpa using hxx
                rw [e1]
                show Scanned _ _ _ _ (.ok (Tok.int, { l' with val := .int (BitVec.ofInt 32 (strtol 10 l'.lexeme)) }))
                refine .token hT' (.dec g6 hxx hpt) hlong ?_ (g2.other rfl rfl rfl) gl
                show some (Token.int _) = _
                rw [g4, dec_value g6 hxx hpt]
          · rw [if_neg hd]
            have hnD : ¬ Digit c := by rw [hlast, isdigit_iff] at hd; exact hd
            by_cases hq : l.last = 39
            · -- a character
              rw [if_pos hq]
              rw [hlast] at hq; subst hq
              rcases charText_cases T with ⟨q, b, u, hqt, rfl⟩ | hno
              · obtain ⟨l', g1, g2, g3, g4, g5⟩ := charLit_ok hqt hv
                rw [g1]
                refine .token (s := 39 :: q ++ [39]) (by simp) (.char hqt) ⟨?_, by simpa using hcom⟩ ?_ g2 g3
                · intro s' t' h' hp
                  have hp' : s' <+: 39 :: (q ++ 39 :: u) := by simpa using hp
                  rcases h'.head_of_prefix hp' with ⟨h, _⟩ | ⟨h, _⟩ | ⟨h, _⟩ | ⟨h, _⟩ | ⟨_, q', b', hq', rfl, _⟩
                  · exact absurd h hns
                  · exact absurd h hnL
                  · exact absurd h hnD
                  · exact absurd h (by decide)
                  · obtain ⟨u', hu'⟩ := hp'
                    have : q' ++ 39 :: u' = q ++ 39 :: u := by simpa using hu'
                    rw [(hq'.unique hqt this).1]
                    exact Nat.le_refl _
                · simp [tokenOf, g4]
              · obtain ⟨l', g1, g2, g3, Y, g4, g5⟩ := charLit_err hv hno
                rw [g1]
                refine .error (not_open_of_head (by decide)) ?_ g2 (by simpa using g3) ⟨Y, g4, .inl ⟨rfl, g5⟩⟩
                intro s t h hp
                rcases h.head_of_prefix hp with ⟨h, _⟩ | ⟨h, _⟩ | ⟨h, _⟩ | ⟨h, _⟩ | ⟨_, q', b', hq', rfl, _⟩
                · exact absurd h hns
                · exact absurd h hnL
                · exact absurd h hnD
                · exact absurd h (by decide)
                · obtain ⟨u', hu'⟩ := hp
                  refine hno q' b' hq' ⟨u', ?_⟩
                  simpa using hu'
            · rw [if_neg hq]
              have hc39 : c ≠ 39 := by rw [hlast] at hq; exact hq
              by_cases hs : l.last = 34
              · -- a string
                rw [if_pos hs]
                rw [hlast] at hs; subst hs
                have hv1 : View n l.reset.advance T := (hv.other (l' := l.reset) rfl rfl rfl).tail
                rcases quoted_cases T.length T (Nat.le_refl _) with ⟨q, b, u, hqt, rfl⟩ | ho
                · obtain ⟨l', g1, g2, g3, g4, g5, g6⟩ := strLoop_ok hqt (fuel := fuel) hv1 (by simp at hf; omega)
                  rw [g1]
                  refine .token (s := 34 :: q ++ [34]) (by simp) (.str hqt) ⟨?_, by simpa using hcom⟩ ?_ g2.tail
                    (by simpa [Lexer.reset] using g3)
                  · intro s' t' h' hp
                    have hp' : s' <+: 34 :: (q ++ 34 :: u) := by simpa using hp
                    rcases h'.head_of_prefix hp' with ⟨h, _⟩ | ⟨h, _⟩ | ⟨h, _⟩ | ⟨_, q', b', hq', rfl, _⟩ | ⟨h, _⟩
                    · exact absurd h hns
                    · exact absurd h hnL
                    · exact absurd h hnD
                    · obtain ⟨u', hu'⟩ := hp'
                      have : q' ++ 34 :: u' = q ++ 34 :: u := by simpa using hu'
                      rw [(hq'.unique hqt this).1]
                      exact Nat.le_refl _
                    · exact absurd h (by decide)
                  · simp [tokenOf, g4, Lexer.reset]
                · have hto : l.reset.advance.strLoop fuel = .timeout := by
                    rcases ho with ⟨b, hqt⟩ | ⟨q, b, hqt, rfl⟩
                    · exact strLoop_open hqt (.inl hv1)
                    · exact strLoop_open hqt (.inr hv1)
                  rw [hto]
                  refine .loop ?_ ?_
                  · rcases ho with ⟨b, hqt⟩ | ⟨q, b, hqt, rfl⟩
                    · exact .plain hqt
                    · exact .escape hqt
                  · intro s t h hp
                    rcases h.head_of_prefix hp with ⟨h, _⟩ | ⟨h, _⟩ | ⟨h, _⟩ | ⟨_, q', b', hq', rfl, _⟩ | ⟨h, _⟩
                    · exact absurd h hns
                    · exact absurd h hnL
                    · exact absurd h hnD
                    · obtain ⟨u', hu'⟩ := hp
                      have hnot := hq'.not_open (u := u') (T := T) (by simpa using hu')
                      rcases ho with ⟨b, hqt⟩ | ⟨q, b, hqt, rfl⟩
                      · exact hnot.1 _ hqt
                      · exact hnot.2 _ _ hqt rfl
                    · exact absurd h (by decide)
              · rw [if_neg hs]
                have hc34 : c ≠ 34 := by rw [hlast] at hs; exact hs
                refine .error (not_open_of_head hc34) ?_ rfl (by simp [hc39])
                  ⟨_, hv.other rfl rfl rfl, .inr ⟨by simp [hc39], rfl⟩⟩
                intro s t h hp
                rcases h.head_of_prefix hp with ⟨h, _⟩ | ⟨h, _⟩ | ⟨h, _⟩ | ⟨h, _⟩ | ⟨h, _⟩
                · exact hns h
                · exact hnL h
                · exact hnD h
                · exact hc34 h
                · exact hc39 h

end Tiny
