import Verif.Spec.LexView

/-!
# The lexical grammar: heads of tokens, functionality, longest readings
-/

namespace Tiny

open Spec

/-- A statement about all bytes, from all 256 cases. -/
theorem byte_all {p : UInt8 → Prop} (h : ∀ n : Fin 256, p (UInt8.ofFin n)) (c : UInt8) : p c := by
  have := h c.toFin
  simpa using this

theorem isspace_iff (c : UInt8) : isspace c = true ↔ Blank c :=
  byte_all (p := fun c => isspace c = true ↔ Blank c) (by decide +kernel) c

theorem isalpha_iff (c : UInt8) : isalpha c = true ↔ Letter c :=
  byte_all (p := fun c => isalpha c = true ↔ Letter c) (by decide +kernel) c

theorem isdigit_iff (c : UInt8) : isdigit c = true ↔ Digit c :=
  byte_all (p := fun c => isdigit c = true ↔ Digit c) (by decide +kernel) c

theorem isxdigit_iff (c : UInt8) : isxdigit c = true ↔ Digit c ∨ HexLetter c :=
  byte_all (p := fun c => isxdigit c = true ↔ Digit c ∨ HexLetter c) (by decide +kernel) c

theorem isalnum_iff (c : UInt8) : isalnum c = true ↔ Letter c ∨ Digit c :=
  byte_all (p := fun c => isalnum c = true ↔ Letter c ∨ Digit c) (by decide +kernel) c

/-! ### Classes of tokens by their first byte -/

/-- First bytes of operators and punctuation. -/
def SymHead (c : UInt8) : Prop := ∃ e ∈ symbols, (bytes e.1).head? = some c

instance : DecidablePred SymHead := fun _ => inferInstanceAs (Decidable (∃ e ∈ symbols, _))

theorem head_classes (c : UInt8) :
    (SymHead c → ¬ Letter c ∧ ¬ Digit c ∧ c ≠ 34 ∧ c ≠ 39 ∧ ¬ Blank c ∧ c ≠ 0) ∧
    (Letter c → ¬ Digit c ∧ c ≠ 34 ∧ c ≠ 39 ∧ ¬ Blank c ∧ c ≠ 0) ∧
    (Digit c → c ≠ 34 ∧ c ≠ 39 ∧ ¬ Blank c ∧ c ≠ 0) ∧ ¬ Blank 34 ∧ ¬ Blank 39 :=
  byte_all (p := fun c =>
    (SymHead c → ¬ Letter c ∧ ¬ Digit c ∧ c ≠ 34 ∧ c ≠ 39 ∧ ¬ Blank c ∧ c ≠ 0) ∧
    (Letter c → ¬ Digit c ∧ c ≠ 34 ∧ c ≠ 39 ∧ ¬ Blank c ∧ c ≠ 0) ∧
    (Digit c → c ≠ 34 ∧ c ≠ 39 ∧ ¬ Blank c ∧ c ≠ 0) ∧ ¬ Blank 34 ∧ ¬ Blank 39) (by decide +kernel) c

/-- The five classes of spellings. -/
inductive Class : List UInt8 → Token → Prop
  | sym {s k} : (s, k) ∈ symbols → Class (bytes s) (.sym k)
  | word {s t} : IsWord s → Class s t
  | num {s t} : IsNumeral s → Class s t
  | str {s b} : Quoted s b → Class (34 :: s ++ [34]) (.str b)
  | char {s c} : CharText s c → Class (39 :: s ++ [39]) (.char (c.toBitVec.signExtend 32))

theorem keyword_word : ∀ e ∈ keywords, IsWord (bytes e.1) := by
  have h : ∀ e ∈ keywords, ∃ c cs, bytes e.1 = c :: cs ∧ Letter c ∧ ∀ d ∈ cs, Letter d ∨ Digit d ∨ d = 95 := by
    intro e he
    simp only [keywords, List.mem_cons, List.not_mem_nil, or_false] at he
    rcases he with rfl | rfl | rfl | rfl | rfl | rfl | rfl | rfl | rfl | rfl | rfl | rfl | rfl | rfl | rfl <;>
      exact ⟨_, _, rfl, by decide, by decide⟩
  intro e he
  obtain ⟨c, cs, hb, h1, h2⟩ := h e he
  rw [hb]; exact ⟨h1, h2⟩

theorem _root_.Tiny.Spec.Spelled.class {s t} (h : Spelled s t) : Class s t := by
  cases h with
  | sym h => exact .sym h
  | keyword h => exact .word (keyword_word _ h)
  | true => exact .word ⟨by decide, by decide⟩
  | false => exact .word ⟨by decide, by decide⟩
  | ident h => exact .word h
  | dec h => exact .num h
  | hex h => exact .num h
  | float h => exact .num h
  | str h => exact .str h
  | char h => exact .char h

/-- Spellings of symbols start with a symbol byte. -/
theorem sym_head {s k} (h : (s, k) ∈ symbols) : ∃ c cs, bytes s = c :: cs ∧ SymHead c := by
  have : ∀ e ∈ symbols, (bytes e.1) ≠ [] := by decide
  cases hb : bytes s with
  | nil => exact absurd hb (this _ h)
  | cons c cs => exact ⟨c, cs, rfl, _, h, by simp [hb]⟩

/-- Every spelling has a first byte, which tells its class. -/
theorem Class.head {s t} (h : Class s t) : ∃ c cs, s = c :: cs ∧
    ((SymHead c ∧ ∃ x k, (x, k) ∈ symbols ∧ s = bytes x ∧ t = .sym k) ∨ (Letter c ∧ IsWord s) ∨
      (Digit c ∧ IsNumeral s) ∨
      (c = 34 ∧ ∃ q b, Quoted q b ∧ s = 34 :: q ++ [34] ∧ t = .str b) ∨
      (c = 39 ∧ ∃ q b, CharText q b ∧ s = 39 :: q ++ [39] ∧ t = .char (b.toBitVec.signExtend 32))) := by
  cases h with
  | sym h =>
    obtain ⟨c, cs, hb, hc⟩ := sym_head h
    exact ⟨c, cs, hb, .inl ⟨hc, _, _, h, rfl, rfl⟩⟩
  | word h =>
    cases s with
    | nil => exact h.elim
    | cons c cs => exact ⟨c, cs, rfl, .inr (.inl ⟨h.1, h⟩)⟩
  | num h =>
    obtain ⟨d, ds, rfl, hd⟩ := h.1
    exact ⟨d, ds, rfl, .inr (.inr (.inl ⟨hd, h⟩))⟩
  | str h => exact ⟨_, _, rfl, .inr (.inr (.inr (.inl ⟨rfl, _, _, h, rfl, rfl⟩)))⟩
  | char h => exact ⟨_, _, rfl, .inr (.inr (.inr (.inr ⟨rfl, _, _, h, rfl, rfl⟩)))⟩

/-! ### Strings -/

/-- The closing quote of a string literal is determined by the text. -/
theorem _root_.Tiny.Spec.Quoted.unique {q b} (h : Quoted q b) : ∀ {q' b' u u'}, Quoted q' b' → q ++ 34 :: u = q' ++ 34 :: u' →
    q = q' ∧ b = b' ∧ u = u' := by
  induction h with
  | nil =>
    intro q' b' u u' h' e
    cases h' with
    | nil => simp at e; exact ⟨rfl, rfl, e⟩
    | plain h1 h2 h3 => simp at e; exact absurd e.1.symm h1
    | escape h3 => simp at e
  | plain h1 h2 _ ih =>
    intro q' b' u u' h' e
    cases h' with
    | nil => simp at e; exact absurd e.1 h1
    | plain h3 h4 h5 =>
      simp at e
      obtain ⟨rfl, e⟩ := e
      obtain ⟨rfl, rfl, rfl⟩ := ih h5 e
      exact ⟨rfl, rfl, rfl⟩
    | escape h5 => simp at e; exact absurd e.1 h2
  | escape _ ih =>
    intro q' b' u u' h' e
    cases h' with
    | nil => simp at e
    | plain h3 h4 h5 => simp at e; exact absurd e.1.symm h4
    | escape h5 =>
      simp at e
      obtain ⟨rfl, e⟩ := e
      obtain ⟨rfl, rfl, rfl⟩ := ih h5 e
      exact ⟨rfl, rfl, rfl⟩

/-- A complete string literal is not a prefix of an open one. -/
theorem _root_.Tiny.Spec.Quoted.not_open {q b} (h : Quoted q b) : ∀ {u T}, q ++ 34 :: u = T →
    (∀ b', ¬ Quoted T b') ∧ (∀ q' b', Quoted q' b' → T ≠ q' ++ [92]) := by
  induction h with
  | nil =>
    rintro u T rfl
    refine ⟨fun b' h => ?_, fun q' b' h e => ?_⟩
    · cases h with
      | plain h1 => exact h1 rfl
    · cases h with
      | nil => simp at e
      | plain h1 => simp at e; exact h1 e.1.symm
      | escape => simp at e
  | plain h1 h2 _ ih =>
    rintro u T rfl
    refine ⟨fun b' h => ?_, fun q' b' h e => ?_⟩
    · rw [List.cons_append] at h
      generalize hX : _ ++ 34 :: u = X at h
      cases h with
      | plain _ _ h => exact (ih hX).1 _ h
      | escape => exact h2 rfl
    · cases h with
      | nil => simp at e
      | plain _ _ h => simp at e; exact (ih rfl).2 _ _ h e.2
      | escape => simp at e; exact h2 e.1
  | escape _ ih =>
    rintro u T rfl
    refine ⟨fun b' h => ?_, fun q' b' h e => ?_⟩
    · rw [List.cons_append, List.cons_append] at h
      generalize hX : _ ++ 34 :: u = X at h
      cases h with
      | plain _ h2 => exact h2 rfl
      | escape h => exact (ih hX).1 _ h
    · cases h with
      | nil => simp at e
      | plain _ h2 => simp at e; exact h2 e.1.symm
      | escape h => simp at e; exact (ih rfl).2 _ _ h e.2

/-- Every text after a double quote closes the literal or leaves it open. -/
theorem quoted_cases : ∀ (N : Nat) (T : List UInt8), T.length ≤ N →
    (∃ q b u, Quoted q b ∧ T = q ++ 34 :: u) ∨ (∃ b, Quoted T b) ∨ (∃ q b, Quoted q b ∧ T = q ++ [92]) := by
  intro N
  induction N with
  | zero =>
    intro T h
    obtain rfl : T = [] := by simpa using h
    exact .inr (.inl ⟨_, .nil⟩)
  | succ N ih =>
    intro T h
    match T with
    | [] => exact .inr (.inl ⟨_, .nil⟩)
    | c :: T =>
      by_cases h1 : c = 34
      · subst h1; exact .inl ⟨[], [], T, .nil, rfl⟩
      · by_cases h2 : c = 92
        · subst h2
          match T with
          | [] => exact .inr (.inr ⟨[], [], .nil, rfl⟩)
          | d :: T =>
            rcases ih T (by simp at h; omega) with ⟨q, b, u, hq, rfl⟩ | ⟨b, hq⟩ | ⟨q, b, hq, rfl⟩
            · exact .inl ⟨92 :: d :: q, _, u, .escape hq, rfl⟩
            · exact .inr (.inl ⟨_, .escape hq⟩)
            · exact .inr (.inr ⟨92 :: d :: q, _, .escape hq, rfl⟩)
        · rcases ih T (by simp at h; omega) with ⟨q, b, u, hq, rfl⟩ | ⟨b, hq⟩ | ⟨q, b, hq, rfl⟩
          · exact .inl ⟨c :: q, _, u, .plain h1 h2 hq, rfl⟩
          · exact .inr (.inl ⟨_, .plain h1 h2 hq⟩)
          · exact .inr (.inr ⟨c :: q, _, .plain h1 h2 hq, rfl⟩)

/-- The closing quote of a character literal is determined by the text. -/
theorem _root_.Tiny.Spec.CharText.unique {q b} (h : CharText q b) {q' b' u u'} (h' : CharText q' b')
    (e : q ++ 39 :: u = q' ++ 39 :: u') : q = q' ∧ b = b' ∧ u = u' := by
  cases h with
  | plain h1 =>
    cases h' with
    | plain h2 => simp at e; obtain ⟨rfl, rfl⟩ := e; exact ⟨rfl, rfl, rfl⟩
    | escape => simp at e; exact absurd e.1 h1
  | escape =>
    cases h' with
    | plain h2 => simp at e; exact absurd e.1.symm h2
    | escape => simp at e; obtain ⟨rfl, rfl⟩ := e; exact ⟨rfl, rfl, rfl⟩

/-- A complete character literal: what a text after a single quote can be. -/
theorem charText_cases (T : List UInt8) :
    (∃ q b u, CharText q b ∧ T = q ++ 39 :: u) ∨ (∀ q b, CharText q b → ¬ q ++ [39] <+: T) := by
  by_cases h : ∃ q b u, CharText q b ∧ T = q ++ 39 :: u
  · exact .inl h
  · refine .inr fun q b hq ⟨u, hu⟩ => h ⟨q, b, u, hq, ?_⟩
    rw [← hu]; simp

/-! ### Words -/

/-- Bytes of an identifier after the first. -/
def wordByte (c : UInt8) : Bool := isalnum c || c == 95

theorem wordByte_iff (c : UInt8) : wordByte c = true ↔ Letter c ∨ Digit c ∨ c = 95 := by
  simp [wordByte, isalnum_iff, or_assoc]

theorem isWord_all {s} (h : IsWord s) : ∀ c ∈ s, wordByte c = true := by
  cases s with
  | nil => simp
  | cons c cs =>
    intro d hd
    rw [wordByte_iff]
    rcases List.mem_cons.mp hd with rfl | hd
    · exact .inl h.1
    · exact h.2 d hd

/-- A prefix of bytes satisfying `p` is no longer than `takeWhile p`. -/
theorem prefix_takeWhile {p : UInt8 → Bool} : ∀ {s T : List UInt8}, s <+: T → (∀ c ∈ s, p c = true) →
    s.length ≤ (T.takeWhile p).length := by
  intro s
  induction s with
  | nil => intros; simp
  | cons c s ih =>
    intro T h hs
    obtain ⟨u, rfl⟩ := h
    simp [hs c (by simp)]
    exact ih (List.prefix_append _ _) (fun d hd => hs d (by simp [hd]))

/-! ### Numerals -/

/-- The byte `c` may continue a numeral in which an `x` (`hex`) or a point (`flt`) has occurred. -/
def numByte (hex flt : Bool) (c : UInt8) : Prop :=
  isdigit c = true ∨ (c = 120 ∧ ¬ hex = true) ∨ (hex = true ∧ isxdigit c = true) ∨ (c = 46 ∧ ¬ flt = true)

instance (hex flt c) : Decidable (numByte hex flt c) := inferInstanceAs (Decidable (_ ∨ _))

theorem digit_other (c : UInt8) : Digit c → c ≠ 120 ∧ c ≠ 46 ∧ ¬ HexLetter c :=
  byte_all (p := fun c => Digit c → c ≠ 120 ∧ c ≠ 46 ∧ ¬ HexLetter c) (by decide +kernel) c

theorem hexLetter_other (c : UInt8) : HexLetter c → c ≠ 120 ∧ c ≠ 46 :=
  byte_all (p := fun c => HexLetter c → c ≠ 120 ∧ c ≠ 46) (by decide +kernel) c

theorem isNumeral_single {c} (h : Digit c) : IsNumeral [c] := by
  refine ⟨⟨c, [], rfl, h⟩, ?_, ?_, ?_, ?_⟩
  · simp [h]
  · simp [List.count_cons, (digit_other c h).1]
  · simp [List.count_cons, (digit_other c h).2.1]
  · intro a d b e hd
    match a, e with
    | [], e => simp at e; exact absurd hd (e.1 ▸ (digit_other c h).2.2)
    | _ :: _, e => simp at e

theorem isNumeral_snoc {s c} (h : IsNumeral s) :
    IsNumeral (s ++ [c]) ↔ numByte (decide ((120 : UInt8) ∈ s)) (decide ((46 : UInt8) ∈ s)) c := by
  obtain ⟨⟨d, ds, rfl, hd⟩, h2, h3, h4, h5⟩ := h
  simp only [numByte, isdigit_iff, isxdigit_iff, decide_eq_true_eq]
  constructor
  · rintro ⟨_, g2, g3, g4, g5⟩
    rw [List.count_append] at g3 g4
    rcases g2 c (by simp) with h | rfl | rfl | h
    · exact .inl h
    · refine .inr (.inl ⟨rfl, fun hm => ?_⟩)
      have := List.count_pos_iff.mpr hm
      simp at g3; omega
    · refine .inr (.inr (.inr ⟨rfl, fun hm => ?_⟩))
      have := List.count_pos_iff.mpr hm
      simp at g4; omega
    · exact .inr (.inr (.inl ⟨g5 _ _ [] rfl h, .inr h⟩))
  · intro g
    have key : ∀ a x b, d :: ds ++ [c] = a ++ x :: b →
        (∃ b', b = b' ++ [c] ∧ d :: ds = a ++ x :: b') ∨ (b = [] ∧ x = c ∧ d :: ds = a) := by
      intro a x b e
      rcases List.eq_nil_or_concat b with rfl | ⟨b', y, rfl⟩
      · have := List.append_inj' e rfl
        simp at this
        exact .inr ⟨rfl, this.2.symm, this.1⟩
      · rw [List.concat_eq_append] at e ⊢
        rw [← List.cons_append (a := x), ← List.append_assoc] at e
        have := List.append_inj' e rfl
        simp at this
        exact .inl ⟨b', by simp [this.2], by simpa using this.1⟩
    refine ⟨⟨d, ds ++ [c], rfl, hd⟩, ?_, ?_, ?_, ?_⟩
    · intro e he
      rw [List.mem_append] at he
      rcases he with he | he
      · exact h2 e he
      · obtain rfl : e = c := by simpa using he
        rcases g with h | h | h | h
        · exact .inl h
        · exact .inr (.inl h.1)
        · rcases h.2 with h | h
          · exact .inl h
          · exact .inr (.inr (.inr h))
        · exact .inr (.inr (.inl h.1))
    · rw [List.count_append]
      by_cases hc : c = 120
      · subst hc
        have : (120 : UInt8) ∉ d :: ds := by
          rcases g with h | h | h | h
          · exact absurd rfl (digit_other _ h).1
          · exact h.2
          · rcases h.2 with h | h
            · exact absurd rfl (digit_other _ h).1
            · exact absurd rfl (hexLetter_other _ h).1
          · exact absurd h.1 (by decide)
        rw [List.count_eq_zero_of_not_mem this]; simp
      · have : List.count 120 [c] = 0 := by simp [List.count_cons, hc]
        omega
    · rw [List.count_append]
      by_cases hc : c = 46
      · subst hc
        have : (46 : UInt8) ∉ d :: ds := by
          rcases g with h | h | h | h
          · exact absurd rfl (digit_other _ h).2.1
          · exact absurd h.1 (by decide)
          · rcases h.2 with h | h
            · exact absurd rfl (digit_other _ h).2.1
            · exact absurd rfl (hexLetter_other _ h).2
          · exact h.2
        rw [List.count_eq_zero_of_not_mem this]; simp
      · have : List.count 46 [c] = 0 := by simp [List.count_cons, hc]
        omega
    · intro a x b e hx
      rcases key a x b e with ⟨b', _, e'⟩ | ⟨_, rfl, e'⟩
      · exact h5 a x b' e' hx
      · subst e'
        rcases g with h | h | h | h
        · exact absurd hx (digit_other _ h).2.2
        · exact absurd h.1 (hexLetter_other _ hx).1
        · exact h.1
        · exact absurd h.1 (hexLetter_other _ hx).2

/-- A nonempty prefix of a numeral is a numeral. -/
theorem isNumeral_prefix {s v} (h : IsNumeral (s ++ v)) (hs : s ≠ []) : IsNumeral s := by
  obtain ⟨⟨d, ds, e, hd⟩, h2, h3, h4, h5⟩ := h
  cases s with
  | nil => exact absurd rfl hs
  | cons c s =>
    simp at e
    obtain ⟨rfl, rfl⟩ := e
    refine ⟨⟨_, _, rfl, hd⟩, fun x hx => h2 x (List.mem_append_left _ hx), ?_, ?_, ?_⟩
    · rw [List.count_append] at h3; omega
    · rw [List.count_append] at h4; omega
    · intro a x b e hx
      exact h5 a x (b ++ v) (by rw [e]; simp) hx

/-! ### A spelling determines its token -/

theorem symbols_fun : ∀ e ∈ symbols, ∀ f ∈ symbols, bytes e.1 = bytes f.1 → e.2 = f.2 := by decide +kernel

theorem keywords_fun : ∀ e ∈ keywords, ∀ f ∈ keywords, bytes e.1 = bytes f.1 → e.2 = f.2 := by decide +kernel

theorem keywords_bool : ∀ e ∈ keywords, bytes e.1 ≠ bytes "true" ∧ bytes e.1 ≠ bytes "false" := by
  decide +kernel

/-- Tokens of spellings with the same first letter or digit. -/
theorem _root_.Tiny.Spec.Spelled.word_inv {s t} (h : Spelled s t) (hw : IsWord s) :
    (∃ x k, (x, k) ∈ keywords ∧ s = bytes x ∧ t = .sym k) ∨ (s = bytes "true" ∧ t = .bool true) ∨
    (s = bytes "false" ∧ t = .bool false) ∨
    ((∀ k ∈ keywords, s ≠ bytes k.1) ∧ s ≠ bytes "true" ∧ s ≠ bytes "false" ∧ t = .ident s) := by
  have hl : ∀ c cs, s = c :: cs → Letter c := by rintro c cs rfl; exact hw.1
  have hn : ¬ IsNumeral s := by
    rintro ⟨⟨d, ds, rfl, hd⟩, _⟩
    exact ((head_classes d).2.1 (hl d ds rfl)).1 hd
  cases h with
  | sym h =>
    obtain ⟨c, cs, hb, hc⟩ := sym_head h
    exact absurd (hl c cs hb) ((head_classes c).1 hc).1
  | keyword h => exact .inl ⟨_, _, h, rfl, rfl⟩
  | true => exact .inr (.inl ⟨rfl, rfl⟩)
  | false => exact .inr (.inr (.inl ⟨rfl, rfl⟩))
  | ident h1 h2 h3 h4 => exact .inr (.inr (.inr ⟨h2, h3, h4, rfl⟩))
  | dec h => exact absurd h hn
  | hex h => exact absurd h hn
  | float h => exact absurd h hn
  | str h => exact absurd (hl 34 _ rfl) (by decide)
  | char h => exact absurd (hl 39 _ rfl) (by decide)

theorem _root_.Tiny.Spec.Spelled.num_inv {s t} (h : Spelled s t) (hn : IsNumeral s) :
    (120 ∉ s ∧ 46 ∉ s ∧ t = .int (toInt32 (valueIn 10 s))) ∨
    (120 ∈ s ∧ 46 ∉ s ∧ t = .int (toInt32 (hexValue s))) ∨ (46 ∈ s ∧ t = .float s) := by
  have hl : ∀ c cs, s = c :: cs → Digit c := by
    obtain ⟨⟨d, ds, rfl, hd⟩, _⟩ := hn
    rintro c cs e; simp at e; exact e.1 ▸ hd
  have hw : ¬ IsWord s := by
    intro hw
    obtain ⟨⟨d, ds, rfl, hd⟩, _⟩ := hn
    exact ((head_classes d).2.1 hw.1).1 hd
  cases h with
  | sym h =>
    obtain ⟨c, cs, hb, hc⟩ := sym_head h
    exact absurd (hl c cs hb) ((head_classes c).1 hc).2.1
  | keyword h => exact absurd (keyword_word _ h) hw
  | true => exact absurd (hl 116 _ rfl) (by decide)
  | false => exact absurd (hl 102 _ rfl) (by decide)
  | ident h => exact absurd h hw
  | dec h1 h2 h3 => exact .inl ⟨h2, h3, rfl⟩
  | hex h1 h2 h3 => exact .inr (.inl ⟨h2, h3, rfl⟩)
  | float h1 h2 => exact .inr (.inr ⟨h2, rfl⟩)
  | str h => exact absurd (hl 34 _ rfl) (by decide)
  | char h => exact absurd (hl 39 _ rfl) (by decide)

theorem _root_.Tiny.Spec.Spelled.unique {s t t'} (h : Spelled s t) (h' : Spelled s t') : t = t' := by
  obtain ⟨c, cs, hs, hc⟩ := h.class.head
  obtain ⟨c', cs', hs', hc'⟩ := h'.class.head
  obtain ⟨rfl, rfl⟩ : c = c' ∧ cs = cs' := by rw [hs] at hs'; simpa using hs'
  have H := head_classes c
  rcases hc with ⟨k, x, y, hm, hx, rfl⟩ | ⟨k, hw⟩ | ⟨k, hn⟩ | ⟨rfl, q, b, hq, e, rfl⟩ | ⟨rfl, q, b, hq, e, rfl⟩
  · rcases hc' with ⟨k', x', y', hm', hx', rfl⟩ | ⟨k', _⟩ | ⟨k', _⟩ | ⟨k', _⟩ | ⟨k', _⟩
    · have := symbols_fun _ hm _ hm' (hx ▸ hx')
      simp at this; rw [this]
    · exact absurd k' (H.1 k).1
    · exact absurd k' (H.1 k).2.1
    · exact absurd k' (H.1 k).2.2.1
    · exact absurd k' (H.1 k).2.2.2.1
  · have kk := keywords_bool
    rcases h.word_inv hw with ⟨x, y, hm, e, rfl⟩ | ⟨e, rfl⟩ | ⟨e, rfl⟩ | ⟨e1, e2, e3, rfl⟩ <;>
    rcases h'.word_inv hw with ⟨x', y', hm', e', rfl⟩ | ⟨e', rfl⟩ | ⟨e', rfl⟩ | ⟨e1', e2', e3', rfl⟩
    · have := keywords_fun _ hm _ hm' (e ▸ e')
      simp at this; rw [this]
    · exact absurd (e ▸ e') (kk _ hm).1
    · exact absurd (e ▸ e') (kk _ hm).2
    · exact absurd e (e1' _ hm)
    · exact absurd (e' ▸ e) (kk _ hm').1
    · rfl
    · exact absurd (e ▸ e') (by decide)
    · exact absurd e e2'
    · exact absurd (e' ▸ e) (kk _ hm').2
    · exact absurd (e ▸ e') (by decide)
    · rfl
    · exact absurd e e3'
    · exact absurd e' (e1 _ hm')
    · exact absurd e' e2
    · exact absurd e' e3
    · rfl
  · rcases h.num_inv hn with ⟨a, b, rfl⟩ | ⟨a, b, rfl⟩ | ⟨a, rfl⟩ <;>
    rcases h'.num_inv hn with ⟨a', b', rfl⟩ | ⟨a', b', rfl⟩ | ⟨a', rfl⟩ <;>
    first
    | rfl
    | exact absurd a' a
    | exact absurd a a'
    | exact absurd a' b
    | exact absurd a b'
  · rcases hc' with ⟨k', _⟩ | ⟨k', _⟩ | ⟨k', _⟩ | ⟨_, q', b', hq', e', rfl⟩ | ⟨k', _⟩
    · exact absurd rfl (H.1 k').2.2.1
    · exact absurd rfl (H.2.1 k').2.1
    · exact absurd rfl (H.2.2.1 k').1
    · have : q ++ 34 :: [] = q' ++ 34 :: [] := by rw [e] at e'; simpa using e'
      rw [(hq.unique hq' this).2.1]
    · exact absurd k' (by decide)
  · rcases hc' with ⟨k', _⟩ | ⟨k', _⟩ | ⟨k', _⟩ | ⟨k', _⟩ | ⟨_, q', b', hq', e', rfl⟩
    · exact absurd rfl (H.1 k').2.2.2.1
    · exact absurd rfl (H.2.1 k').2.2.1
    · exact absurd rfl (H.2.2.1 k').2.1
    · exact absurd k' (by decide)
    · have : q ++ 39 :: [] = q' ++ 39 :: [] := by rw [e] at e'; simpa using e'
      rw [(hq.unique hq' this).2.1]

/-- The longest reading is unique. -/
theorem longest_unique {s u t s' u' t'} (h : Spelled s t) (hl : Longest s u) (h' : Spelled s' t')
    (hl' : Longest s' u') (e : s ++ u = s' ++ u') : s = s' ∧ u = u' ∧ t = t' := by
  have h1 := hl.1 s' t' h' (e ▸ List.prefix_append _ _)
  have h2 := hl'.1 s t h (e ▸ List.prefix_append _ _)
  obtain ⟨rfl, rfl⟩ := List.append_inj e (by omega)
  exact ⟨rfl, rfl, h.unique h'⟩

end Tiny
