import Verif.Props.StdString
import Mathlib.Data.List.Forall2

/-!
# C40: `stoi` of any text in any base
-/

namespace Tiny
open Spec Tiny.Std

/-- `c` is the digit for `d`: `0` to `9`, then the letters, small or capital. -/
def DigitFor (c : UInt8) (d : Nat) : Prop :=
  (d < 10 ∧ c.toNat = 48 + d) ∨ (10 ≤ d ∧ d < 36 ∧ (c.toNat = 87 + d ∨ c.toNat = 55 + d))

/-- A text which `strtol` reads as a number: blanks, a sign, in base 16 perhaps `0x`, digits; whatever follows does
not go on with a digit. -/
structure NumberText (base : Nat) (text : List UInt8) (value : Int) where
  blanks : List UInt8
  sign : List UInt8
  hex : List UInt8
  digits : List UInt8
  values : List Nat
  rest : List UInt8
  text_eq : text = blanks ++ (sign ++ (hex ++ (digits ++ rest)))
  blank : ∀ c ∈ blanks, c = 32 ∨ (9 ≤ c ∧ c ≤ 13)
  sign_is : sign = [] ∨ sign = bytes "-" ∨ sign = bytes "+"
  hex_is : (hex = [] ∧ (base = 16 → digits = bytes "0" → rest.head? ≠ some 120 ∧ rest.head? ≠ some 88)) ∨
    (base = 16 ∧ (hex = bytes "0x" ∨ hex = bytes "0X"))
  digit : List.Forall₂ DigitFor digits values
  small : ∀ d ∈ values, d < base
  some_digit : digits ≠ []
  ends : ∀ c, rest.head? = some c → ∀ d < base, ¬ DigitFor c d
  value_eq : value = (if sign = bytes "-" then -1 else 1) * (values.foldl (fun n d => n * base + d) 0 : Nat)

theorem digitOf_some {base : Nat} {c : UInt8} {d : Nat} (h : DigitFor c d) (hd : d < base) : digitOf base c = some d := by
  have hall : ∀ c : UInt8, ∀ d : Fin 36, DigitFor c d.val → (if isdigit c then c.toNat - 48 else if islower c then c.toNat - 97 + 10
      else if isupper c then c.toNat - 65 + 10 else base) = d := by
    intro c d h
    have key : (isdigit c = true ∧ c.toNat - 48 = d.val) ∨ (isdigit c = false ∧ islower c = true ∧ c.toNat - 97 + 10 = d.val) ∨
        (isdigit c = false ∧ islower c = false ∧ isupper c = true ∧ c.toNat - 65 + 10 = d.val) := by
      simp only [isdigit, islower, isupper, UInt8.le_iff_toNat_le, Bool.and_eq_true, Bool.and_eq_false_iff, decide_eq_true_eq, decide_eq_false_iff_not]
      have hz : (b! '0').toNat = 48 ∧ (b! '9').toNat = 57 ∧ (b! 'a').toNat = 97 ∧ (b! 'z').toNat = 122 ∧ (b! 'A').toNat = 65 ∧ (b! 'Z').toNat = 90 := by decide
      obtain ⟨z1, z2, z3, z4, z5, z6⟩ := hz
      rw [z1, z2, z3, z4, z5, z6]
      rcases h with ⟨h1, h2⟩ | ⟨h1, h2, h3 | h3⟩ <;> omega
    rcases key with ⟨k1, k2⟩ | ⟨k1, k2, k3⟩ | ⟨k1, k2, k3, k4⟩
    · rw [if_pos k1, k2]
    · rw [k1, if_pos k2]; simpa using k3
    · rw [k1, k2, if_pos k3]; simpa using k4
  have h36 : d < 36 := by rcases h with ⟨h, _⟩ | ⟨_, h, _⟩ <;> omega
  have := hall c ⟨d, h36⟩ h
  unfold digitOf
  simp only [this, if_pos hd]

theorem digitOf_inv {base : Nat} {c : UInt8} {d : Nat} (h : digitOf base c = some d) : DigitFor c d ∧ d < base := by
  have hz : (b! '0').toNat = 48 ∧ (b! '9').toNat = 57 ∧ (b! 'a').toNat = 97 ∧ (b! 'z').toNat = 122 ∧ (b! 'A').toNat = 65 ∧ (b! 'Z').toNat = 90 := by decide
  obtain ⟨z1, z2, z3, z4, z5, z6⟩ := hz
  have key : ∀ e : Nat, (if e < base then some e else none) = some d → e = d ∧ d < base := by
    intro e h
    by_cases he : e < base
    · rw [if_pos he, Option.some.injEq] at h
      exact ⟨h, h ▸ he⟩
    · rw [if_neg he] at h; cases h
  obtain ⟨h1, h2⟩ := key _ h
  refine ⟨?_, h2⟩
  clear key h
  unfold DigitFor
  by_cases k1 : isdigit c = true
  · rw [if_pos k1] at h1
    simp only [isdigit, UInt8.le_iff_toNat_le, Bool.and_eq_true, decide_eq_true_eq, z1, z2] at k1
    omega
  · rw [if_neg k1] at h1
    by_cases k2 : islower c = true
    · rw [if_pos k2] at h1
      simp only [islower, UInt8.le_iff_toNat_le, Bool.and_eq_true, decide_eq_true_eq, z3, z4] at k2
      omega
    · rw [if_neg k2] at h1
      by_cases k3 : isupper c = true
      · rw [if_pos k3] at h1
        simp only [isupper, UInt8.le_iff_toNat_le, Bool.and_eq_true, decide_eq_true_eq, z5, z6] at k3
        omega
      · rw [if_neg k3] at h1
        omega

theorem digitsFrom_text {base : Nat} : ∀ {ds : List UInt8} {ns : List Nat} {rest : List UInt8} (acc : Nat),
    List.Forall₂ DigitFor ds ns → (∀ d ∈ ns, d < base) → (∀ c, rest.head? = some c → ∀ d < base, ¬ DigitFor c d) →
    digitsFrom base acc (ds ++ rest) = ns.foldl (fun n d => n * base + d) acc
  | _, _, rest, acc, .nil, _, he => by
    cases rest with
    | nil => rfl
    | cons c r =>
      show digitsFrom base acc (c :: r) = acc
      rw [digitsFrom]
      cases h : digitOf base c with
      | none => rfl
      | some d => exact (he c rfl d (digitOf_inv h).2 (digitOf_inv h).1).elim
  | _, _, rest, acc, .cons (a := c) (b := d) (l₁ := cs) (l₂ := ns) h1 h2, hs, he => by
    show digitsFrom base acc (c :: (cs ++ rest)) = _
    rw [digitsFrom, digitOf_some h1 (hs d (by simp))]
    exact digitsFrom_text _ h2 (fun d hd => hs d (by simp [hd])) he

theorem digit_plain {c : UInt8} {d : Nat} (h : DigitFor c d) : isspace c = false ∧ c ≠ 45 ∧ c ≠ 43 := by
  have hn : 48 ≤ c.toNat := by rcases h with ⟨h1, h2⟩ | ⟨h1, h2, h3 | h3⟩ <;> omega
  have key : ∀ c : UInt8, 48 ≤ c.toNat → isspace c = false ∧ c ≠ 45 ∧ c ≠ 43 :=
    fun c => byte_all (p := fun c => 48 ≤ c.toNat → isspace c = false ∧ c ≠ 45 ∧ c ≠ 43) (by decide +kernel) c
  exact key c hn

theorem digit_letter {c : UInt8} {d : Nat} (h : DigitFor c d) (hd : d < 16) : c ≠ 120 ∧ c ≠ 88 := by
  constructor <;> rintro rfl
  · change (d < 10 ∧ 120 = 48 + d) ∨ (10 ≤ d ∧ d < 36 ∧ (120 = 87 + d ∨ 120 = 55 + d)) at h; omega
  · change (d < 10 ∧ 88 = 48 + d) ∨ (10 ≤ d ∧ d < 36 ∧ (88 = 87 + d ∨ 88 = 55 + d)) at h; omega

theorem skipPrefix_plain {base : Nat} {ds rest : List UInt8} {ns : List Nat} (hd : List.Forall₂ DigitFor ds ns) (hs : ∀ d ∈ ns, d < base)
    (hne : ds ≠ []) (hx : base = 16 → ds = bytes "0" → rest.head? ≠ some 120 ∧ rest.head? ≠ some 88) : skipPrefix base (ds ++ rest) = ds ++ rest := by
  unfold skipPrefix
  split
  · rename_i z x c r e
    rw [if_neg]
    rintro ⟨rfl, rfl, h, _⟩
    have hx' : x = 120 ∨ x = 88 := h
    cases hd with
    | nil => exact hne rfl
    | cons h1 h2 =>
      cases h2 with
      | nil =>
        simp only [List.cons_append, List.nil_append, List.cons.injEq] at e
        obtain ⟨rfl, rfl⟩ := e
        have := hx rfl rfl
        simp only [List.head?_cons, ne_eq, Option.some.injEq] at this
        exact hx'.elim this.1 this.2
      | cons h3 h4 =>
        simp only [List.cons_append, List.cons.injEq] at e
        obtain ⟨_, rfl, _⟩ := e
        have := digit_letter h3 (hs _ (by simp))
        exact hx'.elim this.1 this.2
  · rfl

theorem skipPrefix_hex {hx : List UInt8} (h : hx = bytes "0x" ∨ hx = bytes "0X") {ds rest : List UInt8} {ns : List Nat}
    (hd : List.Forall₂ DigitFor ds ns) (hs : ∀ d ∈ ns, d < 16) (hne : ds ≠ []) : skipPrefix 16 (hx ++ (ds ++ rest)) = ds ++ rest := by
  cases hd with
  | nil => exact (hne rfl).elim
  | cons h1 h2 =>
    rename_i c d cs ns
    have hs' := digitOf_some h1 (hs d (by simp))
    rcases h with rfl | rfl
    · show skipPrefix 16 (48 :: 120 :: c :: (cs ++ rest)) = _
      exact if_pos ⟨rfl, rfl, .inl rfl, by rw [hs']; rfl⟩
    · show skipPrefix 16 (48 :: 88 :: c :: (cs ++ rest)) = _
      exact if_pos ⟨rfl, rfl, .inr rfl, by rw [hs']; rfl⟩

theorem strtol_number {base : Nat} {text : List UInt8} {value : Int} (t : NumberText base text value) :
    strtol base text = max (-2 ^ 63) (min (2 ^ 63 - 1) value) := by
  obtain ⟨w, sg, hx, ds, ns, rest, rfl, hw, hsg, hhx, hd, hs, hne, he, rfl⟩ := t
  have hdrop : ∀ r : List UInt8, (∀ c, r.head? = some c → isspace c = false) → (w ++ r).dropWhile isspace = r := by
    intro r hr
    have hsp : ∀ c ∈ w, isspace c = true := by
      intro c hc
      simp only [isspace, Bool.or_eq_true, beq_iff_eq, Bool.and_eq_true, decide_eq_true_eq]
      rcases hw c hc with h | h
      · exact .inl h
      · exact .inr h
    clear hw
    induction w with
    | nil =>
      cases r with
      | nil => rfl
      | cons c r => simp [List.dropWhile, hr c rfl]
    | cons c w ih =>
      simp only [List.cons_append, List.dropWhile, hsp c (by simp)]
      exact ih fun c hc => hsp c (by simp [hc])
  have hskip : skipPrefix base (hx ++ (ds ++ rest)) = ds ++ rest := by
    rcases hhx with ⟨rfl, h⟩ | ⟨rfl, h⟩
    · rw [List.nil_append]; exact skipPrefix_plain hd hs hne h
    · exact skipPrefix_hex h hd hs hne
  have hval := digitsFrom_text 0 hd hs he
  have hhead : ∃ c r, hx ++ (ds ++ rest) = c :: r ∧ isspace c = false ∧ c ≠ 45 ∧ c ≠ 43 := by
    rcases hhx with ⟨rfl, _⟩ | ⟨_, rfl | rfl⟩
    · cases hd with
      | nil => exact (hne rfl).elim
      | cons h1 _ => exact ⟨_, _, rfl, digit_plain h1⟩
    · exact ⟨48, _, rfl, by decide⟩
    · exact ⟨48, _, rfl, by decide⟩
  obtain ⟨c, r, hcr, g1, g2, g3⟩ := hhead
  rcases hsg with rfl | rfl | rfl
  · rw [List.nil_append, strtol, hdrop _ (fun c' h => by rw [hcr] at h; cases h; exact g1)]
    have hneg : ((hx ++ (ds ++ rest)).head? == some (b! '-')) = false := by rw [hcr]; simpa using g2
    have hpos : ((hx ++ (ds ++ rest)).head? == some (b! '+')) = false := by rw [hcr]; simpa using g3
    simp only [hneg, hpos, Bool.or_false, Bool.false_eq_true, if_false, hskip, hval]
    rw [if_neg (by decide)]; simp
  · rw [strtol, hdrop _ (fun c' h => by cases h; decide)]
    simp only [show ((bytes "-" ++ (hx ++ (ds ++ rest))).head? == some (b! '-')) = true from rfl, Bool.true_or, if_true,
      show (bytes "-" ++ (hx ++ (ds ++ rest))).tail = hx ++ (ds ++ rest) from rfl, hskip, hval]
    simp
  · rw [strtol, hdrop _ (fun c' h => by cases h; decide)]
    simp only [show ((bytes "+" ++ (hx ++ (ds ++ rest))).head? == some (b! '-')) = false from rfl,
      show ((bytes "+" ++ (hx ++ (ds ++ rest))).head? == some (b! '+')) = true from rfl, Bool.or_true, if_true,
      show (bytes "+" ++ (hx ++ (ds ++ rest))).tail = hx ++ (ds ++ rest) from rfl, hskip, hval]
    simp only [Bool.false_eq_true, if_false]
    rw [if_neg (by decide)]; simp

/-- **C40.** `stoi(text, base)` is the number the text begins with, in any base from 2 to 36 (`str_to_int(text)`: in base 10): after
blanks an optional sign and the longest run of digits, limited to 64 bits and then cut to 32; the memory does not change. -/
theorem c40_stoi {cmem : Nat → List UInt8} {h : Heap} {v : Value} {s text : List UInt8} (hv : IsStr cmem h v s)
    (hs : text = s.takeWhile (· ≠ 0)) {base : Nat} (hb : 2 ≤ base ∧ base ≤ 36) {value : Int} (t : NumberText base text value) :
    stoi cmem [v, intVal base] h = .ok (.int ((BitVec.ofInt 32 (max (-2 ^ 63) (min (2 ^ 63 - 1) value))).signExtend 64), h) ∧
    (base = 10 → stoi cmem [v] h = stoi cmem [v, intVal base] h) := by
  have hbase : ((toInt (intVal base)).truncate 32).toInt = (base : Int) := by
    show (BitVec.setWidth 32 (BitVec.ofInt 64 base)).toInt = base
    rw [BitVec.toInt_setWidth, BitVec.toNat_ofInt]
    have : ((base : Int) % ((2 ^ 64 : Nat) : Int)).toNat = base := by omega
    rw [this]
    exact Int.bmod_eq_of_le (by omega) (by omega)
  have htake : ∀ b : List UInt8, (b ++ [0]).takeWhile (· ≠ 0) = b.takeWhile (· ≠ 0) := by
    intro b
    rw [List.takeWhile_append]
    split
    · rename_i hl
      have := List.takeWhile_prefix (l := b) (fun x : UInt8 => decide (x ≠ 0))
      rw [this.eq_of_length hl]
      simp
    · rfl
  constructor
  · simp only [stoi, hbase]
    rw [toStr_of hv, Res.bind_ok]
    simp only [htake, ← hs]
    rw [if_pos (by omega)]
    show Res.ok (newInt (strtol (base : Int).toNat text), h) = _
    rw [Int.toNat_natCast, strtol_number t]
    rfl
  · rintro rfl
    simp only [stoi, hbase]
    rfl

/-- `" -2A"` in base 16 and in base 10, `"0x1f"` in base 16. -/
example : Nonempty (NumberText 16 (bytes " -2A") (-42)) ∧ Nonempty (NumberText 10 (bytes " -2A") (-2)) ∧
    Nonempty (NumberText 16 (bytes "0x1f;") 31) :=
  ⟨⟨⟨bytes " ", bytes "-", [], bytes "2A", [2, 10], [], by decide, by decide, by decide, .inl ⟨rfl, fun _ h => (by cases h)⟩,
      .cons (.inl ⟨by decide, rfl⟩) (.cons (.inr ⟨by decide, by decide, .inr rfl⟩) .nil), by decide, by decide, by simp, by decide⟩⟩,
   ⟨⟨bytes " ", bytes "-", [], bytes "2", [2], bytes "A", by decide, by decide, by decide, .inl ⟨rfl, fun h => (by cases h)⟩,
      .cons (.inl ⟨by decide, rfl⟩) .nil, by decide, by decide, (by
        intro c hc d hd h
        cases hc
        change (d < 10 ∧ 65 = 48 + d) ∨ (10 ≤ d ∧ d < 36 ∧ (65 = 87 + d ∨ 65 = 55 + d)) at h
        omega), by decide⟩⟩,
   ⟨⟨[], [], bytes "0x", bytes "1f", [1, 15], bytes ";", by decide, by decide, by decide, .inr ⟨rfl, .inl rfl⟩,
      .cons (.inl ⟨by decide, rfl⟩) (.cons (.inr ⟨by decide, by decide, .inl rfl⟩) .nil), by decide, by decide, (by
        intro c hc d hd h
        cases hc
        change (d < 10 ∧ 59 = 48 + d) ∨ (10 ≤ d ∧ d < 36 ∧ (59 = 87 + d ∨ 59 = 55 + d)) at h
        omega), by decide⟩⟩⟩

end Tiny
