import Verif.Props.StdNative
import Verif.Props.StdString

/-!
# C54: the 64-bit integers of the standard library
-/

namespace Tiny
open Spec Tiny.Std

/-- A C `int64_t`. -/
def Fits64 (n : Int) : Prop := -2 ^ 63 ≤ n ∧ n < 2 ^ 63

instance (n : Int) : Decidable (Fits64 n) := inferInstanceAs (Decidable (_ ∧ _))

/-- The value that stands for the number `n`: a pointer whose bits are `n` in two's complement. -/
def i64Val (n : Int) : Value := .light (n % 2 ^ 64).toNat

/-- `x`, `x + n₁`, `x + n₁ + n₂`, …: what the sum is on the way. -/
def partialSums (x : Int) : List Int → List Int
  | [] => [x]
  | n :: ns => x :: partialSums (x + n) ns

/-- `x`, `x * n₁`, `x * n₁ * n₂`, …: what the product is on the way. -/
def partialProducts (x : Int) : List Int → List Int
  | [] => [x]
  | n :: ns => x :: partialProducts (x * n) ns

theorem addr_i64 (h : Heap) (n : Int) : toAddr h (i64Val n) = .ok (BitVec.ofInt 64 n) := by
  show Res.ok (BitVec.ofNat 64 _) = _
  congr 1
  apply BitVec.eq_of_toNat_eq
  rw [BitVec.toNat_ofNat, BitVec.toNat_ofInt]
  omega

theorem light_i64 (x : BitVec 64) : Value.light x.toNat = i64Val x.toInt := by
  rw [i64Val, Value.light.injEq]
  have := BitVec.toInt_eq_toNat_cond x
  have := x.isLt
  split at * <;> omega

theorem toInt_i64 {n : Int} (h : Fits64 n) : (BitVec.ofInt 64 n).toInt = n := by
  rw [BitVec.toInt_ofInt]
  obtain ⟨h1, h2⟩ := h
  exact Int.bmod_eq_of_le (by omega) (by omega)

theorem add_ok {x y : BitVec 64} : BitVec.saddOverflow x y = false ↔ Fits64 (x.toInt + y.toInt) := by
  simp only [BitVec.saddOverflow, Bool.or_eq_false_iff, decide_eq_false_iff_not, Fits64]
  omega

theorem mul_ok {x y : BitVec 64} : BitVec.smulOverflow x y = false ↔ Fits64 (x.toInt * y.toInt) := by
  simp only [BitVec.smulOverflow, Bool.or_eq_false_iff, decide_eq_false_iff_not, Fits64]
  omega

theorem addMany_spec (h : Heap) : ∀ (ns : List Int) (x : BitVec 64), (∀ n ∈ ns, Fits64 n) →
    ((∀ s ∈ partialSums x.toInt ns, Fits64 s) → ∃ r, addMany h x (ns.map i64Val) = .ok r ∧ r.toInt = x.toInt + ns.sum) ∧
    (¬ (∀ s ∈ partialSums x.toInt ns, Fits64 s) → addMany h x (ns.map i64Val) = .ub)
  | [], x, _ => by
    refine ⟨fun _ => ⟨x, rfl, by simp⟩, fun h => (h fun s hs => ?_).elim⟩
    cases List.mem_singleton.1 hs
    have := BitVec.toInt_lt (x := x)
    have := BitVec.le_toInt (x := x)
    exact ⟨by omega, by omega⟩
  | n :: ns, x, hf => by
    have hn := toInt_i64 (hf n (by simp))
    have hx : Fits64 x.toInt := by
      have := BitVec.toInt_lt (x := x)
      have := BitVec.le_toInt (x := x)
      exact ⟨by omega, by omega⟩
    simp only [List.map_cons, addMany, addr_i64, Res.bind_ok]
    have hok := add_ok (x := x) (y := BitVec.ofInt 64 n)
    rw [hn] at hok
    by_cases ho : Fits64 (x.toInt + n)
    · have he := hok.2 ho
      have hs : (x + BitVec.ofInt 64 n).toInt = x.toInt + n := by
        rw [BitVec.toInt_add, hn]; obtain ⟨h1, h2⟩ := ho; exact Int.bmod_eq_of_le (by omega) (by omega)
      obtain ⟨k1, k2⟩ := addMany_spec h ns (x + BitVec.ofInt 64 n) (fun m hm => hf m (by simp [hm]))
      rw [hs] at k1 k2
      rw [he]
      refine ⟨fun hp => ?_, fun hp => k2 fun hq => hp ?_⟩
      · obtain ⟨r, e1, e2⟩ := k1 fun s hs => hp s (by simp [partialSums, hs])
        exact ⟨r, e1, by rw [e2]; simp; omega⟩
      · intro s hs
        rcases List.mem_cons.1 hs with rfl | hs
        · exact hx
        · exact hq s hs
    · have he : BitVec.saddOverflow x (BitVec.ofInt 64 n) = true := by
        cases h : BitVec.saddOverflow x (BitVec.ofInt 64 n) with
        | true => rfl
        | false => exact (ho (hok.1 h)).elim
      rw [he]
      refine ⟨fun hp => (ho (hp _ ?_)).elim, fun _ => rfl⟩
      cases ns <;> simp [partialSums]

theorem mulMany_spec (h : Heap) : ∀ (ns : List Int) (x : BitVec 64), (∀ n ∈ ns, Fits64 n) →
    ((∀ s ∈ partialProducts x.toInt ns, Fits64 s) → ∃ r, mulMany h x (ns.map i64Val) = .ok r ∧ r.toInt = ns.foldl (· * ·) x.toInt) ∧
    (¬ (∀ s ∈ partialProducts x.toInt ns, Fits64 s) → mulMany h x (ns.map i64Val) = .ub)
  | [], x, _ => by
    refine ⟨fun _ => ⟨x, rfl, by simp⟩, fun h => (h fun s hs => ?_).elim⟩
    cases List.mem_singleton.1 hs
    have := BitVec.toInt_lt (x := x)
    have := BitVec.le_toInt (x := x)
    exact ⟨by omega, by omega⟩
  | n :: ns, x, hf => by
    have hn := toInt_i64 (hf n (by simp))
    have hx : Fits64 x.toInt := by
      have := BitVec.toInt_lt (x := x)
      have := BitVec.le_toInt (x := x)
      exact ⟨by omega, by omega⟩
    simp only [List.map_cons, mulMany, addr_i64, Res.bind_ok]
    have hok := mul_ok (x := x) (y := BitVec.ofInt 64 n)
    rw [hn] at hok
    by_cases ho : Fits64 (x.toInt * n)
    · have he := hok.2 ho
      have hs : (x * BitVec.ofInt 64 n).toInt = x.toInt * n := by
        rw [BitVec.toInt_mul, hn]; obtain ⟨h1, h2⟩ := ho; exact Int.bmod_eq_of_le (by omega) (by omega)
      obtain ⟨k1, k2⟩ := mulMany_spec h ns (x * BitVec.ofInt 64 n) (fun m hm => hf m (by simp [hm]))
      rw [hs] at k1 k2
      rw [he]
      refine ⟨fun hp => ?_, fun hp => k2 fun hq => hp ?_⟩
      · obtain ⟨r, e1, e2⟩ := k1 fun s hs => hp s (by simp [partialProducts, hs])
        exact ⟨r, e1, by rw [e2]; rfl⟩
      · intro s hs
        rcases List.mem_cons.1 hs with rfl | hs
        · exact hx
        · exact hq s hs
    · have he : BitVec.smulOverflow x (BitVec.ofInt 64 n) = true := by
        cases h : BitVec.smulOverflow x (BitVec.ofInt 64 n) with
        | true => rfl
        | false => exact (ho (hok.1 h)).elim
      rw [he]
      refine ⟨fun hp => (ho (hp _ ?_)).elim, fun _ => rfl⟩
      cases ns <;> simp [partialProducts]

/-- **C54.** `i64(i)` is the number `i`, for every integer of the language. -/
theorem c54_of_int (L : LibEnv) (h : Heap) (i : BitVec 64) : libFn L (.i64 .ofInt) [.int i] h = .ok (i64Val i.toInt, h) := by
  show Res.ok (Value.light i.toNat, h) = _
  rw [light_i64]

/-- **C54.** `i64_add` of any number of numbers is their sum, and leaves the memory alone, if no sum on the way leaves
the 64-bit range; else it is signed overflow, which C leaves undefined. -/
theorem c54_add (L : LibEnv) (h : Heap) (x : Int) (ns : List Int) (hn : ∀ n ∈ x :: ns, Fits64 n) :
    libFn L (.i64 .addMany) ((x :: ns).map i64Val) h =
      if ∀ s ∈ partialSums x ns, Fits64 s then .ok (i64Val (x + ns.sum), h) else .ub := by
  have hx := toInt_i64 (hn x (by simp))
  obtain ⟨k1, k2⟩ := addMany_spec h ns (BitVec.ofInt 64 x) fun n hm => hn n (by simp [hm])
  rw [hx] at k1 k2
  simp only [libFn, i64Fn, List.map_cons, addr_i64, Res.bind_ok]
  split
  · rename_i hp
    obtain ⟨r, e1, e2⟩ := k1 hp
    rw [e1, Res.bind_ok, light_i64, e2]
  · rename_i hp
    rw [k2 hp]; rfl

/-- **C54.** `i64_mul` of any number of numbers is their product, likewise. -/
theorem c54_mul (L : LibEnv) (h : Heap) (x : Int) (ns : List Int) (hn : ∀ n ∈ x :: ns, Fits64 n) :
    libFn L (.i64 .mulMany) ((x :: ns).map i64Val) h =
      if ∀ s ∈ partialProducts x ns, Fits64 s then .ok (i64Val (ns.foldl (· * ·) x), h) else .ub := by
  have hx := toInt_i64 (hn x (by simp))
  obtain ⟨k1, k2⟩ := mulMany_spec h ns (BitVec.ofInt 64 x) fun n hm => hn n (by simp [hm])
  rw [hx] at k1 k2
  simp only [libFn, i64Fn, List.map_cons, addr_i64, Res.bind_ok]
  split
  · rename_i hp
    obtain ⟨r, e1, e2⟩ := k1 hp
    rw [e1, Res.bind_ok, light_i64, e2]
  · rename_i hp
    rw [k2 hp]; rfl

/-- **C54.** `i64_to_string` of a number is a new string, its decimal text. -/
theorem c54_to_string (L : LibEnv) {h : Heap} (hf : ∀ o ∈ h.list, o < h.next) {n : Int} (hn : Fits64 n) :
    ∃ o h', libFn L (.i64 .toString) [i64Val n] h = .ok (.str o, h') ∧ IsStr L.cmem h' (.str o) (intText n) ∧ Extends h h' := by
  have hl : (intText n).length < 32 := by
    obtain ⟨h1, h2⟩ := hn
    have := decimal_length (k := 18) (n := n.natAbs) (by omega)
    unfold intText
    split
    · simp [bytes]; omega
    · omega
  obtain ⟨o, h', h1, h2, h3, _⟩ := newString_of hf (l := intText n) (r := []) (cmem := L.cmem)
  refine ⟨o, h', ?_, h2, h3⟩
  simp only [libFn, i64Fn, addr_i64, Res.bind_ok, toInt_i64 hn, fmtInt_text]
  rw [if_pos hl, ← h1, List.append_nil]

/-- **C54.** Numbers are equal as values exactly if they are equal: `==` may be used. -/
theorem c54_equal (m : Mem) {a b : Int} (ha : Fits64 a) (hb : Fits64 b) :
    areValuesEqual m (i64Val a) (i64Val b) = true ↔ a = b := by
  obtain ⟨h1, h2⟩ := ha
  obtain ⟨h3, h4⟩ := hb
  show ((a % 2 ^ 64).toNat == (b % 2 ^ 64).toNat) = true ↔ a = b
  rw [beq_iff_eq]
  omega

/-- `i64_add(i64(2147483647), i64(1), i64(-3))`, more than an `int` of 32 bits can hold on the way. -/
example : resultsOf [(.i64 .ofInt, [intVal 2147483647]), (.i64 .addMany, [i64Val 2147483647, i64Val 1, i64Val (-3)]),
    (.i64 .mulMany, [i64Val 2147483647, i64Val (-2147483647)])] =
    .ok [i64Val 2147483647, i64Val 2147483645, i64Val (-4611686014132420609)] := by
  decide +kernel

/-- The condition of `c54_mul` is met by some, and not by others. -/
example : (∀ s ∈ partialProducts 3037000499 [3037000499], Fits64 s) ∧ ¬ ∀ s ∈ partialProducts 3037000500 [3037000500, 0], Fits64 s := by
  decide

/-- **C54, defect.** Zero is a null pointer: a dictionary cannot have it as a key (an assertion fails). -/
theorem c54_zero_key : resultsOf [(.dict .create, []), (.dict .put, [.native 0, i64Val 0, intVal 5])] = .abort ∧
    resultsOf [(.dict .create, []), (.dict .put, [.native 0, i64Val 1, intVal 5])] = .ok [.native 0, .null] := by
  decide +kernel

end Tiny
