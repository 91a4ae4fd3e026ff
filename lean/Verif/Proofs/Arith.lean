import Verif.Spec.Arith
import Verif.Model.VM
import Mathlib.Tactic.Positivity
import Mathlib.Tactic.Tauto
import Mathlib.Tactic.NormNum

namespace Tiny
open Spec

theorem toInt_fits (a : BitVec 64) : Fits64 a.toInt := by
  have h1 := BitVec.le_toInt a
  have h2 := BitVec.toInt_lt (x := a)
  constructor
  · simpa using h1
  · simpa using h2

theorem ofInt_toInt_of_fits {x : Int} (h : Fits64 x) : (BitVec.ofInt 64 x).toInt = x := by
  rw [BitVec.toInt_ofInt]
  unfold Fits64 at h
  apply Int.bmod_eq_of_le <;> omega

theorem eq_ofInt {a : BitVec 64} {x : Int} (h : a.toInt = x) : a = BitVec.ofInt 64 x := by
  rw [← h, BitVec.ofInt_toInt]

theorem wrap32_fits (x : Int) : Fits64 (wrap32 x) := by unfold Fits64 wrap32; omega

theorem narrow_toInt (x : BitVec 64) : (narrow x).toInt = wrap32 x.toInt := by
  unfold narrow
  rw [BitVec.toInt_signExtend_of_le (by omega), BitVec.truncate_eq_setWidth, BitVec.toInt_setWidth]
  have : (x.toNat : Int) % 2 ^ 32 = x.toInt % 2 ^ 32 := by
    rw [BitVec.toInt_eq_toNat_bmod]
    simp only [Int.bmod]
    split <;> omega
  simp only [wrap32, Int.bmod]
  split <;> omega

theorem narrow_eq (x : BitVec 64) : narrow x = BitVec.ofInt 64 (wrap32 x.toInt) := eq_ofInt (narrow_toInt x)

theorem sdivOv_iff (a b : BitVec 64) (hb : b ≠ 0#64) :
    BitVec.sdivOverflow a b = true ↔ ¬ Fits64 (a.toInt.tdiv b.toInt) := by
  have ha := toInt_fits a
  unfold Fits64 at ha
  have hb0 : b.toInt ≠ 0 := by
    intro h; apply hb; rw [eq_ofInt h]; rfl
  have key : BitVec.sdivOverflow a b = true ↔ (a.toInt = -2 ^ 63 ∧ b.toInt = -1) := by
    rw [BitVec.sdivOverflow_eq]
    simp only [Bool.and_eq_true, decide_eq_true_eq]
    constructor
    · rintro ⟨⟨_, rfl⟩, rfl⟩; exact ⟨by decide, by decide⟩
    · rintro ⟨h1, h2⟩
      exact ⟨⟨by decide, by rw [eq_ofInt h1]; decide⟩, by rw [eq_ofInt h2]; decide⟩
  rw [key]
  constructor
  · rintro ⟨h1, h2⟩; rw [h1, h2]; decide
  · intro h
    unfold Fits64 at h
    have hle : (a.toInt.tdiv b.toInt).natAbs ≤ a.toInt.natAbs := by
      rw [Int.natAbs_tdiv]; exact Nat.div_le_self _ _
    have hmin : a.toInt = -2 ^ 63 := by omega
    refine ⟨hmin, ?_⟩
    by_cases h1 : b.toInt = -1
    · exact h1
    · exfalso
      by_cases h2 : b.toInt = 1
      · rw [h2, hmin] at h; revert h; decide
      · have h3 : 2 ≤ b.toInt.natAbs := by omega
        have : (a.toInt.tdiv b.toInt).natAbs ≤ a.toInt.natAbs / 2 := by
          rw [Int.natAbs_tdiv]; exact Nat.div_le_div_left h3 (by omega)
        omega

theorem zero_iff (b : BitVec 64) : b = 0#64 ↔ b.toInt = 0 :=
  ⟨fun h => by rw [h]; rfl, fun h => by rw [eq_ofInt h]; rfl⟩

theorem intArith_spec (op : Op) (a b : BitVec 64) (h : op = .add ∨ op = .sub ∨ op = .mul ∨ op = .div) :
    intArith op a b = match intOp op a.toInt b.toInt with
      | some r => .ok (BitVec.ofInt 64 r)
      | none => .ub := by
  rcases h with rfl | rfl | rfl | rfl
  · simp only [intArith, intOp]
    have hov : (BitVec.saddOverflow a b = true) ↔ ¬ Fits64 (a.toInt + b.toInt) := by
      simp only [BitVec.saddOverflow, Bool.or_eq_true, decide_eq_true_eq, Fits64]; omega
    by_cases h : Fits64 (a.toInt + b.toInt)
    · have h' := h
      unfold Fits64 at h'
      rw [if_neg (by rw [hov]; simp [h]), if_pos h]
      simp only [Res.ok.injEq]
      exact eq_ofInt (by rw [BitVec.toInt_add]; apply Int.bmod_eq_of_le <;> omega)
    · have h' := h
      unfold Fits64 at h'
      rw [if_pos (hov.2 h), if_neg h]
  · simp only [intArith, intOp]
    have hov : (BitVec.ssubOverflow a b = true) ↔ ¬ Fits64 (a.toInt - b.toInt) := by
      simp only [BitVec.ssubOverflow, Bool.or_eq_true, decide_eq_true_eq, Fits64]; omega
    by_cases h : Fits64 (a.toInt - b.toInt)
    · have h' := h
      unfold Fits64 at h'
      rw [if_neg (by rw [hov]; simp [h]), if_pos h]
      simp only [Res.ok.injEq]
      exact eq_ofInt (by rw [BitVec.toInt_sub]; apply Int.bmod_eq_of_le <;> omega)
    · have h' := h
      unfold Fits64 at h'
      rw [if_pos (hov.2 h), if_neg h]
  · simp only [intArith, intOp]
    have hov : (BitVec.smulOverflow a b = true) ↔ ¬ Fits64 (a.toInt * b.toInt) := by
      simp only [BitVec.smulOverflow, Bool.or_eq_true, decide_eq_true_eq, Fits64]; omega
    by_cases h : Fits64 (a.toInt * b.toInt)
    · have h' := h
      unfold Fits64 at h'
      rw [if_neg (by rw [hov]; simp [h]), if_pos h]
      simp only [Res.ok.injEq]
      exact eq_ofInt (by rw [BitVec.toInt_mul]; apply Int.bmod_eq_of_le <;> omega)
    · have h' := h
      unfold Fits64 at h'
      rw [if_pos (hov.2 h), if_neg h]
  · simp only [intArith, intOp]
    by_cases hb : b = 0#64
    · rw [if_pos (.inl hb), if_neg (by rw [zero_iff] at hb; simp [hb])]
    · by_cases hf : Fits64 (a.toInt.tdiv b.toInt)
      · rw [if_neg (by rw [sdivOv_iff a b hb]; simp [hb, hf]), if_pos ⟨by rwa [Ne, ← zero_iff], hf⟩]
        simp only [Res.ok.injEq]
        refine eq_ofInt ?_
        rw [BitVec.toInt_sdiv]
        unfold Fits64 at hf
        apply Int.bmod_eq_of_le <;> omega
      · rw [if_pos (by rw [sdivOv_iff a b hb]; simp [hf]), if_neg (by simp [hf])]

theorem intOnly_spec (op : Op) (a b : BitVec 64)
    (h : op = .mod ∨ op = .or ∨ op = .and ∨ op = .shl ∨ op = .shr) :
    binOpInt op (.int a) (.int b) = match intOp op a.toInt b.toInt with
      | some r => .ok (.int (BitVec.ofInt 64 r))
      | none => .ub := by
  rcases h with rfl | rfl | rfl | rfl | rfl
  · simp only [binOpInt, intOnly, intOp]
    by_cases hb : b = 0#64
    · rw [if_pos (.inl hb), if_neg (by rw [zero_iff] at hb; simp [hb])]; rfl
    · by_cases hf : Fits64 (a.toInt.tdiv b.toInt)
      · rw [if_neg (by rw [sdivOv_iff a b hb]; simp [hb, hf]), if_pos ⟨by rwa [Ne, ← zero_iff], hf⟩]
        simp only [Res.bind_ok, narrow_eq, BitVec.toInt_srem]
      · rw [if_pos (by rw [sdivOv_iff a b hb]; simp [hf]), if_neg (by simp [hf])]; rfl
  · simp only [binOpInt, intOnly, intOp, Res.bind_ok, narrow_eq, BitVec.ofInt_toInt]
  · simp only [binOpInt, intOnly, intOp, Res.bind_ok, narrow_eq, BitVec.ofInt_toInt]
  · simp only [binOpInt, intOnly, intOp]
    have hbn : 0 ≤ b.toInt → b.toNat = b.toInt.toNat := by
      intro h0
      have := BitVec.toInt_eq_toNat_cond b
      split at this <;> omega
    by_cases h1 : 0 ≤ b.toInt ∧ b.toInt < 64 ∧ 0 ≤ a.toInt
    · obtain ⟨h1, h2, h3⟩ := h1
      rw [hbn h1]
      have hp : (0 : Int) ≤ a.toInt * 2 ^ b.toInt.toNat := Int.mul_nonneg h3 (by positivity)
      by_cases hf : Fits64 (a.toInt * 2 ^ b.toInt.toNat)
      · have hf' := hf
        unfold Fits64 at hf'
        rw [if_neg (by omega), if_pos ⟨h1, h2, h3, hf⟩]
        simp only [Res.bind_ok, narrow_eq, Res.ok.injEq, Value.int.injEq]
        congr 2
        rw [BitVec.toInt_shiftLeft]
        have ha : (a.toNat : Int) = a.toInt := by
          have := BitVec.toInt_eq_toNat_cond a
          split at this <;> omega
        rw [Nat.shiftLeft_eq]
        push_cast
        rw [ha]
        apply Int.bmod_eq_of_le <;> omega
      · have hf' := hf
        unfold Fits64 at hf'
        rw [if_pos (by omega), if_neg (by simp [hf])]; rfl
    · rw [if_pos (by omega), if_neg (fun h => h1 ⟨h.1, h.2.1, h.2.2.1⟩)]; rfl
  · simp only [binOpInt, intOnly, intOp]
    have hbn : 0 ≤ b.toInt → b.toNat = b.toInt.toNat := by
      intro h0
      have := BitVec.toInt_eq_toNat_cond b
      split at this <;> omega
    by_cases h1 : 0 ≤ b.toInt ∧ b.toInt < 64
    · rw [if_neg (by omega), if_pos h1]
      simp only [Res.bind_ok, narrow_eq, Res.ok.injEq, Value.int.injEq]
      rw [BitVec.toInt_sshiftRight, hbn h1.1, Int.shiftRight_eq_div_pow]
      norm_cast
    · rw [if_pos (by omega), if_neg h1]; rfl

theorem intRel_spec (op : Op) (a b : BitVec 64) (h : op = .lt ∨ op = .lte ∨ op = .gt ∨ op = .gte) :
    intCmp op a.toInt b.toInt = some (intRel op a b) := by
  rcases h with rfl | rfl | rfl | rfl <;> simp [intCmp, intRel, BitVec.slt, BitVec.sle]

theorem intOp_fits {op : Op} {x y r : Int} (e : intOp op x y = some r) : Fits64 r := by
  cases op <;> simp only [intOp, Option.ite_none_right_eq_some, Option.some.injEq, reduceCtorEq] at e <;>
    first
    | (obtain ⟨h, rfl⟩ := e; first | exact h | exact h.2 | exact wrap32_fits _)
    | (subst e; exact wrap32_fits _)

end Tiny
