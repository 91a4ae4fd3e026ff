import Verif.Proofs.Array

/-!
# C05–C06: arrays
-/

namespace Tiny
open Spec Arr

/-- **C05.** For every history of array calls the outputs (and whether the history ends in a failed
assertion or, for clearing an array that never had storage, in undefined behaviour) are exactly those
of the list specification.  In particular no call reads or writes outside the buffer or reads an
uninitialised cell, since that would be `ub`. -/
theorem c05_array_is_a_list {α : Type} (ops : List (Op α)) (r : Res (List (Out α)))
    (h : arrRun false [] ops = some r) : run Arr.init ops = r :=
  run_spec ops Arr.init false [] ⟨rfl, rfl⟩ r h

/-- A history which exercises growth, insertion in front of the end, removal and shrinking. -/
def exArrOps : List (Op Nat) :=
  [.push 1, .push 2, .push 3, .insert 1 9, .get 1, .shift, .remove 1, .set 0 7, .len, .resize 1 0,
   .pop, .resize 3 5, .get 2]

example : arrRun false [] exArrOps = some (.ok [.unit, .unit, .unit, .unit, .val 9, .val 1, .unit,
    .unit, .num 2, .unit, .val 7, .unit, .val 5]) := by decide

/-- **C05**, bounds: an index outside the array fails an assertion, whatever the history was. -/
theorem c05_out_of_range {α : Type} (a : Arr α) (i : Int) (h : i < 0 ∨ (a.len : Int) ≤ i) (v : α) :
    Arr.get a i = .abort ∧ Arr.set a i v = .abort ∧ Arr.remove a i = .abort ∧
      Arr.insert a i v = .abort := by
  have hn : ¬ (0 ≤ i ∧ i < (a.len : Int)) := by omega
  simp only [Arr.get, Arr.set, Arr.remove, Arr.insert, assert_idx_abort hn, Res.bind_abort, and_self]

example : Arr.get (some { cap := 2, n := 1, cells := [some 5, none] } : Arr Nat) 1 = .abort := by decide

/-- The full claim of C06 about growing: after any history that ends normally with an array of
length `len`, resizing to `n > len` and reading any new element `i` gives the fill value. -/
def C06Claim : Prop :=
  ∀ (ops : List (Op Nat)) (outs : List (Out Nat)) (len n i v : Nat),
    run Arr.init (ops ++ [.len]) = .ok (outs ++ [.num len]) → len ≤ i → i < n →
    ∃ outs', run Arr.init (ops ++ [.resize n v, .get i]) = .ok (outs' ++ [.val v])

/-- **C06** (partial): resizing is right when the array is cut, and when it is empty. Missing:
growing a non-empty array, where the claim is false (next theorem). -/
theorem c06_resize_partial {α : Type} (a : Arr α) (t : Bool) (l : List α) (h : Rep a t l) (v : α)
    (n : Nat) : 
    (n ≤ l.length → t = true → ∃ a', resize a n v = .ok a' ∧ Rep a' true (l.take n)) ∧
    (l = [] → 0 < n → ∃ a', resize a n v = .ok a' ∧ Rep a' true (List.replicate n v)) := by
  constructor
  · rintro hn rfl
    cases a with
    | none => simp [Rep] at h
    | some b => exact resize_shrink h.2 n v hn
  · rintro rfl hn
    exact resize_empty h n v hn

example : Rep (some { cap := 2, n := 1, cells := [some 5, none] } : Arr Nat) true [5] :=
  ⟨rfl, rfl, rfl, [none], rfl⟩

theorem fillLoop_keeps {α : Type} (base : Nat) (v : α) : ∀ (k i : Nat) (b b' : Buf α),
    fillLoop b base v i k = .ok b' → ∀ j, j < base + i → b'.cells[j]? = b.cells[j]?
  | 0, i, b, b', h, j, hj => by simp only [fillLoop, Res.ok.injEq] at h; rw [h]
  | k + 1, i, b, b', h, j, hj => by
    simp only [fillLoop, writeCell] at h
    split at h
    · rw [Res.bind_ok] at h
      have := fillLoop_keeps base v k (i + 1) _ b' h j (by omega)
      rw [this]
      simp only [List.getElem?_set]
      rw [if_neg (by omega)]
    · simp at h

/-- **C06**, the defect: growing *any* non-empty array never stores the fill value in the first
new element (index `len`): either the call writes outside the buffer (undefined behaviour), or that
element still holds what the memory held before the call. -/
theorem c06_resize_grow_defect {α : Type} (a : Arr α) (l : List α) (h : Rep a true l) (hl : l ≠ [])
    (n : Nat) (hn : l.length < n) (v : α) :
    resize a n v = .ub ∨
    ∃ b', resize a n v = .ok (some b') ∧
      b'.cells[l.length]? = (maybeGrow a (n - l.length)).cells[l.length]? := by
  obtain ⟨⟨hn', hlc, rest, hc⟩, hcap⟩ := maybeGrow_holds h (n - l.length)
  have hlen := h.len
  have h0 : (n : Int) ≥ 0 := by omega
  have hpos : 0 < l.length := List.length_pos_iff.2 hl
  have hub : ∀ (k i : Nat) (b : Buf α) (base : Nat), (fillLoop b base v i k = .ub) ∨
      ∃ b', fillLoop b base v i k = .ok b' := by
    intro k
    induction k with
    | zero => intro i b base; right; exact ⟨b, rfl⟩
    | succ k ih =>
      intro i b base
      simp only [fillLoop, writeCell]
      split
      · rw [Res.bind_ok]; exact ih _ _ _
      · left; rfl
  simp only [resize, Res.assert, h0, decide_true, if_true, Res.bind_ok, Int.toNat_natCast, hlen,
      gt_iff_lt, hn, Nat.add_sub_cancel, hn']
  rcases hub (n - l.length) l.length
    { maybeGrow a (n - l.length) with n := l.length + (n - l.length) } l.length with hu | ⟨b', hb⟩
  · left; rw [hu]; rfl
  · right
    refine ⟨b', by rw [hb]; rfl, ?_⟩
    exact fillLoop_keeps _ _ _ _ _ _ hb _ (by omega)

/-- **C06** is false: growing an array of one element to two writes outside its buffer; when there
is spare room, the new element shows a stale value instead of the fill value. -/
theorem c06_resize_false : ¬ C06Claim := by
  intro h
  obtain ⟨o, ho⟩ := h [.push 1] [.unit] 1 2 1 0 (by decide) (by decide) (by decide)
  have : run (Arr.init : Arr Nat) ([.push 1] ++ [.resize (2 : Nat) 0, .get (1 : Nat)]) = .ub := by
    decide
  rw [this] at ho
  cases ho

/-- **C06**, the stale value: four pushes and three pops, then `resize(2, 0)`, then reading element 1
gives 2, not 0. -/
theorem c06_resize_stale :
    run (Arr.init : Arr Nat) [.push 1, .push 2, .push 3, .push 4, .pop, .pop, .pop, .resize 2 0, .get 1]
      = .ok [.unit, .unit, .unit, .unit, .val 4, .val 3, .val 2, .unit, .val 2] := by
  decide

end Tiny
