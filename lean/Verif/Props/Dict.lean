import Verif.Proofs.DictRun

/-!
# C01–C03: dictionaries
-/

namespace Tiny
open Spec Dict

/-- A small memory for the examples: object 1 is the string "ab", 2 a native with address 7; the
constant at 10 is "ab". -/
def exMem : Mem where
  obj := fun o => if o = 1 then .str [97, 98] else if o = 2 then .native 7 0 else .struct []
  cmem := fun p => if p = 10 then [97, 98] else []

/-- A history with colliding keys (1, 33 and 65 share bucket 1), a replacement through an equal key
of another kind, and a removal in the middle of the probe chain. -/
def exOps : List Op :=
  [.set (.int 1) (.int 100), .set (.int 33) (.int 200), .set (.int 65) (.int 300),
   .set (.str 1) .null, .set (.cstr 10) (.bool true), .remove (.int 33)]

/-- **C01.** After every history of set / remove / clear with valid keys the dictionary exists (no
assertion fails, every loop terminates) and `DictGet` answers exactly what the history says. -/
theorem c01_dict_is_a_map (m : Mem) (ops : List Op) (hv : ∀ op ∈ ops, ValidOp m op) :
    ∃ d F, ∀ fuel, F ≤ fuel → run fuel m initDict ops = .ok d ∧
      ∀ k, ValidKey m k → Dict.get fuel m d k = .ok (valueAfter m ops k) := by
  obtain ⟨d, F, h1, hI, hm⟩ := run_init ops hv
  refine ⟨d, max F d.bucketCount, ?_⟩
  intro fuel hf
  refine ⟨h1 fuel (by omega), ?_⟩
  intro k hk
  have hk' := (validKey_iff m k).1 hk
  obtain ⟨r, g1, g2⟩ := get_spec hI hk'
  rw [g1 fuel (by omega)]
  congr 1
  apply Option.ext
  intro v
  show r = some v ↔ valueAfter m ops k = some v
  rw [g2, hm k hk']

example : ∀ op ∈ exOps, ValidOp exMem op := by
  intro op h
  simp [exOps] at h
  rcases h with rfl | rfl | rfl | rfl | rfl | rfl <;> simp [ValidOp, ValidKey]

example : valueAfter exMem exOps (.int 65) = some (.int 300) ∧
    valueAfter exMem exOps (.int 33) = none ∧
    valueAfter exMem exOps (.str 1) = some (.bool true) := by decide

/-- **C02.** After every history, the enumerated keys are pairwise different, all valid, as many as
the stored count; and position by position keys and values list exactly the live bindings. -/
theorem c02_dict_enumeration (m : Mem) (ops : List Op) (hv : ∀ op ∈ ops, ValidOp m op) :
    ∃ d F, (∀ fuel, F ≤ fuel → run fuel m initDict ops = .ok d) ∧
      (keysList d).Pairwise (fun a b => areValuesEqual m a b = false) ∧
      (∀ k ∈ keysList d, ValidKey m k) ∧
      (keysList d).length = d.filledCount ∧ (valuesList d).length = d.filledCount ∧
      (∀ k, ValidKey m k → ∀ v, valueAfter m ops k = some v ↔
        ∃ (i : Nat) (k' : Value), (keysList d)[i]? = some k' ∧ areValuesEqual m k' k = true ∧
          (valuesList d)[i]? = some v) := by
  obtain ⟨d, F, h1, hI, hm⟩ := run_init ops hv
  refine ⟨d, F, h1, keysList_pairwise hI, ?_, (keysList_length hI.toShape).1,
    (keysList_length hI.toShape).2, ?_⟩
  · intro k hk; exact (validKey_iff m k).2 (keysList_hashable hI k hk)
  · intro k hk v
    rw [← maps_iff_entry hI.toShape, hm k ((validKey_iff m k).1 hk)]

example : (match run 400 exMem initDict exOps with
    | .ok d => d.filledCount == 3 && (keysList d).length == 3
    | _ => false) = true := by decide +kernel

/-- **C03.** After every history with valid keys at most half of the table is in use, every further
operation with a valid key terminates in such a table again; and a key that cannot be hashed makes every operation
fail its assertion (nothing is stored). -/
theorem c03_dict_total_and_half_empty (m : Mem) (ops : List Op) (hv : ∀ op ∈ ops, ValidOp m op) :
    ∃ d F, ∀ fuel, F ≤ fuel → run fuel m initDict ops = .ok d ∧
      2 * d.filledCount ≤ d.bucketCount ∧ d.keys.length = d.bucketCount ∧
      d.values.length = d.bucketCount ∧
      (∀ k v, ValidKey m k → ∃ d' F', ∀ fuel', F' ≤ fuel' →
        Dict.set fuel' m d k v = .ok d' ∧ 2 * d'.filledCount ≤ d'.bucketCount) ∧
      (∀ k, ValidKey m k → ∃ d' F', ∀ fuel', F' ≤ fuel' →
        Dict.remove fuel' m d k = .ok d' ∧ 2 * d'.filledCount ≤ d'.bucketCount) ∧
      (∀ k v, ¬ ValidKey m k → (∃ F', ∀ fuel', F' ≤ fuel' → Dict.set fuel' m d k v = .abort) ∧
        Dict.get fuel m d k = .abort ∧ Dict.remove fuel m d k = .abort) := by
  obtain ⟨d, F, h1, hI, _⟩ := run_init ops hv
  refine ⟨d, F, fun fuel hf => ⟨h1 fuel hf, ?_, hI.lenK, hI.lenV, ?_, ?_, ?_⟩⟩
  · have := hI.load; omega
  · intro k v hk
    obtain ⟨d', g1, g2, _⟩ := set_spec hI v ((validKey_iff m k).1 hk)
    exact ⟨d', _, fun f hf => ⟨g1 f hf, by have := g2.load; omega⟩⟩
  · intro k hk
    obtain ⟨d', g1, g2, _⟩ := remove_spec hI ((validKey_iff m k).1 hk)
    exact ⟨d', _, fun f hf => ⟨g1 f hf, by have := g2.load; omega⟩⟩
  · intro k v hk
    have hk' : ¬ Hashable m k := fun h => hk ((validKey_iff m k).2 h)
    have hh : hashValue m k = .abort := by
      cases hx : hashValue m k with
      | ok h => exact absurd ⟨h, hx⟩ hk'
      | abort => rfl
      | ub => cases k <;> simp [hashValue] at hx <;> split at hx <;> cases hx
      | timeout => cases k <;> simp [hashValue] at hx <;> split at hx <;> cases hx
      | limit => cases k <;> simp [hashValue] at hx <;> split at hx <;> cases hx
    exact ⟨set_unhashable hI hk' v, by simp [Dict.get, hh], by simp [Dict.remove, hh]⟩

example : ¬ ValidKey exMem .null ∧ ¬ ValidKey exMem (.float 0) ∧ ValidKey exMem (.native 2) := by
  simp [ValidKey, exMem, Mem.natAddr]

end Tiny
