import Verif.Proofs.DictRemove
import Verif.Spec.Map

/-! Histories of dictionary operations. -/

namespace Tiny
namespace Dict

open Spec

theorem validKey_iff (m : Mem) (k : Value) : ValidKey m k ↔ Hashable m k := by
  cases k <;> simp [ValidKey, Hashable, hashValue]
  all_goals
    split
    · simp [*]
    · simp [*]

/-- The table `d` holds the map `f`. -/
def Rep (m : Mem) (d : Dict) (f : Value → Option Value) : Prop :=
  Inv m d ∧ ∀ k, Hashable m k → ∀ v, Maps m d k v ↔ f k = some v

theorem lastBinding_append_one (m : Mem) (k : Value) (ops : List Op) (op : Op) :
    valueAfter m (ops ++ [op]) k = lastBinding m k (op :: ops.reverse) := by
  simp [valueAfter]

theorem step_rep {m : Mem} {d : Dict} {ops : List Op} {op : Op}
    (h : Rep m d (valueAfter m ops)) (hop : ValidOp m op) :
    ∃ d' F, (∀ fuel, F ≤ fuel → step fuel m d op = .ok d') ∧
      Rep m d' (valueAfter m (ops ++ [op])) := by
  obtain ⟨hI, hm⟩ := h
  cases op with
  | set key value =>
    obtain ⟨d', h1, h2, _, h4⟩ := set_spec hI value ((validKey_iff m key).1 hop)
    refine ⟨d', _, h1, h2, ?_⟩
    intro k hk v
    rw [h4, lastBinding_append_one]
    simp only [lastBinding]
    by_cases he : areValuesEqual m key k = true
    · simp [he, eq_comm]
    · simp only [he]; exact hm k hk v
  | remove key =>
    obtain ⟨d', h1, h2, _, h4⟩ := remove_spec hI ((validKey_iff m key).1 hop)
    refine ⟨d', _, h1, h2, ?_⟩
    intro k hk v
    rw [h4, lastBinding_append_one]
    simp only [lastBinding]
    by_cases he : areValuesEqual m key k = true
    · simp [he]
    · simp only [he, true_and]; simp; exact hm k hk v
  | clear =>
    obtain ⟨h1, _, h3⟩ := clear_inv hI
    refine ⟨_, 0, fun _ _ => rfl, h1, ?_⟩
    intro k _ v
    rw [lastBinding_append_one]
    simp [lastBinding, h3]

theorem run_rep {m : Mem} : ∀ (ops done : List Op) (d : Dict), Rep m d (valueAfter m done) →
    (∀ op ∈ ops, ValidOp m op) →
    ∃ d' F, (∀ fuel, F ≤ fuel → run fuel m d ops = .ok d') ∧
      Rep m d' (valueAfter m (done ++ ops))
  | [], done, d, h, _ => ⟨d, 0, fun _ _ => rfl, by simpa using h⟩
  | op :: ops, done, d, h, hv => by
    obtain ⟨d1, F1, h1, h2⟩ := step_rep h (hv op (by simp))
    obtain ⟨d2, F2, h3, h4⟩ := run_rep ops (done ++ [op]) d1 h2 (fun o ho => hv o (by simp [ho]))
    refine ⟨d2, max F1 F2, ?_, by simpa using h4⟩
    intro fuel hf
    simp only [run]
    rw [h1 fuel (by omega)]
    exact h3 fuel (by omega)

theorem init_rep (m : Mem) : Rep m initDict (valueAfter m []) :=
  ⟨init_inv m (by omega), fun k _ v => by simp [initDict, init_maps, valueAfter, lastBinding]⟩

theorem run_init {m : Mem} (ops : List Op) (hv : ∀ op ∈ ops, ValidOp m op) :
    ∃ d F, (∀ fuel, F ≤ fuel → run fuel m initDict ops = .ok d) ∧ Rep m d (valueAfter m ops) := by
  simpa using run_rep ops [] initDict (init_rep m) hv

/-! ### Enumeration -/

/-- Keys and values, bucket by bucket. -/
def entries (d : Dict) : List (Value × Value) := (d.keys.zip d.values).filter (fun p => !p.1.isNull)

theorem filter_map_fst : ∀ (ks vs : List Value), ks.length = vs.length →
    ((ks.zip vs).filter (fun p => !p.1.isNull)).map (·.1) = ks.filter (fun k => !k.isNull)
  | [], [], _ => rfl
  | [], _ :: _, h => by simp at h
  | _ :: _, [], h => by simp at h
  | k :: ks, v :: vs, h => by
    have ih := filter_map_fst ks vs (by simpa using h)
    simp only [List.zip_cons_cons, List.filter_cons]
    split <;> simp [ih]

theorem keysList_eq {d : Dict} (h : Shape d) : keysList d = (entries d).map (·.1) :=
  (filter_map_fst _ _ (by rw [h.lenK, h.lenV])).symm

theorem keysList_length {d : Dict} (h : Shape d) :
    (keysList d).length = d.filledCount ∧ (valuesList d).length = d.filledCount := by
  have h1 : (keysList d).length = d.filledCount := by
    rw [h.count, keysList, List.countP_eq_length_filter]
  refine ⟨h1, ?_⟩
  have h2 := congrArg List.length (keysList_eq h)
  rw [List.length_map] at h2
  rw [valuesList, List.length_map]
  show (entries d).length = _
  omega

theorem mem_entries {d : Dict} (h : Shape d) (k v : Value) :
    (k, v) ∈ entries d ↔ ∃ i < d.bucketCount, d.keyAt i = k ∧ k ≠ .null ∧ d.valAt i = v := by
  unfold entries
  rw [List.mem_filter]
  have hk := h.lenK
  have hv := h.lenV
  constructor
  · rintro ⟨hm, hn⟩
    obtain ⟨i, hi, he⟩ := List.getElem_of_mem hm
    rw [List.getElem_zip] at he
    injection he with h1 h2
    simp only [List.length_zip] at hi
    refine ⟨i, by omega, ?_, ?_, ?_⟩
    · rw [keyAt_eq_getElem (by omega)]; exact h1
    · simpa [isNull_false_iff] using hn
    · rw [← h2]
      simp [valAt, List.getD_eq_getElem?_getD, List.getElem?_eq_getElem (show i < d.values.length by omega)]
  · rintro ⟨i, hi, h1, h2, h3⟩
    refine ⟨?_, by simp [(isNull_false_iff _).2 h2]⟩
    have hlen : i < (d.keys.zip d.values).length := by simp only [List.length_zip]; omega
    have := List.getElem_mem hlen
    rw [List.getElem_zip] at this
    have e1 : d.keys[i]'(by omega) = k := by rw [← keyAt_eq_getElem]; exact h1
    have e2 : d.values[i]'(by omega) = v := by
      rw [← h3]
      simp [valAt, List.getD_eq_getElem?_getD, List.getElem?_eq_getElem (show i < d.values.length by omega)]
    rw [e1, e2] at this
    exact this

theorem maps_iff_entry {m : Mem} {d : Dict} (h : Shape d) (k v : Value) :
    Maps m d k v ↔ ∃ (i : Nat) (k' : Value), (keysList d)[i]? = some k' ∧ areValuesEqual m k' k = true ∧
      (valuesList d)[i]? = some v := by
  have hv : valuesList d = (entries d).map (·.2) := rfl
  constructor
  · rintro ⟨i, hi, hn, he, hv'⟩
    have hm := (mem_entries h (d.keyAt i) v).2 ⟨i, hi, rfl, hn, hv'⟩
    obtain ⟨j, hj⟩ := List.getElem?_of_mem hm
    refine ⟨j, d.keyAt i, ?_, he, ?_⟩
    · rw [keysList_eq h, List.getElem?_map, hj]; rfl
    · rw [hv, List.getElem?_map, hj]; rfl
  · rintro ⟨i, k', h1, he, h2⟩
    rw [keysList_eq h, List.getElem?_map] at h1
    rw [hv, List.getElem?_map] at h2
    cases hx : (entries d)[i]? with
    | none => rw [hx] at h1; simp at h1
    | some p =>
      obtain ⟨a, b⟩ := p
      rw [hx] at h1 h2
      simp only [Option.map_some, Option.some.injEq] at h1 h2
      subst h1 h2
      obtain ⟨j, hj, hk, hn, hvv⟩ := (mem_entries h a b).1 (List.mem_of_getElem? hx)
      subst hk
      exact ⟨j, hj, hn, he, hvv⟩

theorem keysList_pairwise {m : Mem} {d : Dict} (h : Inv m d) :
    (keysList d).Pairwise (fun a b => areValuesEqual m a b = false) := by
  have h1 : d.keys.Pairwise (fun a b => a ≠ .null → areValuesEqual m a b = false) := by
    rw [List.pairwise_iff_getElem]
    intro i j hi hj hij hn
    rw [Bool.eq_false_iff]
    intro he
    have hl := h.lenK
    have := h.uniq i (by omega) j (by omega) (by rw [keyAt_eq_getElem hi]; exact hn)
      (by rw [keyAt_eq_getElem hi, keyAt_eq_getElem hj]; exact he)
    omega
  unfold keysList
  have h2 := h1.filter (fun k => !k.isNull)
  refine List.Pairwise.imp_of_mem ?_ h2
  intro a b ha _ hab
  apply hab
  have := (List.mem_filter.1 ha).2
  simpa [isNull_false_iff] using this

theorem keysList_hashable {m : Mem} {d : Dict} (h : Inv m d) :
    ∀ k ∈ keysList d, Hashable m k := by
  intro k hk
  obtain ⟨hm, hn⟩ := List.mem_filter.1 hk
  obtain ⟨i, hi, rfl⟩ := List.getElem_of_mem hm
  have hl := h.lenK
  have := h.hashable i (by omega)
  rw [keyAt_eq_getElem hi] at this
  exact this (by simpa [isNull_false_iff] using hn)

theorem set_unhashable {m : Mem} {d : Dict} (hI : Inv m d) {k : Value} (hk : ¬ Hashable m k)
    (v : Value) : ∃ F, ∀ fuel, F ≤ fuel → set fuel m d k v = .abort := by
  have hh : hashValue m k = .abort := by
    cases hx : hashValue m k with
    | ok h => exact absurd ⟨h, hx⟩ hk
    | abort => rfl
    | ub => cases k <;> simp [hashValue] at hx <;> split at hx <;> cases hx
    | timeout => cases k <;> simp [hashValue] at hx <;> split at hx <;> cases hx
    | limit => cases k <;> simp [hashValue] at hx <;> split at hx <;> cases hx
  obtain ⟨g, g1, _⟩ := grow_spec hI
  refine ⟨5 * d.bucketCount + 4, ?_⟩
  intro fuel hf
  obtain ⟨fuel, rfl⟩ : ∃ f, fuel = f + 1 := ⟨fuel - 1, by omega⟩
  simp only [set]
  split
  · rw [g1 fuel (by omega)]; simp [hh]
  · simp [hh]

end Dict
end Tiny
