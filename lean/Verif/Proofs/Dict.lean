import Verif.Model.Dict
import Verif.Proofs.Value

/-! Invariant and helper lemmas for the dictionary. -/

namespace Tiny
namespace Dict

/-- Cyclic distance from bucket `h` to bucket `i` in a table of `b` buckets. -/
def dist (b h i : Nat) : Nat := if h ≤ i then i - h else i + b - h

theorem dist_spec (b h i : Nat) :
    (h ≤ i ∧ dist b h i = i - h) ∨ (i < h ∧ dist b h i = i + b - h) := by
  unfold dist; split <;> omega

theorem succ_mod {b i : Nat} (h : i < b) :
    (i + 1 < b ∧ (i + 1) % b = i + 1) ∨ (i + 1 = b ∧ (i + 1) % b = 0) := by
  by_cases h' : i + 1 < b
  · exact Or.inl ⟨h', Nat.mod_eq_of_lt h'⟩
  · have : i + 1 = b := by omega
    exact Or.inr ⟨this, by rw [this, Nat.mod_self]⟩

def Hashable (m : Mem) (k : Value) : Prop := ∃ h, hashValue m k = .ok h

def home (m : Mem) (b : Nat) (k : Value) : Nat :=
  match hashValue m k with
  | .ok h => h.toNat % b
  | _ => 0

theorem home_lt (m : Mem) {b : Nat} (hb : 0 < b) (k : Value) : home m b k < b := by
  unfold home; split
  · exact Nat.mod_lt _ hb
  · exact hb

theorem home_congr (m : Mem) (b : Nat) {k k' : Value} (h : areValuesEqual m k k' = true) :
    home m b k = home m b k' := by unfold home; rw [hashValue_congr m h]

theorem home_of_hash {m : Mem} {b : Nat} {k : Value} {h : BitVec 64} (hk : hashValue m k = .ok h) :
    home m b k = h.toNat % b := by unfold home; rw [hk]

theorem Hashable.congr {m : Mem} {k k' : Value} (h : areValuesEqual m k k' = true)
    (hk : Hashable m k) : Hashable m k' := by
  obtain ⟨x, hx⟩ := hk; exact ⟨x, by rw [← hashValue_congr m h, hx]⟩

theorem Hashable.ne_null {m : Mem} {k : Value} (hk : Hashable m k) : k ≠ .null := by
  rintro rfl; obtain ⟨_, h⟩ := hk; simp [hashValue] at h

theorem Hashable.refl {m : Mem} {k : Value} (hk : Hashable m k) : areValuesEqual m k k = true := by
  apply areValuesEqual_refl
  rintro f rfl
  obtain ⟨_, h⟩ := hk; simp [hashValue] at h

/-- Key in bucket `i`. -/
def keyAt (d : Dict) (i : Nat) : Value := d.keys.getD i .null
/-- Value in bucket `i`. -/
def valAt (d : Dict) (i : Nat) : Value := d.values.getD i .null

/-- Shape invariant: array lengths and the element count. -/
structure Shape (d : Dict) : Prop where
  two : 2 ≤ d.bucketCount
  lenK : d.keys.length = d.bucketCount
  lenV : d.values.length = d.bucketCount
  count : d.filledCount = d.keys.countP (fun k => !k.isNull)
  load : d.filledCount ≤ d.bucketCount / 2

/-- The probing invariant. -/
structure Inv (m : Mem) (d : Dict) : Prop extends Shape d where
  hashable : ∀ i < d.bucketCount, d.keyAt i ≠ .null → Hashable m (d.keyAt i)
  uniq : ∀ i < d.bucketCount, ∀ j < d.bucketCount, d.keyAt i ≠ .null →
    areValuesEqual m (d.keyAt i) (d.keyAt j) = true → i = j
  chain : ∀ i < d.bucketCount, d.keyAt i ≠ .null → ∀ j < d.bucketCount,
    dist d.bucketCount (home m d.bucketCount (d.keyAt i)) j <
      dist d.bucketCount (home m d.bucketCount (d.keyAt i)) i → d.keyAt j ≠ .null

/-- The table binds `k` to `v`. -/
def Maps (m : Mem) (d : Dict) (k v : Value) : Prop :=
  ∃ i < d.bucketCount, d.keyAt i ≠ .null ∧ areValuesEqual m (d.keyAt i) k = true ∧ d.valAt i = v

theorem arrGet_keys {d : Dict} {i : Nat} (hl : d.keys.length = d.bucketCount)
    (hi : i < d.bucketCount) : arrGet d.keys i = .ok (d.keyAt i) := by
  have : i < d.keys.length := by omega
  simp [arrGet, keyAt, List.getD_eq_getElem?_getD, List.getElem?_eq_getElem this]

theorem arrGet_values {d : Dict} {i : Nat} (hl : d.values.length = d.bucketCount)
    (hi : i < d.bucketCount) : arrGet d.values i = .ok (d.valAt i) := by
  have : i < d.values.length := by omega
  simp [arrGet, valAt, List.getD_eq_getElem?_getD, List.getElem?_eq_getElem this]

theorem getD_set {l : List Value} {i j : Nat} {v : Value} (hi : i < l.length) :
    (l.set i v).getD j .null = if j = i then v else l.getD j .null := by
  simp only [List.getD_eq_getElem?_getD, List.getElem?_set]
  by_cases h : i = j
  · subst h; simp [hi]
  · simp [h, Ne.symm h]

/-- A table at most half full has a free bucket. -/
theorem Shape.exists_null {d : Dict} (h : Shape d) : ∃ i < d.bucketCount, d.keyAt i = .null := by
  apply Classical.byContradiction
  intro hn
  have hall : ∀ k ∈ d.keys, (!k.isNull) = true := by
    intro k hk
    obtain ⟨i, hi, rfl⟩ := List.getElem_of_mem hk
    simp only [Bool.not_eq_true', isNull_false_iff]
    intro hnull
    apply hn
    refine ⟨i, by rw [← h.lenK]; exact hi, ?_⟩
    simp [keyAt, List.getD_eq_getElem?_getD, List.getElem?_eq_getElem hi, hnull]
  have := List.countP_eq_length.2 hall
  have h1 := h.count
  have h2 := h.load
  have h3 := h.lenK
  have h4 := h.two
  omega

/-- Result of storing at bucket `t`. -/
def put (d : Dict) (t : Nat) (key value : Value) : Dict :=
  if d.keyAt t = .null then
    { d with keys := d.keys.set t key, filledCount := d.filledCount + 1,
             values := d.values.set t value }
  else { d with values := d.values.set t value }

theorem setProbe_at {m : Mem} {d : Dict} {key value : Value} {hash origin t : Nat}
    (hK : d.keys.length = d.bucketCount) (hV : d.values.length = d.bucketCount)
    (ho : origin < d.bucketCount) (ht : t < d.bucketCount)
    (hbefore : ∀ j < d.bucketCount, dist d.bucketCount origin j < dist d.bucketCount origin t →
      d.keyAt j ≠ .null ∧ areValuesEqual m (d.keyAt j) key = false)
    (hat : d.keyAt t = .null ∨ areValuesEqual m (d.keyAt t) key = true) :
    ∀ (n index fuel : Nat), index < d.bucketCount →
      dist d.bucketCount origin index + n = dist d.bucketCount origin t → n < fuel →
      setProbe fuel m d key value hash index origin = .ok (put d t key value)
  | n, index, 0, _, _, hf => by omega
  | 0, index, fuel + 1, hi, hd, _ => by
    have heq : index = t := by
      have h1 := dist_spec d.bucketCount origin index
      have h2 := dist_spec d.bucketCount origin t
      omega
    subst heq
    have hset1 : index < d.keys.length := by omega
    have hset2 : index < d.values.length := by omega
    simp only [setProbe, arrGet_keys hK hi, Res.bind_ok]
    by_cases hn : d.keyAt index = .null
    · simp [hn, Value.isNull, arrSet, hset1, hset2, put]
    · have he := hat.resolve_left hn
      have hnn := (isNull_false_iff _).2 hn
      simp [hnn, he, arrSet, hset2, put, hn]
  | n + 1, index, fuel + 1, hi, hd, hf => by
    have hb := hbefore index hi (by omega)
    have hnn := (isNull_false_iff _).2 hb.1
    have h1 := dist_spec d.bucketCount origin index
    have h2 := dist_spec d.bucketCount origin t
    have h3 := succ_mod hi
    have h4 := dist_spec d.bucketCount origin ((index + 1) % d.bucketCount)
    have hne : (index + 1) % d.bucketCount ≠ origin := by omega
    simp only [setProbe, arrGet_keys hK hi, Res.bind_ok, hnn, hb.2, Bool.not_false, Bool.and_true,
      if_true, hne, if_false]
    exact setProbe_at hK hV ho ht hbefore hat n _ fuel (by omega) (by omega) (by omega)

/-- Without growth, `DictSet` stores at the first bucket on the probe path that is free or holds an
equal key. -/
theorem set_at {m : Mem} {d : Dict} {key value : Value} {t : Nat}
    (h2 : 0 < d.bucketCount)
    (hK : d.keys.length = d.bucketCount) (hV : d.values.length = d.bucketCount)
    (hfill : d.filledCount < d.bucketCount / 2) (hkey : Hashable m key)
    (ht : t < d.bucketCount)
    (hbefore : ∀ j < d.bucketCount, dist d.bucketCount (home m d.bucketCount key) j <
        dist d.bucketCount (home m d.bucketCount key) t →
      d.keyAt j ≠ .null ∧ areValuesEqual m (d.keyAt j) key = false)
    (hat : d.keyAt t = .null ∨ areValuesEqual m (d.keyAt t) key = true)
    {fuel : Nat} (hf : 2 * d.bucketCount + 1 ≤ fuel) :
    set fuel m d key value = .ok (put d t key value) := by
  obtain ⟨h, hh⟩ := hkey
  have hho : home m d.bucketCount key = h.toNat % d.bucketCount := home_of_hash hh
  have hlt := home_lt m h2 key
  obtain ⟨fuel, rfl⟩ : ∃ f, fuel = f + 1 := ⟨fuel - 1, by omega⟩
  have hng : ¬ (d.filledCount ≥ d.bucketCount / 2) := by omega
  simp only [set, hng, if_false, Res.pure_eq, Res.bind_ok, hh]
  rw [← hho]
  have h1 := dist_spec d.bucketCount (home m d.bucketCount key) (home m d.bucketCount key)
  have h3 := dist_spec d.bucketCount (home m d.bucketCount key) t
  exact setProbe_at hK hV hlt ht hbefore hat (dist d.bucketCount (home m d.bucketCount key) t) _ _
    hlt (by omega) (by omega)

/-- First bucket on the path from `h` satisfying `p`. -/
theorem exists_first {b h : Nat} (hh : h < b) (p : Nat → Prop) :
    (∃ i, i < b ∧ p i) → ∃ t, t < b ∧ p t ∧ ∀ j, j < b → dist b h j < dist b h t → ¬ p j := by
  rintro ⟨i, hi, hp⟩
  have key : ∀ n, ∀ i, i < b → p i → dist b h i ≤ n →
      ∃ t, t < b ∧ p t ∧ ∀ j, j < b → dist b h j < dist b h t → ¬ p j := by
    intro n
    induction n with
    | zero => intro i hi hp hd; exact ⟨i, hi, hp, fun j _ hj => by omega⟩
    | succ n ih =>
      intro i hi hp hd
      by_cases hc : ∃ j, j < b ∧ dist b h j < dist b h i ∧ p j
      · obtain ⟨j, hj, hdj, hpj⟩ := hc
        exact ih j hj hpj (by omega)
      · exact ⟨i, hi, hp, fun j hj hdj hpj => hc ⟨j, hj, hdj, hpj⟩⟩
  exact key _ i hi hp (Nat.le_refl _)

theorem put_bucketCount (d : Dict) (t : Nat) (k v : Value) :
    (put d t k v).bucketCount = d.bucketCount := by unfold put; split <;> rfl

theorem keyAt_put {d : Dict} {t : Nat} {k v : Value} (ht : t < d.keys.length) (i : Nat) :
    (put d t k v).keyAt i = if i = t ∧ d.keyAt t = .null then k else d.keyAt i := by
  unfold put
  split
  · next h =>
    show (d.keys.set t k).getD i .null = _
    rw [getD_set ht]; simp only [h, and_true]; rfl
  · next h => simp only [h, and_false, if_false]; rfl

theorem valAt_put {d : Dict} {t : Nat} {k v : Value} (ht : t < d.values.length) (i : Nat) :
    (put d t k v).valAt i = if i = t then v else d.valAt i := by
  unfold put
  split <;> exact getD_set ht

theorem keyAt_eq_getElem {d : Dict} {i : Nat} (h : i < d.keys.length) : d.keyAt i = d.keys[i] := by
  simp [keyAt, List.getD_eq_getElem?_getD, List.getElem?_eq_getElem h]

theorem put_filled {d : Dict} {t : Nat} {k v : Value} (ht : t < d.keys.length)
    (hk : k ≠ .null) (hc : d.filledCount = d.keys.countP (fun k => !k.isNull)) :
    (put d t k v).filledCount = (put d t k v).keys.countP (fun k => !k.isNull) := by
  unfold put
  split
  · next h =>
    rw [keyAt_eq_getElem ht] at h
    have hk' : k.isNull = false := (isNull_false_iff _).2 hk
    have hn : Value.null.isNull = true := rfl
    show d.filledCount + 1 = (d.keys.set t k).countP _
    rw [List.countP_set ht, h]
    simp only [hk', hn, Bool.not_true, Bool.not_false, if_true, Bool.false_eq_true, if_false, hc]
    omega
  · exact hc

theorem put_lenK (d : Dict) (t : Nat) (k v : Value) :
    (put d t k v).keys.length = d.keys.length := by unfold put; split <;> simp
theorem put_lenV (d : Dict) (t : Nat) (k v : Value) :
    (put d t k v).values.length = d.values.length := by unfold put; split <;> simp

theorem put_filled_le (d : Dict) (t : Nat) (k v : Value) :
    (put d t k v).filledCount ≤ d.filledCount + 1 := by unfold put; split <;> simp

/-- Storing at the first suitable bucket preserves the invariant. -/
theorem put_inv {m : Mem} {d : Dict} {key value : Value} {t : Nat} (hI : Inv m d)
    (hfill : d.filledCount < d.bucketCount / 2) (hkey : Hashable m key)
    (ht : t < d.bucketCount)
    (hbefore : ∀ j < d.bucketCount, dist d.bucketCount (home m d.bucketCount key) j <
        dist d.bucketCount (home m d.bucketCount key) t →
      d.keyAt j ≠ .null ∧ areValuesEqual m (d.keyAt j) key = false)
    (hat : d.keyAt t = .null ∨ areValuesEqual m (d.keyAt t) key = true) :
    Inv m (put d t key value) := by
  have hKt : t < d.keys.length := by rw [hI.lenK]; exact ht
  have hkn := hkey.ne_null
  -- if bucket `t` is free, no bucket holds an equal key
  have habs : d.keyAt t = .null → ∀ i < d.bucketCount, d.keyAt i ≠ .null →
      areValuesEqual m (d.keyAt i) key = false := by
    intro hnull i hi hin
    rw [Bool.eq_false_iff]
    intro he
    have hhome := home_congr m d.bucketCount he
    have h1 := dist_spec d.bucketCount (home m d.bucketCount key) i
    have h2 := dist_spec d.bucketCount (home m d.bucketCount key) t
    by_cases hlt : dist d.bucketCount (home m d.bucketCount key) i <
        dist d.bucketCount (home m d.bucketCount key) t
    · have := (hbefore i hi hlt).2
      rw [this] at he; cases he
    · by_cases hEq : i = t
      · subst hEq; exact hin hnull
      · have hl := home_lt m (by omega : 0 < d.bucketCount) key
        exact hI.chain i hi hin t ht (by rw [hhome]; omega) hnull
  refine ⟨⟨?_, ?_, ?_, ?_, ?_⟩, ?_, ?_, ?_⟩
  · rw [put_bucketCount]; exact hI.two
  · rw [put_lenK, put_bucketCount]; exact hI.lenK
  · rw [put_lenV, put_bucketCount]; exact hI.lenV
  · exact put_filled hKt hkn hI.count
  · rw [put_bucketCount]; have := put_filled_le d t key value; omega
  · intro i hi hn
    rw [put_bucketCount] at hi
    rw [keyAt_put hKt] at hn ⊢
    split
    · exact hkey
    · next h => rw [if_neg h] at hn; exact hI.hashable i hi hn
  · intro i hi j hj hn he
    rw [put_bucketCount] at hi hj
    rw [keyAt_put hKt] at hn he
    rw [keyAt_put hKt] at he
    by_cases h1 : i = t ∧ d.keyAt t = .null
    · by_cases h2 : j = t ∧ d.keyAt t = .null
      · omega
      · rw [if_pos h1, if_neg h2] at he
        by_cases hjn : d.keyAt j = .null
        · rw [hjn] at he
          have := areValuesEqual_null_left m _ (areValuesEqual_symm m he)
          exact absurd this hkn
        · have := habs h1.2 j hj hjn
          rw [areValuesEqual_comm] at this
          rw [this] at he; cases he
    · rw [if_neg h1] at he hn
      by_cases h2 : j = t ∧ d.keyAt t = .null
      · rw [if_pos h2] at he
        have := habs h2.2 i hi hn
        rw [this] at he; cases he
      · rw [if_neg h2] at he
        exact hI.uniq i hi j hj hn he
  · intro i hi hn j hj hd
    rw [put_bucketCount] at hi hj hd
    rw [keyAt_put hKt] at hn hd ⊢
    split
    · exact hkn
    · next h2 =>
      by_cases h1 : i = t ∧ d.keyAt t = .null
      · rw [if_pos h1] at hd
        rw [h1.1] at hd
        exact (hbefore j hj hd).1
      · rw [if_neg h1] at hd hn
        exact hI.chain i hi hn j hj hd

theorem put_maps {m : Mem} {d : Dict} {key value : Value} {t : Nat} (hI : Inv m d)
    (hkey : Hashable m key)
    (ht : t < d.bucketCount)
    (hat : d.keyAt t = .null ∨ areValuesEqual m (d.keyAt t) key = true)
    (hother : ∀ i < d.bucketCount, i ≠ t → areValuesEqual m (d.keyAt i) key = false)
    (k' v' : Value) :
    Maps m (put d t key value) k' v' ↔
      (if areValuesEqual m key k' = true then v' = value else Maps m d k' v') := by
  have hKt : t < d.keys.length := by rw [hI.lenK]; exact ht
  have hVt : t < d.values.length := by rw [hI.lenV]; exact ht
  have hkn := hkey.ne_null
  by_cases he : areValuesEqual m key k' = true
  · rw [if_pos he]
    constructor
    · rintro ⟨i, hi, hn, hei, hv⟩
      rw [put_bucketCount] at hi
      rw [valAt_put hVt] at hv
      by_cases hit : i = t
      · rw [if_pos hit] at hv; exact hv.symm
      · rw [keyAt_put hKt, if_neg (by omega)] at hei
        have := hother i hi hit
        rw [areValuesEqual_trans m hei (areValuesEqual_symm m he)] at this; cases this
    · rintro rfl
      refine ⟨t, by rw [put_bucketCount]; exact ht, ?_, ?_, ?_⟩
      · rw [keyAt_put hKt]; split
        · exact hkn
        · next h => intro h'; exact h ⟨rfl, h'⟩
      · rw [keyAt_put hKt]; split
        · exact he
        · next h =>
          exact areValuesEqual_trans m (hat.resolve_left (fun h' => h ⟨rfl, h'⟩)) he
      · rw [valAt_put hVt, if_pos rfl]
  · rw [if_neg he]
    have hnk : ∀ i < d.bucketCount, i = t → d.keyAt i ≠ .null →
        areValuesEqual m (d.keyAt i) k' = true → False := by
      rintro i hi rfl hn hei
      have := hat.resolve_left hn
      exact he (areValuesEqual_trans m (areValuesEqual_symm m this) hei)
    constructor
    · rintro ⟨i, hi, hn, hei, hv⟩
      rw [put_bucketCount] at hi
      rw [valAt_put hVt] at hv
      rw [keyAt_put hKt] at hei hn
      by_cases hit : i = t ∧ d.keyAt t = .null
      · rw [if_pos hit] at hei; exact absurd hei he
      · rw [if_neg hit] at hei hn
        by_cases hit' : i = t
        · exact (hnk i hi hit' hn hei).elim
        · rw [if_neg hit'] at hv
          exact ⟨i, hi, hn, hei, hv⟩
    · rintro ⟨i, hi, hn, hei, hv⟩
      have hit : i ≠ t := fun h => hnk i hi h hn hei
      refine ⟨i, by rw [put_bucketCount]; exact hi, ?_, ?_, ?_⟩
      · rw [keyAt_put hKt, if_neg (by omega)]; exact hn
      · rw [keyAt_put hKt, if_neg (by omega)]; exact hei
      · rw [valAt_put hVt, if_neg hit]; exact hv

/-- On every probe path there is a bucket where `DictSet` stores. -/
theorem exists_target {m : Mem} {d : Dict} (hI : Inv m d) (key : Value) (hkey : Hashable m key) :
    ∃ t < d.bucketCount,
      (∀ j < d.bucketCount, dist d.bucketCount (home m d.bucketCount key) j <
        dist d.bucketCount (home m d.bucketCount key) t →
        d.keyAt j ≠ .null ∧ areValuesEqual m (d.keyAt j) key = false) ∧
      (d.keyAt t = .null ∨ areValuesEqual m (d.keyAt t) key = true) ∧
      (∀ i < d.bucketCount, i ≠ t → areValuesEqual m (d.keyAt i) key = false) := by
  have hb : 0 < d.bucketCount := by have := hI.two; omega
  obtain ⟨t, ht, hp, hfirst⟩ := exists_first (home_lt m hb key)
    (fun i => d.keyAt i = .null ∨ areValuesEqual m (d.keyAt i) key = true)
    (by obtain ⟨i, hi, hn⟩ := hI.exists_null; exact ⟨i, hi, Or.inl hn⟩)
  have hbefore : ∀ j < d.bucketCount, dist d.bucketCount (home m d.bucketCount key) j <
        dist d.bucketCount (home m d.bucketCount key) t →
        d.keyAt j ≠ .null ∧ areValuesEqual m (d.keyAt j) key = false := by
    intro j hj hd
    have := hfirst j hj hd
    exact ⟨fun h => this (Or.inl h), by rw [Bool.eq_false_iff]; exact fun h => this (Or.inr h)⟩
  refine ⟨t, ht, hbefore, hp, ?_⟩
  intro i hi hit
  rw [Bool.eq_false_iff]
  intro he
  have hin : d.keyAt i ≠ .null := by
    intro h; rw [h] at he
    exact hkey.ne_null (areValuesEqual_null_left m _ he)
  rcases hp with hnull | heq
  · have hhome := home_congr m d.bucketCount he
    have h1 := dist_spec d.bucketCount (home m d.bucketCount key) i
    have h2 := dist_spec d.bucketCount (home m d.bucketCount key) t
    by_cases hlt : dist d.bucketCount (home m d.bucketCount key) i <
        dist d.bucketCount (home m d.bucketCount key) t
    · have := (hbefore i hi hlt).2
      rw [this] at he; cases he
    · have hl := home_lt m hb key
      exact hI.chain i hi hin t ht (by rw [hhome]; omega) hnull
  · exact hit (hI.uniq i hi t ht hin (areValuesEqual_trans m he (areValuesEqual_symm m heq)))

/-- `DictSet` when no growth is due. -/
theorem set_nogrow {m : Mem} {d : Dict} (hI : Inv m d) {key : Value} (value : Value)
    (hkey : Hashable m key) (hfill : d.filledCount < d.bucketCount / 2) :
    ∃ d', (∀ fuel, 2 * d.bucketCount + 1 ≤ fuel → set fuel m d key value = .ok d') ∧ Inv m d' ∧
      d'.bucketCount = d.bucketCount ∧
      (∀ k v, Maps m d' k v ↔ (if areValuesEqual m key k = true then v = value else Maps m d k v)) ∧
      ((¬ ∃ v, Maps m d key v) → d'.filledCount = d.filledCount + 1) := by
  obtain ⟨t, ht, hbefore, hat, hother⟩ := exists_target hI key hkey
  have hb : 0 < d.bucketCount := by omega
  refine ⟨put d t key value, fun fuel hf => set_at hb hI.lenK hI.lenV hfill hkey ht hbefore hat hf,
    put_inv hI hfill hkey ht hbefore hat, put_bucketCount .., put_maps hI hkey ht hat hother, ?_⟩
  intro hno
  have : d.keyAt t = .null := by
    apply Classical.byContradiction
    intro hn
    exact hno ⟨_, t, ht, hn, hat.resolve_left hn, rfl⟩
  simp [put, this]

theorem init_inv (m : Mem) {b : Nat} (hb : 2 ≤ b) : Inv m (init b) := by
  have hk : ∀ i, (init b).keyAt i = .null := by
    intro i
    simp only [keyAt, init, List.getD_eq_getElem?_getD, List.getElem?_replicate]
    split <;> rfl
  refine ⟨⟨hb, by simp [init], by simp [init], ?_, ?_⟩, ?_, ?_, ?_⟩
  · simp [init, List.countP_replicate, Value.isNull]
  · simp [init]
  · intro i _ h; exact absurd (hk i) h
  · intro i _ _ _ h; exact absurd (hk i) h
  · intro i _ h; exact absurd (hk i) h

theorem init_maps (m : Mem) (b : Nat) (k v : Value) : ¬ Maps m (init b) k v := by
  rintro ⟨i, _, h, _⟩
  apply h
  simp only [keyAt, init, List.getD_eq_getElem?_getD, List.getElem?_replicate]
  split <;> rfl

theorem countP_take_succ {d : Dict} {i : Nat} (h : i < d.keys.length) :
    (d.keys.take (i + 1)).countP (fun k => !k.isNull) =
      (d.keys.take i).countP (fun k => !k.isNull) + (if d.keyAt i = .null then 0 else 1) := by
  rw [List.take_succ_eq_append_getElem h, List.countP_append, keyAt_eq_getElem h]
  by_cases hn : d.keys[i] = .null
  · simp [hn, Value.isNull]
  · simp [hn, (isNull_false_iff _).2 hn]

theorem growLoop_spec {m : Mem} {d : Dict} (hI : Inv m d) :
    ∀ (n i : Nat) (nd : Dict), i + n = d.bucketCount → Inv m nd →
      nd.bucketCount = d.bucketCount * 2 →
      nd.filledCount = (d.keys.take i).countP (fun k => !k.isNull) →
      (∀ k v, Maps m nd k v ↔ ∃ j < i, d.keyAt j ≠ .null ∧ areValuesEqual m (d.keyAt j) k = true ∧
        d.valAt j = v) →
      ∃ d' , (∀ fuel, 4 * d.bucketCount + 2 + n ≤ fuel → growLoop fuel m d i nd = .ok d') ∧ Inv m d' ∧
        d'.bucketCount = d.bucketCount * 2 ∧ d'.filledCount = d.filledCount ∧
        (∀ k v, Maps m d' k v ↔ Maps m d k v)
  | 0, i, nd, hi, hnd, hb, hfc, hmaps => by
    refine ⟨nd, ?_, hnd, hb, ?_, ?_⟩
    · intro fuel hf
      obtain ⟨fuel, rfl⟩ : ∃ f, fuel = f + 1 := ⟨fuel - 1, by omega⟩
      have : ¬ i < d.bucketCount := by omega
      simp [growLoop, this]
    · rw [hfc, hI.count, List.take_of_length_le (by rw [hI.lenK]; omega)]
    · intro k v
      rw [hmaps, show i = d.bucketCount by omega]
      rfl
  | n + 1, i, nd, hi, hnd, hb, hfc, hmaps => by
    have hib : i < d.bucketCount := by omega
    have hiK : i < d.keys.length := by rw [hI.lenK]; exact hib
    have hcs := countP_take_succ hiK
    by_cases hnull : d.keyAt i = .null
    · obtain ⟨d', h1, h2⟩ := growLoop_spec hI n (i + 1) nd (by omega) hnd hb
        (by rw [hcs, if_pos hnull, hfc]; rfl)
        (by
          intro k v
          rw [hmaps]
          constructor
          · rintro ⟨j, hj, h⟩; exact ⟨j, by omega, h⟩
          · rintro ⟨j, hj, h⟩
            by_cases hji : j = i
            · subst hji; exact absurd hnull h.1
            · exact ⟨j, by omega, h⟩)
      refine ⟨d', ?_, h2⟩
      intro fuel hf
      obtain ⟨fuel, rfl⟩ : ∃ f, fuel = f + 1 := ⟨fuel - 1, by omega⟩
      simp only [growLoop, hib, if_true, arrGet_keys hI.lenK hib, Res.bind_ok, hnull, Value.isNull,
        Bool.not_true, Bool.false_eq_true, if_false, Res.pure_eq]
      exact h1 fuel (by omega)
    · have hle : (d.keys.take i).countP (fun k => !k.isNull) ≤
          d.keys.countP (fun k => !k.isNull) :=
        (List.take_sublist i d.keys).countP_le
      have hload := hI.load
      have hcount := hI.count
      have htwo := hI.two
      have hfill : nd.filledCount < nd.bucketCount / 2 := by rw [hb, hfc]; omega
      obtain ⟨nd', g1, g2, g3, g4, g5⟩ := set_nogrow hnd (d.valAt i) (hI.hashable i hib hnull) hfill
      have hnew : ¬ ∃ v, Maps m nd (d.keyAt i) v := by
        rintro ⟨v, hv⟩
        rw [hmaps] at hv
        obtain ⟨j, hj, hjn, hje, _⟩ := hv
        have := hI.uniq j (by omega) i hib hjn hje
        omega
      obtain ⟨d', h1, h2⟩ := growLoop_spec hI n (i + 1) nd' (by omega) g2 (by rw [g3, hb])
        (by rw [hcs, if_neg hnull, g5 hnew, hfc])
        (by
          intro k v
          rw [g4, hmaps]
          by_cases he : areValuesEqual m (d.keyAt i) k = true
          · rw [if_pos he]
            constructor
            · rintro rfl; exact ⟨i, by omega, hnull, he, rfl⟩
            · rintro ⟨j, hj, hjn, hje, hjv⟩
              have := hI.uniq j (by omega) i hib hjn
                (areValuesEqual_trans m hje (areValuesEqual_symm m he))
              subst this; exact hjv.symm
          · rw [if_neg he]
            constructor
            · rintro ⟨j, hj, h⟩; exact ⟨j, by omega, h⟩
            · rintro ⟨j, hj, h⟩
              by_cases hji : j = i
              · subst hji; exact absurd h.2.1 he
              · exact ⟨j, by omega, h⟩)
      refine ⟨d', ?_, h2⟩
      intro fuel hf
      obtain ⟨fuel, rfl⟩ : ∃ f, fuel = f + 1 := ⟨fuel - 1, by omega⟩
      simp only [growLoop, hib, if_true, arrGet_keys hI.lenK hib, arrGet_values hI.lenV hib,
        Res.bind_ok, (isNull_false_iff _).2 hnull, Bool.not_false, if_true]
      rw [g1 fuel (by omega)]
      simp only [Res.bind_ok]
      exact h1 fuel (by omega)

theorem grow_spec {m : Mem} {d : Dict} (hI : Inv m d) :
    ∃ d', (∀ fuel, 5 * d.bucketCount + 3 ≤ fuel → grow fuel m d = .ok d') ∧ Inv m d' ∧
      d'.bucketCount = d.bucketCount * 2 ∧ d'.filledCount = d.filledCount ∧
      (∀ k v, Maps m d' k v ↔ Maps m d k v) := by
  have htwo := hI.two
  obtain ⟨d', h1, h2⟩ := growLoop_spec hI d.bucketCount 0 (init (d.bucketCount * 2)) (by omega)
    (init_inv m (by omega)) rfl (by simp [init])
    (by
      intro k v
      constructor
      · intro h; exact absurd h (init_maps m _ k v)
      · rintro ⟨j, hj, _⟩; omega)
  refine ⟨d', ?_, h2⟩
  intro fuel hf
  obtain ⟨fuel, rfl⟩ : ∃ f, fuel = f + 1 := ⟨fuel - 1, by omega⟩
  simp only [grow]
  exact h1 fuel (by omega)

/-- `DictSet` on a reachable table: terminates, keeps the invariant, and binds the key. -/
theorem set_spec {m : Mem} {d : Dict} (hI : Inv m d) {key : Value} (value : Value)
    (hkey : Hashable m key) :
    ∃ d', (∀ fuel, 6 * d.bucketCount + 8 ≤ fuel → set fuel m d key value = .ok d') ∧ Inv m d' ∧
      (d'.bucketCount = d.bucketCount ∨ d'.bucketCount = d.bucketCount * 2) ∧
      (∀ k v, Maps m d' k v ↔
        (if areValuesEqual m key k = true then v = value else Maps m d k v)) := by
  by_cases hfill : d.filledCount < d.bucketCount / 2
  · obtain ⟨d', h1, h2, h3, h4, _⟩ := set_nogrow hI value hkey hfill
    exact ⟨d', fun fuel hf => h1 fuel (by omega), h2, Or.inl h3, h4⟩
  · obtain ⟨g, g1, g2, g3, g4, g5⟩ := grow_spec hI
    have hload := hI.load
    have htwo := hI.two
    obtain ⟨d', h1, h2, h3, h4, _⟩ := set_nogrow g2 value hkey (by rw [g3, g4]; omega)
    refine ⟨d', ?_, h2, Or.inr (by rw [h3, g3]), ?_⟩
    · intro fuel hf
      obtain ⟨fuel, rfl⟩ : ∃ f, fuel = f + 1 := ⟨fuel - 1, by omega⟩
      -- the rest of `DictSet` runs on the grown table, which does not grow again
      have hng : ¬ (g.filledCount ≥ g.bucketCount / 2) := by rw [g3, g4]; omega
      have := h1 (fuel + 1) (by rw [g3]; omega)
      simp only [set, hng, if_false, Res.pure_eq, Res.bind_ok] at this
      have hge : d.filledCount ≥ d.bucketCount / 2 := by omega
      simp only [set, hge, if_true]
      rw [g1 fuel (by omega)]
      simpa using this
    · intro k v; rw [h4]; simp only [g5]

theorem getLoop_spec {m : Mem} {d : Dict} {key : Value} {origin t : Nat}
    (hK : d.keys.length = d.bucketCount) (hV : d.values.length = d.bucketCount)
    (ho : origin < d.bucketCount) (ht : t < d.bucketCount)
    (hbefore : ∀ j < d.bucketCount, dist d.bucketCount origin j < dist d.bucketCount origin t →
      d.keyAt j ≠ .null ∧ areValuesEqual m (d.keyAt j) key = false)
    (hat : d.keyAt t = .null ∨ areValuesEqual m (d.keyAt t) key = true) :
    ∀ (n index fuel : Nat), index < d.bucketCount →
      dist d.bucketCount origin index + n = dist d.bucketCount origin t → n < fuel →
      getLoop fuel m d key index origin =
        .ok (if d.keyAt t = .null then none else some (d.valAt t))
  | n, index, 0, _, _, hf => by omega
  | 0, index, fuel + 1, hi, hd, _ => by
    have heq : index = t := by
      have h1 := dist_spec d.bucketCount origin index
      have h2 := dist_spec d.bucketCount origin t
      omega
    subst heq
    simp only [getLoop, arrGet_keys hK hi, Res.bind_ok]
    by_cases hn : d.keyAt index = .null
    · simp [hn, Value.isNull]
    · have he := hat.resolve_left hn
      have hnn := (isNull_false_iff _).2 hn
      simp [hnn, he, hn, arrGet_values hV hi]
  | n + 1, index, fuel + 1, hi, hd, hf => by
    have hb := hbefore index hi (by omega)
    have hnn := (isNull_false_iff _).2 hb.1
    have h1 := dist_spec d.bucketCount origin index
    have h2 := dist_spec d.bucketCount origin t
    have h3 := succ_mod hi
    have h4 := dist_spec d.bucketCount origin ((index + 1) % d.bucketCount)
    have hne : (index + 1) % d.bucketCount ≠ origin := by omega
    simp only [getLoop, arrGet_keys hK hi, Res.bind_ok, hnn, hb.2, Bool.false_eq_true,
      if_false, hne]
    exact getLoop_spec hK hV ho ht hbefore hat n _ fuel (by omega) (by omega) (by omega)

/-- `DictGet` on a reachable table finds the binding if there is one. -/
theorem get_spec {m : Mem} {d : Dict} (hI : Inv m d) {key : Value} (hkey : Hashable m key) :
    ∃ r, (∀ fuel, d.bucketCount ≤ fuel → get fuel m d key = .ok r) ∧
      ∀ v, r = some v ↔ Maps m d key v := by
  obtain ⟨t, ht, hbefore, hat, hother⟩ := exists_target hI key hkey
  have hb : 0 < d.bucketCount := by omega
  have hlt := home_lt m hb key
  have h1 := dist_spec d.bucketCount (home m d.bucketCount key) (home m d.bucketCount key)
  have h3 := dist_spec d.bucketCount (home m d.bucketCount key) t
  refine ⟨if d.keyAt t = .null then none else some (d.valAt t), ?_, ?_⟩
  · intro fuel hf
    obtain ⟨h, hh⟩ := hkey
    have hho : home m d.bucketCount key = h.toNat % d.bucketCount := home_of_hash hh
    simp only [get, hh, Res.bind_ok]
    rw [← hho]
    exact getLoop_spec hI.lenK hI.lenV hlt ht hbefore hat _ _ _ hlt (by omega :
      dist d.bucketCount (home m d.bucketCount key) (home m d.bucketCount key) +
        dist d.bucketCount (home m d.bucketCount key) t = _) (by omega)
  · intro v
    constructor
    · split
      · simp
      · next hn =>
        intro h; injection h with h
        exact ⟨t, ht, hn, hat.resolve_left hn, h⟩
    · rintro ⟨i, hi, hn, he, hv⟩
      by_cases hit : i = t
      · subst hit; rw [if_neg hn, hv]
      · have := hother i hi hit; rw [this] at he; cases he

end Dict
end Tiny
