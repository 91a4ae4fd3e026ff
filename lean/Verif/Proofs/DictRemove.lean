import Verif.Proofs.Dict

/-! Correctness of `DictRemove`: re-insertion of displaced entries closes the hole. -/

namespace Tiny
namespace Dict

/-- The table after clearing bucket `i`. -/
def clearAt (d : Dict) (i : Nat) : Dict :=
  { d with keys := d.keys.set i .null, filledCount := d.filledCount - 1 }

theorem keyAt_clearAt {d : Dict} {i : Nat} (hi : i < d.keys.length) (j : Nat) :
    (clearAt d i).keyAt j = if j = i then .null else d.keyAt j := getD_set hi

theorem filled_pos {d : Dict} (h : Shape d) {i : Nat} (hi : i < d.bucketCount)
    (hn : d.keyAt i ≠ .null) : 0 < d.filledCount := by
  have hi' : i < d.keys.length := by rw [h.lenK]; exact hi
  rw [h.count, List.countP_pos_iff]
  refine ⟨d.keys[i], List.getElem_mem hi', ?_⟩
  rw [← keyAt_eq_getElem hi']
  simp [(isNull_false_iff _).2 hn]

theorem clearAt_shape {d : Dict} (h : Shape d) {i : Nat} (hi : i < d.bucketCount)
    (hn : d.keyAt i ≠ .null) :
    Shape (clearAt d i) ∧ (clearAt d i).filledCount < (clearAt d i).bucketCount / 2 := by
  have hi' : i < d.keys.length := by rw [h.lenK]; exact hi
  have hp := filled_pos h hi hn
  have hload := h.load
  rw [keyAt_eq_getElem hi'] at hn
  refine ⟨⟨h.two, ?_, h.lenV, ?_, ?_⟩, ?_⟩
  · simpa [clearAt] using h.lenK
  · have hnn : Value.null.isNull = true := rfl
    have hc := h.count
    show d.filledCount - 1 = (d.keys.set i .null).countP _
    rw [List.countP_set hi']
    simp only [(isNull_false_iff _).2 hn, hnn, Bool.not_true, Bool.not_false, if_true,
      Bool.false_eq_true, if_false]
    omega
  · show d.filledCount - 1 ≤ d.bucketCount / 2; omega
  · show d.filledCount - 1 < d.bucketCount / 2; omega

/-- Clearing a bucket and storing the same entry there again changes nothing. -/
theorem put_clearAt_self {d : Dict} (h : Shape d) {i : Nat} (hi : i < d.bucketCount)
    (hn : d.keyAt i ≠ .null) : put (clearAt d i) i (d.keyAt i) (d.valAt i) = d := by
  have hi' : i < d.keys.length := by rw [h.lenK]; exact hi
  have hv' : i < d.values.length := by rw [h.lenV]; exact hi
  have hp := filled_pos h hi hn
  have hnull : (clearAt d i).keyAt i = .null := by rw [keyAt_clearAt hi', if_pos rfl]
  unfold put
  rw [if_pos hnull]
  have h1 : (d.keys.set i .null).set i (d.keyAt i) = d.keys := by
    rw [List.set_set, keyAt_eq_getElem hi', List.set_getElem_self]
  have h2 : d.values.set i (d.valAt i) = d.values := by
    have : d.valAt i = d.values[i] := by
      simp [valAt, List.getD_eq_getElem?_getD, List.getElem?_eq_getElem hv']
    rw [this, List.set_getElem_self]
  have h3 : d.filledCount - 1 + 1 = d.filledCount := by omega
  simp only [clearAt]
  rw [h1, h2, h3]

/-- Re-inserting an entry whose probe path is intact puts it back where it was. -/
theorem reinsert_self {m : Mem} {d : Dict} (h : Shape d) {i : Nat} (hi : i < d.bucketCount)
    (hn : d.keyAt i ≠ .null) (hh : Hashable m (d.keyAt i))
    (huniq : ∀ j < d.bucketCount, areValuesEqual m (d.keyAt i) (d.keyAt j) = true → i = j)
    (hchain : ∀ j < d.bucketCount, dist d.bucketCount (home m d.bucketCount (d.keyAt i)) j <
      dist d.bucketCount (home m d.bucketCount (d.keyAt i)) i → d.keyAt j ≠ .null)
    {fuel : Nat} (hf : 2 * d.bucketCount + 1 ≤ fuel) :
    set fuel m (clearAt d i) (d.keyAt i) (d.valAt i) = .ok d := by
  have hi' : i < d.keys.length := by rw [h.lenK]; exact hi
  obtain ⟨hs, hfill⟩ := clearAt_shape h hi hn
  have := set_at (m := m) (d := clearAt d i) (key := d.keyAt i) (value := d.valAt i) (t := i)
    (by have := hs.two; omega) hs.lenK hs.lenV hfill hh hi
    (by
      intro j hj hd
      have hji : j ≠ i := by rintro rfl; omega
      rw [keyAt_clearAt hi', if_neg hji]
      refine ⟨hchain j hj hd, ?_⟩
      rw [Bool.eq_false_iff]
      intro he
      exact hji (huniq j hj (areValuesEqual_symm m he)).symm)
    (Or.inl (by rw [keyAt_clearAt hi', if_pos rfl])) (fuel := fuel) hf
  rw [this, put_clearAt_self h hi hn]

/-- State of the removal loop after the key was cleared: `o` is the hole, `p` the current bucket,
`e` the free bucket where the loop will stop; `base` is where probing started. -/
structure Hole (m : Mem) (d : Dict) (key : Value) (base o p e : Nat) : Prop extends Shape d where
  bb : base < d.bucketCount
  ob : o < d.bucketCount
  pb : p < d.bucketCount
  eb : e < d.bucketCount
  onull : d.keyAt o = .null
  enull : d.keyAt e = .null
  d1 : dist d.bucketCount base o < dist d.bucketCount base p
  d2 : dist d.bucketCount base p ≤ dist d.bucketCount base e
  full : ∀ j < d.bucketCount, dist d.bucketCount base o < dist d.bucketCount base j →
    dist d.bucketCount base j < dist d.bucketCount base e → d.keyAt j ≠ .null
  hashable : ∀ i < d.bucketCount, d.keyAt i ≠ .null → Hashable m (d.keyAt i)
  uniq : ∀ i < d.bucketCount, ∀ j < d.bucketCount, d.keyAt i ≠ .null →
    areValuesEqual m (d.keyAt i) (d.keyAt j) = true → i = j
  nokey : ∀ i < d.bucketCount, d.keyAt i ≠ .null → areValuesEqual m (d.keyAt i) key = false
  hchain : ∀ i < d.bucketCount, d.keyAt i ≠ .null → ∀ j < d.bucketCount,
    dist d.bucketCount (home m d.bucketCount (d.keyAt i)) j <
      dist d.bucketCount (home m d.bucketCount (d.keyAt i)) i → d.keyAt j ≠ .null ∨ j = o
  proc : ∀ i < d.bucketCount, d.keyAt i ≠ .null →
    dist d.bucketCount (home m d.bucketCount (d.keyAt i)) o <
      dist d.bucketCount (home m d.bucketCount (d.keyAt i)) i →
    dist d.bucketCount base p ≤ dist d.bucketCount base i

/-- Entries whose path goes through `o` sit before `e`. -/
theorem Hole.done {m : Mem} {d : Dict} {key : Value} {base o e : Nat}
    (H : Hole m d key base o e e) : Inv m d := by
  refine ⟨H.toShape, H.hashable, H.uniq, ?_⟩
  intro i hi hn j hj hd
  rcases H.hchain i hi hn j hj hd with h | rfl
  · exact h
  · exfalso
    have hp := H.proc i hi hn hd
    have hie : i ≠ e := by rintro rfl; exact hn H.enull
    have hlt := home_lt m (by omega : 0 < d.bucketCount) (d.keyAt i)
    have hc := H.hchain i hi hn e H.eb
    have a1 := dist_spec d.bucketCount base j
    have a2 := dist_spec d.bucketCount base e
    have a3 := dist_spec d.bucketCount base i
    have a4 := dist_spec d.bucketCount (home m d.bucketCount (d.keyAt i)) j
    have a5 := dist_spec d.bucketCount (home m d.bucketCount (d.keyAt i)) e
    have a6 := dist_spec d.bucketCount (home m d.bucketCount (d.keyAt i)) i
    have b1 := H.bb
    have b2 := H.eb
    have b3 := H.d1
    have : dist d.bucketCount (home m d.bucketCount (d.keyAt i)) e <
      dist d.bucketCount (home m d.bucketCount (d.keyAt i)) i := by omega
    rcases hc this with h | rfl
    · exact h H.enull
    · omega

theorem dist_succ {b base p e : Nat} (hb : base < b) (hp : p < b) (he : e < b)
    (h : dist b base p < dist b base e) :
    (p + 1) % b < b ∧ dist b base ((p + 1) % b) = dist b base p + 1 := by
  have h1 := succ_mod hp
  have h2 := dist_spec b base p
  have h3 := dist_spec b base e
  have h4 := dist_spec b base ((p + 1) % b)
  omega

/-- Moving the entry at `p` into the hole `o`. -/
theorem Hole.move {m : Mem} {d : Dict} {key : Value} {base o p e : Nat}
    (H : Hole m d key base o p e) (hpe : dist d.bucketCount base p < dist d.bucketCount base e)
    (ho : dist d.bucketCount (home m d.bucketCount (d.keyAt p)) o <
      dist d.bucketCount (home m d.bucketCount (d.keyAt p)) p) :
    let d2 := put (clearAt d p) o (d.keyAt p) (d.valAt p)
    (∀ fuel, 2 * d.bucketCount + 1 ≤ fuel →
      set fuel m (clearAt d p) (d.keyAt p) (d.valAt p) = .ok d2) ∧
    Hole m d2 key base p ((p + 1) % d.bucketCount) e ∧ d2.bucketCount = d.bucketCount ∧
    (∀ k v, Maps m d2 k v ↔ Maps m d k v) := by
  intro d2
  have hpn : d.keyAt p ≠ .null := H.full p H.pb H.d1 hpe
  have hpK : p < d.keys.length := by rw [H.lenK]; exact H.pb
  have hoV : o < d.values.length := by rw [H.lenV]; exact H.ob
  have hop : o ≠ p := by rintro rfl; exact hpn H.onull
  obtain ⟨hs, hfill⟩ := clearAt_shape H.toShape H.pb hpn
  have hoK : o < (clearAt d p).keys.length := by rw [hs.lenK]; exact H.ob
  have hoV' : o < (clearAt d p).values.length := hoV
  have honull : (clearAt d p).keyAt o = .null := by
    rw [keyAt_clearAt hpK, if_neg hop]; exact H.onull
  have hkey2 : ∀ i, d2.keyAt i = if i = o then d.keyAt p else if i = p then .null else d.keyAt i := by
    intro i
    show (put _ _ _ _).keyAt i = _
    rw [keyAt_put hoK]
    simp only [honull, and_true]
    rw [keyAt_clearAt hpK]
  have hval2 : ∀ i, d2.valAt i = if i = o then d.valAt p else d.valAt i := by
    intro i
    show (put _ _ _ _).valAt i = _
    rw [valAt_put hoV']
    rfl
  have hb2 : d2.bucketCount = d.bucketCount := put_bucketCount ..
  have hhp := H.hashable p H.pb hpn
  obtain ⟨hp', hdp'⟩ := dist_succ H.bb H.pb H.eb hpe
  have heo : e ≠ o := by
    rintro rfl
    have := H.d1; have := H.d2; omega
  have hep : e ≠ p := by rintro rfl; omega
  refine ⟨?_, ?_, hb2, ?_⟩
  · intro fuel hf
    exact set_at (by have := hs.two; omega) hs.lenK hs.lenV hfill hhp H.ob
      (by
        intro j hj hd
        have hdj : dist d.bucketCount (home m d.bucketCount (d.keyAt p)) j <
          dist d.bucketCount (home m d.bucketCount (d.keyAt p)) o := hd
        have hjp : j ≠ p := by rintro rfl; omega
        have hjo : j ≠ o := by rintro rfl; omega
        rw [keyAt_clearAt hpK, if_neg hjp]
        refine ⟨(H.hchain p H.pb hpn j hj (by omega)).resolve_right hjo, ?_⟩
        rw [Bool.eq_false_iff]
        intro he
        exact hjp (H.uniq p H.pb j hj hpn (areValuesEqual_symm m he)).symm)
      (Or.inl honull) hf
  · refine ⟨⟨?_, ?_, ?_, ?_, ?_⟩, ?_, ?_, ?_, ?_, ?_, ?_, ?_, ?_, ?_, ?_, ?_, ?_, ?_, ?_⟩
    · rw [hb2]; exact H.two
    · rw [hb2, put_lenK]; exact hs.lenK
    · rw [hb2, put_lenV]; exact hs.lenV
    · exact put_filled hoK hpn hs.count
    · rw [hb2]
      have h1 := put_filled_le (clearAt d p) o (d.keyAt p) (d.valAt p)
      have h2 : (clearAt d p).bucketCount = d.bucketCount := rfl
      show (put _ _ _ _).filledCount ≤ _
      omega
    · rw [hb2]; exact H.bb
    · rw [hb2]; exact H.pb
    · rw [hb2]; exact hp'
    · rw [hb2]; exact H.eb
    · rw [hkey2, if_neg (Ne.symm hop), if_pos rfl]
    · rw [hkey2, if_neg heo, if_neg hep]; exact H.enull
    · rw [hb2, hdp']; omega
    · rw [hb2, hdp']; omega
    · intro j hj h1 h2
      rw [hb2] at hj h1 h2
      have hjp : j ≠ p := by rintro rfl; omega
      rw [hkey2, if_neg hjp]
      split
      · exact hpn
      · exact H.full j hj (by have := H.d1; omega) h2
    · intro i hi hn
      rw [hb2] at hi
      rw [hkey2] at hn ⊢
      split
      · exact hhp
      · next h1 =>
        rw [if_neg h1] at hn
        split
        · next h2 => rw [if_pos h2] at hn; exact absurd rfl hn
        · next h2 => rw [if_neg h2] at hn; exact H.hashable i hi hn
    · intro i hi j hj hn he
      rw [hb2] at hi hj
      rw [hkey2] at hn he
      rw [hkey2] at he
      by_cases h1 : i = o
      · rw [if_pos h1] at he hn
        by_cases h2 : j = o
        · omega
        · rw [if_neg h2] at he
          by_cases h3 : j = p
          · rw [if_pos h3] at he
            exact absurd (areValuesEqual_null_left m _ (areValuesEqual_symm m he)) hpn
          · rw [if_neg h3] at he
            exact absurd (H.uniq p H.pb j hj hpn he).symm h3
      · rw [if_neg h1] at he hn
        by_cases h2 : i = p
        · rw [if_pos h2] at hn; exact absurd rfl hn
        · rw [if_neg h2] at he hn
          by_cases h3 : j = o
          · rw [if_pos h3] at he
            exact absurd (H.uniq i hi p H.pb hn he) h2
          · rw [if_neg h3] at he
            by_cases h4 : j = p
            · rw [if_pos h4] at he
              exact absurd (areValuesEqual_null_left m _ (areValuesEqual_symm m he)) hn
            · rw [if_neg h4] at he
              exact H.uniq i hi j hj hn he
    · intro i hi hn
      rw [hb2] at hi
      rw [hkey2] at hn ⊢
      split
      · exact H.nokey p H.pb hpn
      · next h1 =>
        rw [if_neg h1] at hn
        split
        · next h2 => rw [if_pos h2] at hn; exact absurd rfl hn
        · next h2 => rw [if_neg h2] at hn; exact H.nokey i hi hn
    · intro i hi hn j hj hd
      rw [hb2] at hi hj hd
      rw [hkey2] at hn hd
      rw [hkey2]
      by_cases hjp : j = p
      · exact Or.inr hjp
      · left
        rw [if_neg hjp]
        split
        · exact hpn
        · next hjo =>
          by_cases h1 : i = o
          · rw [if_pos h1] at hd
            rw [h1] at hd
            exact (H.hchain p H.pb hpn j hj (by omega)).resolve_right hjo
          · rw [if_neg h1] at hn hd
            by_cases h2 : i = p
            · rw [if_pos h2] at hn; exact absurd rfl hn
            · rw [if_neg h2] at hn hd
              exact (H.hchain i hi hn j hj hd).resolve_right hjo
    · intro i hi hn hd
      rw [hb2] at hi hd ⊢
      rw [hkey2] at hn hd
      rw [hdp']
      by_cases h1 : i = o
      · rw [if_pos h1] at hd
        rw [h1] at hd
        omega
      · rw [if_neg h1] at hn hd
        by_cases h2 : i = p
        · rw [if_pos h2] at hn; exact absurd rfl hn
        · rw [if_neg h2] at hn hd
          -- the path of entry `i` goes through `p`; it cannot go through `e`
          apply Classical.byContradiction
          intro hlt
          have hhl := home_lt m (by omega : 0 < d.bucketCount) (d.keyAt i)
          have hc := H.hchain i hi hn e H.eb
          have a1 := dist_spec d.bucketCount base p
          have a2 := dist_spec d.bucketCount base e
          have a3 := dist_spec d.bucketCount base i
          have a4 := dist_spec d.bucketCount (home m d.bucketCount (d.keyAt i)) p
          have a5 := dist_spec d.bucketCount (home m d.bucketCount (d.keyAt i)) e
          have a6 := dist_spec d.bucketCount (home m d.bucketCount (d.keyAt i)) i
          have b1 := H.bb
          have b2 := H.eb
          have b3 := H.pb
          have : dist d.bucketCount (home m d.bucketCount (d.keyAt i)) e <
            dist d.bucketCount (home m d.bucketCount (d.keyAt i)) i := by omega
          rcases hc this with h | h
          · exact h H.enull
          · exact heo h
  · intro k v
    constructor
    · rintro ⟨i, hi, hn, he, hv⟩
      rw [hb2] at hi
      rw [hkey2] at hn he
      rw [hval2] at hv
      by_cases h1 : i = o
      · rw [if_pos h1] at hn he hv
        exact ⟨p, H.pb, hn, he, hv⟩
      · rw [if_neg h1] at hn he hv
        by_cases h2 : i = p
        · rw [if_pos h2] at hn; exact absurd rfl hn
        · rw [if_neg h2] at hn he
          exact ⟨i, hi, hn, he, hv⟩
    · rintro ⟨i, hi, hn, he, hv⟩
      have h1 : i ≠ o := by rintro rfl; exact hn H.onull
      by_cases h2 : i = p
      · subst h2
        refine ⟨o, by rw [hb2]; exact H.ob, ?_, ?_, ?_⟩
        · rw [hkey2, if_pos rfl]; exact hpn
        · rw [hkey2, if_pos rfl]; exact he
        · rw [hval2, if_pos rfl]; exact hv
      · refine ⟨i, by rw [hb2]; exact hi, ?_, ?_, ?_⟩
        · rw [hkey2, if_neg h1, if_neg h2]; exact hn
        · rw [hkey2, if_neg h1, if_neg h2]; exact he
        · rw [hval2, if_neg h1]; exact hv

/-- Passing an entry whose path avoids the hole. -/
theorem Hole.skip {m : Mem} {d : Dict} {key : Value} {base o p e : Nat}
    (H : Hole m d key base o p e) (hpe : dist d.bucketCount base p < dist d.bucketCount base e)
    (ho : ¬ dist d.bucketCount (home m d.bucketCount (d.keyAt p)) o <
      dist d.bucketCount (home m d.bucketCount (d.keyAt p)) p) :
    Hole m d key base o ((p + 1) % d.bucketCount) e := by
  obtain ⟨hp', hdp'⟩ := dist_succ H.bb H.pb H.eb hpe
  refine { H with pb := hp', d1 := ?_, d2 := ?_, proc := ?_ }
  · have := H.d1; omega
  · omega
  · intro i hi hn hd
    have := H.proc i hi hn hd
    have hip : i ≠ p := by rintro rfl; exact ho hd
    have a1 := dist_spec d.bucketCount base p
    have a3 := dist_spec d.bucketCount base i
    have b1 := H.bb
    have b3 := H.pb
    omega

theorem removeLoop_hole {m : Mem} {key : Value} {base e : Nat} :
    ∀ (n : Nat) (d : Dict) (o p : Nat), Hole m d key base o p e →
      dist d.bucketCount base p + n = dist d.bucketCount base e →
      ∃ d', (∀ fuel, 2 * d.bucketCount + 2 + n ≤ fuel → removeLoop fuel m d key p = .ok d') ∧
        Inv m d' ∧ d'.bucketCount = d.bucketCount ∧ (∀ k v, Maps m d' k v ↔ Maps m d k v)
  | 0, d, o, p, H, hd => by
    have hpe : p = e := by
      have a1 := dist_spec d.bucketCount base p
      have a2 := dist_spec d.bucketCount base e
      have b1 := H.bb
      have b2 := H.eb
      have b3 := H.pb
      omega
    subst hpe
    refine ⟨d, ?_, H.done, rfl, fun _ _ => Iff.rfl⟩
    intro fuel hf
    obtain ⟨fuel, rfl⟩ : ∃ f, fuel = f + 1 := ⟨fuel - 1, by omega⟩
    simp [removeLoop, arrGet_keys H.lenK H.pb, H.enull, Value.isNull]
  | n + 1, d, o, p, H, hd => by
    have hpe : dist d.bucketCount base p < dist d.bucketCount base e := by omega
    have hpn : d.keyAt p ≠ .null := H.full p H.pb H.d1 hpe
    have hpK : p < d.keys.length := by rw [H.lenK]; exact H.pb
    obtain ⟨hp', hdp'⟩ := dist_succ H.bb H.pb H.eb hpe
    obtain ⟨h, hh⟩ := H.hashable p H.pb hpn
    have hhome : home m d.bucketCount (d.keyAt p) = h.toNat % d.bucketCount := home_of_hash hh
    by_cases ho : dist d.bucketCount (home m d.bucketCount (d.keyAt p)) o <
      dist d.bucketCount (home m d.bucketCount (d.keyAt p)) p
    · obtain ⟨g1, g2, g3, g4⟩ := H.move hpe ho
      obtain ⟨d', h1, h2, h3, h4⟩ := removeLoop_hole n _ _ _ g2 (by rw [g3, hdp']; omega)
      refine ⟨d', ?_, h2, by rw [h3, g3], fun k v => (h4 k v).trans (g4 k v)⟩
      intro fuel hf
      obtain ⟨fuel, rfl⟩ : ∃ f, fuel = f + 1 := ⟨fuel - 1, by omega⟩
      have hne : h.toNat % d.bucketCount ≠ p := by
        rw [← hhome]
        intro hc
        rw [hc] at ho
        have := dist_spec d.bucketCount p p
        omega
      have hset := g1 fuel (by omega)
      simp only [clearAt] at hset
      simp only [removeLoop, arrGet_keys H.lenK H.pb, Res.bind_ok, (isNull_false_iff _).2 hpn,
        Bool.false_eq_true, if_false, H.nokey p H.pb hpn, hh, hne, ne_eq, not_false_eq_true, if_true,
        arrGet_values H.lenV H.pb, arrSet, hpK]
      rw [hset]
      simp only [Res.bind_ok]
      have := h1 fuel (by rw [g3]; omega)
      change removeLoop fuel m (put (clearAt d p) o (d.keyAt p) (d.valAt p)) key
        ((p + 1) % (put (clearAt d p) o (d.keyAt p) (d.valAt p)).bucketCount) = _
      rw [g3]; exact this
    · have H' := H.skip hpe ho
      obtain ⟨d', h1, h2⟩ := removeLoop_hole n d o _ H' (by rw [hdp']; omega)
      refine ⟨d', ?_, h2⟩
      intro fuel hf
      obtain ⟨fuel, rfl⟩ : ∃ f, fuel = f + 1 := ⟨fuel - 1, by omega⟩
      simp only [removeLoop, arrGet_keys H.lenK H.pb, Res.bind_ok, (isNull_false_iff _).2 hpn,
        Bool.false_eq_true, if_false, H.nokey p H.pb hpn, hh]
      by_cases hdsp : h.toNat % d.bucketCount = p
      · simp only [hdsp, ne_eq, not_true_eq_false, if_false, Res.pure_eq, Res.bind_ok]
        exact h1 fuel (by omega)
      · have hset := reinsert_self (m := m) H.toShape H.pb hpn ⟨h, hh⟩
          (fun j hj he => H.uniq p H.pb j hj hpn he)
          (fun j hj hdj => (H.hchain p H.pb hpn j hj hdj).resolve_right
            (by rintro rfl; exact ho hdj)) (fuel := fuel) (by omega)
        simp only [clearAt] at hset
        simp only [hdsp, ne_eq, not_false_eq_true, if_true,
          arrGet_values H.lenV H.pb, arrSet, hpK, Res.bind_ok, hset]
        exact h1 fuel (by omega)

theorem removeLoop_before {m : Mem} {d : Dict} (hI : Inv m d) {key : Value} {base t : Nat}
    (hbase : base < d.bucketCount) (ht : t < d.bucketCount)
    (hbefore : ∀ j < d.bucketCount, dist d.bucketCount base j < dist d.bucketCount base t →
      d.keyAt j ≠ .null ∧ areValuesEqual m (d.keyAt j) key = false) :
    ∀ (n p fuel : Nat), p < d.bucketCount →
      dist d.bucketCount base p + n = dist d.bucketCount base t →
      2 * d.bucketCount + 1 ≤ fuel →
      removeLoop (fuel + n) m d key p = removeLoop fuel m d key t
  | 0, p, fuel, hp, hd, _ => by
    have : p = t := by
      have h1 := dist_spec d.bucketCount base p
      have h2 := dist_spec d.bucketCount base t
      omega
    subst this; rfl
  | n + 1, p, fuel, hp, hd, hf => by
    have hpt : dist d.bucketCount base p < dist d.bucketCount base t := by omega
    obtain ⟨hpn, hpe⟩ := hbefore p hp hpt
    have hpK : p < d.keys.length := by rw [hI.lenK]; exact hp
    obtain ⟨hp', hdp'⟩ := dist_succ hbase hp ht hpt
    obtain ⟨h, hh⟩ := hI.hashable p hp hpn
    have ih := removeLoop_before hI hbase ht hbefore n _ fuel hp' (by omega) hf
    rw [← ih, show fuel + (n + 1) = (fuel + n) + 1 by omega]
    simp only [removeLoop, arrGet_keys hI.lenK hp, Res.bind_ok, (isNull_false_iff _).2 hpn,
        Bool.false_eq_true, if_false, hpe, hh]
    by_cases hdsp : h.toNat % d.bucketCount = p
    · simp only [hdsp, ne_eq, not_true_eq_false, if_false, Res.pure_eq, Res.bind_ok]
    · have hset := reinsert_self (m := m) hI.toShape hp hpn ⟨h, hh⟩
          (fun j hj he => hI.uniq p hp j hj hpn he)
          (fun j hj hdj => hI.chain p hp hpn j hj hdj) (fuel := fuel + n) (by omega)
      simp only [clearAt] at hset
      simp only [hdsp, ne_eq, not_false_eq_true, if_true,
          arrGet_values hI.lenV hp, arrSet, hpK, Res.bind_ok, hset]

/-- `DictRemove` on a reachable table: terminates, keeps the invariant, and unbinds the key. -/
theorem remove_spec {m : Mem} {d : Dict} (hI : Inv m d) {key : Value} (hkey : Hashable m key) :
    ∃ d', (∀ fuel, 4 * d.bucketCount + 8 ≤ fuel → remove fuel m d key = .ok d') ∧ Inv m d' ∧
      d'.bucketCount = d.bucketCount ∧
      (∀ k v, Maps m d' k v ↔ (areValuesEqual m key k = false ∧ Maps m d k v)) := by
  obtain ⟨t, ht, hbefore, hat, hother⟩ := exists_target hI key hkey
  have hb : 0 < d.bucketCount := by omega
  have hlt := home_lt m hb key
  have hd0 := dist_spec d.bucketCount (home m d.bucketCount key) (home m d.bucketCount key)
  have hdt := dist_spec d.bucketCount (home m d.bucketCount key) t
  have htK : t < d.keys.length := by rw [hI.lenK]; exact ht
  obtain ⟨h, hh⟩ := id hkey
  have hho : home m d.bucketCount key = h.toNat % d.bucketCount := home_of_hash hh
  have hstart : ∀ fuel, 2 * d.bucketCount + 1 ≤ fuel →
      remove (fuel + dist d.bucketCount (home m d.bucketCount key) t) m d key =
        removeLoop fuel m d key t := by
    intro fuel hf
    simp only [remove, hh, Res.bind_ok]
    rw [← hho]
    exact removeLoop_before hI hlt ht hbefore _ _ fuel hlt (by omega) hf
  by_cases hn : d.keyAt t = .null
  · refine ⟨d, ?_, hI, rfl, ?_⟩
    · intro fuel hf
      have := hstart (fuel - dist d.bucketCount (home m d.bucketCount key) t) (by omega)
      rw [show fuel - dist d.bucketCount (home m d.bucketCount key) t +
        dist d.bucketCount (home m d.bucketCount key) t = fuel by omega] at this
      rw [this]
      obtain ⟨f, hf'⟩ : ∃ f, fuel - dist d.bucketCount (home m d.bucketCount key) t = f + 1 :=
        ⟨fuel - dist d.bucketCount (home m d.bucketCount key) t - 1, by omega⟩
      rw [hf']
      simp [removeLoop, arrGet_keys hI.lenK ht, hn, Value.isNull]
    · intro k v
      constructor
      · rintro ⟨i, hi, hin, he, hv⟩
        refine ⟨?_, i, hi, hin, he, hv⟩
        rw [Bool.eq_false_iff]
        intro hc
        have hit : i ≠ t := by rintro rfl; exact hin hn
        have := hother i hi hit
        rw [areValuesEqual_trans m he (areValuesEqual_symm m hc)] at this
        cases this
      · exact fun h => h.2
  · have heq := hat.resolve_left hn
    have hcs := clearAt_shape hI.toShape ht hn
    -- the free bucket where the loop will stop
    obtain ⟨e, he, hp, hfirst⟩ := exists_first hlt (fun i => d.keyAt i = .null) hI.exists_null
    have hte : dist d.bucketCount (home m d.bucketCount key) t <
        dist d.bucketCount (home m d.bucketCount key) e := by
      apply Classical.byContradiction
      intro hge
      have hne : e ≠ t := by rintro rfl; exact hn hp
      have h2 := dist_spec d.bucketCount (home m d.bucketCount key) e
      have := (hbefore e he (by omega)).1
      exact this hp
    have het : e ≠ t := by rintro rfl; omega
    obtain ⟨hp', hdp'⟩ := dist_succ hlt ht he hte
    have hkc := keyAt_clearAt (d := d) htK
    have H : Hole m (clearAt d t) key (home m d.bucketCount key) t ((t + 1) % d.bucketCount) e := by
      refine ⟨hcs.1, hlt, ht, hp', he, ?_, ?_, ?_, ?_, ?_, ?_, ?_, ?_, ?_, ?_⟩
      · rw [hkc, if_pos rfl]
      · rw [hkc, if_neg het]; exact hp
      · show dist d.bucketCount _ _ < dist d.bucketCount _ _; omega
      · show dist d.bucketCount _ _ ≤ dist d.bucketCount _ _; omega
      · intro j hj h1 h2
        have hjt : j ≠ t := by rintro rfl; omega
        rw [hkc, if_neg hjt]
        exact hfirst j hj h2
      · intro i hi hin
        rw [hkc] at hin ⊢
        split
        · next h => rw [if_pos h] at hin; exact absurd rfl hin
        · next h => rw [if_neg h] at hin; exact hI.hashable i hi hin
      · intro i hi j hj hin hij
        rw [hkc] at hin hij
        rw [hkc] at hij
        by_cases h1 : i = t
        · rw [if_pos h1] at hin; exact absurd rfl hin
        · rw [if_neg h1] at hin hij
          by_cases h2 : j = t
          · rw [if_pos h2] at hij
            exact absurd (areValuesEqual_null_left m _ (areValuesEqual_symm m hij)) hin
          · rw [if_neg h2] at hij
            exact hI.uniq i hi j hj hin hij
      · intro i hi hin
        rw [hkc] at hin ⊢
        by_cases h1 : i = t
        · rw [if_pos h1] at hin; exact absurd rfl hin
        · rw [if_neg h1]; exact hother i hi h1
      · intro i hi hin j hj hd
        rw [hkc] at hin hd
        by_cases h1 : i = t
        · rw [if_pos h1] at hin; exact absurd rfl hin
        · rw [if_neg h1] at hin hd
          by_cases h2 : j = t
          · exact Or.inr h2
          · left; rw [hkc, if_neg h2]; exact hI.chain i hi hin j hj hd
      · intro i hi hin hd
        rw [hkc] at hin hd
        show dist d.bucketCount _ _ ≤ dist d.bucketCount _ _
        by_cases h1 : i = t
        · rw [if_pos h1] at hin; exact absurd rfl hin
        · rw [if_neg h1] at hin hd
          rw [hdp']
          have hd' : dist d.bucketCount (home m d.bucketCount (d.keyAt i)) t <
            dist d.bucketCount (home m d.bucketCount (d.keyAt i)) i := hd
          apply Classical.byContradiction
          intro hlt'
          have hhl := home_lt m hb (d.keyAt i)
          have hc := hI.chain i hi hin e he
          have a2 := dist_spec d.bucketCount (home m d.bucketCount key) e
          have a3 := dist_spec d.bucketCount (home m d.bucketCount key) i
          have a4 := dist_spec d.bucketCount (home m d.bucketCount (d.keyAt i)) t
          have a5 := dist_spec d.bucketCount (home m d.bucketCount (d.keyAt i)) e
          have a6 := dist_spec d.bucketCount (home m d.bucketCount (d.keyAt i)) i
          have : dist d.bucketCount (home m d.bucketCount (d.keyAt i)) e <
            dist d.bucketCount (home m d.bucketCount (d.keyAt i)) i := by omega
          exact hc this hp
    obtain ⟨d', h1, h2, h3, h4⟩ := removeLoop_hole
      (dist d.bucketCount (home m d.bucketCount key) e -
        (dist d.bucketCount (home m d.bucketCount key) t + 1)) _ _ _ H
      (by
        show dist d.bucketCount _ _ + _ = dist d.bucketCount _ _
        omega)
    refine ⟨d', ?_, h2, h3, ?_⟩
    · intro fuel hf
      have hde := dist_spec d.bucketCount (home m d.bucketCount key) e
      have := hstart (fuel - dist d.bucketCount (home m d.bucketCount key) t) (by omega)
      rw [show fuel - dist d.bucketCount (home m d.bucketCount key) t +
        dist d.bucketCount (home m d.bucketCount key) t = fuel by omega] at this
      rw [this]
      obtain ⟨f, hf'⟩ : ∃ f, fuel - dist d.bucketCount (home m d.bucketCount key) t = f + 1 :=
        ⟨fuel - dist d.bucketCount (home m d.bucketCount key) t - 1, by omega⟩
      rw [hf']
      simp only [removeLoop, arrGet_keys hI.lenK ht, Res.bind_ok, (isNull_false_iff _).2 hn,
        Bool.false_eq_true, if_false, heq, if_true, arrSet, htK, Res.pure_eq]
      exact h1 f (by show 2 * d.bucketCount + 2 + _ ≤ f; omega)
    · intro k v
      rw [h4]
      constructor
      · rintro ⟨i, hi, hin, hie, hv⟩
        rw [hkc] at hin hie
        by_cases hit : i = t
        · rw [if_pos hit] at hin; exact absurd rfl hin
        · rw [if_neg hit] at hin hie
          refine ⟨?_, i, hi, hin, hie, hv⟩
          rw [Bool.eq_false_iff]
          intro hc
          have := hother i hi hit
          rw [areValuesEqual_trans m hie (areValuesEqual_symm m hc)] at this
          cases this
      · rintro ⟨hk, i, hi, hin, hie, hv⟩
        have hit : i ≠ t := by
          rintro rfl
          rw [areValuesEqual_trans m (areValuesEqual_symm m heq) hie] at hk
          cases hk
        refine ⟨i, hi, ?_, ?_, hv⟩
        · rw [hkc, if_neg hit]; exact hin
        · rw [hkc, if_neg hit]; exact hie

theorem clear_inv {m : Mem} {d : Dict} (hI : Inv m d) : Inv m (clear d) ∧
    (clear d).bucketCount = d.bucketCount ∧ ∀ k v, ¬ Maps m (clear d) k v := by
  have hk : ∀ i, (clear d).keyAt i = .null := by
    intro i
    simp only [keyAt, clear, List.getD_eq_getElem?_getD, List.getElem?_map]
    cases d.keys[i]? <;> rfl
  refine ⟨⟨⟨hI.two, ?_, ?_, ?_, ?_⟩, ?_, ?_, ?_⟩, rfl, ?_⟩
  · simpa [clear] using hI.lenK
  · simpa [clear] using hI.lenV
  · have : (clear d).keys.countP (fun k => !k.isNull) = 0 := by
      rw [List.countP_eq_zero]
      intro k hk'
      simp only [clear, List.mem_map] at hk'
      obtain ⟨_, _, rfl⟩ := hk'
      simp [Value.isNull]
    rw [this]; rfl
  · simp [clear]
  · intro i _ h; exact absurd (hk i) h
  · intro i _ _ _ h; exact absurd (hk i) h
  · intro i _ h; exact absurd (hk i) h
  · rintro k v ⟨i, _, h, _⟩; exact h (hk i)

end Dict
end Tiny
