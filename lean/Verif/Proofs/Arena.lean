import Verif.Model.Arena

/-! Invariants of the arena. -/

namespace Tiny
namespace Arena

/-- `next` pointers from `h` visit exactly `ids`. -/
def IsChain (heap : Nat → Option ArenaPage) : Option Nat → List Nat → Prop
  | none, [] => True
  | some i, j :: js => i = j ∧ ∃ p, heap i = some p ∧ IsChain heap p.next js
  | _, _ => False

structure Inv (a : Arena) (ids : List Nat) : Prop where
  chain : IsChain a.heap a.head ids
  nodup : ids.Nodup
  live : ∀ i, a.heap i ≠ none ↔ i ∈ ids
  fresh : ∀ i, i ∈ ids ↔ i < a.fresh
  used : ∀ i p, a.heap i = some p → p.used ≤ p.cap ∧ p.cap < 2 ^ 62

/-- A block lies in the used part of a live page. -/
def InPage (a : Arena) (b : Block) : Prop :=
  ∃ p, a.heap b.page = some p ∧ b.off + b.size ≤ p.used

/-- Pages only fill up: they stay alive with the same capacity, and `used` never decreases. -/
def Grows (a a' : Arena) : Prop :=
  ∀ i p, a.heap i = some p → ∃ p', a'.heap i = some p' ∧ p.used ≤ p'.used ∧ p'.cap = p.cap

theorem Grows.refl (a : Arena) : Grows a a := fun _ p h => ⟨p, h, Nat.le_refl _, rfl⟩
theorem Grows.trans {a b c : Arena} (h1 : Grows a b) (h2 : Grows b c) : Grows a c := by
  intro i p h
  obtain ⟨p1, e1, u1, c1⟩ := h1 i p h
  obtain ⟨p2, e2, u2, c2⟩ := h2 i p1 e1
  exact ⟨p2, e2, Nat.le_trans u1 u2, c2.trans c1⟩

theorem InPage.grows {a a' : Arena} {b : Block} (h : InPage a b) (g : Grows a a') : InPage a' b := by
  obtain ⟨p, hp, hle⟩ := h
  obtain ⟨p', hp', hu, _⟩ := g _ p hp
  exact ⟨p', hp', Nat.le_trans hle hu⟩

theorem isChain_congr {h1 h2 : Nat → Option ArenaPage} : ∀ (ids : List Nat) (s : Option Nat),
    (∀ i ∈ ids, (h1 i).map (·.next) = (h2 i).map (·.next)) → IsChain h1 s ids → IsChain h2 s ids
  | [], none, _, _ => trivial
  | [], some _, _, h => h.elim
  | _ :: _, none, _, h => h.elim
  | j :: js, some i, hc, h => by
    obtain ⟨rfl, p, hp, hrest⟩ := h
    refine ⟨rfl, ?_⟩
    have := hc i (by simp)
    rw [hp] at this
    cases h2i : h2 i with
    | none => rw [h2i] at this; simp at this
    | some q =>
      rw [h2i] at this
      simp only [Option.map_some, Option.some.injEq] at this
      refine ⟨q, rfl, ?_⟩
      rw [← this]
      exact isChain_congr js p.next (fun k hk => hc k (by simp [hk])) hrest

theorem nextMultipleOf_pow2 {value k : Nat} (hv : value < 2 ^ 62) (hk : k < 62) :
    ∃ s, nextMultipleOf value (2 ^ k) = .ok s ∧ value ≤ s ∧ 2 ^ k ∣ s ∧ s ≤ value + 2 ^ k := by
  unfold nextMultipleOf
  by_cases h0 : k = 0
  · subst h0; exact ⟨value, by simp, Nat.le_refl _, by simp, by omega⟩
  · have hpos : 0 < 2 ^ k := Nat.two_pow_pos k
    have h1 : (2 : Nat) ^ k ≠ 1 := by
      have := Nat.one_lt_two_pow h0; omega
    have heven : (2 : Nat) ^ k % 2 = 0 := by
      obtain ⟨j, rfl⟩ : ∃ j, k = j + 1 := ⟨k - 1, by omega⟩
      rw [Nat.pow_succ]; omega
    have hkb : (2 : Nat) ^ k < 2 ^ 62 := Nat.pow_lt_pow_right (by omega) hk
    have hmask : value &&& (2 ^ 64 - 1 - (2 ^ k - 1)) = value / 2 ^ k * 2 ^ k := by
      have hm : 2 ^ 64 - 1 - (2 ^ k - 1) = (2 ^ (64 - k) - 1) * 2 ^ k := by
        rw [Nat.sub_mul, ← Nat.pow_add, Nat.sub_add_cancel (by omega)]
        omega
      rw [hm, ← Nat.shiftLeft_eq, ← Nat.shiftLeft_eq, ← Nat.shiftRight_eq_div_pow]
      apply Nat.eq_of_testBit_eq
      intro i
      simp only [Nat.testBit_and, Nat.testBit_shiftLeft, Nat.testBit_two_pow_sub_one,
        Nat.testBit_shiftRight]
      by_cases hi : k ≤ i
      · simp only [ge_iff_le, hi, decide_true, Bool.true_and]
        rw [show k + (i - k) = i by omega]
        by_cases hi2 : i - k < 64 - k
        · simp [hi2]
        · have : value < 2 ^ i := Nat.lt_of_lt_of_le hv (Nat.pow_le_pow_right (by omega) (by omega))
          simp [Nat.testBit_lt_two_pow this]
      · simp [hi]
    have hd : value / 2 ^ k * 2 ^ k ≤ value := Nat.div_mul_le_self _ _
    have hlt : value < value / 2 ^ k * 2 ^ k + 2 ^ k := by
      have h1 := Nat.mod_lt value hpos
      have h2 := Nat.div_add_mod value (2 ^ k)
      rw [Nat.mul_comm] at h2
      omega
    refine ⟨value / 2 ^ k * 2 ^ k + 2 ^ k, ?_, ?_, ?_, ?_⟩
    · simp only [h1, if_false, Res.assert, heven, decide_true, if_true, Res.bind_ok, hmask]
      rw [Nat.mod_eq_of_lt (by omega)]
    · omega
    · exact ⟨value / 2 ^ k + 1, by rw [Nat.mul_add, Nat.mul_comm]; omega⟩
    · omega

theorem load_eq {a : Arena} {i : Nat} {p : ArenaPage} (h : a.heap i = some p) : a.load i = .ok p := by
  simp [load, h]

theorem Inv.fresh_none {a : Arena} {ids : List Nat} (h : Inv a ids) : a.heap a.fresh = none := by
  apply Classical.byContradiction
  intro hn
  have := (h.fresh _).1 ((h.live _).1 hn)
  omega

/-- A new page pushed in front of the list. -/
theorem allocNew_spec {a : Arena} {ids : List Nat} (h : Inv a ids) {size : Nat}
    (hs : size ≤ pageSize) :
    ∃ a', allocNew a size = .ok (a', a.fresh, 0) ∧ Inv a' (a.fresh :: ids) ∧ Grows a a' ∧
      (∃ p, a'.heap a.fresh = some p ∧ p.used = size ∧ p.cap = pageSize) ∧ a.heap a.fresh = none := by
  have hf := h.fresh_none
  have hnot : a.fresh ∉ ids := fun hm => by have := (h.fresh _).1 hm; omega
  refine ⟨_, by simp [allocNew, allocPage, load, store]; rfl, ?_, ?_, ?_, hf⟩
  · refine ⟨?_, ?_, ?_, ?_, ?_⟩
    · refine ⟨rfl, _, by simp; rfl, ?_⟩
      refine isChain_congr ids _ ?_ h.chain
      intro i hi
      have : i ≠ a.fresh := fun e => hnot (e ▸ hi)
      simp [this]
    · exact List.nodup_cons.2 ⟨hnot, h.nodup⟩
    · intro i
      by_cases hi : i = a.fresh
      · simp [hi]
      · simp [hi, ← h.live i]
    · intro i
      simp only [List.mem_cons, h.fresh i]
      omega
    · intro i p hp
      by_cases hi : i = a.fresh
      · simp only [hi, if_true, Option.some.injEq] at hp
        subst hp
        simp [pageSize] at hs ⊢; exact hs
      · simp only [hi, if_false] at hp
        exact h.used i p hp
  · intro i p hp
    have hi : i ≠ a.fresh := by rintro rfl; rw [hf] at hp; cases hp
    exact ⟨p, by simp [hi, hp], Nat.le_refl _, rfl⟩
  · exact ⟨_, by simp; rfl, rfl, rfl⟩

/-- One allocation. -/
theorem alloc_spec {a : Arena} {ids : List Nat} (h : Inv a ids) {size k : Nat}
    (hs : size < 2 ^ 62) (hk : k < 62) :
    ∃ a' ids' page off, alloc a size (2 ^ k) = .ok (a', page, off) ∧ Inv a' ids' ∧ Grows a a' ∧
      InPage a' ⟨page, off, size, 2 ^ k⟩ ∧ 2 ^ k ∣ off ∧
      (∀ p, a.heap page = some p → p.used ≤ off) := by
  have hf := h.fresh_none
  have hnot : a.fresh ∉ ids := fun hm => by have := (h.fresh _).1 hm; omega
  unfold alloc
  by_cases hbig : size > pageSize
  · simp only [hbig, if_true]
    cases hhead : a.head with
    | none =>
      have hids : ids = [] := by
        have := h.chain
        rw [hhead] at this
        cases ids with
        | nil => rfl
        | cons _ _ => exact this.elim
      subst hids
      refine ⟨_, [a.fresh], a.fresh, 0, by simp [allocPage, load, store, hhead]; rfl, ?_, ?_, ?_, ?_, ?_⟩
      · refine ⟨⟨rfl, _, by simp; rfl, ?_⟩, by simp, ?_, ?_, ?_⟩
        · simp [IsChain]
        · intro i
          by_cases hi : i = a.fresh
          · simp [hi]
          · have := h.live i; simp at this; simp [hi, this]
        · intro i; have := h.fresh i; simp at this ⊢; omega
        · intro i p hp
          by_cases hi : i = a.fresh
          · simp only [hi, if_true, Option.some.injEq] at hp; subst hp; simp; omega
          · simp only [hi, if_false] at hp; exact h.used i p hp
      · intro i p hp
        have hi : i ≠ a.fresh := by rintro rfl; rw [hf] at hp; cases hp
        exact ⟨p, by simp [hi, hp], Nat.le_refl _, rfl⟩
      · exact ⟨_, by simp; rfl, by simp⟩
      · exact Nat.dvd_zero _
      · intro p hp; rw [hf] at hp; cases hp
    | some hd =>
      obtain ⟨j, js, rfl⟩ : ∃ j js, ids = j :: js := by
        have := h.chain
        rw [hhead] at this
        cases ids with
        | nil => exact this.elim
        | cons j js => exact ⟨j, js, rfl⟩
      have hch := h.chain
      rw [hhead] at hch
      obtain ⟨rfl, hp, hhp, hrest⟩ := hch
      have hne : hd ≠ a.fresh := by rintro rfl; rw [hf] at hhp; cases hhp
      have hnd := List.nodup_cons.1 h.nodup
      refine ⟨_, hd :: a.fresh :: js, a.fresh, 0, by
        simp [allocPage, load, store, hhead, hne, hhp]; rfl, ?_, ?_, ?_, ?_, ?_⟩
      · refine ⟨?_, ?_, ?_, ?_, ?_⟩
        · refine ⟨rfl, _, by simp; rfl, ?_⟩
          refine ⟨rfl, _, by simp [hne.symm]; rfl, ?_⟩
          simp only
          refine isChain_congr js _ ?_ hrest
          intro i hi
          have h1 : i ≠ a.fresh := fun e => hnot (by simp [← e, hi])
          have h2 : i ≠ hd := fun e => hnd.1 (e ▸ hi)
          simp [h1, h2]
        · rw [List.nodup_cons, List.nodup_cons]
          refine ⟨?_, fun hm => hnot (by simp [hm]), hnd.2⟩
          simp [hne, hnd.1]
        · intro i
          by_cases h1 : i = hd
          · simp [h1]
          · by_cases h2 : i = a.fresh
            · simp [h2, hne.symm]
            · have := h.live i
              simp [h1] at this
              simp [h1, h2, this]
        · intro i
          have := h.fresh i
          have hhd := (h.fresh hd).1 (by simp)
          simp only [List.mem_cons] at this ⊢
          show i = hd ∨ i = a.fresh ∨ i ∈ js ↔ i < a.fresh + 1
          constructor
          · rintro (rfl | rfl | hm)
            · omega
            · omega
            · have := this.1 (Or.inr hm); omega
          · intro hlt
            by_cases hi : i = a.fresh
            · exact Or.inr (Or.inl hi)
            · rcases this.2 (by omega) with h1 | h1
              · exact Or.inl h1
              · exact Or.inr (Or.inr h1)
        · intro i p hp'
          by_cases h1 : i = hd
          · simp only [h1, if_true, Option.some.injEq] at hp'
            subst hp'
            have := h.used hd hp hhp
            simpa using this
          · by_cases h2 : i = a.fresh
            · simp only [h2, hne.symm, if_false, if_true, Option.some.injEq] at hp'
              subst hp'; simp; omega
            · simp only [h1, h2, if_false] at hp'
              exact h.used i p hp'
      · intro i p hp'
        have h2 : i ≠ a.fresh := by rintro rfl; rw [hf] at hp'; cases hp'
        by_cases h1 : i = hd
        · subst h1
          rw [hhp] at hp'; cases hp'
          exact ⟨{ hp with next := some a.fresh }, by simp, by simp, rfl⟩
        · exact ⟨p, by simp [h1, h2, hp'], Nat.le_refl _, rfl⟩
      · exact ⟨_, by simp [hne.symm]; rfl, by simp⟩
      · exact Nat.dvd_zero _
      · intro p hp; rw [hf] at hp; cases hp
  · simp only [hbig, if_false]
    have hle : size ≤ pageSize := by omega
    have hnew : ∃ a' ids' page off, allocNew a size = .ok (a', page, off) ∧ Inv a' ids' ∧ Grows a a' ∧
        InPage a' ⟨page, off, size, 2 ^ k⟩ ∧ 2 ^ k ∣ off ∧
        (∀ p, a.heap page = some p → p.used ≤ off) := by
      obtain ⟨a', h1, h2, h3, ⟨p, h4, h5, h6⟩, h7⟩ := allocNew_spec h hle
      exact ⟨a', _, _, 0, h1, h2, h3, ⟨p, h4, by simp [h5]⟩, Nat.dvd_zero _,
        fun p hp => by rw [hf] at hp; cases hp⟩
    cases hhead : a.head with
    | none => simp only; exact hnew
    | some hd =>
      simp only
      obtain ⟨hp, hhp⟩ : ∃ p, a.heap hd = some p := by
        have := h.chain
        rw [hhead] at this
        cases ids with
        | nil => exact this.elim
        | cons j js => obtain ⟨_, p, hp, _⟩ := this; exact ⟨p, hp⟩
      have hu := h.used hd hp hhp
      obtain ⟨s, hs1, hs2, hs3, hs4⟩ := nextMultipleOf_pow2 (value := hp.used) (k := k) (by omega) hk
      have hkb : (2 : Nat) ^ k < 2 ^ 62 := Nat.pow_lt_pow_right (by omega) hk
      have hmod : (s + size) % 2 ^ 64 = s + size := Nat.mod_eq_of_lt (by omega)
      rw [load_eq hhp]
      simp only [Res.bind_ok, hs1, hmod]
      by_cases hfit : s + size > hp.cap
      · simp only [hfit, if_true]; exact hnew
      · simp only [hfit, if_false]
        refine ⟨_, ids, hd, s, by simp [store]; rfl, ?_, ?_, ?_, hs3, ?_⟩
        · refine ⟨?_, h.nodup, ?_, h.fresh, ?_⟩
          · show IsChain _ a.head ids
            refine isChain_congr ids _ ?_ h.chain
            intro i _
            by_cases hi : i = hd
            · simp [hi, hhp]
            · simp [hi]
          · intro i
            by_cases hi : i = hd
            · subst hi
              simp
              exact (h.live i).1 (by rw [hhp]; simp)
            · simp [hi, ← h.live i]
          · intro i p hp'
            by_cases hi : i = hd
            · simp only [hi, if_true, Option.some.injEq] at hp'
              subst hp'; simp; omega
            · simp only [hi, if_false] at hp'
              exact h.used i p hp'
        · intro i p hp'
          by_cases hi : i = hd
          · subst hi
            rw [hhp] at hp'; cases hp'
            exact ⟨{ hp with used := s + size }, by simp, by show hp.used ≤ s + size; omega, rfl⟩
          · exact ⟨p, by simp [hi, hp'], Nat.le_refl _, rfl⟩
        · exact ⟨_, by simp; rfl, by simp⟩
        · intro p hp'; rw [hhp] at hp'; cases hp'; exact hs2

/-- The two blocks do not overlap. -/
def Disjoint (b c : Block) : Prop :=
  b.page ≠ c.page ∨ b.off + b.size ≤ c.off ∨ c.off + c.size ≤ b.off

/-- Requests with a power-of-two alignment and a size that fits the address space. -/
def Req.Ok (r : Req) : Prop := r.size < 2 ^ 62 ∧ ∃ k < 62, r.align = 2 ^ k

theorem run_spec : ∀ (rs : List Req) (a : Arena) (ids : List Nat), Inv a ids →
    (∀ r ∈ rs, r.Ok) →
    ∃ a' ids' bs, run a rs = .ok (a', bs) ∧ Inv a' ids' ∧ Grows a a' ∧ bs.length = rs.length ∧
      (∀ b ∈ bs, InPage a' b ∧ b.align ∣ b.off ∧ ∀ p, a.heap b.page = some p → p.used ≤ b.off) ∧
      (∀ (i : Nat) (r : Req) (b : Block), rs[i]? = some r → bs[i]? = some b →
        b.size = r.size ∧ b.align = r.align) ∧
      bs.Pairwise Disjoint
  | [], a, ids, h, _ => ⟨a, ids, [], rfl, h, Grows.refl a, rfl, by simp, by simp, .nil⟩
  | r :: rs, a, ids, h, hr => by
    obtain ⟨hs, k, hk, hal⟩ := hr r (by simp)
    obtain ⟨a1, ids1, page, off, e1, h1, g1, p1, d1, u1⟩ := alloc_spec h hs hk
    obtain ⟨a2, ids2, bs, e2, h2, g2, l2, b2, m2, w2⟩ :=
      run_spec rs a1 ids1 h1 (fun r hr' => hr r (by simp [hr']))
    refine ⟨a2, ids2, ⟨page, off, r.size, r.align⟩ :: bs, ?_, h2, g1.trans g2, by simp [l2], ?_, ?_, ?_⟩
    · simp only [run, hal, e1, Res.bind_ok, e2, Res.pure_eq]
    · intro b hb
      rcases List.mem_cons.1 hb with rfl | hb
      · exact ⟨by rw [hal]; exact p1.grows g2, by rw [hal]; exact d1, u1⟩
      · obtain ⟨q1, q2, q3⟩ := b2 b hb
        refine ⟨q1, q2, ?_⟩
        intro p hp
        obtain ⟨p', hp', hu, _⟩ := g1 _ p hp
        exact Nat.le_trans hu (q3 p' hp')
    · intro i r' b hr' hb
      cases i with
      | zero => simp at hr' hb; subst hr' hb; exact ⟨rfl, rfl⟩
      | succ i => simp at hr' hb; exact m2 i r' b hr' hb
    · refine List.pairwise_cons.2 ⟨?_, w2⟩
      intro b hb
      obtain ⟨_, _, q3⟩ := b2 b hb
      by_cases hpg : page = b.page
      · right; left
        obtain ⟨p, hp, hle⟩ := p1
        simp only at hp hle
        have := q3 p (by rw [← hpg]; exact hp)
        show off + r.size ≤ b.off
        omega
      · exact Or.inl hpg

theorem destroyLoop_spec : ∀ (ids : List Nat) (heap : Nat → Option ArenaPage) (s : Option Nat) (fuel : Nat),
    IsChain heap s ids → ids.Nodup → ids.length < fuel →
    destroyLoop fuel heap s = .ok (fun i => if i ∈ ids then none else heap i, ids)
  | [], heap, none, fuel + 1, _, _, _ => by simp [destroyLoop]
  | [], _, some _, _, h, _, _ => h.elim
  | _ :: _, _, none, _, h, _, _ => h.elim
  | j :: js, heap, some i, fuel + 1, h, hnd, hf => by
    obtain ⟨rfl, p, hp, hrest⟩ := h
    have hnd' := List.nodup_cons.1 hnd
    have hc : IsChain (fun k => if k = i then none else heap k) p.next js := by
      refine isChain_congr js _ ?_ hrest
      intro k hk
      have : k ≠ i := fun e => hnd'.1 (e ▸ hk)
      simp [this]
    have ih := destroyLoop_spec js (fun k => if k = i then none else heap k) p.next fuel hc hnd'.2
      (by simpa using hf)
    simp only [destroyLoop, hp, ih, Res.bind_ok, Res.pure_eq, Res.ok.injEq, Prod.mk.injEq, and_true]
    funext k
    by_cases h1 : k = i
    · simp [h1]
    · simp [h1]
  | _, _, _, 0, _, _, hf => by omega

theorem init_inv : Inv init [] :=
  ⟨trivial, by simp, by simp [init], by simp [init], by simp [init]⟩

end Arena
end Tiny
