import Verif.Spec.Array

/-! Refinement of arrays to lists. -/

namespace Tiny
namespace Arr
open Spec

variable {α : Type}

/-- The buffer holds the list `l` in its first cells. -/
structure Holds (b : Buf α) (l : List α) : Prop where
  n : b.n = l.length
  len : b.cells.length = b.cap
  cells : ∃ rest, b.cells = l.map some ++ rest

/-- The array represents the list `l`. -/
def Rep (a : Arr α) (touched : Bool) (l : List α) : Prop :=
  match a with
  | none => touched = false ∧ l = []
  | some b => touched = true ∧ Holds b l

theorem Rep.len {a : Arr α} {t : Bool} {l : List α} (h : Rep a t l) : a.len = l.length := by
  cases a with
  | none => simp [Rep] at h; simp [Arr.len, h.2]
  | some b => exact h.2.n

theorem max_ite (x y : Nat) : x ≤ (if x > y then x else y) ∧ y ≤ (if x > y then x else y) := by
  split <;> omega

theorem maybeGrow_holds {a : Arr α} {t : Bool} {l : List α} (h : Rep a t l) (k : Nat) :
    Holds (maybeGrow a k) l ∧ l.length + k ≤ (maybeGrow a k).cap := by
  cases a with
  | none =>
    obtain ⟨_, rfl⟩ := h
    refine ⟨⟨?_, ?_, ?_⟩, ?_⟩
    · simp [maybeGrow, growf]
    · simp [maybeGrow, growf]
    · exact ⟨_, by simp [maybeGrow, growf]; rfl⟩
    · have := max_ite 0 (0 + k)
      simp only [maybeGrow, growf, Arr.len, List.length_nil]; exact this.2
  | some b =>
    obtain ⟨_, hn, hl, rest, hc⟩ := h
    have hle : l.length ≤ b.cap := by rw [← hl, hc]; simp
    by_cases hg : b.n + k ≥ b.cap
    · simp only [maybeGrow, hg, if_true]
      have hm : b.cap ≤ (growf (some b) k).cap ∧ l.length + k ≤ (growf (some b) k).cap := by
        simp only [growf, Arr.len]
        by_cases hx : 2 * b.cap > b.n + k
        · simp only [hx, if_true]; omega
        · simp only [hx, if_false]; omega
      refine ⟨⟨?_, ?_, ?_⟩, hm.2⟩
      · simpa [growf] using hn
      · simp only [growf] at hm ⊢
        simp only [List.length_append, List.length_replicate]
        omega
      · refine ⟨rest ++ List.replicate ((growf (some b) k).cap - b.cap) none, ?_⟩
        simp only [growf, hc, List.append_assoc]
    · simp only [maybeGrow, hg, if_false]
      exact ⟨⟨hn, hl, rest, hc⟩, by omega⟩

theorem readCell_holds {b : Buf α} {l : List α} (h : Holds b l) {i : Nat} (hi : i < l.length) :
    readCell b i = .ok l[i] := by
  obtain ⟨_, _, rest, hc⟩ := h
  unfold readCell
  rw [hc, List.getElem?_append_left (by simpa using hi)]
  simp [hi]

theorem push_rep {a : Arr α} {t : Bool} {l : List α} (h : Rep a t l) (v : α) :
    ∃ a', push a v = .ok a' ∧ Rep a' true (l ++ [v]) := by
  obtain ⟨⟨hn, hl, rest, hc⟩, hcap⟩ := maybeGrow_holds h 1
  have hr : rest ≠ [] := by
    rintro rfl
    rw [hc] at hl; simp at hl; omega
  obtain ⟨r, rest, rfl⟩ := List.exists_cons_of_ne_nil hr
  have hi : (maybeGrow a 1).n < (maybeGrow a 1).cells.length := by rw [hl, hn]; omega
  refine ⟨some { maybeGrow a 1 with
      n := (maybeGrow a 1).n + 1
      cells := (maybeGrow a 1).cells.set (maybeGrow a 1).n (some v) },
    by simp only [push, writeCell, hi, if_true, Res.bind_ok, Res.pure_eq], rfl, ?_⟩
  refine ⟨by simp [hn], by simp [hl], rest, ?_⟩
  simp [hn, hc]

theorem memmove_eq {b : Buf α} {dst src cnt : Nat} (h1 : src + cnt ≤ b.cells.length)
    (h2 : dst + cnt ≤ b.cells.length) : memmove b dst src cnt = .ok
      { b with cells := b.cells.take dst ++ (b.cells.drop src).take cnt ++ b.cells.drop (dst + cnt) } := by
  simp [memmove, h1, h2]

theorem pop_rep {b : Buf α} {l : List α} (h : Holds b l) (hne : l ≠ []) :
    ∃ a', pop (some b) = .ok (a', l.getLast hne) ∧ Rep a' true l.dropLast := by
  have hpos : 0 < l.length := List.length_pos_iff.2 hne
  have hlen : Arr.len (some b) > 0 := by show b.n > 0; rw [h.n]; exact hpos
  have hr := readCell_holds h (i := l.length - 1) (by omega)
  refine ⟨some { b with n := b.n - 1 }, ?_, rfl, ?_⟩
  · simp only [pop, Res.assert, hlen, decide_true, if_true, Res.bind_ok, h.n, hr, Res.pure_eq]
    rw [List.getLast_eq_getElem]
  · obtain ⟨hn, hl, rest, hc⟩ := h
    refine ⟨by simp [hn], hl, some (l.getLast hne) :: rest, ?_⟩
    show b.cells = _
    rw [hc]
    conv => lhs; rw [← List.dropLast_concat_getLast hne]
    simp

theorem shift_rep {b : Buf α} {v : α} {l : List α} (h : Holds b (v :: l)) :
    ∃ a', shift (some b) = .ok (a', v) ∧ Rep a' true l := by
  have hlen : Arr.len (some b) > 0 := by show b.n > 0; rw [h.n]; simp
  have hr := readCell_holds h (i := 0) (by simp)
  obtain ⟨hn, hl, rest, hc⟩ := h
  have hL : b.cells.length = l.length + 1 + rest.length := by rw [hc]; simp; omega
  have hn' : b.n = l.length + 1 := by simpa using hn
  have hmm := memmove_eq (b := b) (dst := 0) (src := 1) (cnt := b.n - 1) (by omega) (by omega)
  refine ⟨some { b with
      n := b.n - 1,
      cells := b.cells.take 0 ++ (b.cells.drop 1).take (b.n - 1) ++ b.cells.drop (0 + (b.n - 1)) },
    ?_, rfl, ?_⟩
  · have hlen' : b.n > 0 := hlen
    simp only [shift, Arr.len, Res.assert, hlen', decide_true, if_true, Res.bind_ok, hr, Res.pure_eq,
      hmm]
    rfl
  · refine ⟨?_, ?_, b.cells.drop (l.length), ?_⟩
    · show b.n - 1 = _; omega
    · show (List.length _) = b.cap
      rw [← hl]
      simp only [List.length_append, List.length_take, List.length_drop]
      omega
    · show _ ++ _ ++ _ = _
      have : b.n - 1 = l.length := by omega
      rw [this, Nat.zero_add, hc]
      simp

theorem assert_idx_ok {i : Int} {n : Nat} (h : 0 ≤ i ∧ i < n) :
    Res.assert (decide (i ≥ 0 ∧ i < n)) = .ok () := by
  have : (i ≥ 0 ∧ i < n) := h
  simp [Res.assert, this]

theorem assert_idx_abort {i : Int} {n : Nat} (h : ¬ (0 ≤ i ∧ i < n)) :
    Res.assert (decide (i ≥ 0 ∧ i < n)) = .abort := by
  have : ¬ (i ≥ 0 ∧ i < n) := h
  simp only [Res.assert, this, decide_false, Bool.false_eq_true, if_false]

theorem insertIdx_take_drop : ∀ (l : List α) (k : Nat) (v : α), k ≤ l.length →
    l.insertIdx k v = l.take k ++ v :: l.drop k
  | l, 0, v, _ => by simp
  | [], k + 1, v, h => by simp at h
  | x :: l, k + 1, v, h => by
    have := insertIdx_take_drop l k v (by simpa using h)
    simp [this]

theorem insert_rep {a : Arr α} {t : Bool} {l : List α} (h : Rep a t l) {i : Int} (v : α)
    (hi : 0 ≤ i ∧ i < l.length) :
    ∃ a', insert a i v = .ok a' ∧ Rep a' true (l.insertIdx i.toNat v) := by
  obtain ⟨⟨hn, hl, rest, hc⟩, hcap⟩ := maybeGrow_holds h 1
  have hlen := h.len
  obtain ⟨k, rfl⟩ : ∃ k : Nat, i = k := ⟨i.toNat, by omega⟩
  have hk : k < l.length := by omega
  have hr : rest ≠ [] := by
    rintro rfl
    rw [hc] at hl; simp at hl; omega
  obtain ⟨r, rest, rfl⟩ := List.exists_cons_of_ne_nil hr
  let b := maybeGrow a 1
  have hmm := memmove_eq (b := { b with n := b.n + 1 }) (dst := k + 1) (src := k)
    (cnt := l.length - k) (by show k + _ ≤ (maybeGrow a 1).cells.length; omega)
    (by show k + 1 + _ ≤ (maybeGrow a 1).cells.length; omega)
  have hins : l.insertIdx k v = l.take k ++ v :: l.drop k := by
    exact insertIdx_take_drop l k v (by omega)
  refine ⟨some { b with n := b.n + 1, cells := (b.cells.take (k + 1) ++ (b.cells.drop k).take (l.length - k) ++
      b.cells.drop (k + 1 + (l.length - k))).set k (some v) }, by
    simp only [insert, hlen, assert_idx_ok hi, Res.bind_ok, Int.toNat_natCast]
    rw [hmm]
    simp only [Res.bind_ok, writeCell, Res.pure_eq]
    rw [if_pos]
    · rfl
    · simp only [List.length_append, List.length_take, List.length_drop]
      show k < min (k+1) (maybeGrow a 1).cells.length + min (l.length - k) ((maybeGrow a 1).cells.length - k) + _
      omega, rfl, ?_⟩
  refine ⟨?_, ?_, rest, ?_⟩
  · show (maybeGrow a 1).n + 1 = _
    simp only [Int.toNat_natCast, hins, List.length_append, List.length_take, List.length_cons,
      List.length_drop]
    omega
  · show List.length (List.set _ _ _) = (maybeGrow a 1).cap
    simp only [List.length_set, List.length_append, List.length_take, List.length_drop]
    show min (k+1) (maybeGrow a 1).cells.length + min (l.length - k) ((maybeGrow a 1).cells.length - k)
      + ((maybeGrow a 1).cells.length - _) = _
    omega
  · simp only [Int.toNat_natCast]
    show List.set ((maybeGrow a 1).cells.take (k+1) ++ ((maybeGrow a 1).cells.drop k).take (l.length - k) ++
      (maybeGrow a 1).cells.drop (k + 1 + (l.length - k))) k (some v) = _
    rw [hins, hc]
    have e1 : (l.map some ++ r :: rest).take (k+1) = (l.take (k+1)).map some := by
      rw [List.take_append_of_le_length (by simp; omega), List.map_take]
    have e2 : ((l.map some ++ r :: rest).drop k).take (l.length - k) = (l.drop k).map some := by
      rw [List.drop_append_of_le_length (by simp; omega),
        List.take_append_of_le_length (by simp), ← List.map_drop, List.take_of_length_le (by simp)]
    have e3 : (l.map some ++ r :: rest).drop (k + 1 + (l.length - k)) = rest := by
      rw [show k + 1 + (l.length - k) = (l.map some).length + 1 by simp; omega,
        List.drop_length_add_append]; rfl
    rw [e1, e2, e3, List.take_succ_eq_append_getElem hk]
    have hlt : k < (List.map some (List.take k l ++ [l[k]])).length := by simp; omega
    rw [List.append_assoc, List.set_append_left _ _ hlt, List.map_append,
      List.set_append_right _ _ (by simp; omega)]
    simp [Nat.min_eq_left (Nat.le_of_lt hk)]

theorem remove_rep {b : Buf α} {l : List α} (h : Holds b l) {i : Int}
    (hi : 0 ≤ i ∧ i < l.length) :
    ∃ a', remove (some b) i = .ok a' ∧ Rep a' true (l.eraseIdx i.toNat) := by
  obtain ⟨hn, hl, rest, hc⟩ := h
  obtain ⟨k, rfl⟩ : ∃ k : Nat, i = k := ⟨i.toNat, by omega⟩
  have hk : k < l.length := by omega
  have hL : b.cells.length = l.length + rest.length := by rw [hc]; simp
  have hmm := memmove_eq (b := b) (dst := k) (src := k + 1) (cnt := l.length - k - 1) (by omega)
    (by omega)
  have hlen : Arr.len (some b) = l.length := hn
  refine ⟨some { b with
      n := b.n - 1,
      cells := b.cells.take k ++ (b.cells.drop (k+1)).take (l.length - k - 1) ++
        b.cells.drop (k + (l.length - k - 1)) }, ?_, rfl, ?_⟩
  · simp only [remove, hlen, assert_idx_ok hi, Res.bind_ok, Int.toNat_natCast, hmm, Res.pure_eq]
  · refine ⟨?_, ?_, b.cells.drop (k + (l.length - k - 1)), ?_⟩
    · simp only [Int.toNat_natCast, List.length_eraseIdx, hk, if_true, hn]
    · show List.length _ = b.cap
      rw [← hl]
      simp only [List.length_append, List.length_take, List.length_drop]
      omega
    · show _ ++ _ ++ _ = _
      congr 1
      simp only [Int.toNat_natCast, List.eraseIdx_eq_take_drop_succ, List.map_append]
      rw [hc]
      congr 1
      · rw [List.take_append_of_le_length (by simp; omega), List.map_take]
      · rw [List.drop_append_of_le_length (by simp; omega),
          List.take_append_of_le_length (by simp; omega), ← List.map_drop,
          List.take_of_length_le (by simp; omega)]

theorem set_rep {b : Buf α} {l : List α} (h : Holds b l) {i : Int} (v : α)
    (hi : 0 ≤ i ∧ i < l.length) :
    ∃ a', set (some b) i v = .ok a' ∧ Rep a' true (l.set i.toNat v) := by
  obtain ⟨hn, hl, rest, hc⟩ := h
  obtain ⟨k, rfl⟩ : ∃ k : Nat, i = k := ⟨i.toNat, by omega⟩
  have hk : k < l.length := by omega
  have hL : b.cells.length = l.length + rest.length := by rw [hc]; simp
  have hlen : Arr.len (some b) = l.length := hn
  have hkc : k < b.cells.length := by omega
  refine ⟨some { b with cells := b.cells.set k (some v) }, ?_, rfl, ?_⟩
  · simp only [set, hlen, assert_idx_ok hi, Res.bind_ok, Int.toNat_natCast, writeCell, hkc, if_true,
      Res.pure_eq]
  · refine ⟨by simpa using hn, by simpa using hl, rest, ?_⟩
    show List.set _ _ _ = _
    rw [hc, List.set_append_left _ _ (by simpa using hk)]
    simp

theorem fillLoop_cells (b : Buf α) (base : Nat) (v : α) : ∀ (k i : Nat) (cells : List (Option α)),
    base + i + k ≤ cells.length →
    fillLoop { b with cells := cells } base v i k =
      .ok { b with cells := cells.take (base + i) ++ List.replicate k (some v) ++ cells.drop (base + i + k) }
  | 0, i, cells, _ => by simp [fillLoop]
  | k + 1, i, cells, h => by
    have hlt : base + i < cells.length := by omega
    simp only [fillLoop, writeCell, hlt, if_true, Res.bind_ok]
    rw [fillLoop_cells b base v k (i + 1) _ (by simp; omega)]
    congr 2
    rw [show base + (i + 1) = (base + i) + 1 by omega,
      show base + i + 1 + k = (base + i + (k + 1)) by omega]
    rw [List.take_succ_eq_append_getElem (by simpa using hlt), List.getElem_set_self,
      List.take_set_of_le (by omega), List.drop_set_of_lt (by omega)]
    simp [List.replicate_succ, List.append_assoc]

theorem resize_empty {a : Arr α} {t : Bool} (h : Rep a t []) (n : Nat) (v : α) (hn : 0 < n) :
    ∃ a', resize a n v = .ok a' ∧ Rep a' true (List.replicate n v) := by
  obtain ⟨⟨hn', hl, rest, hc⟩, hcap⟩ := maybeGrow_holds h n
  have hlen := h.len
  have h0 : (n : Int) ≥ 0 := by omega
  simp only [List.length_nil] at hlen hcap hn'
  have hf := fillLoop_cells { maybeGrow a n with n := (maybeGrow a n).n + n } 0 v n 0
    (maybeGrow a n).cells (by omega)
  refine ⟨some { maybeGrow a n with n := n, cells := ((maybeGrow a n).cells.take 0 ++
      List.replicate n (some v) ++ (maybeGrow a n).cells.drop n) }, by
    simp only [resize, Res.assert, h0, decide_true, if_true, Res.bind_ok, Int.toNat_natCast, hlen,
      gt_iff_lt, hn, Nat.sub_zero, Nat.add_sub_cancel, hn']
    simp only [hn'] at hf
    simp only [Nat.zero_add] at hf ⊢
    rw [show ({ maybeGrow a n with n := n } : Buf α) =
      { maybeGrow a n with n := n, cells := (maybeGrow a n).cells } from rfl, hf]
    simp only [Res.bind_ok, Res.pure_eq], rfl, ?_⟩
  refine ⟨by simp, by simp; omega, (maybeGrow a n).cells.drop n, by simp⟩

theorem resize_shrink {b : Buf α} {l : List α} (h : Holds b l) (n : Nat) (v : α)
    (hn : n ≤ l.length) :
    ∃ a', resize (some b) n v = .ok a' ∧ Rep a' true (l.take n) := by
  obtain ⟨hn', hl, rest, hc⟩ := h
  have h0 : (n : Int) ≥ 0 := by omega
  have hlen : Arr.len (some b) = l.length := hn'
  have hng : ¬ (n > l.length) := by omega
  refine ⟨some { b with n := n }, ?_, rfl, ?_⟩
  · simp only [resize, Res.assert, h0, decide_true, if_true, Res.bind_ok, Int.toNat_natCast, hlen,
      hng, if_false, Res.pure_eq]
  · refine ⟨by simp; omega, hl, (l.drop n).map some ++ rest, ?_⟩
    show b.cells = _
    rw [hc, ← List.append_assoc, ← List.map_append, List.take_append_drop]

/-- One call agrees with the specification. -/
theorem step_spec {a : Arr α} {t : Bool} {l : List α} (h : Rep a t l) (op : Op α)
    (r : Res (Bool × List α × Out α)) (hr : arrStep t l op = some r) :
    (∃ a' t' l' o, r = .ok (t', l', o) ∧ step a op = .ok (a', o) ∧ Rep a' t' l') ∨
    (r = .abort ∧ step a op = .abort) ∨ (r = .ub ∧ step a op = .ub) := by
  have hlen := h.len
  cases op with
  | push v =>
    simp only [arrStep, Option.some.injEq] at hr
    subst hr
    obtain ⟨a', h1, h2⟩ := push_rep h v
    left; exact ⟨a', _, _, _, rfl, by simp [step, h1], h2⟩
  | pop =>
    simp only [arrStep, Option.some.injEq] at hr
    subst hr
    cases a with
    | none =>
      obtain ⟨_, rfl⟩ := h
      right; left; simp [step, pop, Res.assert, Arr.len]
    | some b =>
      by_cases hne : l = []
      · subst hne
        right; left
        have : Arr.len (some b) = 0 := by simpa using hlen
        simp [step, pop, Res.assert, this]
      · obtain ⟨a', h1, h2⟩ := pop_rep h.2 hne
        left
        refine ⟨a', _, _, _, by rw [List.getLast?_eq_some_getLast hne], by simp [step, h1], h2⟩
  | shift =>
    simp only [arrStep, Option.some.injEq] at hr
    subst hr
    cases a with
    | none =>
      obtain ⟨_, rfl⟩ := h
      right; left; simp [step, shift, Res.assert, Arr.len]
    | some b =>
      cases l with
      | nil =>
        right; left
        have : Arr.len (some b) = 0 := by simpa using hlen
        simp [step, shift, Res.assert, this]
      | cons v l =>
        obtain ⟨a', h1, h2⟩ := shift_rep h.2
        left; exact ⟨a', _, _, _, rfl, by simp [step, h1], h2⟩
  | insert i v =>
    simp only [arrStep, Option.some.injEq] at hr
    subst hr
    by_cases hi : 0 ≤ i ∧ i < l.length
    · obtain ⟨a', h1, h2⟩ := insert_rep h v hi
      left; exact ⟨a', _, _, _, by rw [if_pos hi], by simp [step, h1], h2⟩
    · right; left
      refine ⟨by rw [if_neg hi], ?_⟩
      simp only [step, insert, hlen, assert_idx_abort hi, Res.bind_abort]
  | remove i =>
    simp only [arrStep, Option.some.injEq] at hr
    subst hr
    by_cases hi : 0 ≤ i ∧ i < l.length
    · cases a with
      | none => obtain ⟨_, rfl⟩ := h; simp at hi; omega
      | some b =>
        obtain ⟨a', h1, h2⟩ := remove_rep h.2 hi
        left; exact ⟨a', _, _, _, by rw [if_pos hi], by simp [step, h1], h2⟩
    · right; left
      refine ⟨by rw [if_neg hi], ?_⟩
      simp only [step, remove, hlen, assert_idx_abort hi, Res.bind_abort]
  | set i v =>
    simp only [arrStep, Option.some.injEq] at hr
    subst hr
    by_cases hi : 0 ≤ i ∧ i < l.length
    · cases a with
      | none => obtain ⟨_, rfl⟩ := h; simp at hi; omega
      | some b =>
        obtain ⟨a', h1, h2⟩ := set_rep h.2 v hi
        left; exact ⟨a', _, _, _, by rw [if_pos hi], by simp [step, h1], h2⟩
    · right; left
      refine ⟨by rw [if_neg hi], ?_⟩
      simp only [step, set, hlen, assert_idx_abort hi, Res.bind_abort]
  | get i =>
    simp only [arrStep, Option.some.injEq] at hr
    subst hr
    by_cases hi : 0 ≤ i ∧ i < l.length
    · cases a with
      | none => obtain ⟨_, rfl⟩ := h; simp at hi; omega
      | some b =>
        obtain ⟨k, rfl⟩ : ∃ k : Nat, i = k := ⟨i.toNat, by omega⟩
        have hk : k < l.length := by omega
        have := readCell_holds h.2 hk
        left
        refine ⟨some b, true, l, .val l[k], ?_, ?_, ?_⟩
        · simp [hi.1, hk]
        · simp only [step, get, hlen, assert_idx_ok hi, Res.bind_ok, Int.toNat_natCast, this, Res.pure_eq]
        · exact ⟨rfl, h.2⟩
    · right; left
      refine ⟨?_, ?_⟩
      · by_cases h0 : 0 ≤ i
        · have : l.length ≤ i.toNat := by omega
          simp [h0, List.getElem?_eq_none this]
        · simp [h0]
      · simp only [step, get, hlen, assert_idx_abort hi, Res.bind_abort]
  | len =>
    simp only [arrStep, Option.some.injEq] at hr
    subst hr
    left; exact ⟨a, _, _, _, rfl, by simp [step, hlen], h⟩
  | clear =>
    simp only [arrStep, Option.some.injEq] at hr
    subst hr
    cases a with
    | none => obtain ⟨rfl, rfl⟩ := h; right; right; simp [step, clear]
    | some b =>
      obtain ⟨rfl, h⟩ := h
      left
      exact ⟨some { b with n := 0 }, true, [], .unit, by simp, by simp [step, clear],
        rfl, rfl, h.len, b.cells, by simp⟩
  | resize n v =>
    simp only [arrStep] at hr
    by_cases hneg : n < 0
    · simp only [hneg, if_true, Option.some.injEq] at hr
      subst hr
      right; left
      have : ¬ n ≥ 0 := by omega
      simp only [step, resize, Res.assert, this, decide_false, Bool.false_eq_true, if_false,
        Res.bind_abort, and_self]
    · obtain ⟨k, rfl⟩ : ∃ k : Nat, n = k := ⟨n.toNat, by omega⟩
      simp only [hneg, if_false] at hr
      by_cases hle : (k : Int) ≤ l.length
      · simp only [hle, if_true, Option.some.injEq] at hr
        subst hr
        cases a with
        | none =>
          obtain ⟨rfl, rfl⟩ := h
          right; right
          have : k = 0 := by simpa using hle
          subst this
          refine ⟨by simp, by simp [step, resize, Res.assert, Arr.len]⟩
        | some b =>
          obtain ⟨rfl, h⟩ := h
          obtain ⟨a', h1, h2⟩ := resize_shrink h k v (by omega)
          left; exact ⟨a', true, l.take k, .unit, by simp, by simp only [step, h1, Res.bind_ok, Res.pure_eq], h2⟩
      · simp only [hle, if_false] at hr
        by_cases hnil : l = []
        · subst hnil
          simp only [if_true, Option.some.injEq] at hr
          subst hr
          obtain ⟨a', h1, h2⟩ := resize_empty h k v (by simp at hle; omega)
          left; exact ⟨a', _, _, _, rfl, by simp only [step, h1, Res.bind_ok, Res.pure_eq], h2⟩
        · simp [hnil] at hr

theorem run_spec : ∀ (ops : List (Op α)) (a : Arr α) (t : Bool) (l : List α), Rep a t l →
    ∀ r, arrRun t l ops = some r → run a ops = r
  | [], a, t, l, _, r, hr => by simp only [arrRun, Option.some.injEq] at hr; subst hr; rfl
  | op :: ops, a, t, l, h, r, hr => by
    simp only [arrRun] at hr
    cases hs : arrStep t l op with
    | none => rw [hs] at hr; simp at hr
    | some s =>
      rw [hs] at hr
      rcases step_spec h op s hs with ⟨a', t', l', o, rfl, hstep, hrep⟩ | ⟨rfl, hstep⟩ | ⟨rfl, hstep⟩
      · simp only at hr
        cases hrun : arrRun t' l' ops with
        | none => rw [hrun] at hr; simp at hr
        | some r' =>
          rw [hrun] at hr
          simp only [Option.some.injEq] at hr
          have := run_spec ops a' t' l' hrep r' hrun
          subst hr
          simp only [run, hstep, Res.bind_ok, this]
      · simp only [Option.some.injEq] at hr; subst hr; simp [run, hstep]
      · simp only [Option.some.injEq] at hr; subst hr; simp [run, hstep]

end Arr
end Tiny
