import Verif.Spec.Str

namespace Tiny
open Spec Std

theorem stringLen_of {cmem h v b} (e : IsStr cmem h v b) : stringLen cmem h v = .ok b.length := by
  cases v with
  | cstr p => simp only [IsStr] at e; simp [stringLen, e]
  | str o => obtain ⟨h1, h2⟩ := e; simp [stringLen, Heap.deref, h1, h2]
  | _ => exact e.elim

theorem toStr_of {cmem h v b} (e : IsStr cmem h v b) : toStr cmem h v = .ok (some (b ++ [0])) := by
  cases v with
  | cstr p => simp only [IsStr] at e; simp [toStr, e]
  | str o => obtain ⟨h1, h2⟩ := e; simp [toStr, Heap.deref, h1, h2]
  | _ => exact e.elim

theorem isStr_ext {cmem h h' v b} (hx : Extends h h') (e : IsStr cmem h v b) : IsStr cmem h' v b := by
  cases v with
  | cstr p => exact e
  | str o => exact ⟨hx.live _ e.1, by rw [hx.same _ e.1]; exact e.2⟩
  | _ => exact e.elim

theorem Extends.refl {h : Heap} (hf : ∀ o ∈ h.list, o < h.next) : Extends h h :=
  ⟨fun _ h => h, fun _ _ => rfl, hf, rfl⟩

theorem Extends.trans {h h' h'' : Heap} (a : Extends h h') (b : Extends h' h'') : Extends h h'' :=
  ⟨fun o ho => b.live o (a.live o ho), fun o ho => by rw [b.same o (a.live o ho), a.same o ho], b.fresh,
    b.freed.trans a.freed⟩

theorem Extends.alloc {h : Heap} (hf : ∀ o ∈ h.list, o < h.next) (x : Obj) :
    Extends h (h.alloc x).2 ∧ (h.alloc x).1 ∈ (h.alloc x).2.list ∧ (h.alloc x).2.obj (h.alloc x).1 = x ∧
      (h.alloc x).1 ∉ h.list := by
  refine ⟨⟨fun o ho => List.mem_cons_of_mem _ ho, ?_, ?_, rfl⟩, List.mem_cons_self, by simp [Heap.alloc, upd], ?_⟩
  · intro o ho
    have := hf o ho
    simp only [Heap.alloc, upd]
    rw [if_neg (by omega)]
  · intro o ho
    simp only [Heap.alloc, List.mem_cons] at ho
    show o < h.next + 1
    rcases ho with rfl | ho
    · omega
    · have := hf o ho; omega
  · intro hm; exact absurd (hf _ hm) (Nat.lt_irrefl _)

/-! ## Buffers -/

/-- A buffer holding the bytes `pre` and then `k` unwritten cells. -/
def part (pre : List UInt8) (k : Nat) : List (Option UInt8) := pre.map some ++ List.replicate k none

theorem newBuf_part (n : Nat) : newBuf n = part [] n := rfl

theorem bufSet_part {pre k c} : bufSet (part pre (k + 1)) pre.length c = .ok (part (pre ++ [c]) k) := by
  simp [bufSet, part, List.replicate_succ, List.set_append_right]

theorem memcpy_part {src rest : List UInt8} : ∀ {pre k}, memcpy (part pre (src.length + k)) pre.length (src ++ rest) src.length =
    .ok (part (pre ++ src) k) := by
  induction src with
  | nil => intro pre k; cases rest <;> simp [memcpy]
  | cons c cs ih =>
    intro pre k
    have e : (c :: cs).length + k = cs.length + k + 1 := by simp; omega
    rw [e, List.cons_append, List.length_cons, memcpy, bufSet_part, Res.bind_ok]
    have := ih (pre := pre ++ [c]) (k := k)
    rw [List.length_append, List.length_singleton] at this
    rw [this]; simp

theorem bufBytes_map (l : List UInt8) (r : List (Option UInt8)) : bufBytes l.length (l.map some ++ r) = .ok l := by
  induction l with
  | nil => rfl
  | cons c cs ih => simp [bufBytes, ih]

theorem newString_of {h : Heap} (hf : ∀ o ∈ h.list, o < h.next) {l : List UInt8} {r : List (Option UInt8)} {cmem} :
    ∃ o h', newString h (l.map some ++ r) l.length = .ok (.str o, h') ∧ IsStr cmem h' (.str o) l ∧ Extends h h' ∧
      o ∉ h.list := by
  obtain ⟨h1, h2, h3, h4⟩ := Extends.alloc hf (.str l)
  exact ⟨_, _, by rw [newString, bufBytes_map]; rfl, ⟨h2, h3⟩, h1, h4⟩

/-! ## strcat -/

theorem totalLen_of {cmem h} : ∀ {vs : List Value} {bs}, AreStrs cmem h vs bs → totalLen cmem h vs = .ok bs.flatten.length
  | [], [], _ => rfl
  | v :: vs, b :: bs, e => by
    rw [totalLen, stringLen_of e.1, Res.bind_ok, totalLen_of e.2]
    simp
  | [], _ :: _, e => e.elim
  | _ :: _, [], e => e.elim

theorem copyAll_of {cmem h} : ∀ {vs : List Value} {bs} {pre k}, AreStrs cmem h vs bs →
    copyAll cmem h (part pre (bs.flatten.length + k)) pre.length vs =
      .ok (part (pre ++ bs.flatten) k, (pre ++ bs.flatten).length)
  | [], [], pre, k, _ => by simp [copyAll]
  | v :: vs, b :: bs, pre, k, e => by
    rw [copyAll, stringLen_of e.1, Res.bind_ok, toStr_of e.1, Res.bind_ok]
    have e1 : (b :: bs).flatten.length + k = b.length + (bs.flatten.length + k) := by simp; omega
    rw [e1]
    show (memcpy _ _ (b ++ [0]) _ >>= _) = _
    rw [memcpy_part, Res.bind_ok]
    have := copyAll_of (pre := pre ++ b) (k := k) e.2
    rw [List.length_append] at this
    rw [this]; simp
  | [], _ :: _, _, _, e => e.elim
  | _ :: _, [], _, _, e => e.elim

/-! ## substr -/

theorem subCopy_of {s : List UInt8} {start : Nat} : ∀ {k n j}, start + j + k ≤ s.length →
    subCopy s start (part ((s.drop start).take j) (k + n)) (start + j) k =
      .ok (part ((s.drop start).take (j + k)) n) := by
  intro k
  induction k with
  | zero => intro n j _; simp [subCopy]
  | succ k ih =>
    intro n j hle
    have hlt : start + j < s.length := by omega
    rw [subCopy, List.getElem?_eq_getElem hlt]
    have hlen : ((s.drop start).take j).length = j := by simp; omega
    have e : start + j - start = ((s.drop start).take j).length := by rw [hlen]; omega
    simp only
    rw [e, show k + 1 + n = k + n + 1 by omega, bufSet_part, Res.bind_ok]
    have e2 : (s.drop start).take j ++ [s[start + j]] = (s.drop start).take (j + 1) := by
      rw [List.take_succ]
      congr 1
      simp [List.getElem?_drop, hlt]
    rw [e2, show start + j + 1 = start + (j + 1) by omega, ih (by omega)]
    congr 3; omega

theorem toNumberInt_of {n : Int} (h : Fits32 n) : toNumberInt (intVal n) = .ok n := by
  have e : (BitVec.ofInt 64 n).toInt = n := by
    rw [BitVec.toInt_ofInt]
    have := h.1; have := h.2
    apply Int.bmod_eq_of_le <;> omega
  simp only [intVal, toNumberInt, e]
  exact if_pos h

theorem len32 {n : Nat} (h : n < 2 ^ 31) : (BitVec.ofNat 32 n).toInt = n := by
  rw [BitVec.toInt_eq_toNat_of_lt] <;> simp <;> omega

/-! ## Numbers -/

theorem newInt_fits {n : Int} (h : Fits32 n) : newInt n = intVal n := by
  simp only [newInt, intVal]
  congr 1
  apply BitVec.eq_of_toInt_eq
  rw [BitVec.toInt_signExtend_of_le (by omega), BitVec.toInt_ofInt, BitVec.toInt_ofInt]
  have := h.1; have := h.2
  rw [Int.bmod_eq_of_le (by omega) (by omega), Int.bmod_eq_of_le (by omega) (by omega)]

end Tiny
