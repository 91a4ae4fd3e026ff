import Verif.Proofs.StdString
import Verif.Spec.Sort
import Verif.Props.Lex

/-!
# C38, C39, C40: strings, sorting, numbers in the standard library
-/

namespace Tiny
open Spec Std

/-! ## C38: strings -/

/-- **C38.** `strcat` of any number of strings is a new string of all their bytes in order; everything that was
live stays live and unchanged. -/
theorem c38_strcat {cmem h} {args : List Value} {bs : List (List UInt8)} (hf : ∀ o ∈ h.list, o < h.next)
    (ha : AreStrs cmem h args bs) : ∃ o h', strcat cmem args h = .ok (.str o, h') ∧
      IsStr cmem h' (.str o) bs.flatten ∧ Extends h h' ∧ o ∉ h.list := by
  obtain ⟨o, h', h1, h2, h3, h4⟩ := newString_of hf (l := bs.flatten) (r := [some 0]) (cmem := cmem)
  refine ⟨o, h', ?_, h2, h3, h4⟩
  have hc := copyAll_of (pre := []) (k := 1) ha
  simp only [List.nil_append, List.length_nil] at hc
  rw [strcat, totalLen_of ha, Res.bind_ok, newBuf_part, hc, Res.bind_ok]
  show (bufSet (part bs.flatten (0 + 1)) bs.flatten.length 0 >>= fun buf => newString h buf bs.flatten.length) = _
  rw [bufSet_part, Res.bind_ok]
  simpa [part] using h1

/-- **C38.** `substr(s, a, b)`, completely: with `e` the length when `b` is -1 and `b` otherwise, it returns the bytes
from `a` up to before `e` when `0 ≤ a ≤ e ≤ length`, and otherwise fails an assertion - except that for `a = e` beyond
the length it returns the empty string. -/
theorem c38_substr {cmem h lit} {v : Value} {s : List UInt8} {a b : Int} (hf : ∀ o ∈ h.list, o < h.next)
    (hl : cmem lit = [0]) (hv : IsStr cmem h v s) (hs : s.length < 2 ^ 31) (ha : Fits32 a) (hb : Fits32 b)
    (e : Int) (he : e = if b = -1 then (s.length : Int) else b) :
    (0 ≤ a ∧ a ≤ e ∧ e ≤ s.length → ∃ r h', substr cmem lit [v, intVal a, intVal b] h = .ok (r, h') ∧
        IsStr cmem h' r ((s.drop a.toNat).take (e.toNat - a.toNat)) ∧ Extends h h') ∧
    (0 ≤ a ∧ a = e ∧ s.length < e → substr cmem lit [v, intVal a, intVal b] h = .ok (.cstr lit, h)) ∧
    (a < 0 ∨ e < a ∨ (a < e ∧ s.length < e) → substr cmem lit [v, intVal a, intVal b] h = .abort) := by
  have hlit : ∀ h', IsStr cmem h' (.cstr lit) [] := by intro h'; simp [IsStr, hl]
  have hstart : substr cmem lit [v, intVal a, intVal b] h = (do
    Res.assert (decide (0 ≤ a ∧ a ≤ e))
    if a = e then .ok (.cstr lit, h)
    else do
      Res.assert (decide (e ≤ s.length))
      let buf ← subCopy (s ++ [0]) a.toNat (newBuf ((e - a).toNat + 1)) a.toNat (e - a).toNat
      let buf ← bufSet buf (e - a).toNat 0
      newString h buf (e - a).toNat) := by
    simp only [substr]
    rw [toStr_of hv, Res.bind_ok, stringLen_of hv, Res.bind_ok, toNumberInt_of ha, Res.bind_ok, toNumberInt_of hb,
      Res.bind_ok, len32 hs, he]
    rfl
  rw [hstart]
  refine ⟨?_, ?_, ?_⟩
  · intro ⟨h1, h2, h3⟩
    rw [Res.assert, if_pos (by simpa using ⟨h1, h2⟩), Res.bind_ok]
    by_cases hae : a = e
    · rw [if_pos hae]
      refine ⟨_, _, rfl, ?_, Extends.refl hf⟩
      rw [hae, Nat.sub_self, List.take_zero]; exact hlit h
    · rw [if_neg hae, Res.assert, if_pos (by simpa using h3), Res.bind_ok]
      have hn : (e - a).toNat = e.toNat - a.toNat := by omega
      have hsc := subCopy_of (s := s ++ [0]) (start := a.toNat) (k := (e - a).toNat) (n := 1) (j := 0)
        (by simp; omega)
      simp only [Nat.add_zero, List.take_zero, Nat.zero_add] at hsc
      rw [newBuf_part, hsc, Res.bind_ok]
      have htake : ((s ++ [0]).drop a.toNat).take (e - a).toNat = (s.drop a.toNat).take (e.toNat - a.toNat) := by
        rw [List.drop_append_of_le_length (by omega), List.take_append_of_le_length (by simp; omega), hn]
      rw [htake]
      have hlen : (e - a).toNat = ((s.drop a.toNat).take (e.toNat - a.toNat)).length := by simp; omega
      rw [hlen]
      show ∃ r h', (bufSet (part _ (0 + 1)) _ 0 >>= _) = _ ∧ _
      rw [bufSet_part, Res.bind_ok]
      obtain ⟨o, h', g1, g2, g3, _⟩ := newString_of hf (l := (s.drop a.toNat).take (e.toNat - a.toNat))
        (r := [some 0]) (cmem := cmem)
      exact ⟨_, _, by simpa [part] using g1, g2, g3⟩
  · intro ⟨h1, h2, h3⟩
    rw [Res.assert, if_pos (by simp; omega), Res.bind_ok, if_pos h2]
  · intro hx
    by_cases h0 : 0 ≤ a ∧ a ≤ e
    · rw [Res.assert, if_pos (by simpa using h0), Res.bind_ok, if_neg (by omega), Res.assert,
        if_neg (by simp; omega)]
      rfl
    · rw [Res.assert, if_neg (by simpa using h0)]
      rfl

/-- **C38.** Cutting a string anywhere and concatenating the pieces gives the string back. -/
theorem c38_pieces {cmem h lit} {v : Value} {s : List UInt8} {k : Int} (hf : ∀ o ∈ h.list, o < h.next)
    (hl : cmem lit = [0]) (hv : IsStr cmem h v s) (hs : s.length < 2 ^ 31) (h0 : 0 ≤ k) (hk : k ≤ s.length) :
    ∃ p h₁ q h₂ r h₃, substr cmem lit [v, intVal 0, intVal k] h = .ok (p, h₁) ∧
      substr cmem lit [v, intVal k, intVal (-1)] h₁ = .ok (q, h₂) ∧ strcat cmem [p, q] h₂ = .ok (r, h₃) ∧
      IsStr cmem h₃ r s := by
  have hk32 : Fits32 k := ⟨by omega, by omega⟩
  obtain ⟨p, h₁, e1, s1, x1⟩ := (c38_substr hf hl hv hs (a := 0) (b := k) (by decide) hk32 k
    (by rw [if_neg (by omega)])).1 ⟨by omega, h0, hk⟩
  obtain ⟨q, h₂, e2, s2, x2⟩ := (c38_substr x1.fresh hl (isStr_ext x1 hv) hs (a := k) (b := -1) hk32 (by decide) s.length
    (by rw [if_pos rfl])).1 ⟨h0, hk, Int.le_refl _⟩
  obtain ⟨o, h₃, e3, s3, _⟩ := c38_strcat (cmem := cmem) (args := [p, q]) (bs := [_, _]) x2.fresh
    ⟨isStr_ext x2 s1, s2, trivial⟩
  refine ⟨p, h₁, q, h₂, _, h₃, e1, e2, e3, ?_⟩
  have : (s.drop (0 : Int).toNat).take (k.toNat - (0 : Int).toNat) ++
      ((s.drop k.toNat).take ((s.length : Int).toNat - k.toNat)) = s := by
    rw [show (s.drop k.toNat).take ((s.length : Int).toNat - k.toNat) = s.drop k.toNat from
      List.take_of_length_le (by simp)]
    simp
  simp only [List.flatten_cons, List.flatten_nil, List.append_nil] at s3
  rw [this] at s3
  exact s3

/-- `strlen` is the number of bytes before the first NUL: the length, when there is none. -/
theorem c38_strlen {cmem h} {v : Value} {s : List UInt8} {rest} (hv : IsStr cmem h v s)
    (hs : s.length < 2 ^ 31) : strlenF cmem (v :: rest) h =
      .ok (intVal (s.takeWhile (· ≠ 0)).length, h) := by
  simp only [strlenF]
  rw [toStr_of hv, Res.bind_ok, strlen, Res.bind_ok]
  have e : (s ++ [0]).takeWhile (· ≠ 0) = s.takeWhile (· ≠ 0) := by
    rw [List.takeWhile_append]
    split
    · rename_i hh
      rw [List.takeWhile_cons, if_neg (by simp), List.append_nil]
      exact ((List.takeWhile_prefix _).eq_of_length hh).symm
    · rfl
  rw [e, newInt_fits]
  have := (List.takeWhile_sublist (p := fun c : UInt8 => decide (c ≠ 0)) (l := s)).length_le
  constructor <;> omega

theorem takeWhile_no_nul {s : List UInt8} (h : 0 ∉ s) : s.takeWhile (· ≠ 0) = s := by
  induction s with
  | nil => rfl
  | cons c cs ih =>
    rw [List.takeWhile_cons, if_pos (by simpa using fun e : c = 0 => h (by simp [e])), ih (fun hm => h (by simp [hm]))]

/-- **C38.** The length of a concatenation of strings without NUL bytes is the sum of their lengths. -/
theorem c38_strlen_strcat {cmem h} {args : List Value} {bs : List (List UInt8)} (hf : ∀ o ∈ h.list, o < h.next)
    (ha : AreStrs cmem h args bs) (hz : ∀ b ∈ bs, 0 ∉ b) (hs : (bs.map List.length).sum < 2 ^ 31) :
    ∃ r h', strcat cmem args h = .ok (r, h') ∧
      strlenF cmem [r] h' = .ok (intVal (bs.map List.length).sum, h') := by
  obtain ⟨o, h', h1, h2, _, _⟩ := c38_strcat hf ha
  refine ⟨_, _, h1, ?_⟩
  rw [← List.length_flatten] at hs ⊢
  rw [c38_strlen h2 hs, takeWhile_no_nul]
  intro hm
  obtain ⟨b, hb, hm⟩ := List.mem_flatten.mp hm
  exact hz b hb hm

/-- **C38, defect.** `strlen` stops at a NUL byte although string objects know their length (and `strchr`, `strcat`,
`substr` use it): for a string of the bytes 65, 0, 66 it is 1. -/
theorem c38_defect_nul {cmem h} {v : Value} (hv : IsStr cmem h v [65, 0, 66]) :
    strlenF cmem [v] h = .ok (intVal 1, h) := c38_strlen hv (by decide)

/-- **C38.** `strchr` finds the first position of a byte, and is -1 when there is none. -/
theorem c38_strchr {cmem h} {v : Value} {s : List UInt8} {c : UInt8} {x : BitVec 64} {rest} (hv : IsStr cmem h v s)
    (hs : s.length < 2 ^ 31) (hx : x.truncate 8 = c.toBitVec) :
    (c ∉ s ∧ strchr cmem (v :: .int x :: rest) h = .ok (intVal (-1), h)) ∨
    (∃ a b, s = a ++ c :: b ∧ c ∉ a ∧ strchr cmem (v :: .int x :: rest) h = .ok (intVal a.length, h)) := by
  have e0 : strchr cmem (v :: .int x :: rest) h =
      (match s.findIdx? (· == c) with
      | some k => .ok (newInt k, h)
      | none => .ok (newInt (-1), h)) := by
    simp only [strchr]
    rw [toStr_of hv, Res.bind_ok, stringLen_of hv, Res.bind_ok]
    simp only [toInt, hx, List.take_left]
    rfl
  rw [e0]
  cases hk : s.findIdx? (· == c) with
  | none =>
    refine .inl ⟨?_, by rw [newInt_fits (by decide)]⟩
    rw [List.findIdx?_eq_none_iff] at hk
    intro hm; simpa using hk c hm
  | some k =>
    rw [List.findIdx?_eq_some_iff_getElem] at hk
    obtain ⟨hlt, h1, h2⟩ := hk
    refine .inr ⟨s.take k, s.drop (k + 1), ?_, ?_, ?_⟩
    · have : s[k] = c := by simpa using h1
      rw [← this, List.getElem_cons_drop hlt, List.take_append_drop]
    · intro hm
      obtain ⟨i, hi, e⟩ := List.mem_iff_getElem.mp hm
      simp only [List.length_take] at hi
      rw [List.getElem_take] at e
      have := h2 i (by omega)
      rw [e] at this; simp at this
    · have : (s.take k).length = k := by simp; omega
      rw [this]
      show Res.ok (newInt k, h) = _
      rw [newInt_fits ⟨by omega, by omega⟩]

/-- **C38.** `stridx(s, i)` is byte `i` as a signed `char` for `0 ≤ i < strlen(s)` and fails an assertion for every
other 32-bit `i`. -/
theorem c38_stridx {cmem h} {v : Value} {s : List UInt8} {i : Int} {rest} (hv : IsStr cmem h v s) (hz : 0 ∉ s)
    (hi : Fits32 i) :
    stridx cmem (v :: intVal i :: rest) h =
      match (if i < 0 then none else s[i.toNat]?) with
      | some c => .ok (intVal (c.toBitVec.toInt), h)
      | none => .abort := by
  have e : ((BitVec.ofInt 64 i).truncate 32).toInt = i := by
    have := hi.1; have := hi.2
    rw [BitVec.truncate_eq_setWidth, BitVec.toInt_setWidth, BitVec.toNat_ofInt]
    have e1 : (((i % ((2 ^ 64 : Nat) : Int)).toNat : Nat) : Int) = i % 2 ^ 64 := by omega
    rw [e1, Int.bmod_def]
    omega
  have et : (s ++ [0]).takeWhile (· ≠ 0) = s := by
    rw [List.takeWhile_append, takeWhile_no_nul hz]; simp
  have e0 : stridx cmem (v :: intVal i :: rest) h = stridxAt h (s ++ [0]) s.length i := by
    simp only [stridx]
    rw [toStr_of hv, Res.bind_ok, strlen, Res.bind_ok, et]
    show stridxAt h _ _ ((BitVec.ofInt 64 i).truncate 32).toInt = _
    rw [e]; rfl
  rw [e0, stridxAt]
  by_cases hn : i < 0
  · rw [if_pos hn, Res.assert, if_neg (by simp; omega)]; rfl
  · rw [if_neg hn]
    cases hc : s[i.toNat]? with
    | none =>
      rw [List.getElem?_eq_none_iff] at hc
      rw [Res.assert, if_neg (by simp; omega)]; rfl
    | some c =>
      obtain ⟨hlt, hc'⟩ := List.getElem?_eq_some_iff.mp hc
      rw [Res.assert, if_pos (by simp; omega), Res.bind_ok]
      rw [List.getElem?_append_left hlt, hc]
      simp only
      rw [newInt_fits]
      · have h1 := BitVec.toInt_lt (x := c.toBitVec)
        have h2 := BitVec.le_toInt (x := c.toBitVec)
        constructor <;> omega

/-- A thread heap with one string object, and constants 0: "ab", 1: "". -/
def strHeap : Heap := { next := 1, list := [0], obj := fun _ => .str [104, 105], numObjects := 1 }

/-- The constants of the example. -/
def strMem : Nat → List UInt8 := fun p => if p = 0 then [97, 98, 0] else [0]

example : AreStrs strMem strHeap [.str 0, .cstr 0, .str 0] [[104, 105], [97, 98], [104, 105]] ∧
    (∀ o ∈ strHeap.list, o < strHeap.next) ∧ strMem 1 = [0] := by
  simp [AreStrs, IsStr, strHeap, strMem]

example : ∃ h', strcat strMem [.str 0, .cstr 0, .str 0] strHeap = .ok (.str 1, h') ∧
    h'.obj 1 = .str [104, 105, 97, 98, 104, 105] := ⟨_, rfl, rfl⟩

example : ∃ h', substr strMem 1 [.cstr 0, intVal 1, intVal (-1)] strHeap = .ok (.str 1, h') ∧
    h'.obj 1 = .str [98] := ⟨_, rfl, rfl⟩

example : substr strMem 1 [.cstr 0, intVal 1, intVal 3] strHeap = .abort := rfl
/-- The odd case: an empty range beyond the end. -/
example : substr strMem 1 [.cstr 0, intVal 7, intVal 7] strHeap = .ok (.cstr 1, strHeap) := rfl

/-! ## C39: sorting -/

/-- Where two integers are less than 2^31 apart, the comparison is their difference. -/
theorem compareInts_near {a b : BitVec 64} (h : Fits32 (a.toInt - b.toInt)) :
    ∃ x, compareInts (.int a) (.int b) = .ok x ∧ x.toInt = a.toInt - b.toInt := by
  have hb := h.1; have hb2 := h.2
  have ho : BitVec.ssubOverflow a b = false := by
    simp only [BitVec.ssubOverflow, Bool.or_eq_false_iff, decide_eq_false_iff_not]
    constructor <;> omega
  refine ⟨_, by rw [compareInts, ho]; rfl, ?_⟩
  have e : (a - b).toInt = a.toInt - b.toInt := by
    rw [BitVec.toInt_sub]
    apply Int.bmod_eq_of_le <;> omega
  have e2 : ((a - b).truncate 32) = BitVec.ofInt 32 (a - b).toInt := by
    apply BitVec.eq_of_toNat_eq
    rw [BitVec.truncate_eq_setWidth, BitVec.toNat_setWidth, BitVec.toNat_ofInt]
    have hc := BitVec.toInt_eq_toNat_cond (a - b)
    have := (a - b).isLt
    split at hc <;> omega
  rw [e2, BitVec.toInt_ofInt, e]
  apply Int.bmod_eq_of_le <;> omega

/-- **C39.** Whatever sorting algorithm `qsort` is, as long as it keeps its contract: sorting an array of integers
which lie less than 2^31 apart puts them in ascending order. -/
theorem c39_sort {qsort : List Value → List Value} (hq : QsortContract compareInts qsort) {l : List Value}
    (hi : ∀ v ∈ l, ∃ i, v = .int i) (hn : ∀ a ∈ l, ∀ b ∈ l, intOf a - intOf b < 2 ^ 31) :
    (qsort l).Perm l ∧ (qsort l).Pairwise (fun a b => intOf a ≤ intOf b) := by
  have hc : ∀ a ∈ l, ∀ b ∈ l, ∃ x, compareInts a b = .ok x ∧ x.toInt = intOf a - intOf b := by
    intro a ha b hb
    have h1 := hn a ha b hb
    have h2 := hn b hb a ha
    obtain ⟨i, rfl⟩ := hi a ha
    obtain ⟨j, rfl⟩ := hi b hb
    simp only [intOf] at h1 h2
    exact compareInts_near (a := i) (b := j) ⟨by omega, by omega⟩
  obtain ⟨h1, h2⟩ := hq l (fun a b => intOf a - intOf b) hc (fun a _ b _ => by omega)
    (fun a _ b _ d _ => by omega)
  exact ⟨h1, h2.imp (fun h => by omega)⟩

/-- **C39, defect.** Farther apart it is no order: three integers each of which compares less than the next, round
in a circle; and two different integers that compare equal. -/
theorem c39_defect :
    (∃ a b c x y z, compareInts (.int a) (.int b) = .ok x ∧ compareInts (.int b) (.int c) = .ok y ∧
      compareInts (.int c) (.int a) = .ok z ∧ x.toInt < 0 ∧ y.toInt < 0 ∧ z.toInt < 0 ∧
      a.toInt < b.toInt ∧ b.toInt < c.toInt) ∧
    (∃ a b, compareInts (.int a) (.int b) = .ok 0#32 ∧ a ≠ b) :=
  ⟨⟨0#64, 0x7fffffff#64, 0xfffffffe#64, _, _, _, rfl, rfl, rfl, by decide, by decide, by decide, by decide,
    by decide⟩, ⟨0#64, 0x100000000#64, rfl, by decide⟩⟩

/-- Insertion into a list sorted by `compareInts` (a sample `qsort`). -/
def insertV (cmp : Value → Value → Res (BitVec 32)) (v : Value) : List Value → List Value
  | [] => [v]
  | w :: ws =>
    match cmp v w with
    | .ok x => if x.toInt ≤ 0 then v :: w :: ws else w :: insertV cmp v ws
    | _ => v :: w :: ws

theorem insertV_perm (cmp v) : ∀ l, (insertV cmp v l).Perm (v :: l)
  | [] => .refl _
  | w :: ws => by
    rw [insertV]
    split
    · split
      · exact .refl _
      · exact ((insertV_perm cmp v ws).cons w).trans (List.Perm.swap v w ws)
    · exact .refl _

/-- The contract can be kept: insertion sort does. -/
theorem qsort_exists (cmp : Value → Value → Res (BitVec 32)) : QsortContract cmp (List.foldr (insertV cmp) []) := by
  intro l c h1 h2 h3
  have hperm : ∀ l : List Value, (List.foldr (insertV cmp) [] l).Perm l := by
    intro l
    induction l with
    | nil => exact .refl _
    | cons v vs ih => exact (insertV_perm cmp v _).trans (ih.cons v)
  refine ⟨hperm l, ?_⟩
  have hins : ∀ (v : Value) (ws : List Value), (∀ w ∈ v :: ws, w ∈ l) → ws.Pairwise (fun a b => c a b ≤ 0) →
      (insertV cmp v ws).Pairwise (fun a b => c a b ≤ 0) := by
    intro v ws
    induction ws with
    | nil => intro _ _; simp [insertV]
    | cons w ws ih =>
      intro hm hp
      obtain ⟨x, e, ex⟩ := h1 v (hm v (by simp)) w (hm w (by simp))
      rw [insertV, e]
      rw [List.pairwise_cons] at hp
      by_cases hx : x.toInt ≤ 0
      · rw [show (match Res.ok x with | .ok x => if x.toInt ≤ 0 then v :: w :: ws else w :: insertV cmp v ws | _ => v :: w :: ws) = v :: w :: ws from if_pos hx]
        rw [List.pairwise_cons]
        refine ⟨?_, List.pairwise_cons.mpr hp⟩
        intro u hu
        rcases List.mem_cons.mp hu with rfl | hu
        · omega
        · exact h3 v (hm v (by simp)) w (hm w (by simp)) u (hm u (by simp [hu])) (by omega) (hp.1 u hu)
      · rw [show (match Res.ok x with | .ok x => if x.toInt ≤ 0 then v :: w :: ws else w :: insertV cmp v ws | _ => v :: w :: ws) = w :: insertV cmp v ws from if_neg hx]
        rw [List.pairwise_cons]
        refine ⟨?_, ih (fun u hu => hm u (by rcases List.mem_cons.mp hu with rfl | hu <;> simp [*])) hp.2⟩
        intro u hu
        rcases List.mem_cons.mp ((insertV_perm cmp v ws).mem_iff.mp hu) with rfl | hu
        · have := (h2 w (hm w (by simp)) u (hm u (by simp))).mpr (by omega); omega
        · exact hp.1 u hu
  have : ∀ (k : List Value), (∀ w ∈ k, w ∈ l) → (List.foldr (insertV cmp) [] k).Pairwise (fun a b => c a b ≤ 0) := by
    intro k
    induction k with
    | nil => intro _; exact .nil
    | cons v vs ih =>
      intro hm
      refine hins v _ ?_ (ih (fun w hw => hm w (by simp [hw])))
      intro w hw
      rcases List.mem_cons.mp hw with rfl | hw
      · exact hm w (by simp)
      · exact hm w (List.mem_cons_of_mem _ ((hperm vs).mem_iff.mp hw))
  exact this l (fun _ h => h)

example : (List.foldr (insertV compareInts) [] [.int 5, .int (-7), .int 3, .int 5]) =
    [.int (-7), .int 3, .int 5, .int 5] := by decide
/-- With integers far apart the same sort leaves an array that is not ascending. -/
example : (List.foldr (insertV compareInts) [] [.int 0xfffffffe#64, .int 0#64]) = [.int 0xfffffffe#64, .int 0#64] := by
  decide

/-! ## C40: integers and their text -/

theorem fmtDigits_decimal (n : Nat) : fmtDigits n = decimal n := by
  induction n using fmtDigits.induct with
  | case1 n h => rw [fmtDigits, decimal, if_pos h, if_pos h]
  | case2 n h ih => rw [fmtDigits, decimal, if_neg h, if_neg h, ih]

/-- The decimal text of an integer: digits, with a minus sign in front of negative ones. -/
def intText (n : Int) : List UInt8 := if n < 0 then bytes "-" ++ decimal n.natAbs else decimal n.natAbs

theorem fmtInt_text (n : Int) : fmtInt n = intText n := by
  rw [fmtInt, intText, fmtDigits_decimal]; rfl

theorem decimal_length {k : Nat} : ∀ {n}, n < 10 ^ (k + 1) → (decimal n).length ≤ k + 1 := by
  induction k with
  | zero => intro n h; rw [decimal, if_pos (by omega)]; simp
  | succ k ih =>
    intro n h
    rw [decimal]
    split
    · simp
    · have := ih (n := n / 10) (by omega)
      simp; omega

theorem digits_value {s : List UInt8} (h : ∀ c ∈ s, Digit c) : ∀ acc, digitsFrom 10 acc s =
    s.foldl (fun a c => a * 10 + digitValue c) acc := by
  induction s with
  | nil => intro acc; rfl
  | cons c cs ih =>
    intro acc
    rw [digitsFrom, (digitOf_eq c).1 (h c (by simp))]
    exact ih (fun d hd => h d (by simp [hd])) _

theorem strtol_text (n : Int) (h1 : -2 ^ 63 ≤ n) (h2 : n < 2 ^ 63) : strtol 10 (intText n) = n := by
  have hsp : ∀ c, Digit c → isspace c = false ∧ c ≠ 45 ∧ c ≠ 43 := fun c =>
    byte_all (p := fun c => Digit c → isspace c = false ∧ c ≠ 45 ∧ c ≠ 43) (by decide +kernel) c
  have hval : ∀ m : Nat, digitsFrom 10 0 (decimal m) = m := by
    intro m
    rw [digits_value (decimal_digits m)]; exact decimal_value m
  have hskip : ∀ s, skipPrefix 10 s = s := by
    intro s
    unfold skipPrefix
    split
    · rw [if_neg (by simp)]
    · rfl
  obtain ⟨d, ds, hd⟩ : ∃ d ds, decimal n.natAbs = d :: ds := by
    cases h : decimal n.natAbs with
    | nil => exact absurd h (decimal_ne_nil _)
    | cons d ds => exact ⟨d, ds, rfl⟩
  have hdig := decimal_digits n.natAbs d (by rw [hd]; simp)
  have hv := hval n.natAbs
  rw [hd] at hv
  unfold intText
  by_cases hn : n < 0
  · rw [if_pos hn, hd]
    show strtol 10 (45 :: d :: ds) = n
    simp only [strtol, List.dropWhile, show isspace 45 = false by decide]
    simp only [List.head?_cons, beq_self_eq_true, Bool.true_or, if_true, List.tail_cons, hskip, hv]
    omega
  · rw [if_neg hn, hd]
    obtain ⟨g1, g2, g3⟩ := hsp d hdig
    simp [strtol, List.dropWhile, g1, g2, g3, hskip, hv]
    omega

/-- **C40.** `int_to_str` of a 64-bit integer is its decimal text. -/
theorem c40_int_to_str {h : Heap} (hf : ∀ o ∈ h.list, o < h.next) (i : BitVec 64) (rest : List Value) (cmem) :
    ∃ o h', intToStr (.int i :: rest) h = .ok (.str o, h') ∧ IsStr cmem h' (.str o) (intText i.toInt) ∧
      Extends h h' := by
  have hl : (intText i.toInt).length < 32 := by
    have h1 := BitVec.toInt_lt (x := i)
    have h2 := BitVec.le_toInt (x := i)
    have := decimal_length (k := 18) (n := i.toInt.natAbs) (by omega)
    unfold intText
    split
    · simp [bytes]; omega
    · omega
  obtain ⟨o, h', h1, h2, h3, _⟩ := newString_of hf (l := intText i.toInt) (r := []) (cmem := cmem)
  refine ⟨o, h', ?_, h2, h3⟩
  simp only [intToStr, toInt, fmtInt_text]
  rw [if_pos hl, ← h1, List.append_nil]

theorem intText_no_nul (n : Int) : 0 ∉ intText n := by
  have hd : ∀ m, (0 : UInt8) ∉ decimal m := fun m hm => absurd (decimal_digits m 0 hm) (by decide)
  unfold intText
  split
  · intro hm
    rcases List.mem_append.mp hm with hm | hm
    · exact absurd hm (by decide)
    · exact hd _ hm
  · exact hd _

/-- **C40.** `str_to_int(int_to_str(n))` is `n` for every integer of the 32-bit range, and in general the low 32 bits
of `n`. -/
theorem c40_roundtrip {h : Heap} (hf : ∀ o ∈ h.list, o < h.next) (i : BitVec 64) (cmem) :
    ∃ s h₁, intToStr [.int i] h = .ok (s, h₁) ∧
      stoi cmem [s] h₁ = .ok (.int ((i.truncate 32).signExtend 64), h₁) ∧
      (Fits32 i.toInt → stoi cmem [s] h₁ = .ok (.int i, h₁)) := by
  obtain ⟨o, h', h1, h2, _⟩ := c40_int_to_str hf i [] cmem
  have hb1 := BitVec.toInt_lt (x := i)
  have hb2 := BitVec.le_toInt (x := i)
  have e : stoi cmem [.str o] h' = .ok (newInt i.toInt, h') := by
    simp only [stoi]
    rw [toStr_of h2, Res.bind_ok]
    have et : (intText i.toInt ++ [0]).takeWhile (· ≠ 0) = intText i.toInt := by
      rw [List.takeWhile_append, takeWhile_no_nul (intText_no_nul _)]; simp
    simp only [et]
    rw [if_pos (by decide)]
    show Res.ok (newInt (strtol 10 (intText i.toInt)), h') = _
    rw [strtol_text _ (by omega) (by omega)]
  have e2 : newInt i.toInt = .int ((i.truncate 32).signExtend 64) := by
    rw [newInt]
    congr 2
    apply BitVec.eq_of_toNat_eq
    rw [BitVec.truncate_eq_setWidth, BitVec.toNat_setWidth, BitVec.toNat_ofInt]
    have hc := BitVec.toInt_eq_toNat_cond i
    have := i.isLt
    split at hc <;> omega
  refine ⟨_, _, h1, by rw [e, e2], fun hfit => ?_⟩
  rw [e, newInt_fits hfit, intVal, BitVec.ofInt_toInt]

/-- **C40.** Different integers have different texts. -/
theorem c40_text_injective {m n : Int} (hm : -2 ^ 63 ≤ m ∧ m < 2 ^ 63) (hn : -2 ^ 63 ≤ n ∧ n < 2 ^ 63)
    (h : intText m = intText n) : m = n := by
  rw [← strtol_text m hm.1 hm.2, ← strtol_text n hn.1 hn.2, h]

/-- **C40.** In a source text, the text of a non-negative 32-bit integer is the literal of that value; that of a
negative one is a minus sign and the literal of its absolute value (modulo 2^32). -/
theorem c40_source (strtod : List UInt8 → BitVec 64) (n : Int) (h : Fits32 n) :
    ∃ fuel L l', (Lexer.init (intText n)).tokens strtod fuel = .ok (L ++ [(.eofTok, l')]) ∧
      L.map (fun x => tokenOf strtod x.1 x.2) =
        if n < 0 then [some (.sym .minus), some (.int (BitVec.ofNat 32 n.natAbs))]
        else [some (.int (BitVec.ofInt 32 n))] := by
  have hd := c40_literal n.natAbs (by have := h.1; have := h.2; omega)
  have hlong : Longest (decimal n.natAbs) [] := longest_layout hd (.inl rfl)
  have hlit : ∀ m, Reads m (decimal n.natAbs) [⟨.int (BitVec.ofNat 32 n.natAbs), m, decimal n.natAbs, []⟩] m := by
    intro m
    have := Reads.token (n := m) (w := []) .nil hd hlong (.done (w := []) (.done .nil))
    simpa [newlines] using this
  by_cases hn : n < 0
  · have hm : Longest (bytes "-") (decimal n.natAbs) := by
      obtain ⟨d, ds, e⟩ : ∃ d ds, decimal n.natAbs = d :: ds := by
        cases h : decimal n.natAbs with
        | nil => exact absurd h (decimal_ne_nil _)
        | cons d ds => exact ⟨d, ds, rfl⟩
      have hdig := decimal_digits n.natAbs d (by rw [e]; simp)
      rw [e]
      refine ⟨?_, by simp [bytes]⟩
      intro s' t' h' hp
      have hp' : s' <+: 45 :: d :: ds := hp
      rcases h'.head_of_prefix hp' with ⟨_, x, k, hm, rfl, _⟩ | ⟨h, _⟩ | ⟨h, _⟩ | ⟨h, _⟩ | ⟨h, _⟩
      · have hsym : ∀ e ∈ symbols, bytes e.1 = [45] ∨ (bytes e.1).head? ≠ some 45 ∨ ∃ c r, bytes e.1 = 45 :: c :: r ∧ ¬ Digit c := by
          have : ∀ e ∈ symbols, bytes e.1 = [45] ∨ (bytes e.1).head? ≠ some 45 ∨
              ((bytes e.1).head? = some 45 ∧ ∃ c ∈ (bytes e.1).tail.head?, ¬ Digit c) := by decide +kernel
          intro e he
          rcases this e he with h | h | ⟨h1, c, h2, h3⟩
          · exact .inl h
          · exact .inr (.inl h)
          · refine .inr (.inr ⟨c, (bytes e.1).tail.tail, ?_, h3⟩)
            cases hb : bytes e.1 with
            | nil => rw [hb] at h1; simp at h1
            | cons x r =>
              cases r with
              | nil => rw [hb] at h2; simp at h2
              | cons y r => rw [hb] at h1 h2; simp at h1 h2; simp [h1, h2]
        rcases hsym _ hm with h | h | ⟨c, r, h, hc⟩
        · simp only at h; rw [h]; exact Nat.le_refl _
        · exfalso
          simp only at h
          obtain ⟨u, hu⟩ := hp'
          cases hb : bytes x with
          | nil => exact absurd (h'.class.head) (by rw [hb]; simp)
          | cons y r => rw [hb] at hu h; simp at hu h; exact h hu.1
        · exfalso
          simp only at h
          rw [h] at hp'
          obtain ⟨u, hu⟩ := hp'
          simp at hu
          exact hc (hu.1 ▸ hdig)
      all_goals exact absurd h (by decide)
    have hr := Reads.token (n := 1) (w := []) .nil (Spelled.sym (s := "-") (k := .minus) (by decide)) hm
      (hlit (1 + newlines []))
    have hr' : Reads 1 (intText n) [⟨.sym .minus, 1, bytes "-", decimal n.natAbs⟩,
        ⟨.int (BitVec.ofNat 32 n.natAbs), 1, decimal n.natAbs, []⟩] 1 := by
      rw [intText, if_pos hn]; simpa [newlines] using hr
    obtain ⟨fuel, L, l', h1, _, h2⟩ := c11_lex strtod (intText_no_nul n) hr'
    refine ⟨fuel, L, l', h1, ?_⟩
    have := congrArg (List.map Prod.fst) h2
    rw [List.map_map, List.map_map] at this
    rw [if_pos hn]
    exact this
  · have hr' := hlit 1
    have e : decimal n.natAbs = intText n := by rw [intText, if_neg hn]
    rw [e] at hr'
    obtain ⟨fuel, L, l', h1, _, h2⟩ := c11_lex strtod (intText_no_nul n) hr'
    refine ⟨fuel, L, l', h1, ?_⟩
    have := congrArg (List.map Prod.fst) h2
    rw [List.map_map, List.map_map] at this
    rw [if_neg hn]
    have e2 : BitVec.ofInt 32 n = BitVec.ofNat 32 n.natAbs := by
      conv => lhs; rw [show n = ((n.natAbs : Nat) : Int) by omega]
      exact BitVec.ofInt_natCast ..
    rw [e2]
    exact this

example : intText (-2147483648) = bytes "-2147483648" ∧ intText 907 = bytes "907" := by decide +kernel

end Tiny
