import Verif.Spec.Print
import Verif.Proofs.Heap
import Verif.Proofs.StdString
import Verif.Proofs.Bind

/-!
# Printing values
-/

namespace Tiny
open Spec Tiny.Std

/-- What printing follows: the elements of arrays and the fields of structs. -/
def shownHeap (h : Heap) : Heap := { h with natRefs := fun a k => if k = arrayProp then h.natRefs a k else [] }

theorem reach_one {h : Heap} {vs : List Value} {x : Nat} (r : Reach h vs x) : ∃ v ∈ vs, Reach h [v] x := by
  induction r with
  | root a b => exact ⟨_, a, .root (by simp) b⟩
  | step _ p ih => obtain ⟨v, h1, h2⟩ := ih; exact ⟨v, h1, .step h2 p⟩

theorem reach_first {h : Heap} {v : Value} {x : Nat} (r : Reach h [v] x) :
    ∃ o, v.objId? = some o ∧ (x = o ∨ Reach h (h.children o) x) := by
  induction r with
  | root a b => cases List.mem_singleton.1 a; exact ⟨_, b, .inl rfl⟩
  | step _ p ih =>
    obtain ⟨o, h1, h2⟩ := ih
    obtain ⟨w, hw, hp⟩ := p
    rcases h2 with rfl | h2
    · exact ⟨_, h1, .inr (.root hw hp)⟩
    · exact ⟨_, h1, .inr (.step h2 ⟨w, hw, hp⟩)⟩

/-- Printing a value is done at once, or prints what is inside. -/
theorem print_shape (E : PrintEnv) (h : Heap) (v : Value) :
    (∃ r, r ≠ .timeout ∧ (∀ f, print E h (f + 1) true v = r) ∧
      ((∃ t, r = .ok t) → ∀ o, v.objId? = some o → (shownHeap h).children o = [])) ∨
    (∃ o pre post, v.objId? = some o ∧ o ∈ h.list ∧ ∀ f, print E h (f + 1) true v = (do
      let s ← printEach (print E h f true) true ((shownHeap h).children o)
      .ok (pre ++ s ++ post))) := by
  cases v with
  | null => exact .inl ⟨_, by simp, fun _ => rfl, fun _ o ho => by cases ho⟩
  | bool b => exact .inl ⟨_, by simp, fun _ => rfl, fun _ o ho => by cases ho⟩
  | int i => exact .inl ⟨_, by simp, fun _ => rfl, fun _ o ho => by cases ho⟩
  | float i => exact .inl ⟨_, by simp, fun _ => rfl, fun _ o ho => by cases ho⟩
  | cstr p => exact .inl ⟨_, by simp, fun _ => rfl, fun _ o ho => by cases ho⟩
  | light p => exact .inl ⟨_, by simp, fun _ => rfl, fun _ o ho => by cases ho⟩
  | str o =>
    refine .inl ⟨print E h 1 true (.str o), ?_, fun _ => rfl, ?_⟩
    · simp only [print, Heap.deref]
      split
      · rw [Res.bind_ok]; split <;> simp
      · simp
    · rintro ⟨t, e⟩ o' ho
      cases ho
      simp only [print, Heap.deref] at e
      split at e
      · rw [Res.bind_ok] at e
        simp only [Heap.children, shownHeap]
        cases hb : h.obj o with
        | str b => rfl
        | _ => rw [hb] at e; cases e
      · cases e
  | native o =>
    by_cases hl : o ∈ h.list
    · cases hb : h.obj o with
      | native a p =>
        by_cases hp : p = arrayProp
        · refine .inr ⟨o, nameOf "[", nameOf "]", rfl, hl, fun f => ?_⟩
          simp only [print, Heap.deref, if_pos hl, Res.bind_ok, hb, hp]
          simp only [Heap.children, shownHeap, hb, hp, true_and, if_true]
        · refine .inl ⟨print E h 1 true (.native o), ?_, fun _ => ?_, ?_⟩
          · simp only [print, Heap.deref, if_pos hl, Res.bind_ok, hb, hp, and_false, if_false]
            split <;> simp
          · simp only [print, Heap.deref, if_pos hl, Res.bind_ok, hb, hp, and_false, if_false]
          · rintro _ o' ho
            cases ho
            simp only [Heap.children, shownHeap, hb, if_neg hp]
      | str b => refine .inl ⟨.ub, by simp, fun _ => by simp only [print, Heap.deref, if_pos hl, Res.bind_ok, hb], fun ⟨_, e⟩ => by cases e⟩
      | struct b => refine .inl ⟨.ub, by simp, fun _ => by simp only [print, Heap.deref, if_pos hl, Res.bind_ok, hb], fun ⟨_, e⟩ => by cases e⟩
    · exact .inl ⟨.ub, by simp, fun _ => by simp only [print, Heap.deref, if_neg hl, Res.bind_ub], fun ⟨_, e⟩ => by cases e⟩
  | struct o =>
    by_cases hl : o ∈ h.list
    · cases hb : h.obj o with
      | struct fs =>
        refine .inr ⟨o, nameOf "struct {", nameOf "}", rfl, hl, fun f => ?_⟩
        simp only [print, Heap.deref, if_pos hl, Res.bind_ok, hb]
        simp only [Heap.children, shownHeap, hb]
      | str b => refine .inl ⟨.ub, by simp, fun _ => by simp only [print, Heap.deref, if_pos hl, Res.bind_ok, hb], fun ⟨_, e⟩ => by cases e⟩
      | native b p => refine .inl ⟨.ub, by simp, fun _ => by simp only [print, Heap.deref, if_pos hl, Res.bind_ok, hb], fun ⟨_, e⟩ => by cases e⟩
    · exact .inl ⟨.ub, by simp, fun _ => by simp only [print, Heap.deref, if_neg hl, Res.bind_ub], fun ⟨_, e⟩ => by cases e⟩

theorem bind_not_timeout {α β : Type} {x : Res α} {f : α → Res β} (h : (x >>= f) ≠ .timeout) : x ≠ .timeout := by
  rintro rfl; exact h rfl

theorem printEach_stable {p q : Value → Res (List UInt8)} (hpq : ∀ v, p v ≠ .timeout → q v = p v) :
    ∀ (vs : List Value) (b : Bool), printEach p b vs ≠ .timeout → printEach q b vs = printEach p b vs
  | [], _, _ => rfl
  | v :: vs, b, h => by
    rw [printEach] at h
    have h1 := hpq v (bind_not_timeout h)
    rw [printEach, printEach, h1]
    cases hp : p v with
    | ok a =>
      rw [hp, Res.bind_ok] at h
      rw [Res.bind_ok, Res.bind_ok, printEach_stable hpq vs false (bind_not_timeout h)]
    | _ => rfl

/-- More depth does not change what is printed. -/
theorem print_stable (E : PrintEnv) (h : Heap) : ∀ (f : Nat) (v : Value), print E h f true v ≠ .timeout →
    print E h (f + 1) true v = print E h f true v
  | 0, v, hn => (hn rfl).elim
  | f + 1, v, hn => by
    rcases print_shape E h v with ⟨r, _, h2, _⟩ | ⟨o, pre, post, _, _, h2⟩
    · rw [h2, h2]
    · rw [h2] at hn
      rw [h2, h2, printEach_stable (fun v => print_stable E h f v) _ _ (bind_not_timeout hn)]

theorem print_ge (E : PrintEnv) (h : Heap) {f g : Nat} {v : Value} (hg : f ≤ g) (hn : print E h f true v ≠ .timeout) :
    print E h g true v = print E h f true v := by
  induction hg with
  | refl => rfl
  | step _ ih => rw [print_stable E h _ v (by rw [ih]; exact hn), ih]

theorem printEach_timeout {p : Value → Res (List UInt8)} : ∀ {vs : List Value} {b : Bool}, printEach p b vs = .timeout →
    ∃ v ∈ vs, p v = .timeout
  | [], _, e => by cases e
  | v :: vs, b, e => by
    rw [printEach] at e
    cases hp : p v with
    | ok a =>
      rw [hp, Res.bind_ok] at e
      cases hq : printEach p false vs with
      | timeout => obtain ⟨w, h1, h2⟩ := printEach_timeout hq; exact ⟨w, by simp [h1], h2⟩
      | _ => rw [hq] at e; cases e
    | timeout => exact ⟨v, by simp, hp⟩
    | _ => rw [hp] at e; cases e

theorem print_timeout (E : PrintEnv) (h : Heap) : ∀ (f : Nat) (v : Value), print E h f true v = .timeout →
    ∃ p : List Nat, p.length = f ∧ PathFrom (shownHeap h) [v] p
  | 0, v, _ => ⟨[], rfl, trivial⟩
  | f + 1, v, e => by
    rcases print_shape E h v with ⟨r, h1, h2, _⟩ | ⟨o, pre, post, hv, hl, h2⟩
    · rw [h2] at e; exact (h1 e).elim
    · rw [h2] at e
      have e' : printEach (print E h f true) true ((shownHeap h).children o) = .timeout := by
        cases hq : printEach (print E h f true) true ((shownHeap h).children o) with
        | timeout => rfl
        | _ => rw [hq] at e; cases e
      obtain ⟨w, hw, he⟩ := printEach_timeout e'
      obtain ⟨p, hp, hq⟩ := print_timeout E h f w he
      exact ⟨o :: p, by simp [hp], ⟨v, by simp, hv⟩, hl, pathFrom_mono (by simpa using hw) hq⟩

theorem printEach_each {p : Value → Res (List UInt8)} : ∀ {vs : List Value} {b : Bool} {s : List UInt8}, printEach p b vs = .ok s →
    ∀ v ∈ vs, ∃ t, p v = .ok t
  | [], _, _, _, v, hv => by cases hv
  | w :: vs, b, s, e, v, hv => by
    rw [printEach] at e
    obtain ⟨a, h1, e⟩ := Res.bind_eq_ok.1 e
    obtain ⟨r, h2, e⟩ := Res.bind_eq_ok.1 e
    rcases List.mem_cons.1 hv with rfl | hv
    · exact ⟨a, h1⟩
    · exact printEach_each h2 v hv

/-- What can be printed does not contain itself. -/
theorem print_no_cycle (E : PrintEnv) (h : Heap) : ∀ (f : Nat) (v : Value) (t : List UInt8), print E h f true v = .ok t →
    ¬ ReachableCycle (shownHeap h) [v]
  | 0, _, _, e => by cases e
  | f + 1, v, t, e => by
    rintro ⟨x, r1, r2⟩
    obtain ⟨o, hv, hx⟩ := reach_first r1
    rcases print_shape E h v with ⟨r, _, h2, h3⟩ | ⟨o', pre, post, hv', hl, h2⟩
    · have hc := h3 ⟨t, by rw [← h2 f]; exact e⟩ o hv
      rw [hc] at hx
      rcases hx with rfl | hx
      · rw [hc] at r2
        obtain ⟨w, hw, _⟩ := reach_one r2; cases hw
      · obtain ⟨w, hw, _⟩ := reach_one hx; cases hw
    · rw [hv] at hv'; cases hv'
      rw [h2] at e
      obtain ⟨s, e, _⟩ := Res.bind_eq_ok.1 e
      have hx' : Reach (shownHeap h) ((shownHeap h).children o) x := by
        rcases hx with rfl | hx
        · exact r2
        · exact hx
      obtain ⟨w, hw, hr⟩ := reach_one hx'
      obtain ⟨t', ht⟩ := printEach_each e w hw
      exact print_no_cycle E h f w t' ht ⟨x, hr, r2⟩

/-- The bound on the depth is enough. -/
theorem print_enough (E : PrintEnv) (h : Heap) {f : Nat} {v : Value} {t : List UInt8} (e : print E h f true v = .ok t) :
    print E h (h.list.length + 1) true v = .ok t := by
  cases Nat.le_total f (h.list.length + 1) with
  | inl hle => rw [print_ge E h hle (by rw [e]; simp), e]
  | inr hle =>
    by_cases ht : print E h (h.list.length + 1) true v = .timeout
    · obtain ⟨p, hp, hq⟩ := print_timeout E h _ v ht
      refine (print_no_cycle E h f v t e (path_dup_cycle p [v] hq fun hn => ?_)).elim
      have := nodup_length_le p h.list hn (path_mem_list (h := shownHeap h) p [v] hq)
      omega
    · rw [← print_ge E h hle ht, e]

theorem printEach_ok {p : Value → Res (List UInt8)} : ∀ {vs : List Value} {ts : List (List UInt8)} (b : Bool), ts.length = vs.length →
    (∀ (k : Nat) v t, vs[k]? = some v → ts[k]? = some t → p v = .ok t) →
    printEach p b vs = .ok ((if b ∨ vs = [] then [] else nameOf ", ") ++ commas ts)
  | [], [], b, _, _ => by simp [printEach, commas]
  | [], _ :: _, _, h, _ => by cases h
  | _ :: _, [], _, h, _ => by cases h
  | v :: vs, t :: ts, b, hl, hk => by
    rw [printEach, hk 0 v t rfl rfl, Res.bind_ok,
      printEach_ok false (ts := ts) (by simpa using hl) (fun k w u h1 h2 => hk (k + 1) w u (by simpa using h1) (by simpa using h2)), Res.bind_ok]
    congr 1
    cases ts with
    | nil =>
      cases vs with
      | nil => simp [commas]
      | cons _ _ => simp at hl
    | cons u us =>
      cases vs with
      | nil => simp at hl
      | cons w ws =>
        show _ = _ ++ (t ++ bytes ", " ++ commas (u :: us))
        rw [bytes_nameOf]
        cases b <;> simp

theorem number_fmt (n : Int) : fmtInt n = number n := by
  have : ∀ n, fmtDigits n = decimal n := by
    intro n
    induction n using fmtDigits.induct with
    | case1 n h => rw [fmtDigits, decimal, if_pos h, if_pos h]
    | case2 n h ih => rw [fmtDigits, decimal, if_neg h, if_neg h, ih]
  rw [fmtInt, number, this]; rfl

theorem precText_of {b : List UInt8} (hb : b.length < 2 ^ 31) : precText b.length (b ++ [0]) = b.takeWhile (· ≠ 0) := by
  have : (BitVec.ofNat 32 b.length).toInt = b.length := by
    rw [BitVec.toInt_eq_toNat_cond, BitVec.toNat_ofNat, Nat.mod_eq_of_lt (by omega)]
    rw [if_pos (by omega)]
  unfold precText
  simp only [this]
  rw [if_neg (by omega), Int.toNat_natCast, List.take_left']
  rfl

theorem takeWhile_twice (p : UInt8 → Bool) : ∀ l : List UInt8, (l.takeWhile p).takeWhile p = l.takeWhile p
  | [] => rfl
  | c :: l => by
    cases hc : p c with
    | true => simp [List.takeWhile_cons, hc, takeWhile_twice p l]
    | false => simp [List.takeWhile_cons, hc]

theorem print_string (E : PrintEnv) {h : Heap} {v : Value} {s : List UInt8} (hs : IsStr E.cmem h v s) (hl : s.length < 2 ^ 31) (f : Nat) :
    print E h (f + 1) true v = .ok (bytes "\"" ++ s.takeWhile (· ≠ 0) ++ bytes "\"") := by
  cases v with
  | cstr p =>
    cases hs
    simp only [print, bytes_nameOf, if_true]
    congr 3
    exact (takeWhile_twice _ _).symm
  | str o =>
    obtain ⟨h1, h2⟩ := hs
    simp only [print, Heap.deref, if_pos h1, h2, Res.bind_ok, if_true, precText_of hl, bytes_nameOf]
  | _ => exact hs.elim

theorem exists_bound {P : Nat → Nat → Prop} (hm : ∀ k f g, f ≤ g → P k f → P k g) : ∀ n, (∀ k < n, ∃ f, P k f) → ∃ f, ∀ k < n, P k f
  | 0, _ => ⟨0, fun k hk => (by omega)⟩
  | n + 1, h => by
    obtain ⟨f, hf⟩ := exists_bound hm n fun k hk => h k (by omega)
    obtain ⟨g, hg⟩ := h n (by omega)
    refine ⟨max f g, fun k hk => ?_⟩
    by_cases e : k = n
    · subst e; exact hm _ _ _ (Nat.le_max_right ..) hg
    · exact hm _ _ _ (Nat.le_max_left ..) (hf k (by omega))

theorem shows_each {E : PrintEnv} {h : Heap} {vs : List Value} {ts : List (List UInt8)} (hl : ts.length = vs.length)
    (hk : ∀ (k : Nat) v t, vs[k]? = some v → ts[k]? = some t → ∃ f, print E h f true v = .ok t) :
    ∃ f, printEach (print E h f true) true vs = .ok (commas ts) := by
  obtain ⟨f, hf⟩ := exists_bound (P := fun k f => ∀ v t, vs[k]? = some v → ts[k]? = some t → print E h f true v = .ok t)
    (fun k f g hfg hp v t h1 h2 => by rw [print_ge E h hfg (by rw [hp v t h1 h2]; simp), hp v t h1 h2]) vs.length (fun k hlt => by
      obtain ⟨f, hf⟩ := hk k vs[k] (ts[k]'(by omega)) (List.getElem?_eq_getElem hlt) (List.getElem?_eq_getElem (by omega))
      refine ⟨f, fun v t h1 h2 => ?_⟩
      rw [List.getElem?_eq_getElem hlt] at h1
      rw [List.getElem?_eq_getElem (by omega)] at h2
      cases h1; cases h2; exact hf)
  refine ⟨f, ?_⟩
  rw [printEach_ok true hl fun k v t h1 h2 => hf k (by
    by_cases hk : k < vs.length
    · exact hk
    · rw [List.getElem?_eq_none (by omega)] at h1; cases h1) v t h1 h2]
  simp

theorem shows_print {E : PrintEnv} {h : Heap} {v : Value} {t : List UInt8} (hs : Shows E h v t) : ∃ f, print E h f true v = .ok t := by
  induction hs with
  | null => exact ⟨1, rfl⟩
  | bool => exact ⟨1, rfl⟩
  | int => exact ⟨1, by rw [← number_fmt]; rfl⟩
  | float => exact ⟨1, rfl⟩
  | string h1 h2 => exact ⟨1, print_string E h1 h2 0⟩
  | light => exact ⟨1, rfl⟩
  | named h1 h2 h3 h4 => exact ⟨1, by simp only [print, Heap.deref, if_pos h1, Res.bind_ok, h2, h3, and_false, if_false, h4, bytes_nameOf]⟩
  | unnamed h1 h2 h3 h4 => exact ⟨1, by simp only [print, Heap.deref, if_pos h1, Res.bind_ok, h2, h3, and_false, if_false, h4, bytes_nameOf]⟩
  | array h1 h2 h3 _ ih =>
    obtain ⟨f, hf⟩ := shows_each h3 ih
    exact ⟨f + 1, by simp only [print, Heap.deref, if_pos h1, Res.bind_ok, h2, and_self, if_true, hf, bytes_nameOf]⟩
  | struct h1 h2 h3 _ ih =>
    obtain ⟨f, hf⟩ := shows_each h3 ih
    exact ⟨f + 1, by simp only [print, Heap.deref, if_pos h1, Res.bind_ok, h2, hf, bytes_nameOf]⟩

/-- `%q` writes how the value is shown. -/
theorem print_shows {E : PrintEnv} {h : Heap} {v : Value} {t : List UInt8} (hs : Shows E h v t) :
    print E h (h.list.length + 1) true v = .ok t := by
  obtain ⟨f, hf⟩ := shows_print hs
  exact print_enough E h hf

theorem directive_fills {E : PrintEnv} {h : Heap} {d : Directive} {v : Value} {t : List UInt8} (hf : Fills E h d v t)
    (hg : GoodPart (.dir d)) : directive E h d.letter v = .ok t := by
  cases hf with
  | int => rw [← number_fmt]; rfl
  | float => rfl
  | @str v s h1 h2 =>
    show directive E h (b! 's') v = _
    unfold directive
    rw [if_neg (by decide), if_neg (by decide), if_pos rfl]
    cases v with
    | cstr p =>
      cases h1
      show Res.ok (precText _ _) = _
      rw [precText_of h2]
    | str o =>
      obtain ⟨k1, k2⟩ := h1
      simp only [stringLen, toStr, Heap.deref, if_pos k1, Res.bind_ok, k2, precText_of h2]
    | _ => exact h1.elim
  | @char c =>
    show Res.ok [UInt8.ofNat (BitVec.ofNat 64 c.toNat).toNat] = _
    have := c.toNat_lt
    rw [BitVec.toNat_ofNat, Nat.mod_eq_of_lt (by omega), UInt8.ofNat_toNat]
  | quote hs => exact print_shows hs
  | @other c v =>
    obtain ⟨h1, h2⟩ := hg
    have hne : c ≠ b! 'i' ∧ c ≠ b! 'f' ∧ c ≠ b! 's' ∧ c ≠ b! 'c' ∧ c ≠ b! 'q' := by
      refine ⟨?_, ?_, ?_, ?_, ?_⟩ <;> rintro rfl <;> exact h1 (by decide)
    obtain ⟨g1, g2, g3, g4, g5⟩ := hne
    show directive E h c v = _
    unfold directive invalidText
    rw [if_neg g1, if_neg g2, if_neg g3, if_neg g4, if_neg g5]
    split
    · simp [bytes_nameOf]
    · simp [bytes_nameOf]

theorem printfLoop_text (E : PrintEnv) (h : Heap) (r : List UInt8) (vs : List Value) : ∀ (b : List UInt8), (∀ c ∈ b, c ≠ 0 ∧ c ≠ b! '%') →
    printfLoop E h (b ++ r) vs = (do
      let s ← printfLoop E h r vs
      .ok (b ++ s))
  | [], _ => by
    rw [List.nil_append]
    cases printfLoop E h r vs <;> rfl
  | c :: b, hb => by
    have hc := hb c (by simp)
    rw [List.cons_append, printfLoop.eq_def]
    simp only [if_neg hc.1, if_neg hc.2]
    rw [printfLoop_text E h r vs b fun c hc => hb c (by simp [hc])]
    cases printfLoop E h r vs <;> rfl

theorem letter_not_nul {d : Directive} (h : GoodPart (.dir d)) : d.letter ≠ 0 := by
  cases d with
  | other c => exact h.2
  | _ => decide

end Tiny
