import Verif.Proofs.StdNative
import Verif.Proofs.Array

/-! # Arrays and dictionaries of the library hold lists and maps -/

namespace Tiny
open Spec

namespace Std

/-- Two memories which agree about what was made in `h`. -/
def SameMade (cmem : Nat → List UInt8) (h : Heap) (m : Mem) : Prop := AgreeOn (Made h) ⟨h.obj, cmem⟩ m

/-- The table `d` holds the map made by `ops`, whatever is made later. -/
def DictHolds (cmem : Nat → List UInt8) (h : Heap) (d : Dict) (ops : List Dict.Op) : Prop :=
  ∀ m, SameMade cmem h m → Dict.Rep m d (valueAfter m ops)

/-- `c` is in memory behind object `o`. -/
def ContentAt (cmem : Nat → List UInt8) (h : Heap) (o : Nat) : Content → Prop
  | .array p b l => h.obj o = .native (o + 1) (if p then primArrayProp else arrayProp) ∧
      h.natRefs (o + 1) (if p then primData else arrayProp) = l ∧ (b = true ↔ h.natRefs (o + 1) noBuffer = []) ∧
      (b = false → l = []) ∧ ∀ v ∈ l, Made h v
  | .dict ops es => h.obj o = .native (o + 1) dictProp ∧ DictHolds cmem h (loadDict h (o + 1)) ops ∧
      Dict.entries (loadDict h (o + 1)) = es ∧ DictIn (Made h) (loadDict h (o + 1))

/-- Memory holds what the store says. -/
def Holds (cmem : Nat → List UInt8) (h : Heap) (σ : Store) : Prop :=
  ∀ o c, σ o = some c → o ∈ h.list ∧ o < h.next ∧ ContentAt cmem h o c

/-- The store knows every array and dictionary. -/
def Covers (h : Heap) (σ : Store) : Prop :=
  ∀ o ∈ h.list, ∀ a p, h.obj o = .native a p → p ∈ [arrayProp, primArrayProp, dictProp] → (σ o).isSome = true

theorem covers_put {h h' : Heap} {σ : Store} (k : Covers h σ) (hobj : h'.obj = h.obj) (hlist : h'.list = h.list) (o : Nat) (c : Content) :
    Covers h' (σ.put o c) := by
  intro p hp a q e hq
  rw [hlist] at hp
  rw [hobj] at e
  simp only [Store.put]
  split
  · rfl
  · exact k p hp a q e hq

/-- The outcome `x` of a call in `h` is the one said, `r`. -/
def Refines (cmem : Nat → List UInt8) (h : Heap) (σ : Store) (r : Res (Value × Store)) (x : Res (Value × Heap)) : Prop :=
  ResRel (fun a b => b.1 = a.1 ∧ Made b.2 b.1 ∧ Holds cmem b.2 a.2 ∧ KeepsObjects h b.2 ∧ (Covers h σ → Covers b.2 a.2)) r x

theorem agree_refl (S : Value → Prop) (m : Mem) : AgreeOn S m m := ⟨rfl, fun _ _ _ _ => ⟨rfl, rfl⟩⟩

theorem made_mono {h h' : Heap} (hn : h.next ≤ h'.next) {v : Value} (hv : Made h v) : Made h' v :=
  fun o ho => Nat.lt_of_lt_of_le (hv o ho) hn

/-- An object made before keeps its kind; a string or a native does not change. -/
def SameKind (h h' : Heap) : Prop := ∀ o, o < h.next → h'.obj o = h.obj o ∨
  ((∃ fs, h.obj o = .struct fs) ∧ ∃ fs, h'.obj o = .struct fs)

theorem sameMade_mono {cmem : Nat → List UInt8} {h h' : Heap} (hn : h.next ≤ h'.next) (hk : SameKind h h') {m : Mem}
    (hm : SameMade cmem h' m) : SameMade cmem h m := by
  refine ⟨hm.1, fun v hv o ho => ?_⟩
  have := hm.2 v (made_mono hn hv) o ho
  refine ⟨this.1.trans ?_, this.2.trans ?_⟩
  · rcases hk o (hv o ho) with h1 | ⟨⟨fs, h1⟩, fs', h2⟩
    · simp only [Mem.strBytes, h1]
    · simp only [Mem.strBytes, h1, h2]
  · rcases hk o (hv o ho) with h1 | ⟨⟨fs, h1⟩, fs', h2⟩
    · simp only [Mem.natAddr, h1]
    · simp only [Mem.natAddr, h1, h2]

theorem DictIn.mono {S T : Value → Prop} {d : Dict} (h : DictIn S d) (k : ∀ v, S v → T v) : DictIn T d :=
  ⟨fun v hv => k v (h.1 v hv), fun v hv => k v (h.2 v hv)⟩

/-- What is behind an object is not changed by what happens elsewhere. -/
theorem contentAt_frame {cmem : Nat → List UInt8} {h h' : Heap} {o : Nat} (ho : o < h.next) (hn : h.next ≤ h'.next) (hk : SameKind h h')
    (hr : ∀ key, key ≤ noBuffer → h'.natRefs (o + 1) key = h.natRefs (o + 1) key) {c : Content} (hc : ContentAt cmem h o c) : ContentAt cmem h' o c := by
  have hobj : ∀ a p, h.obj o = .native a p → h'.obj o = .native a p := by
    intro a p e
    rcases hk o ho with h1 | ⟨⟨fs, h1⟩, _⟩
    · rw [h1, e]
    · rw [e] at h1; cases h1
  cases c with
  | array p b l =>
    obtain ⟨h1, h2, h3, h4, h5⟩ := hc
    exact ⟨hobj _ _ h1, (hr _ (by cases p <;> decide)).trans h2, by rw [hr _ (Nat.le_refl _)]; exact h3, h4, fun v hv => made_mono hn (h5 v hv)⟩
  | dict ops es =>
    obtain ⟨h1, h2, h3, h4⟩ := hc
    have e : loadDict h' (o + 1) = loadDict h (o + 1) := by simp only [loadDict, hr dictProp (by decide)]
    exact ⟨hobj _ _ h1, by rw [e]; exact fun m hm => h2 m (sameMade_mono hn hk hm), by rw [e]; exact h3, by
      rw [e]; exact DictIn.mono h4 fun v hv => made_mono hn hv⟩

theorem holds_frame {cmem : Nat → List UInt8} {h h' : Heap} {σ τ : Store} (H : Holds cmem h σ) (hn : h.next ≤ h'.next) (hk : SameKind h h')
    (hr : ∀ o, o < h.next → ∀ key, key ≤ noBuffer → h'.natRefs (o + 1) key = h.natRefs (o + 1) key)
    (hτ : ∀ o c, τ o = some c → σ o = some c ∧ o ∈ h'.list) : Holds cmem h' τ := by
  intro o c e
  obtain ⟨e, hl⟩ := hτ o c e
  obtain ⟨h1, h2, h3⟩ := H o c e
  exact ⟨hl, Nat.lt_of_lt_of_le h2 hn, contentAt_frame h2 hn hk (hr o h2) h3⟩

theorem holds_put {cmem : Nat → List UInt8} {h h' : Heap} {σ : Store} (H : Holds cmem h σ) {o : Nat} {c : Content}
    (hn : h.next ≤ h'.next) (hk : SameKind h h') (hr : ∀ p, p ≠ o → ∀ key, h'.natRefs (p + 1) key = h.natRefs (p + 1) key)
    (hl : ∀ p ∈ h.list, p ∈ h'.list) (ho : o ∈ h'.list ∧ o < h'.next) (hc : ContentAt cmem h' o c) : Holds cmem h' (σ.put o c) := by
  intro p d e
  simp only [Store.put] at e
  by_cases hp : p = o
  · rw [if_pos hp] at e
    cases e
    exact hp ▸ ⟨ho.1, ho.2, hc⟩
  · rw [if_neg hp] at e
    obtain ⟨h1, h2, h3⟩ := H p d e
    exact ⟨hl p h1, Nat.lt_of_lt_of_le h2 hn, contentAt_frame h2 hn hk (fun key _ => hr p hp key) h3⟩

theorem sameKind_of_eq {h h' : Heap} (e : ∀ o, o < h.next → h'.obj o = h.obj o) : SameKind h h' := fun o ho => .inl (e o ho)

theorem keeps_setNat (h : Heap) (a key : Nat) (vs : List Value) : KeepsObjects h (setNat h a key vs) :=
  ⟨Nat.le.refl, fun _ _ => rfl, fun _ ho => ho⟩

theorem setNat_other {h : Heap} {a key : Nat} {vs : List Value} {b k : Nat} (hb : b ≠ a ∨ k ≠ key) :
    (setNat h a key vs).natRefs b k = h.natRefs b k := by
  simp only [setNat]
  rw [if_neg (by omega)]

theorem setNat_self {h : Heap} {a key : Nat} {vs : List Value} : (setNat h a key vs).natRefs a key = vs := by
  simp [setNat]

/-! ## Arrays -/

theorem load_rep {cmem : Nat → List UInt8} {h : Heap} {o : Nat} {p b : Bool} {l : List Value} (hc : ContentAt cmem h o (.array p b l)) :
    Arr.Rep (loadArray h (o + 1) (if p then primData else arrayProp)) b l := by
  obtain ⟨h1, h2, h3, h4, h5⟩ := hc
  unfold loadArray
  rw [h2]
  by_cases hb : h.natRefs (o + 1) noBuffer = []
  · rw [if_pos hb]
    exact ⟨h3.2 hb, rfl, by simp, [], by simp⟩
  · rw [if_neg hb]
    have : b = false := by
      cases b with
      | false => rfl
      | true => exact absurd (h3.1 rfl) hb
    exact ⟨this, h4 this⟩

theorem cellValues_map : ∀ (l : List Value), cellValues (l.map some) = .ok l
  | [] => rfl
  | v :: l => by simp only [List.map_cons, cellValues, cellValues_map l, Res.bind_ok]

theorem store_rep {a : Arr Value} {b : Bool} {l : List Value} (hr : Arr.Rep a b l) (h : Heap) (x key : Nat) :
    storeArray h x key a = .ok (setNat (setNat h x key l) x noBuffer (if b then [] else [.null])) := by
  cases a with
  | none =>
    obtain ⟨rfl, rfl⟩ := hr
    rfl
  | some c =>
    obtain ⟨rfl, h1, h2, rest, h3⟩ := hr
    have : c.cells.take c.n = l.map some := by rw [h3, h1]; simp
    simp only [storeArray, this, cellValues_map, Res.bind_ok, if_true]

theorem arrayAt_content {cmem : Nat → List UInt8} {h : Heap} {o : Nat} (ho : o ∈ h.list) {p b : Bool} {l : List Value}
    (hc : ContentAt cmem h o (.array p b l)) : arrayAt h (.native o) = .ok (o + 1, if p then primData else arrayProp) := by
  simp only [arrayAt, Heap.deref, if_pos ho, Res.bind_ok, hc.1]
  cases p <;> rfl

theorem outValue_eq {key : Nat} {out : Arr.Out Value} : arrayResult key out =
    if key = primData ∧ isObjectOut out = true then .ub else .ok (outValue out) := by
  cases out with
  | unit => exact (if_neg (fun h => by cases h.2)).symm
  | val v => rfl
  | num n => exact Eq.trans (by simp only [arrayResult, outValue, newInt, BitVec.ofInt_natCast]) (if_neg (fun h => by cases h.2)).symm

theorem arrStep_empty {b : Bool} {l : List Value} {op : Arr.Op Value} {b' : Bool} {l' : List Value} {out : Arr.Out Value}
    (h : arrStep b l op = some (.ok (b', l', out))) (hl : b = false → l = []) : b' = false → l' = [] := by
  rintro rfl
  cases op <;> simp only [arrStep] at h
  all_goals (try split at h) <;> (try split at h) <;> (try split at h) <;> (try split at h) <;> simp at h
  all_goals (try (obtain ⟨rfl, rfl, rfl⟩ := h; exact hl rfl))

theorem arrStep_made {h : Heap} {b : Bool} {l : List Value} {op : Arr.Op Value} {b' : Bool} {l' : List Value} {out : Arr.Out Value}
    (e : arrStep b l op = some (.ok (b', l', out))) (hl : ∀ v ∈ l, Made h v) (hop : ∀ v ∈ opValues op, Made h v) :
    (∀ v ∈ l', Made h v) ∧ Made h (outValue out) := by
  have h0 : Made h .null := fun o ho => by cases ho
  have hi : ∀ x, Made h (.int x) := fun x o ho => by cases ho
  cases op with
  | push v =>
    simp only [arrStep, Option.some.injEq, Res.ok.injEq, Prod.mk.injEq] at e
    obtain ⟨rfl, rfl, rfl⟩ := e
    refine ⟨fun x hx => ?_, h0⟩
    rcases List.mem_append.1 hx with k | k
    · exact hl x k
    · exact hop x (by simpa [opValues] using k)
  | pop =>
    simp only [arrStep, Option.some.injEq] at e
    cases hg : l.getLast? with
    | none => rw [hg] at e; cases e
    | some v =>
      rw [hg] at e
      simp only [Res.ok.injEq, Prod.mk.injEq] at e
      obtain ⟨rfl, rfl, rfl⟩ := e
      exact ⟨fun x hx => hl x (List.dropLast_subset _ hx), hl v (List.mem_of_getLast? hg)⟩
  | shift =>
    cases l with
    | nil => simp [arrStep] at e
    | cons v t =>
      simp only [arrStep, Option.some.injEq, Res.ok.injEq, Prod.mk.injEq] at e
      obtain ⟨rfl, rfl, rfl⟩ := e
      exact ⟨fun x hx => hl x (List.mem_cons_of_mem _ hx), hl v List.mem_cons_self⟩
  | insert i v =>
    simp only [arrStep, Option.some.injEq] at e
    split at e
    · rename_i hb
      simp only [Res.ok.injEq, Prod.mk.injEq] at e
      obtain ⟨rfl, rfl, rfl⟩ := e
      refine ⟨fun x hx => ?_, h0⟩
      rcases (List.mem_insertIdx (by omega)).1 hx with rfl | k
      · exact hop x (by simp [opValues])
      · exact hl x k
    · cases e
  | remove i =>
    simp only [arrStep, Option.some.injEq] at e
    split at e
    · simp only [Res.ok.injEq, Prod.mk.injEq] at e
      obtain ⟨rfl, rfl, rfl⟩ := e
      exact ⟨fun x hx => hl x (List.mem_of_mem_eraseIdx hx), h0⟩
    · cases e
  | set i v =>
    simp only [arrStep, Option.some.injEq] at e
    split at e
    · simp only [Res.ok.injEq, Prod.mk.injEq] at e
      obtain ⟨rfl, rfl, rfl⟩ := e
      refine ⟨fun x hx => ?_, h0⟩
      rcases List.mem_or_eq_of_mem_set hx with k | rfl
      · exact hl x k
      · exact hop x (by simp [opValues])
    · cases e
  | get i =>
    simp only [arrStep, Option.some.injEq] at e
    split at e
    · rename_i v hg
      simp only [Res.ok.injEq, Prod.mk.injEq] at e
      obtain ⟨rfl, rfl, rfl⟩ := e
      split at hg
      · exact ⟨hl, hl v (List.mem_of_getElem? hg)⟩
      · cases hg
    · cases e
  | len =>
    simp only [arrStep, Option.some.injEq, Res.ok.injEq, Prod.mk.injEq] at e
    obtain ⟨rfl, rfl, rfl⟩ := e
    exact ⟨hl, hi _⟩
  | clear =>
    simp only [arrStep, Option.some.injEq] at e
    split at e
    · simp only [Res.ok.injEq, Prod.mk.injEq] at e
      obtain ⟨rfl, rfl, rfl⟩ := e
      exact ⟨fun x hx => (by cases hx), h0⟩
    · cases e
  | resize n v =>
    simp only [arrStep] at e
    split at e
    · cases e
    · split at e
      · simp only [Option.some.injEq] at e
        split at e
        · simp only [Res.ok.injEq, Prod.mk.injEq] at e
          obtain ⟨rfl, rfl, rfl⟩ := e
          exact ⟨fun x hx => hl x (List.mem_of_mem_take hx), h0⟩
        · cases e
      · split at e
        · simp only [Option.some.injEq, Res.ok.injEq, Prod.mk.injEq] at e
          obtain ⟨rfl, rfl, rfl⟩ := e
          refine ⟨fun x hx => ?_, h0⟩
          rw [(List.mem_replicate.1 hx).2]
          exact hop v (by simp [opValues])
        · cases e

/-- A call on an array. -/
theorem arrayCall_refines {cmem : Nat → List UInt8} {h : Heap} {σ : Store} (H : Holds cmem h σ) {o : Nat} {op : Arr.Op Value}
    (hop : ∀ v ∈ opValues op, Made h v) {r : Res (Value × Store)} (hr : arraySays σ o op = some r) :
    Refines cmem h σ r (arrayCall op (.native o) h) := by
  unfold arraySays at hr
  cases hσ : σ o with
  | none => rw [hσ] at hr; cases hr
  | some c =>
    rw [hσ] at hr
    cases c with
    | dict ops es => cases hr
    | array p b l =>
      obtain ⟨ho, hn, hc⟩ := H o _ hσ
      simp only [Option.map_eq_some_iff] at hr
      obtain ⟨q, hq, rfl⟩ := hr
      have hat := arrayAt_content ho hc
      have hrep := load_rep hc
      unfold arrayCall
      rw [hat]
      simp only [Res.bind_ok]
      rcases Arr.step_spec hrep op q hq with ⟨a', b', l', out, rfl, h2, h3⟩ | ⟨rfl, h2⟩ | ⟨rfl, h2⟩
      · rw [h2]
        simp only [Res.bind_ok, store_rep h3, outValue_eq]
        have hmade := arrStep_made hq hc.2.2.2.2 hop
        have hkey : ((if p = true then primData else arrayProp) = primData) ↔ p = true := by cases p <;> simp [primData, arrayProp]
        by_cases hpo : p = true ∧ isObjectOut out = true
        · rw [if_pos (by simpa using hpo), if_pos ⟨hkey.2 hpo.1, hpo.2⟩]
          exact trivial
        · rw [if_neg (by simpa using hpo), if_neg (fun k => hpo ⟨hkey.1 k.1, k.2⟩)]
          have hnb : (if p = true then primData else arrayProp) ≠ noBuffer := by cases p <;> decide
          have hne : ∀ k, (setNat (setNat h (o + 1) (if p = true then primData else arrayProp) l') (o + 1) noBuffer
              (if b' = true then [] else [.null])).natRefs (o + 1) k = if k = noBuffer then (if b' = true then [] else [.null]) else
                if k = (if p = true then primData else arrayProp) then l' else h.natRefs (o + 1) k := by
            intro k
            simp only [setNat, true_and]
          refine ⟨rfl, fun x hx => hmade.2 x hx, ?_, ⟨Nat.le.refl, fun _ _ => rfl, fun _ hx => hx⟩, fun k => covers_put k rfl rfl _ _⟩
          refine holds_put H Nat.le.refl (sameKind_of_eq fun _ _ => rfl) ?_ (fun _ hx => hx) ⟨ho, hn⟩ ?_
          · intro p' hp' key
            rw [setNat_other (.inl (by omega)), setNat_other (.inl (by omega))]
          · refine ⟨hc.1, ?_, ?_, arrStep_empty hq hc.2.2.2.1, fun v hv => hmade.1 v hv⟩
            · rw [hne, if_neg hnb, if_pos rfl]
            · rw [hne, if_pos rfl]
              cases b' <;> simp
      · rw [h2]; exact trivial
      · rw [h2]; exact trivial

end Std
end Tiny
