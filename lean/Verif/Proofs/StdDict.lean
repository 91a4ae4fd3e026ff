import Verif.Proofs.StdStore
import Verif.Proofs.DictRun

/-! # Dictionaries of the library hold maps -/

namespace Tiny
open Spec

namespace Dict

theorem hash_abort {m : Mem} {k : Value} (hk : ¬ Hashable m k) : hashValue m k = .abort := by
  cases hx : hashValue m k with
  | ok h => exact absurd ⟨h, hx⟩ hk
  | abort => rfl
  | ub => cases k <;> simp [hashValue] at hx <;> split at hx <;> cases hx
  | timeout => cases k <;> simp [hashValue] at hx <;> split at hx <;> cases hx
  | limit => cases k <;> simp [hashValue] at hx <;> split at hx <;> cases hx

theorem set_unhashable' {m : Mem} {d : Dict} (hI : Inv m d) {k : Value} (hk : ¬ Hashable m k) (v : Value) (fuel : Nat)
    (hf : 5 * d.bucketCount + 4 ≤ fuel) : set fuel m d k v = .abort := by
  obtain ⟨g, g1, _⟩ := grow_spec hI
  obtain ⟨fuel, rfl⟩ : ∃ f, fuel = f + 1 := ⟨fuel - 1, by omega⟩
  simp only [set]
  split
  · rw [g1 fuel (by omega)]; simp [hash_abort hk]
  · simp [hash_abort hk]

theorem step_fuel {m : Mem} {d : Dict} {ops : List Op} {op : Op} (h : Rep m d (valueAfter m ops)) (hop : ValidOp m op) :
    ∃ d', step (Std.dictFuel d) m d op = .ok d' ∧ Rep m d' (valueAfter m (ops ++ [op])) := by
  obtain ⟨hI, hm⟩ := h
  cases op with
  | set key value =>
    obtain ⟨d', h1, h2, _, h4⟩ := set_spec hI value ((validKey_iff m key).1 hop)
    refine ⟨d', h1 _ (by simp [Std.dictFuel]), h2, ?_⟩
    intro k hk v
    rw [h4, lastBinding_append_one]
    simp only [lastBinding]
    by_cases he : areValuesEqual m key k = true
    · simp [he, eq_comm]
    · simp only [he]; exact hm k hk v
  | remove key =>
    obtain ⟨d', h1, h2, _, h4⟩ := remove_spec hI ((validKey_iff m key).1 hop)
    refine ⟨d', h1 _ (by simp only [Std.dictFuel]; omega), h2, ?_⟩
    intro k hk v
    rw [h4, lastBinding_append_one]
    simp only [lastBinding]
    by_cases he : areValuesEqual m key k = true
    · simp [he]
    · simp only [he, true_and]; simp; exact hm k hk v
  | clear =>
    obtain ⟨h1, _, h3⟩ := clear_inv hI
    refine ⟨_, rfl, h1, ?_⟩
    intro k _ v
    rw [lastBinding_append_one]
    simp [lastBinding, h3]

theorem step_invalid {m : Mem} {d : Dict} {ops : List Op} {op : Op} (h : Rep m d (valueAfter m ops)) (hop : ¬ ValidOp m op) :
    step (Std.dictFuel d) m d op = .abort := by
  cases op with
  | set key value =>
    exact set_unhashable' h.1 (fun k => hop ((validKey_iff m key).2 k)) _ _ (by simp only [Std.dictFuel]; omega)
  | remove key =>
    simp only [step, remove, hash_abort (fun k => hop ((validKey_iff m key).2 k))]
    rfl
  | clear => exact absurd trivial hop

theorem get_fuel {m : Mem} {d : Dict} {ops : List Op} (h : Rep m d (valueAfter m ops)) {k : Value} (hk : ValidKey m k) :
    get (Std.dictFuel d) m d k = .ok (valueAfter m ops k) := by
  have hh := (validKey_iff m k).1 hk
  obtain ⟨r, h1, h2⟩ := get_spec h.1 hh
  rw [h1 _ (by simp only [Std.dictFuel]; omega)]
  have : r = valueAfter m ops k := by
    apply Option.ext
    intro v
    rw [h2, h.2 k hh]
  rw [this]

/-- The enumeration of a table is one of the map. -/
theorem enumerates {m : Mem} {d : Dict} {ops : List Op} (h : Rep m d (valueAfter m ops)) : Enumerates m ops (entries d) := by
  have hk := keysList_eq h.1.toShape
  refine ⟨?_, ?_, ?_⟩
  · have := keysList_pairwise h.1
    rw [hk] at this
    exact List.pairwise_map.1 this
  · intro e he
    exact (validKey_iff m e.1).2 (keysList_hashable h.1 _ (by rw [hk]; exact List.mem_map_of_mem he))
  · intro k hv v
    rw [← h.2 k ((validKey_iff m k).1 hv)]
    constructor
    · rintro ⟨i, hi, hn, he, hval⟩
      exact ⟨d.keyAt i, (mem_entries h.1.toShape _ _).2 ⟨i, hi, rfl, hn, hval⟩, he⟩
    · rintro ⟨k', hm, he⟩
      obtain ⟨i, hi, rfl, hn, hval⟩ := (mem_entries h.1.toShape _ _).1 hm
      exact ⟨i, hi, hn, he, hval⟩

end Dict

namespace Std

theorem unpair_pair : ∀ {ks vs : List Value}, ks.length = vs.length →
    unpair (pair ks vs) = (ks, (ks.zip vs).map fun p => if p.1.isNull then .null else p.2)
  | [], [], _ => rfl
  | k :: ks, v :: vs, h => by
    have ih := unpair_pair (ks := ks) (vs := vs) (by simpa using h)
    simp only [pair, unpair, ih, List.zip_cons_cons, List.map_cons]
  | [], _ :: _, h => by simp at h
  | _ :: _, [], h => by simp at h

/-- A table without the values of empty buckets. -/
def norm (d : Dict) : Dict := { d with values := (d.keys.zip d.values).map fun p => if p.1.isNull then .null else p.2 }

theorem load_store {d : Dict} (hs : Dict.Shape d) (h : Heap) (a : Nat) : loadDict (storeDict h a d) a = norm d := by
  unfold loadDict storeDict
  rw [setNat_self, unpair_pair (hs.lenK.trans hs.lenV.symm)]
  simp only [norm, hs.lenK, ← hs.count]

theorem norm_valAt {d : Dict} (hs : Dict.Shape d) {i : Nat} (hi : i < d.bucketCount) (hn : d.keyAt i ≠ .null) :
    (norm d).valAt i = d.valAt i := by
  have h1 : i < d.keys.length := by rw [hs.lenK]; exact hi
  have h2 : i < d.values.length := by rw [hs.lenV]; exact hi
  have hz : i < (d.keys.zip d.values).length := by simp only [List.length_zip]; omega
  rw [Dict.keyAt_eq_getElem h1] at hn
  simp only [Dict.valAt, norm, List.getD_eq_getElem?_getD, List.getElem?_map, List.getElem?_eq_getElem hz, List.getElem?_eq_getElem h2,
    Option.map_some, Option.getD_some, List.getElem_zip, (isNull_false_iff _).2 hn, Bool.false_eq_true, if_false]

theorem norm_rep {m : Mem} {d : Dict} {f : Value → Option Value} (h : Dict.Rep m d f) : Dict.Rep m (norm d) f := by
  obtain ⟨hI, hm⟩ := h
  refine ⟨⟨⟨hI.two, hI.lenK, ?_, hI.count, hI.load⟩, hI.hashable, hI.uniq, hI.chain⟩, ?_⟩
  · simp only [norm, List.length_map, List.length_zip, hI.lenK, hI.lenV, Nat.min_self]
  · intro k hk v
    rw [← hm k hk v]
    constructor
    · rintro ⟨i, hi, hn, he, hv⟩
      exact ⟨i, hi, hn, he, by rw [← norm_valAt hI.toShape hi hn]; exact hv⟩
    · rintro ⟨i, hi, hn, he, hv⟩
      exact ⟨i, hi, hn, he, by rw [norm_valAt hI.toShape hi hn]; exact hv⟩

theorem norm_entries (d : Dict) : Dict.entries (norm d) = Dict.entries d := by
  unfold Dict.entries norm
  generalize d.keys = ks
  generalize d.values = vs
  induction ks generalizing vs with
  | nil => rfl
  | cons k ks ih =>
    cases vs with
    | nil => rfl
    | cons v vs =>
      simp only [List.zip_cons_cons, List.map_cons, List.filter_cons]
      cases hk : k.isNull with
      | true => simp [ih]
      | false => simp [ih]

theorem norm_in {S : Value → Prop} (h0 : S .null) {d : Dict} (h : DictIn S d) : DictIn S (norm d) := by
  refine ⟨h.1, fun v hv => ?_⟩
  simp only [norm, List.mem_map] at hv
  obtain ⟨p, hp, rfl⟩ := hv
  split
  · exact h0
  · exact h.2 _ (List.of_mem_zip hp).2

theorem made_null (h : Heap) : Made h .null := fun o ho => by cases ho

theorem sameMade_self (cmem : Nat → List UInt8) (h : Heap) : SameMade cmem h ⟨h.obj, cmem⟩ := agree_refl _ _

theorem validKey_agree {S : Value → Prop} {m m' : Mem} (h : AgreeOn S m m') {k : Value} (hk : S k) : ValidKey m' k ↔ ValidKey m k := by
  rw [Dict.validKey_iff, Dict.validKey_iff, Dict.Hashable, Dict.Hashable, hash_agree h hk]

/-- The values of a call on a dictionary. -/
def dopValues : Dict.Op → List Value
  | .set k v => [k, v]
  | .remove k => [k]
  | .clear => []

theorem validOp_agree {S : Value → Prop} {m m' : Mem} (h : AgreeOn S m m') {op : Dict.Op} (hk : ∀ v ∈ dopValues op, S v) :
    ValidOp m' op ↔ ValidOp m op := by
  cases op with
  | set k v => exact validKey_agree h (hk k (by simp [dopValues]))
  | remove k => exact validKey_agree h (hk k (by simp [dopValues]))
  | clear => exact Iff.rfl

theorem step_agree {S : Value → Prop} (h0 : S .null) {m m' : Mem} (h : AgreeOn S m m') {d : Dict} (hd : DictIn S d) {op : Dict.Op}
    (hk : ∀ v ∈ dopValues op, S v) (fuel : Nat) : Agr (DictIn S) (Dict.step fuel m' d op) (Dict.step fuel m d op) := by
  cases op with
  | set k v => exact (setOk h0 h fuel).set d k v hd (hk k (by simp [dopValues])) (hk v (by simp [dopValues]))
  | remove k => exact remove_agree h0 h hd (hk k (by simp [dopValues])) fuel
  | clear =>
    refine .ok ⟨fun v hv => ?_, fun v hv => ?_⟩
    · simp only [Dict.clear, List.mem_map] at hv
      obtain ⟨_, _, rfl⟩ := hv
      exact h0
    · simp only [Dict.clear, List.mem_map] at hv
      obtain ⟨_, _, rfl⟩ := hv
      exact h0

/-- One call on a table. -/
theorem step_holds {cmem : Nat → List UInt8} {h : Heap} {d : Dict} {ops : List Dict.Op} (hd : DictHolds cmem h d ops)
    (hin : DictIn (Made h) d) {op : Dict.Op} (hv : ∀ v ∈ dopValues op, Made h v) (hop : ValidOp ⟨h.obj, cmem⟩ op) :
    ∃ d', Dict.step (dictFuel d) ⟨h.obj, cmem⟩ d op = .ok d' ∧ DictHolds cmem h d' (ops ++ [op]) ∧ DictIn (Made h) d' := by
  obtain ⟨d', h1, h2⟩ := Dict.step_fuel (hd _ (sameMade_self cmem h)) hop
  refine ⟨d', h1, fun m hm => ?_, (step_agree (made_null h) (sameMade_self cmem h) hin hv _).2 d' h1⟩
  obtain ⟨d1, h3, h4⟩ := Dict.step_fuel (hd m hm) ((validOp_agree hm hv).2 hop)
  have := (step_agree (made_null h) hm hin hv (dictFuel d)).1
  rw [h3, h1] at this
  cases this
  exact h4

theorem setAll_holds {cmem : Nat → List UInt8} {h : Heap} : ∀ (n : Nat) (args : List Value), args.length ≤ n → ∀ (d : Dict) (ops : List Dict.Op),
    DictHolds cmem h d ops → DictIn (Made h) d → (∀ v ∈ args, Made h v) →
    ((∀ op ∈ setsOf args, ValidOp ⟨h.obj, cmem⟩ op) → ∃ d', setAll ⟨h.obj, cmem⟩ d args = .ok d' ∧ DictHolds cmem h d' (ops ++ setsOf args) ∧
      DictIn (Made h) d') ∧
    ((∃ op ∈ setsOf args, ¬ ValidOp ⟨h.obj, cmem⟩ op) → setAll ⟨h.obj, cmem⟩ d args = .abort)
  | _, [], _, d, ops, hd, hin, _ => ⟨fun _ => ⟨d, rfl, by simpa [setsOf] using hd, hin⟩, fun ⟨_, k, _⟩ => by cases k⟩
  | _, [_], _, d, ops, hd, hin, _ => ⟨fun _ => ⟨d, rfl, by simpa [setsOf] using hd, hin⟩, fun ⟨_, k, _⟩ => by cases k⟩
  | 0, _ :: _ :: _, hn, _, _, _, _, _ => by simp at hn
  | 1, _ :: _ :: _, hn, _, _, _, _, _ => by simp at hn
  | n + 2, k :: v :: r, hn, d, ops, hd, hin, ha => by
    have hvs : ∀ x ∈ dopValues (.set k v), Made h x := by
      intro x hx
      simp only [dopValues, List.mem_cons, List.not_mem_nil, or_false] at hx
      rcases hx with rfl | rfl
      · exact ha x (by simp)
      · exact ha x (by simp)
    by_cases hop : ValidOp ⟨h.obj, cmem⟩ (.set k v)
    · obtain ⟨d1, h1, h2, h3⟩ := step_holds hd hin hvs hop
      have h1 : Dict.set (dictFuel d) ⟨h.obj, cmem⟩ d k v = .ok d1 := h1
      have ih := setAll_holds n r (by simp at hn; omega) d1 _ h2 h3 (fun x hx => ha x (by simp [hx]))
      simp only [setAll, h1, Res.bind_ok, setsOf, List.mem_cons, exists_eq_or_imp]
      refine ⟨fun hall => ?_, fun hex => ih.2 (hex.resolve_left fun k => k hop)⟩
      obtain ⟨d', h4, h5, h6⟩ := ih.1 (fun op ho => hall op (.inr ho))
      exact ⟨d', h4, by simpa using h5, h6⟩
    · have h1 : Dict.set (dictFuel d) ⟨h.obj, cmem⟩ d k v = .abort := Dict.step_invalid (op := .set k v) (hd _ (sameMade_self cmem h)) hop
      simp only [setAll, h1, setsOf, List.forall_mem_cons]
      exact ⟨fun hall => absurd hall.1 hop, fun _ => rfl⟩

theorem dictAt_content {cmem : Nat → List UInt8} {h : Heap} {o : Nat} (ho : o ∈ h.list) {ops es}
    (hc : ContentAt cmem h o (.dict ops es)) : dictAt h (.native o) = .ok (o + 1) := by
  simp only [dictAt, Heap.deref, if_pos ho, Res.bind_ok, hc.1, if_true]

theorem dictHolds_store {cmem : Nat → List UInt8} {h h' : Heap} (hn : h'.next = h.next) (hobj : h'.obj = h.obj) {d : Dict} {ops}
    (hd : DictHolds cmem h d ops) : DictHolds cmem h' (norm d) ops := fun m hm =>
  norm_rep (hd m (sameMade_mono (Nat.le_of_eq hn.symm) (fun o _ => .inl (by rw [hobj])) hm))

/-- A change of a dictionary in memory. -/
theorem change_refines {cmem : Nat → List UInt8} {h : Heap} {σ : Store} (H : Holds cmem h σ) {o : Nat} {ops es} (hσ : σ o = some (.dict ops es))
    {op : Dict.Op} (hv : ∀ v ∈ dopValues op, Made h v) :
    ∃ r, Changes ⟨h.obj, cmem⟩ σ o ops op r ∧
      Refines cmem h σ r (do
        let a ← dictAt h (.native o)
        let d ← Dict.step (dictFuel (loadDict h a)) ⟨h.obj, cmem⟩ (loadDict h a) op
        .ok (.null, storeDict h a d)) := by
  obtain ⟨ho, hn, hc⟩ := H o _ hσ
  rw [dictAt_content ho hc]
  obtain ⟨h1, h2, h3, h4⟩ := hc
  simp only [Res.bind_ok]
  by_cases hop : ValidOp ⟨h.obj, cmem⟩ op
  · obtain ⟨d', e, k1, k2⟩ := step_holds h2 h4 hv hop
    have hs := (k1 _ (sameMade_self cmem h)).1.toShape
    refine ⟨_, .inl ⟨hop, Dict.entries d', Dict.enumerates (k1 _ (sameMade_self cmem h)), rfl⟩, ?_⟩
    rw [e]
    refine ⟨rfl, made_null _, ?_, ⟨Nat.le.refl, fun _ _ => rfl, fun _ hx => hx⟩, fun k => covers_put k rfl rfl _ _⟩
    refine holds_put H Nat.le.refl (sameKind_of_eq fun _ _ => rfl) ?_ (fun _ hx => hx) ⟨ho, hn⟩ ?_
    · intro p hp key
      exact setNat_other (.inl (by omega))
    · refine ⟨h1, ?_, ?_, ?_⟩
      · rw [load_store hs]; exact dictHolds_store rfl rfl k1
      · rw [load_store hs]; exact norm_entries d'
      · rw [load_store hs]; exact norm_in (made_null h) k2
  · refine ⟨_, .inr ⟨hop, rfl⟩, ?_⟩
    rw [Dict.step_invalid (h2 _ (sameMade_self cmem h)) hop]
    exact trivial

/-! ## New objects -/

theorem holds_new {cmem : Nat → List UInt8} {h g : Heap} {σ : Store} (H : Holds cmem h σ) {prop : Nat} {c : Content}
    (hobj : g.obj = h.obj) (hnext : g.next = h.next) (hlist : g.list = h.list)
    (hr : ∀ a, a ≠ h.next + 1 → ∀ key, g.natRefs a key = h.natRefs a key)
    (hc : ContentAt cmem (g.alloc (.native (h.next + 1) prop)).2 h.next c) :
    Refines cmem h σ (.ok (.native h.next, σ.put h.next c))
      (.ok (.native (g.alloc (.native (h.next + 1) prop)).1, (g.alloc (.native (h.next + 1) prop)).2)) := by
  have e1 : (g.alloc (.native (h.next + 1) prop)).1 = h.next := hnext
  have e2 : (g.alloc (.native (h.next + 1) prop)).2.next = h.next + 1 := by show g.next + 1 = _; rw [hnext]
  have e3 : (g.alloc (.native (h.next + 1) prop)).2.list = h.next :: h.list := by show g.next :: g.list = _; rw [hnext, hlist]
  have e4 : ∀ o, o < h.next → (g.alloc (.native (h.next + 1) prop)).2.obj o = h.obj o := by
    intro o ho
    show (if o = g.next then _ else g.obj o) = _
    rw [if_neg (by omega), hobj]
  have hl : ∀ o ∈ h.list, o ∈ (g.alloc (.native (h.next + 1) prop)).2.list := fun o ho => by rw [e3]; exact List.mem_cons_of_mem _ ho
  refine ⟨by rw [e1], ?_, ?_, ⟨by rw [e2]; omega, e4, hl⟩, ?_⟩
  · intro o ho
    rw [e1] at ho
    cases ho
    rw [e2]; omega
  · refine holds_put H (by rw [e2]; omega) (sameKind_of_eq e4) ?_ hl ⟨by rw [e3]; exact List.mem_cons_self, by rw [e2]; omega⟩ hc
    intro p hp key
    exact hr (p + 1) (by omega) key
  · intro k p hp a q e hq
    simp only [Store.put]
    split
    · rfl
    · rename_i hne
      rw [e3] at hp
      have hp := (List.mem_cons.1 hp).resolve_left hne
      refine k p hp a q ?_ hq
      rw [← e]
      show _ = (if p = g.next then _ else g.obj p)
      rw [if_neg (by rw [hnext]; exact hne), hobj]

theorem newArray_refines {cmem : Nat → List UInt8} {h : Heap} {σ : Store} (H : Holds cmem h σ) (p b : Bool) {l : List Value} {arr : Arr Value}
    (hrep : Arr.Rep arr b l) (hl : ∀ v ∈ l, Made h v) :
    Refines cmem h σ (.ok (.native h.next, σ.put h.next (.array p b l)))
      (newArray (if p then primArrayProp else arrayProp) (if p then primData else arrayProp) arr h) := by
  unfold newArray
  simp only [newAddr, store_rep hrep, Res.bind_ok]
  have hempty : b = false → l = [] := by
    rintro rfl
    cases arr with
    | none => exact hrep.2
    | some c => cases hrep.1
  refine holds_new H rfl rfl rfl ?_ ?_
  · intro a ha key
    rw [setNat_other (.inl ha), setNat_other (.inl ha), setNat_other (.inl ha)]
  · refine ⟨if_pos rfl, ?_, ?_, hempty, fun v hv => made_mono (Nat.le_succ _) (hl v hv)⟩
    · show (setNat _ _ _ _).natRefs _ _ = l
      rw [setNat_other (.inr (by cases p <;> decide)), setNat_self]
    · show b = true ↔ (setNat _ _ _ _).natRefs _ _ = []
      rw [setNat_self]
      cases b <;> simp

theorem arrayOf_rep (vs : List Value) : Arr.Rep (arrayOf vs) (!vs.isEmpty) vs := by
  unfold arrayOf
  cases vs with
  | nil => exact ⟨rfl, rfl⟩
  | cons v vs => exact ⟨rfl, rfl, by simp, [], by simp⟩

/-- **The dictionaries of the library are maps.** -/
theorem dictFn_refines {cmem : Nat → List UInt8} {h : Heap} {σ : Store} (H : Holds cmem h σ) {f : DictFn} {args : List Value}
    (ha : ∀ v ∈ args, Made h v) (hf : f = .create ∨ ∃ o ops es rest, args = .native o :: rest ∧ σ o = some (.dict ops es) ∧
      rest.length = (match f with | .put => 2 | .exists | .get | .remove => 1 | _ => 0)) :
    ∃ r, DictSays ⟨h.obj, cmem⟩ σ h.next f args r ∧ Refines cmem h σ r (dictFn cmem f args h) := by
  have hself := sameMade_self cmem h
  cases f with
  | create =>
    simp only [dictFn, createDict]
    by_cases hodd : args.length % 2 = 0
    · rw [if_neg (by simpa using hodd)]
      have key := setAll_holds (cmem := cmem) (h := h) args.length args (Nat.le_refl _) .initDict []
        (fun m _ => Dict.init_rep m) (init_in (made_null h) _) ha
      by_cases hv : ∀ op ∈ setsOf args, ValidOp ⟨h.obj, cmem⟩ op
      · obtain ⟨d', e, k1, k2⟩ := key.1 hv
        have hs := (k1 _ hself).1.toShape
        simp only [List.nil_append] at k1
        refine ⟨_, .create hodd hv (Dict.enumerates (k1 _ hself)), ?_⟩
        rw [e]
        refine holds_new H rfl rfl rfl ?_ ?_
        · intro a hna key
          exact setNat_other (.inl hna)
        · have hload : loadDict ((storeDict h (newAddr h) d').alloc (.native (h.next + 1) dictProp)).2 (h.next + 1) = norm d' :=
            load_store hs h _
          refine ⟨if_pos rfl, ?_, ?_, ?_⟩
          · rw [hload]
            intro m hm
            refine norm_rep (k1 m (sameMade_mono (Nat.le_succ _) (sameKind_of_eq fun o ho => ?_) hm))
            show (if o = h.next then _ else h.obj o) = _
            rw [if_neg (by omega)]
          · rw [hload]; exact norm_entries d'
          · rw [hload]; exact (norm_in (made_null h) k2).mono fun v hv => made_mono (Nat.le_succ _) hv
      · have hex : ∃ op ∈ setsOf args, ¬ ValidOp ⟨h.obj, cmem⟩ op := by
          simpa using hv
        obtain ⟨op, h1, h2⟩ := hex
        refine ⟨_, .createBad h1 h2, ?_⟩
        rw [key.2 ⟨op, h1, h2⟩]
        exact trivial
    · rw [if_pos hodd]
      exact ⟨_, .createOdd (by omega), trivial⟩
  | put =>
    obtain ⟨o, ops, es, rest, rfl, hσ, hlen⟩ := hf.resolve_left (by decide)
    obtain ⟨k, v, rfl⟩ : ∃ k v, rest = [k, v] := by
      match rest, hlen with
      | [k, v], _ => exact ⟨k, v, rfl⟩
    obtain ⟨r, h1, h2⟩ := change_refines H hσ (op := .set k v) (by
      intro x hx
      exact ha x (List.mem_cons_of_mem _ hx))
    exact ⟨r, .put hσ h1, h2⟩
  | remove =>
    obtain ⟨o, ops, es, rest, rfl, hσ, hlen⟩ := hf.resolve_left (by decide)
    obtain ⟨k, rfl⟩ := List.length_eq_one_iff.1 hlen
    obtain ⟨r, h1, h2⟩ := change_refines H hσ (op := .remove k) (by
      intro x hx
      exact ha x (List.mem_cons_of_mem _ hx))
    exact ⟨r, .remove hσ h1, h2⟩
  | clear =>
    obtain ⟨o, ops, es, rest, rfl, hσ, hlen⟩ := hf.resolve_left (by decide)
    cases List.eq_nil_of_length_eq_zero hlen
    obtain ⟨r, h1, h2⟩ := change_refines H hσ (op := .clear) (by intro x hx; cases hx)
    exact ⟨r, .clear hσ h1, h2⟩
  | get =>
    obtain ⟨o, ops, es, rest, rfl, hσ, hlen⟩ := hf.resolve_left (by decide)
    obtain ⟨k, rfl⟩ := List.length_eq_one_iff.1 hlen
    obtain ⟨ho, hn, hc⟩ := H o _ hσ
    simp only [dictFn, dictAt_content ho hc, Res.bind_ok]
    obtain ⟨h1, h2, h3, h4⟩ := hc
    have hk : Made h k := ha k (by simp)
    by_cases hv : ValidKey ⟨h.obj, cmem⟩ k
    · refine ⟨_, .get hσ hv, ?_⟩
      have e := Dict.get_fuel (h2 _ hself) hv
      have hm := (get_agree hself h4 hk (dictFuel (loadDict h (o + 1)))).2 _ e
      rw [e]
      refine ⟨rfl, ?_, H, ⟨Nat.le.refl, fun _ _ => rfl, fun _ hx => hx⟩, fun k => k⟩
      show Made h ((valueAfter _ ops k).getD .null)
      cases hx : valueAfter ⟨h.obj, cmem⟩ ops k with
      | none => exact made_null h
      | some v => exact hm v hx
    · refine ⟨_, .getBad hσ hv, ?_⟩
      simp only [Dict.get, Dict.hash_abort (fun x => hv ((Dict.validKey_iff _ k).2 x))]
      exact trivial
  | «exists» =>
    obtain ⟨o, ops, es, rest, rfl, hσ, hlen⟩ := hf.resolve_left (by decide)
    obtain ⟨k, rfl⟩ := List.length_eq_one_iff.1 hlen
    obtain ⟨ho, hn, hc⟩ := H o _ hσ
    simp only [dictFn, dictAt_content ho hc, Res.bind_ok]
    obtain ⟨h1, h2, h3, h4⟩ := hc
    by_cases hv : ValidKey ⟨h.obj, cmem⟩ k
    · refine ⟨_, .exists hσ hv, ?_⟩
      rw [Dict.get_fuel (h2 _ hself) hv]
      exact ⟨rfl, fun _ hx => (by cases hx), H, ⟨Nat.le.refl, fun _ _ => rfl, fun _ hx => hx⟩, fun k => k⟩
    · refine ⟨_, .existsBad hσ hv, ?_⟩
      simp only [Dict.get, Dict.hash_abort (fun x => hv ((Dict.validKey_iff _ k).2 x))]
      exact trivial
  | keys =>
    obtain ⟨o, ops, es, rest, rfl, hσ, hlen⟩ := hf.resolve_left (by decide)
    cases List.eq_nil_of_length_eq_zero hlen
    obtain ⟨ho, hn, hc⟩ := H o _ hσ
    simp only [dictFn, dictAt_content ho hc, Res.bind_ok]
    obtain ⟨h1, h2, rfl, h4⟩ := hc
    have ek := Dict.keysList_eq (h2 _ hself).1.toShape
    refine ⟨_, .keys hσ, ?_⟩
    have := newArray_refines H false (!(Dict.entries (loadDict h (o + 1))).isEmpty) (l := (Dict.entries (loadDict h (o + 1))).map (·.1))
      (arr := arrayOf (loadDict h (o + 1)).keysList) (by
        rw [ek]
        have := arrayOf_rep ((Dict.entries (loadDict h (o + 1))).map (·.1))
        simpa using this) (by rw [← ek]; exact keysList_in h4)
    exact this
  | values =>
    obtain ⟨o, ops, es, rest, rfl, hσ, hlen⟩ := hf.resolve_left (by decide)
    cases List.eq_nil_of_length_eq_zero hlen
    obtain ⟨ho, hn, hc⟩ := H o _ hσ
    simp only [dictFn, dictAt_content ho hc, Res.bind_ok]
    obtain ⟨h1, h2, rfl, h4⟩ := hc
    have ek : (loadDict h (o + 1)).valuesList = (Dict.entries (loadDict h (o + 1))).map (·.2) := rfl
    refine ⟨_, .values hσ, ?_⟩
    have := newArray_refines H false (!(Dict.entries (loadDict h (o + 1))).isEmpty) (l := (Dict.entries (loadDict h (o + 1))).map (·.2))
      (arr := arrayOf (loadDict h (o + 1)).valuesList) (by
        rw [ek]
        have := arrayOf_rep ((Dict.entries (loadDict h (o + 1))).map (·.2))
        simpa using this) (by rw [← ek]; exact valuesList_in h4)
    exact this

end Std
end Tiny
