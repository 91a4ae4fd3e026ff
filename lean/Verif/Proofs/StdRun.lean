import Verif.Proofs.StdDict
import Verif.Proofs.VMGC
import Verif.Props.StdString

/-! # The library in a running program -/

namespace Tiny
open Spec

namespace Std

/-- Memory holds what the store says, and the store knows everything. -/
def Known (cmem : Nat → List UInt8) (h : Heap) (σ : Store) : Prop := Holds cmem h σ ∧ Covers h σ

theorem Refines.agrees {cmem : Nat → List UInt8} {h : Heap} {σ : Store} {r : Res (Value × Store)} {x : Res (Value × Heap)}
    (k : Refines cmem h σ r x) (hc : Covers h σ) : Agrees (Known cmem) h r x := by
  unfold Refines at k
  unfold Agrees
  cases r <;> cases x <;> simp only [ResRel] at k ⊢
  exact ⟨k.1, k.2.1, ⟨k.2.2.1, k.2.2.2.2 hc⟩, k.2.2.2.1⟩

theorem toInt_truncate {i : BitVec 64} (h : -2 ^ 31 ≤ i.toInt ∧ i.toInt < 2 ^ 31) : (i.truncate 32).toInt = i.toInt := by
  have e1 : (i.truncate 32).toInt = (i.toNat : Int).bmod (2 ^ 32) := by
    rw [BitVec.truncate_eq_setWidth, BitVec.toInt_setWidth]
  have e2 : i.toInt = (i.toNat : Int) ∨ i.toInt = (i.toNat : Int) - 2 ^ 64 := by
    rw [BitVec.toInt_eq_toNat_cond]
    split
    · exact .inl rfl
    · exact .inr rfl
  rw [e1]
  have e3 : (i.toNat : Int).bmod (2 ^ 32) = i.toInt.bmod (2 ^ 32) := by
    rcases e2 with e | e
    · rw [e]
    · rw [e, Int.bmod_def, Int.bmod_def]
      have : ((i.toNat : Int) - 2 ^ 64) % ((2 ^ 32 : Nat) : Int) = (i.toNat : Int) % ((2 ^ 32 : Nat) : Int) := by omega
      rw [this]
  rw [e3, Int.bmod_eq_of_le (by omega) (by omega)]

theorem arrayFn_call {qsort : List Value → List Value} {f : ArrayFn} {rest : List Value} {op : Arr.Op Value} (e : opOf f rest = some op)
    (v : Value) (h : Heap) : arrayFn qsort f (v :: rest) h = arrayCall op v h ∧ ∀ x ∈ opValues op, x ∈ rest ∨ x = .null := by
  unfold opOf at e
  split at e
  all_goals (try split at e) <;> (try cases e)
  all_goals refine ⟨?_, fun x hx => ?_⟩
  all_goals first
    | rfl
    | (simp only [opValues, List.not_mem_nil] at hx; done)
    | (simp only [opValues, List.mem_cons, List.not_mem_nil, or_false] at hx; exact .inr hx)
    | (simp only [opValues, List.mem_cons, List.not_mem_nil, or_false] at hx; exact .inl (by simp [hx]))
    | (rename_i hi
       simp only [arrayFn, indexArg, toInt, toInt_truncate hi, toNumberInt, if_pos hi, Res.bind_ok])

theorem array_agrees {cmem : Nat → List UInt8} {qsort : List Value → List Value} {h : Heap} {σ : Store} {f : ArrayFn} {o : Nat}
    {rest : List Value} {op : Arr.Op Value} {r : Res (Value × Store)} (k : Known cmem h σ) (hm : ∀ v ∈ rest, Made h v) (ho : opOf f rest = some op)
    (hr : arraySays σ o op = some r) : Agrees (Known cmem) h r (arrayFn qsort f (.native o :: rest) h) := by
  obtain ⟨e, hv⟩ := arrayFn_call (qsort := qsort) ho (.native o) h
  rw [e]
  refine (arrayCall_refines k.1 (fun v hx => ?_) hr).agrees k.2
  rcases hv v hx with h1 | rfl
  · exact hm v h1
  · exact made_null h

theorem create_agrees {cmem : Nat → List UInt8} {h : Heap} {σ : Store} {p : Bool} {args : List Value} (k : Known cmem h σ)
    (hm : ∀ v ∈ args, Made h v) :
    Agrees (Known cmem) h (.ok (.native h.next, σ.put h.next (.array p true args))) (createArray p args h) :=
  (newArray_refines k.1 p true (arr := some ⟨args.length, args.length, args.map some⟩) (l := args) ⟨rfl, rfl, by simp, [], by simp⟩ hm).agrees k.2

/-- What sorting may do with any array. -/
theorem sort_known {cmem : Nat → List UInt8} {h : Heap} {σ : Store} (k : Known cmem h σ) {o : Nat} {p b : Bool} {l l' : List Value}
    (hσ : σ o = some (.array p b l)) (hp : l'.Perm l) :
    Known cmem (setNat h (o + 1) (if p then primData else arrayProp) l') (σ.put o (.array p b l')) := by
  obtain ⟨ho, hn, hc⟩ := k.1 o _ hσ
  refine ⟨holds_put k.1 Nat.le.refl (sameKind_of_eq fun _ _ => rfl) ?_ (fun _ hx => hx) ⟨ho, hn⟩ ?_, covers_put k.2 rfl rfl _ _⟩
  · intro q hq key
    exact setNat_other (.inl (by omega))
  · obtain ⟨h1, h2, h3, h4, h5⟩ := hc
    refine ⟨h1, setNat_self, ?_, fun hb => ?_, fun v hv => h5 v (hp.mem_iff.1 hv)⟩
    · rw [setNat_other (.inr (by cases p <;> decide))]; exact h3
    · have := h4 hb
      subst this
      exact hp.eq_nil

theorem sort_agrees {cmem : Nat → List UInt8} {qsort : List Value → List Value} (hq : QsortContract compareInts qsort) {h : Heap} {σ : Store}
    {o : Nat} {p b : Bool} {l : List Value} (k : Known cmem h σ) (hσ : σ o = some (.array p b l)) (hi : ∀ v ∈ l, ∃ i, v = .int i)
    (hn : ∀ a ∈ l, ∀ b ∈ l, intOf a - intOf b < 2 ^ 31) : ∃ l', l'.Perm l ∧ l'.Pairwise (fun a b => intOf a ≤ intOf b) ∧
      Agrees (Known cmem) h (.ok (.null, σ.put o (.array p b l'))) (arrayFn qsort .sortInt [.native o] h) := by
  obtain ⟨ho, hlt, hc⟩ := k.1 o _ hσ
  have hkeep : ∀ x, Made (setNat h (o + 1) (if p then primData else arrayProp) x) .null := fun x => made_null _
  simp only [arrayFn, sortInt, arrayAt_content ho hc, Res.bind_ok, hc.2.1]
  by_cases hl : l.length ≤ 1
  · rw [if_pos hl]
    refine ⟨l, .refl _, ?_, rfl, made_null _, ?_, Nat.le.refl, fun _ _ => rfl, fun _ hx => hx⟩
    · match l, hl with
      | [], _ => exact .nil
      | [_], _ => exact List.pairwise_singleton _ _
    · have : σ.put o (.array p b l) = σ := by
        funext q
        simp only [Store.put]
        split
        · rename_i e; rw [e, hσ]
        · rfl
      rw [this]
      exact k
  · rw [if_neg hl, if_neg, if_neg]
    · obtain ⟨h1, h2⟩ := c39_sort hq hi hn
      exact ⟨qsort l, h1, h2, rfl, made_null _, sort_known k hσ h1, Nat.le.refl, fun _ _ => rfl, fun _ hx => hx⟩
    · simp only [List.any_eq_true, decide_eq_true_eq, not_exists, not_and]
      intro a ha b' hb e
      have h1 := hn a ha b' hb
      have h2 := hn b' hb a ha
      obtain ⟨i, rfl⟩ := hi a ha
      obtain ⟨j, rfl⟩ := hi b' hb
      simp only [intOf] at h1 h2
      obtain ⟨x, e', _⟩ := compareInts_near (a := i) (b := j) ⟨by omega, by omega⟩
      rw [e'] at e
      cases e
    · simp only [List.any_eq_true, not_exists, not_and]
      intro a ha
      obtain ⟨i, rfl⟩ := hi a ha
      simp

/-! ## What does not touch the library -/

theorem other_known {cmem : Nat → List UInt8} {h h' : Heap} {σ : Store} (k : Known cmem h σ) (hl : LeavesLibrary h h') :
    Known cmem h' (σ.only h'.list) := by
  refine ⟨holds_frame k.1 hl.next hl.kind hl.memory ?_, ?_⟩
  · intro o c e
    simp only [Store.only] at e
    split at e
    · exact ⟨e, ‹_›⟩
    · cases e
  · intro o ho a p e hp
    simp only [Store.only, if_pos ho]
    by_cases hn : o < h.next
    · refine k.2 o (hl.old o ho hn) a p ?_ hp
      rcases hl.kind o hn with h1 | ⟨_, fs, h2⟩
      · rw [← h1, e]
      · rw [h2] at e; cases e
    · exact absurd hp (hl.new o ho (by omega) a p e)

theorem only_self {cmem : Nat → List UInt8} {h h' : Heap} {σ : Store} (k : Holds cmem h σ) (hl : ∀ o ∈ h.list, o ∈ h'.list) :
    σ.only h'.list = σ := by
  funext o
  simp only [Store.only]
  split
  · rfl
  · rename_i hn
    cases e : σ o with
    | none => rfl
    | some c => exact absurd (hl o (k o c e).1) hn

/-- The result is no object, or a new string. -/
def Plain (h : Heap) (x : Res (Value × Heap)) : Prop :=
  ∀ v h', x = .ok (v, h') → h' = h ∨ ∃ b, h' = (h.alloc (.str b)).2

theorem leaves_refl (h : Heap) (hf : ∀ o ∈ h.list, o < h.next) : LeavesLibrary h h :=
  ⟨Nat.le.refl, fun _ _ => .inl rfl, fun _ _ _ _ => rfl, fun _ ho _ => ho, fun o ho hn => absurd (hf o ho) (by omega)⟩

theorem leaves_alloc (h : Heap) (hf : ∀ o ∈ h.list, o < h.next) {b : Obj} (hb : ∀ a p, b = .native a p → p ∉ libraryProps) :
    LeavesLibrary h (h.alloc b).2 := by
  refine ⟨Nat.le_succ _, fun o ho => .inl ?_, fun _ _ _ _ => rfl, fun o ho hn => ?_, fun o ho hn a p e => ?_⟩
  · show (if o = h.next then b else h.obj o) = _
    rw [if_neg (by omega)]
  · rcases List.mem_cons.1 ho with rfl | k
    · exact absurd hn (Nat.lt_irrefl _)
    · exact k
  · rcases List.mem_cons.1 ho with rfl | k
    · have : (if h.next = h.next then b else h.obj h.next) = .native a p := e
      rw [if_pos rfl] at this
      exact hb a p this
    · exact absurd (hf o k) (by omega)

theorem plain_known {cmem : Nat → List UInt8} {h : Heap} {σ : Store} (k : Known cmem h σ) {x : Res (Value × Heap)} (hx : Plain h x) {v : Value}
    {h' : Heap} (e : x = .ok (v, h')) : Known cmem h' σ := by
  rcases hx v h' e with rfl | ⟨b, rfl⟩
  · exact k
  · constructor
    · refine holds_frame k.1 (Nat.le_succ _) ?_ (fun _ _ _ _ => rfl) fun o c e => ⟨e, List.mem_cons_of_mem _ (k.1 o c e).1⟩
      intro o ho
      left
      show (if o = h.next then _ else h.obj o) = _
      rw [if_neg (by omega)]
    · intro o ho a p e hp
      have e : (if o = h.next then Obj.str b else h.obj o) = .native a p := e
      split at e
      · cases e
      · rename_i hne
        exact k.2 o ((List.mem_cons.1 ho).resolve_left hne) a p e hp

theorem plain_ok (h : Heap) (v : Value) : Plain h (.ok (v, h)) := fun _ _ e => by cases e; exact .inl rfl
theorem plain_ub (h : Heap) : Plain h .ub := fun _ _ e => by cases e
theorem plain_abort (h : Heap) : Plain h .abort := fun _ _ e => by cases e

theorem plain_bind {α : Type} {h : Heap} {x : Res α} {f : α → Res (Value × Heap)} (k : ∀ a, x = .ok a → Plain h (f a)) : Plain h (x >>= f) := by
  intro v h' e
  obtain ⟨a, e1, e2⟩ := Res.bind_eq_ok.1 e
  exact k a e1 v h' e2

theorem plain_newString (h : Heap) (buf : List (Option UInt8)) (n : Nat) : Plain h (newString h buf n) := by
  unfold newString
  refine plain_bind fun b _ => ?_
  intro v h' e
  simp only [Res.ok.injEq, Prod.mk.injEq] at e
  exact .inr ⟨b, e.2.symm⟩

theorem plain_ite {h : Heap} {c : Prop} [Decidable c] {x y : Res (Value × Heap)} (h1 : Plain h x) (h2 : Plain h y) : Plain h (if c then x else y) := by
  split
  · exact h1
  · exact h2

theorem strFn_plain (cmem : Nat → List UInt8) (lit : Nat) (f : StrFn) (args : List Value) (h : Heap) : Plain h (strFn cmem lit f args h) := by
  cases f with
  | strlen =>
    cases args with
    | nil => exact plain_ub h
    | cons v r => exact plain_bind fun s _ => plain_bind fun n _ => plain_ok h _
  | stridx =>
    match args with
    | [] => exact plain_ub h
    | [_] => exact plain_ub h
    | v :: i :: _ =>
      refine plain_bind fun s _ => plain_bind fun n _ => plain_bind fun _ _ => ?_
      split
      · exact plain_ok h _
      · exact plain_ub h
  | strchr =>
    match args with
    | [] => exact plain_ub h
    | [_] => exact plain_ub h
    | v :: i :: _ =>
      refine plain_bind fun s _ => plain_bind fun n _ => ?_
      cases s with
      | none => exact plain_ub h
      | some m =>
        simp only
        split
        · exact plain_ok h _
        · exact plain_ok h _
  | strcat =>
    exact plain_bind fun n _ => plain_bind fun ⟨b, _⟩ _ => plain_bind fun b _ => plain_newString h _ _
  | substr =>
    match args with
    | [] => exact plain_abort h
    | [_] => exact plain_abort h
    | [_, _] => exact plain_abort h
    | _ :: _ :: _ :: _ :: _ => exact plain_abort h
    | [v, a, b] =>
      refine plain_bind fun s _ => plain_bind fun n _ => plain_bind fun i _ => plain_bind fun j _ => plain_bind fun _ _ => ?_
      exact plain_ite (plain_ok h _) (plain_bind fun _ _ => plain_bind fun _ _ => plain_bind fun _ _ => plain_newString h _ _)
  | stoi =>
    cases args with
    | nil => exact plain_ub h
    | cons v r =>
      refine plain_bind fun s _ => ?_
      cases s with
      | none => exact plain_ub h
      | some m => exact plain_ite (plain_ok h _) (plain_ub h)
  | intToStr =>
    cases args with
    | nil => exact plain_ub h
    | cons v r => exact plain_ite (plain_newString h _ _) (plain_ub h)

theorem i64Fn_plain (f : I64Fn) (args : List Value) (h : Heap) : Plain h (i64Fn f args h) := by
  cases f with
  | ofInt =>
    cases args with
    | nil => exact plain_ub h
    | cons v r => exact plain_ok h _
  | addMany =>
    cases args with
    | nil => exact plain_ub h
    | cons v r => exact plain_bind fun _ _ => plain_bind fun _ _ => plain_ok h _
  | mulMany =>
    cases args with
    | nil => exact plain_ub h
    | cons v r => exact plain_bind fun _ _ => plain_bind fun _ _ => plain_ok h _
  | toString =>
    cases args with
    | nil => exact plain_ub h
    | cons v r => exact plain_bind fun _ _ => plain_ite (plain_newString h _ _) (plain_ub h)

/-! ## Any call -/

theorem content_array {cmem : Nat → List UInt8} {h : Heap} {σ : Store} (k : Known cmem h σ) {v : Value} {a key : Nat}
    (e : arrayAt h v = .ok (a, key)) :
    ∃ o p b l, v = .native o ∧ σ o = some (.array p b l) ∧ a = o + 1 ∧ key = (if p then primData else arrayProp) := by
  obtain ⟨o, rfl, ho, hp⟩ := arrayAt_inv e
  have hs : (σ o).isSome = true := by
    rcases hp with ⟨h1, _⟩ | ⟨h1, _⟩
    · exact k.2 o ho _ _ h1 (by decide)
    · exact k.2 o ho _ _ h1 (by decide)
  obtain ⟨c, hc⟩ := Option.isSome_iff_exists.1 hs
  obtain ⟨_, _, hcont⟩ := k.1 o c hc
  cases c with
  | array p b l =>
    refine ⟨o, p, b, l, rfl, hc, ?_⟩
    have h1 := hcont.1
    rcases hp with ⟨h2, rfl⟩ | ⟨h2, rfl⟩
    · rw [h1] at h2
      cases p with
      | false => simp only [Bool.false_eq_true, if_false, Obj.native.injEq] at h2; exact ⟨h2.1.symm, rfl⟩
      | true => simp [primArrayProp, arrayProp] at h2
    · rw [h1] at h2
      cases p with
      | true => simp only [if_true, Obj.native.injEq] at h2; exact ⟨h2.1.symm, rfl⟩
      | false => simp [primArrayProp, arrayProp] at h2
  | dict ops es =>
    have h1 := hcont.1
    rcases hp with ⟨h2, _⟩ | ⟨h2, _⟩
    · rw [h1] at h2; simp [dictProp, arrayProp] at h2
    · rw [h1] at h2; simp [dictProp, primArrayProp] at h2

theorem content_dict {cmem : Nat → List UInt8} {h : Heap} {σ : Store} (k : Known cmem h σ) {v : Value} {a : Nat}
    (e : dictAt h v = .ok a) : ∃ o ops es, v = .native o ∧ σ o = some (.dict ops es) := by
  obtain ⟨o, rfl, ho, hp⟩ := dictAt_inv e
  obtain ⟨c, hc⟩ := Option.isSome_iff_exists.1 (k.2 o ho _ _ hp (by decide))
  obtain ⟨_, _, hcont⟩ := k.1 o c hc
  cases c with
  | array p b l =>
    have h1 := hcont.1
    rw [h1] at hp
    cases p <;> simp [dictProp, primArrayProp, arrayProp] at hp
  | dict ops es => exact ⟨o, ops, es, rfl, hc⟩

theorem arrayCall_known {cmem : Nat → List UInt8} {h h' : Heap} {σ : Store} (k : Known cmem h σ) {op : Arr.Op Value} (hop : ∀ v ∈ opValues op, Made h v)
    {v r : Value} (e : arrayCall op v h = .ok (r, h')) : ∃ σ', Known cmem h' σ' := by
  unfold arrayCall at e
  obtain ⟨⟨a, key⟩, e1, e⟩ := Res.bind_eq_ok.1 e
  obtain ⟨⟨b', out⟩, e2, e⟩ := Res.bind_eq_ok.1 e
  obtain ⟨g, e3, e⟩ := Res.bind_eq_ok.1 e
  obtain ⟨x, e4, e⟩ := Res.bind_eq_ok.1 e
  simp only [Res.ok.injEq, Prod.mk.injEq] at e
  obtain ⟨rfl, rfl⟩ := e
  obtain ⟨o, p, b, l, rfl, hσ, rfl, rfl⟩ := content_array k e1
  obtain ⟨ho, hn, hc⟩ := k.1 o _ hσ
  have hcells : ∀ c, b' = some c → CellsIn (Made h) c := by
    refine (step_cells ?_ hop e2).1
    intro c hc'
    have := loadArray_cells h _ _ c hc'
    rw [hc.2.1] at this
    exact fun y hy => hc.2.2.2.2 y (this y hy)
  have hnb : (if p = true then primData else arrayProp) ≠ noBuffer := by cases p <;> decide
  have fin : ∀ (l' : List Value) (nb : List Value), (nb ≠ [] → l' = []) → (∀ v ∈ l', Made h v) →
      g = setNat (setNat h (o + 1) (if p = true then primData else arrayProp) l') (o + 1) noBuffer nb → ∃ σ', Known cmem g σ' := by
    rintro l' nb hz hm rfl
    refine ⟨σ.put o (.array p (decide (nb = [])) l'), ?_, covers_put k.2 rfl rfl _ _⟩
    refine holds_put k.1 Nat.le.refl (sameKind_of_eq fun _ _ => rfl) ?_ (fun _ hx => hx) ⟨ho, hn⟩ ?_
    · intro q hq key
      rw [setNat_other (.inl (by omega)), setNat_other (.inl (by omega))]
    · refine ⟨hc.1, ?_, ?_, fun hb => hz (by simpa using hb), fun v hv => hm v hv⟩
      · rw [setNat_other (.inr hnb), setNat_self]
      · rw [setNat_self]; simp
  cases b' with
  | none =>
    simp only [storeArray, Res.ok.injEq] at e3
    exact fin [] _ (fun _ => rfl) (fun _ hv => by cases hv) e3.symm
  | some c =>
    simp only [storeArray] at e3
    obtain ⟨vs, e5, e3⟩ := Res.bind_eq_ok.1 e3
    simp only [Res.ok.injEq] at e3
    refine fin vs [] (fun hh => absurd rfl hh) (fun v hv => hcells c rfl v ?_) e3.symm
    refine List.mem_of_mem_take (i := c.n) ?_
    rw [cellValues_mem e5]
    exact List.mem_map_of_mem hv

theorem agrees_known {cmem : Nat → List UInt8} {h h' : Heap} {r : Res (Value × Store)} {v : Value} {x : Res (Value × Heap)}
    (k : Agrees (Known cmem) h r x) (e : x = .ok (v, h')) : ∃ σ', Known cmem h' σ' := by
  subst e
  unfold Agrees at k
  cases r <;> simp only [ResRel] at k
  exact ⟨_, k.2.2.1⟩

theorem arrayFn_known {cmem : Nat → List UInt8} {qsort : List Value → List Value} (hq : ∀ l, (qsort l).Perm l) {h h' : Heap} {σ : Store}
    (k : Known cmem h σ) {f : ArrayFn} {args : List Value} (hm : ∀ v ∈ args, Made h v) {r : Value} (e : arrayFn qsort f args h = .ok (r, h')) :
    ∃ σ', Known cmem h' σ' := by
  unfold arrayFn at e
  split at e
  · exact agrees_known (create_agrees k hm) e
  · exact arrayCall_known k (fun _ hv => by simp only [opValues, List.not_mem_nil] at hv) e
  · exact arrayCall_known k (fun _ hv => by simp only [opValues, List.not_mem_nil] at hv) e
  · obtain ⟨n, _, e⟩ := Res.bind_eq_ok.1 e
    exact arrayCall_known k (fun x hv => by
      simp only [opValues, List.mem_cons, List.not_mem_nil, or_false] at hv
      subst hv
      exact made_null h) e
  · obtain ⟨n, _, e⟩ := Res.bind_eq_ok.1 e
    exact arrayCall_known k (fun x hv => hm x (by
      simp only [opValues, List.mem_cons, List.not_mem_nil, or_false] at hv
      simp [hv])) e
  · exact arrayCall_known k (fun x hv => hm x (by
      simp only [opValues, List.mem_cons, List.not_mem_nil, or_false] at hv
      simp [hv])) e
  · exact arrayCall_known k (fun _ hv => by simp only [opValues, List.not_mem_nil] at hv) e
  · exact arrayCall_known k (fun x hv => hm x (by
      simp only [opValues, List.mem_cons, List.not_mem_nil, or_false] at hv
      simp [hv])) e
  · exact arrayCall_known k (fun _ hv => by simp only [opValues, List.not_mem_nil] at hv) e
  · exact arrayCall_known k (fun _ hv => by simp only [opValues, List.not_mem_nil] at hv) e
  · exact arrayCall_known k (fun _ hv => by simp only [opValues, List.not_mem_nil] at hv) e
  · exact arrayCall_known k (fun x hv => hm x (by
      simp only [opValues, List.mem_cons, List.not_mem_nil, or_false] at hv
      simp [hv])) e
  · simp only [sortInt] at e
    obtain ⟨⟨a, key⟩, e1, e⟩ := Res.bind_eq_ok.1 e
    obtain ⟨o, p, b, l, rfl, hσ, rfl, rfl⟩ := content_array k e1
    have hl := (k.1 o _ hσ).2.2.2.1
    simp only at e
    rw [hl] at e
    split at e
    · cases e; exact ⟨σ, k⟩
    · split at e
      · cases e
      · split at e
        · cases e
        · cases e
          exact ⟨_, sort_known k hσ (hq l)⟩
  · cases e

theorem dictFn_known {cmem : Nat → List UInt8} {h h' : Heap} {σ : Store} (k : Known cmem h σ) {f : DictFn} {args : List Value}
    (hm : ∀ v ∈ args, Made h v) {r : Value} (e : dictFn cmem f args h = .ok (r, h')) : ∃ σ', Known cmem h' σ' := by
  have go : ∀ {f : DictFn} {args : List Value}, (∀ v ∈ args, Made h v) → (f = .create ∨ ∃ o ops es rest, args = .native o :: rest ∧ σ o = some (.dict ops es) ∧
      rest.length = (match f with | .put => 2 | .exists | .get | .remove => 1 | _ => 0)) → dictFn cmem f args h = .ok (r, h') →
      ∃ σ', Known cmem h' σ' := by
    intro f args hm hf e
    obtain ⟨x, _, h2⟩ := dictFn_refines k.1 hm hf
    exact agrees_known (h2.agrees k.2) e
  cases f with
  | create => exact go hm (.inl rfl) e
  | put =>
    match args, hm, e with
    | v :: x :: y :: rest, hm, e =>
      obtain ⟨a, e1, _⟩ := Res.bind_eq_ok.1 e
      obtain ⟨o, ops, es, rfl, hσ⟩ := content_dict k e1
      exact go (f := .put) (args := [.native o, x, y]) (fun v hv => hm v (by simp at hv ⊢; rcases hv with h | h | h <;> simp [h]))
        (.inr ⟨o, ops, es, _, rfl, hσ, rfl⟩) e
  | «exists» =>
    match args, hm, e with
    | v :: x :: rest, hm, e =>
      obtain ⟨a, e1, _⟩ := Res.bind_eq_ok.1 e
      obtain ⟨o, ops, es, rfl, hσ⟩ := content_dict k e1
      exact go (f := .exists) (args := [.native o, x]) (fun v hv => hm v (by simp at hv ⊢; rcases hv with h | h <;> simp [h]))
        (.inr ⟨o, ops, es, _, rfl, hσ, rfl⟩) e
  | get =>
    match args, hm, e with
    | v :: x :: rest, hm, e =>
      obtain ⟨a, e1, _⟩ := Res.bind_eq_ok.1 e
      obtain ⟨o, ops, es, rfl, hσ⟩ := content_dict k e1
      exact go (f := .get) (args := [.native o, x]) (fun v hv => hm v (by simp at hv ⊢; rcases hv with h | h <;> simp [h]))
        (.inr ⟨o, ops, es, _, rfl, hσ, rfl⟩) e
  | remove =>
    match args, hm, e with
    | v :: x :: rest, hm, e =>
      obtain ⟨a, e1, _⟩ := Res.bind_eq_ok.1 e
      obtain ⟨o, ops, es, rfl, hσ⟩ := content_dict k e1
      exact go (f := .remove) (args := [.native o, x]) (fun v hv => hm v (by simp at hv ⊢; rcases hv with h | h <;> simp [h]))
        (.inr ⟨o, ops, es, _, rfl, hσ, rfl⟩) e
  | clear =>
    match args, hm, e with
    | v :: rest, hm, e =>
      obtain ⟨a, e1, _⟩ := Res.bind_eq_ok.1 e
      obtain ⟨o, ops, es, rfl, hσ⟩ := content_dict k e1
      exact go (f := .clear) (args := [.native o]) (fun v hv => hm v (by simp at hv; simp [hv])) (.inr ⟨o, ops, es, _, rfl, hσ, rfl⟩) e
  | keys =>
    match args, hm, e with
    | v :: rest, hm, e =>
      obtain ⟨a, e1, _⟩ := Res.bind_eq_ok.1 e
      obtain ⟨o, ops, es, rfl, hσ⟩ := content_dict k e1
      exact go (f := .keys) (args := [.native o]) (fun v hv => hm v (by simp at hv; simp [hv])) (.inr ⟨o, ops, es, _, rfl, hσ, rfl⟩) e
  | values =>
    match args, hm, e with
    | v :: rest, hm, e =>
      obtain ⟨a, e1, _⟩ := Res.bind_eq_ok.1 e
      obtain ⟨o, ops, es, rfl, hσ⟩ := content_dict k e1
      exact go (f := .values) (args := [.native o]) (fun v hv => hm v (by simp at hv; simp [hv])) (.inr ⟨o, ops, es, _, rfl, hσ, rfl⟩) e

theorem libFn_known {L : LibEnv} (hq : ∀ l, (L.qsort l).Perm l) {h h' : Heap} {σ : Store} (k : Known L.cmem h σ) {f : LibFn} {args : List Value}
    (hm : ∀ v ∈ args, Made h v) {r : Value} (e : libFn L f args h = .ok (r, h')) : ∃ σ', Known L.cmem h' σ' := by
  cases f with
  | array f => exact arrayFn_known hq k hm e
  | dict f => exact dictFn_known k hm e
  | i64 f => exact ⟨σ, plain_known k (i64Fn_plain f args h) e⟩
  | str f => exact ⟨σ, plain_known k (strFn_plain L.cmem L.lit f args h) e⟩

/-! ## The interpreter -/

theorem leaves_setStruct (h : Heap) (hf : ∀ o ∈ h.list, o < h.next) {o : Nat} {fs gs : List Value} (e : h.obj o = .struct fs) :
    LeavesLibrary h { h with obj := upd h.obj o (.struct gs) } := by
  refine ⟨Nat.le.refl, fun p hp => ?_, fun _ _ _ _ => rfl, fun _ ho _ => ho, fun p hp hn => absurd (hf p hp) (by omega)⟩
  by_cases hpo : p = o
  · subst hpo
    exact .inr ⟨⟨fs, e⟩, gs, by simp [upd]⟩
  · exact .inl (by simp [upd, hpo])

/-- An instruction leaves the library alone, or calls a foreign function. -/
theorem exec_leaves {env : Env} {t u : Thread} (hf : ∀ o ∈ t.world.heap.list, o < t.world.heap.next) (e : exec env t = .ok u) :
    (LeavesLibrary t.world.heap u.world.heap ∧ ∀ o ∈ t.world.heap.list, o ∈ u.world.heap.list) ∨
    ∃ i n v w, env.foreign i (t.stack.drop n) t.world = .ok (v, w) ∧ u.world.heap = w.heap := by
  have same : ∀ {u : Thread}, u.world.heap = t.world.heap →
      (LeavesLibrary t.world.heap u.world.heap ∧ ∀ o ∈ t.world.heap.list, o ∈ u.world.heap.list) := by
    intro u hu
    rw [hu]
    exact ⟨leaves_refl _ hf, fun _ ho => ho⟩
  have psh : ∀ {s u : Thread} {pc : Int} {v : Value}, push env { s with pc := pc } v = .ok u → u.world = s.world := by
    intro s u pc v e
    rw [push_ok e]
  have pp : ∀ {s u : Thread} {v : Value}, pop s = .ok (v, u) → u.world = s.world := by
    intro s u v e
    rw [(pop_ok e).2]
  unfold exec at e
  obtain ⟨b, _, e⟩ := Res.bind_eq_ok.1 e
  cases hop : Op.ofByte b with
  | none => rw [hop] at e; cases e
  | some op =>
    rw [hop] at e
    simp only [execOp] at e
    cases op with
    | pushNull => exact .inl (same (by rw [psh e]))
    | pushTrue => exact .inl (same (by rw [psh e]))
    | pushFalse => exact .inl (same (by rw [psh e]))
    | push0 => exact .inl (same (by rw [psh e]))
    | push1 => exact .inl (same (by rw [psh e]))
    | pushNullN =>
      obtain ⟨n, _, e⟩ := Res.bind_eq_ok.1 e
      split at e
      · cases e; exact .inl (same rfl)
      · cases e
    | pushInt => obtain ⟨⟨v, pc'⟩, _, e⟩ := Res.bind_eq_ok.1 e; exact .inl (same (by rw [psh e]))
    | pushFloat => obtain ⟨⟨v, pc'⟩, _, e⟩ := Res.bind_eq_ok.1 e; exact .inl (same (by rw [psh e]))
    | pushChar => obtain ⟨v, _, e⟩ := Res.bind_eq_ok.1 e; exact .inl (same (by rw [psh e]))
    | pushString =>
      obtain ⟨⟨v, pc'⟩, _, e⟩ := Res.bind_eq_ok.1 e
      simp only at e
      split at e
      · exact .inl (same (by rw [psh e]))
      · cases e
    | pushStringFF =>
      obtain ⟨v, _, e⟩ := Res.bind_eq_ok.1 e
      split at e
      · exact .inl (same (by rw [psh e]))
      · cases e
    | pushStruct =>
      obtain ⟨n, _, e⟩ := Res.bind_eq_ok.1 e
      obtain ⟨_, _, e⟩ := Res.bind_eq_ok.1 e
      split at e
      · have := push_ok e
        subst this
        exact .inl ⟨leaves_alloc _ hf (fun _ _ h => by cases h), fun o ho => List.mem_cons_of_mem _ ho⟩
      · cases e
    | structGet =>
      obtain ⟨i, _, e⟩ := Res.bind_eq_ok.1 e
      obtain ⟨⟨v, t1⟩, e1, e⟩ := Res.bind_eq_ok.1 e
      obtain ⟨⟨o, fs⟩, e2, e⟩ := Res.bind_eq_ok.1 e
      simp only at e
      split at e
      · cases e
      · exact .inl (same (by rw [psh e, pp e1]))
    | structSet =>
      obtain ⟨i, _, e⟩ := Res.bind_eq_ok.1 e
      obtain ⟨⟨vs, t1⟩, e1, e⟩ := Res.bind_eq_ok.1 e
      obtain ⟨⟨v, t2⟩, e2, e⟩ := Res.bind_eq_ok.1 e
      obtain ⟨⟨o, fs⟩, e3, e⟩ := Res.bind_eq_ok.1 e
      simp only at e e3
      split at e
      · cases e
        obtain ⟨_, s2, _⟩ := structFields_ok e3
        have hw : t2.world = t.world := by rw [pp e2, pp e1]
        rw [hw] at s2
        simp only [hw]
        exact .inl ⟨leaves_setStruct _ hf s2, fun _ ho => ho⟩
      · cases e
    | set =>
      obtain ⟨⟨i, pc'⟩, _, e⟩ := Res.bind_eq_ok.1 e
      obtain ⟨⟨v, t1⟩, e1, e⟩ := Res.bind_eq_ok.1 e
      simp only at e
      split at e
      · cases e; exact .inl (same (by simp only [pp e1]))
      · cases e
    | get =>
      obtain ⟨⟨i, pc'⟩, _, e⟩ := Res.bind_eq_ok.1 e
      simp only at e
      split at e
      · exact .inl (same (by rw [psh e]))
      · cases e
    | goto =>
      obtain ⟨⟨i, pc'⟩, _, e⟩ := Res.bind_eq_ok.1 e
      cases e; exact .inl (same rfl)
    | gotoz =>
      obtain ⟨⟨i, pc'⟩, _, e⟩ := Res.bind_eq_ok.1 e
      obtain ⟨⟨v, t1⟩, e1, e⟩ := Res.bind_eq_ok.1 e
      obtain ⟨b, _, e⟩ := Res.bind_eq_ok.1 e
      cases e; exact .inl (same (by simp only [pp e1]))
    | call =>
      obtain ⟨n, _, e⟩ := Res.bind_eq_ok.1 e
      obtain ⟨⟨i, pc'⟩, _, e⟩ := Res.bind_eq_ok.1 e
      obtain ⟨t1, e1, e⟩ := Res.bind_eq_ok.1 e
      split at e
      · cases e; exact .inl (same (by rw [pushIndir_ok e1]))
      · cases e
    | ret =>
      obtain ⟨f, n, hu⟩ := popIndir_ok e
      exact .inl (same (by rw [hu]))
    | retValue =>
      obtain ⟨⟨v, t1⟩, e1, e⟩ := Res.bind_eq_ok.1 e
      obtain ⟨f, n, hu⟩ := popIndir_ok e
      exact .inl (same (by rw [hu]; simp only [pp e1]))
    | callf =>
      obtain ⟨n, _, e⟩ := Res.bind_eq_ok.1 e
      obtain ⟨⟨i, pc'⟩, _, e⟩ := Res.bind_eq_ok.1 e
      simp only at e
      split at e
      · obtain ⟨⟨v, w'⟩, e1, e⟩ := Res.bind_eq_ok.1 e
        cases e
        exact .inr ⟨i, _, v, w', e1, rfl⟩
      · cases e
    | getLocal =>
      obtain ⟨⟨i, pc'⟩, _, e⟩ := Res.bind_eq_ok.1 e
      obtain ⟨v, e1, e⟩ := Res.bind_eq_ok.1 e
      exact .inl (same (by rw [psh e]))
    | getLocalW =>
      obtain ⟨i, _, e⟩ := Res.bind_eq_ok.1 e
      obtain ⟨v, e1, e⟩ := Res.bind_eq_ok.1 e
      exact .inl (same (by rw [psh e]))
    | setLocal =>
      obtain ⟨⟨i, pc'⟩, _, e⟩ := Res.bind_eq_ok.1 e
      obtain ⟨⟨v, t1⟩, e1, e⟩ := Res.bind_eq_ok.1 e
      simp only at e
      split at e
      · cases e; exact .inl (same (by simp only [pp e1]))
      · cases e
    | getRetVal => exact .inl (same (by rw [psh e]))
    | halt => cases e; exact .inl (same rfl)
    | misaligned => cases e
    | add1 =>
      obtain ⟨⟨a, t1⟩, e1, e⟩ := Res.bind_eq_ok.1 e
      obtain ⟨r, e3, e⟩ := Res.bind_eq_ok.1 e
      exact .inl (same (by rw [psh e, pp e1]))
    | sub1 =>
      obtain ⟨⟨a, t1⟩, e1, e⟩ := Res.bind_eq_ok.1 e
      obtain ⟨r, e3, e⟩ := Res.bind_eq_ok.1 e
      exact .inl (same (by rw [psh e, pp e1]))
    | logNot =>
      obtain ⟨⟨a, t1⟩, e1, e⟩ := Res.bind_eq_ok.1 e
      obtain ⟨r, e3, e⟩ := Res.bind_eq_ok.1 e
      exact .inl (same (by rw [psh e, pp e1]))
    | _ =>
      obtain ⟨⟨b, t1⟩, e1, e⟩ := Res.bind_eq_ok.1 e
      obtain ⟨⟨a, t2⟩, e2, e⟩ := Res.bind_eq_ok.1 e
      obtain ⟨r, e3, e⟩ := Res.bind_eq_ok.1 e
      exact .inl (same (by rw [psh e, pp e2, pp e1]))

theorem leaves_collect {h h' : Heap} {roots : List Value} (w : WfHeap h roots) (e : h.collect roots = .ok h') : LeavesLibrary h h' := by
  obtain ⟨_, h2, _, _, _, _, h7, h8, h9⟩ := collect_spec w e
  refine ⟨Nat.le_of_eq h9.symm, fun o _ => .inl (by rw [h7]), fun o _ key _ => by rw [h8], fun o ho _ => h2.subset ho, fun o ho hn => ?_⟩
  exact absurd (w.fresh o (h2.subset ho)) (by omega)

end Std
end Tiny
