import Verif.Proofs.GCSim
import Verif.Proofs.DictRun
import Verif.Spec.StdNative

/-! # The library does not see what is not reachable -/

namespace Tiny
open Spec

namespace Std

theorem setNat_reach {h : Heap} {ws : List Value} {a key : Nat} {vs : List Value}
    (hk : ∀ v ∈ vs, v ∈ h.natRefs a key ∨ ∀ o, v.objId? = some o → Reach h ws o) {xs : List Value}
    (hs : Sub h xs ws) {p : Nat} (r : Reach (setNat h a key vs) xs p) : Reach h ws p := by
  induction r with
  | root a b => exact hs _ a _ b
  | @step b c _ hb ih =>
    obtain ⟨v, hv, hp⟩ := hb
    unfold Heap.children at hv
    have e0 : (setNat h a key vs).obj = h.obj := rfl
    rw [e0] at hv
    cases e : h.obj b with
    | str _ => rw [e] at hv; simp at hv
    | struct fs =>
      rw [e] at hv
      exact .step ih ⟨v, by rw [Heap.children, e]; exact hv, hp⟩
    | native a' k' =>
      rw [e] at hv
      simp only [setNat] at hv
      split at hv
      · next hc =>
        obtain ⟨rfl, rfl⟩ := hc
        rcases hk v hv with h1 | h1
        · exact .step ih ⟨v, by rw [Heap.children, e]; exact h1, hp⟩
        · exact h1 _ hp
      · exact .step ih ⟨v, by rw [Heap.children, e]; exact hv, hp⟩

theorem sim_setNat {h h' : Heap} {ws : List Value} (s : HeapSim h h' ws) (a key : Nat) {vs : List Value}
    (hk : ∀ v ∈ vs, v ∈ h.natRefs a key ∨ ∀ o, v.objId? = some o → Reach h ws o) {xs : List Value}
    (hs : Sub h xs ws) : HeapSim (setNat h a key vs) (setNat h' a key vs) xs := by
  refine ⟨⟨s.wf.nodup, s.wf.count, s.wf.unmarked, s.wf.fresh, s.wf.freedNodup, s.wf.freedFresh, s.wf.complete, ?_⟩,
    s.next, ?_, ?_⟩
  · intro o r
    exact s.wf.noDangling o (setNat_reach hk hs r)
  · simp only [setNat, s.natRefs]
  · intro o r
    exact s.same o (setNat_reach hk hs r)

theorem sub_refl (h : Heap) (ws : List Value) : Sub h ws ws := Sub.of_mem fun _ hv => hv

theorem deref_sim {h h' : Heap} {ws : List Value} (s : HeapSim h h' ws) {o : Nat} (r : Reach h ws o) :
    h'.deref o = h.deref o := by
  have := s.same o r
  have := s.wf.noDangling o r
  simp_all [Heap.deref]

/-! ## Arrays -/

theorem arrayAt_sim {h h' : Heap} {ws : List Value} (s : HeapSim h h' ws) {v : Value} (hv : v ∈ ws) :
    arrayAt h' v = arrayAt h v := by
  cases v with
  | native o => simp only [arrayAt, deref_sim s (.root hv rfl)]
  | _ => rfl

theorem arrayAt_inv {h : Heap} {v : Value} {a key : Nat} (e : arrayAt h v = .ok (a, key)) :
    ∃ o, v = .native o ∧ o ∈ h.list ∧
      ((h.obj o = .native a arrayProp ∧ key = arrayProp) ∨ (h.obj o = .native a primArrayProp ∧ key = primData)) := by
  cases v with
  | native o =>
    simp only [arrayAt, Heap.deref] at e
    by_cases ho : o ∈ h.list
    · rw [if_pos ho, Res.bind_ok] at e
      cases eo : h.obj o with
      | native a' p =>
        rw [eo] at e
        simp only at e
        split at e
        · next hp => simp only [Res.ok.injEq, Prod.mk.injEq] at e; exact ⟨o, rfl, ho, .inl ⟨by rw [← e.1, ← hp, eo], e.2.symm⟩⟩
        · split at e
          · next hp => simp only [Res.ok.injEq, Prod.mk.injEq] at e; exact ⟨o, rfl, ho, .inr ⟨by rw [← e.1, ← hp, eo], e.2.symm⟩⟩
          · cases e
      | _ => rw [eo] at e; simp at e
    · rw [if_neg ho] at e; simp at e
  | _ => simp [arrayAt] at e

theorem arrayAt_values {h : Heap} {ws : List Value} {v : Value} (hv : v ∈ ws) {a key : Nat} (e : arrayAt h v = .ok (a, key)) :
    key = primData ∨ Sub h (h.natRefs a key) ws := by
  obtain ⟨o, rfl, _, ⟨h1, rfl⟩ | ⟨_, rfl⟩⟩ := arrayAt_inv e
  · right
    intro x hx p hp
    exact .step (.root hv rfl) ⟨x, by rw [Heap.children, h1]; exact hx, hp⟩
  · exact .inl rfl

theorem load_sim {h h' : Heap} {ws : List Value} (s : HeapSim h h' ws) (a key : Nat) :
    loadArray h' a key = loadArray h a key := by simp only [loadArray, s.natRefs]

/-- Everything in the cells satisfies `P`. -/
def CellsIn (P : Value → Prop) (b : Buf Value) : Prop := ∀ x, some x ∈ b.cells → P x

theorem CellsIn.grow {P : Value → Prop} {a : Arr Value} (h : ∀ b, a = some b → CellsIn P b) (k : Nat) :
    CellsIn P (Arr.maybeGrow a k) := by
  intro x hx
  cases a with
  | none => simp [Arr.maybeGrow, Arr.growf] at hx
  | some b =>
    simp only [Arr.maybeGrow] at hx
    split at hx
    · simp only [Arr.growf, List.mem_append, List.mem_replicate] at hx
      rcases hx with hx | hx
      · exact h b rfl x hx
      · simp at hx
    · exact h b rfl x hx

theorem CellsIn.write {P : Value → Prop} {b b' : Buf Value} (h : CellsIn P b) {i : Nat} {v : Value} (hv : P v)
    (e : Arr.writeCell b i v = .ok b') : CellsIn P b' := by
  simp only [Arr.writeCell] at e
  split at e
  · simp only [Res.ok.injEq] at e
    subst e
    intro x hx
    rcases List.mem_or_eq_of_mem_set hx with hx | hx
    · exact h x hx
    · simp only [Option.some.injEq] at hx; exact hx ▸ hv
  · cases e

theorem CellsIn.move {P : Value → Prop} {b b' : Buf Value} (h : CellsIn P b) {i j k : Nat}
    (e : Arr.memmove b i j k = .ok b') : CellsIn P b' := by
  simp only [Arr.memmove] at e
  split at e
  · simp only [Res.ok.injEq] at e
    subst e
    intro x hx
    simp only [List.mem_append] at hx
    rcases hx with (hx | hx) | hx
    · exact h x (List.mem_of_mem_take hx)
    · exact h x (List.mem_of_mem_drop (List.mem_of_mem_take hx))
    · exact h x (List.mem_of_mem_drop hx)
  · cases e

theorem CellsIn.fill {P : Value → Prop} {v : Value} (hv : P v) (base : Nat) : ∀ (k i : Nat) {b b' : Buf Value}, CellsIn P b →
    Arr.fillLoop b base v i k = .ok b' → CellsIn P b'
  | 0, i, b, b', h, e => by simp only [Arr.fillLoop, Res.ok.injEq] at e; exact e ▸ h
  | k + 1, i, b, b', h, e => by
    simp only [Arr.fillLoop] at e
    obtain ⟨b1, e1, e2⟩ := Res.bind_eq_ok.1 e
    exact CellsIn.fill hv base k (i + 1) (h.write hv e1) e2

theorem CellsIn.read {P : Value → Prop} {b : Buf Value} (h : CellsIn P b) {i : Nat} {v : Value}
    (e : Arr.readCell b i = .ok v) : P v := by
  simp only [Arr.readCell] at e
  split at e
  · next hx => simp only [Res.ok.injEq] at e; exact h v (e ▸ List.mem_of_getElem? hx)
  · cases e

/-- The values given with a call. -/
def opValues : Arr.Op Value → List Value
  | .push v | .insert _ v | .set _ v | .resize _ v => [v]
  | _ => []

theorem cellsIn_n {P : Value → Prop} {b : Buf Value} (h : CellsIn P b) (n : Nat) : CellsIn P { b with n := n } := h

theorem step_cells {P : Value → Prop} {a a' : Arr Value} {op : Arr.Op Value} {out : Arr.Out Value}
    (h : ∀ b, a = some b → CellsIn P b) (hop : ∀ v ∈ opValues op, P v) (e : a.step op = .ok (a', out)) :
    (∀ b, a' = some b → CellsIn P b) ∧ ∀ v, out = .val v → P v := by
  cases op with
  | push v =>
    simp only [Arr.step, Arr.push] at e
    obtain ⟨x, e1, e2⟩ := Res.bind_eq_ok.1 e
    obtain ⟨y, e3, e4⟩ := Res.bind_eq_ok.1 e1
    simp only [Res.pure_eq, Res.ok.injEq, Prod.mk.injEq] at e2 e4
    obtain ⟨rfl, rfl⟩ := e2
    refine ⟨fun b hb => ?_, fun v hv => by cases hv⟩
    rw [← e4] at hb
    cases hb
    exact cellsIn_n ((CellsIn.grow h 1).write (hop v (by simp [opValues])) e3) _
  | pop =>
    simp only [Arr.step, Arr.pop] at e
    obtain ⟨⟨x, r⟩, e1, e2⟩ := Res.bind_eq_ok.1 e
    obtain ⟨_, _, e3⟩ := Res.bind_eq_ok.1 e1
    simp only [Res.pure_eq, Res.ok.injEq, Prod.mk.injEq] at e2
    obtain ⟨rfl, rfl⟩ := e2
    cases a with
    | none => cases e3
    | some b =>
      obtain ⟨w, e5, e6⟩ := Res.bind_eq_ok.1 e3
      simp only [Res.pure_eq, Res.ok.injEq, Prod.mk.injEq] at e6
      obtain ⟨rfl, rfl⟩ := e6
      exact ⟨fun b hb => by cases hb; exact cellsIn_n (h _ rfl) _, fun v hv => by cases hv; exact (h _ rfl).read e5⟩
  | shift =>
    simp only [Arr.step, Arr.shift] at e
    obtain ⟨⟨x, r⟩, e1, e2⟩ := Res.bind_eq_ok.1 e
    obtain ⟨_, _, e3⟩ := Res.bind_eq_ok.1 e1
    simp only [Res.pure_eq, Res.ok.injEq, Prod.mk.injEq] at e2
    obtain ⟨rfl, rfl⟩ := e2
    cases a with
    | none => cases e3
    | some b =>
      obtain ⟨w, e5, e6⟩ := Res.bind_eq_ok.1 e3
      obtain ⟨w', e7, e8⟩ := Res.bind_eq_ok.1 e6
      simp only [Res.pure_eq, Res.ok.injEq, Prod.mk.injEq] at e8
      obtain ⟨rfl, rfl⟩ := e8
      exact ⟨fun b hb => by cases hb; exact cellsIn_n ((h _ rfl).move e7) _, fun v hv => by cases hv; exact (h _ rfl).read e5⟩
  | insert i v =>
    simp only [Arr.step, Arr.insert] at e
    obtain ⟨x, e1, e2⟩ := Res.bind_eq_ok.1 e
    obtain ⟨_, _, e3⟩ := Res.bind_eq_ok.1 e1
    simp only [Res.pure_eq, Res.ok.injEq, Prod.mk.injEq] at e2
    obtain ⟨rfl, rfl⟩ := e2
    obtain ⟨w, e5, e6⟩ := Res.bind_eq_ok.1 e3
    obtain ⟨w', e7, e8⟩ := Res.bind_eq_ok.1 e6
    simp only [Res.pure_eq, Res.ok.injEq] at e8
    refine ⟨fun b hb => ?_, fun v hv => by cases hv⟩
    rw [← e8] at hb
    cases hb
    exact ((cellsIn_n (CellsIn.grow h 1) _).move e5).write (hop v (by simp [opValues])) e7
  | remove i =>
    simp only [Arr.step, Arr.remove] at e
    obtain ⟨x, e1, e2⟩ := Res.bind_eq_ok.1 e
    obtain ⟨_, _, e3⟩ := Res.bind_eq_ok.1 e1
    simp only [Res.pure_eq, Res.ok.injEq, Prod.mk.injEq] at e2
    obtain ⟨rfl, rfl⟩ := e2
    refine ⟨fun b hb => ?_, fun v hv => by cases hv⟩
    cases a with
    | none => cases e3
    | some b0 =>
      obtain ⟨w', e7, e8⟩ := Res.bind_eq_ok.1 e3
      simp only [Res.pure_eq, Res.ok.injEq] at e8
      rw [← e8] at hb
      cases hb
      exact cellsIn_n ((h _ rfl).move e7) _
  | set i v =>
    simp only [Arr.step, Arr.set] at e
    obtain ⟨x, e1, e2⟩ := Res.bind_eq_ok.1 e
    obtain ⟨_, _, e3⟩ := Res.bind_eq_ok.1 e1
    simp only [Res.pure_eq, Res.ok.injEq, Prod.mk.injEq] at e2
    obtain ⟨rfl, rfl⟩ := e2
    refine ⟨fun b hb => ?_, fun v hv => by cases hv⟩
    cases a with
    | none => cases e3
    | some b0 =>
      obtain ⟨w', e7, e8⟩ := Res.bind_eq_ok.1 e3
      simp only [Res.pure_eq, Res.ok.injEq] at e8
      rw [← e8] at hb
      cases hb
      exact (h _ rfl).write (hop v (by simp [opValues])) e7
  | get i =>
    simp only [Arr.step, Arr.get] at e
    obtain ⟨x, e1, e2⟩ := Res.bind_eq_ok.1 e
    obtain ⟨_, _, e3⟩ := Res.bind_eq_ok.1 e1
    simp only [Res.pure_eq, Res.ok.injEq, Prod.mk.injEq] at e2
    obtain ⟨rfl, rfl⟩ := e2
    refine ⟨h, fun v hv => ?_⟩
    cases hv
    cases a with
    | none => cases e3
    | some b => exact (h _ rfl).read e3
  | len =>
    simp only [Arr.step, Res.pure_eq, Res.ok.injEq, Prod.mk.injEq] at e
    obtain ⟨rfl, rfl⟩ := e
    exact ⟨h, fun v hv => by cases hv⟩
  | clear =>
    simp only [Arr.step] at e
    obtain ⟨x, e1, e2⟩ := Res.bind_eq_ok.1 e
    simp only [Res.pure_eq, Res.ok.injEq, Prod.mk.injEq] at e2
    obtain ⟨rfl, rfl⟩ := e2
    refine ⟨fun b hb => ?_, fun v hv => by cases hv⟩
    cases a with
    | none => cases e1
    | some b0 =>
      simp only [Arr.clear, Res.ok.injEq] at e1
      rw [← e1] at hb
      cases hb
      exact cellsIn_n (h _ rfl) _
  | resize n v =>
    simp only [Arr.step, Arr.resize] at e
    obtain ⟨x, e1, e2⟩ := Res.bind_eq_ok.1 e
    obtain ⟨_, _, e3⟩ := Res.bind_eq_ok.1 e1
    simp only [Res.pure_eq, Res.ok.injEq, Prod.mk.injEq] at e2
    obtain ⟨rfl, rfl⟩ := e2
    refine ⟨fun b hb => ?_, fun v hv => by cases hv⟩
    split at e3
    · obtain ⟨w', e7, e8⟩ := Res.bind_eq_ok.1 e3
      simp only [Res.pure_eq, Res.ok.injEq] at e8
      rw [← e8] at hb
      cases hb
      exact CellsIn.fill (hop v (by simp [opValues])) _ _ _ (cellsIn_n (CellsIn.grow h _) _) e7
    · cases a with
      | none => cases e3
      | some b0 =>
        simp only [Res.pure_eq, Res.ok.injEq] at e3
        rw [← e3] at hb
        cases hb
        exact cellsIn_n (h _ rfl) _

theorem cellValues_mem : ∀ {l : List (Option Value)} {vs : List Value}, cellValues l = .ok vs → l = vs.map some
  | [], vs, e => by simp only [cellValues, Res.ok.injEq] at e; subst e; rfl
  | some v :: r, vs, e => by
    simp only [cellValues] at e
    obtain ⟨ws, e1, e2⟩ := Res.bind_eq_ok.1 e
    simp only [Res.ok.injEq] at e2
    subst e2
    rw [cellValues_mem e1]
    rfl
  | none :: _, vs, e => by cases e

theorem loadArray_cells (h : Heap) (a key : Nat) : ∀ b, loadArray h a key = some b → CellsIn (· ∈ h.natRefs a key) b := by
  intro b hb
  simp only [loadArray] at hb
  split at hb
  · simp only [Option.some.injEq] at hb
    subst hb
    intro x hx
    simpa using hx
  · cases hb

theorem noBuffer_step {h h' : Heap} {ws : List Value} (s : HeapSim h h' ws) (a : Nat) {vs : List Value} (hv : ∀ v ∈ vs, v.objId? = none) {xs}
    (hs : Sub h xs ws) : HeapSim (setNat h a noBuffer vs) (setNat h' a noBuffer vs) xs :=
  sim_setNat s a noBuffer (fun v hm => .inr fun o ho => by rw [hv v hm] at ho; cases ho) hs

theorem store_sim {h h' : Heap} {ws : List Value} (s : HeapSim h h' ws) (a key : Nat) {b : Arr Value}
    (hb : ∀ x, b = some x → CellsIn (fun v => v ∈ h.natRefs a key ∨ ∀ o, v.objId? = some o → Reach h ws o) x)
    {xs} (hs : Sub h xs ws) :
    ResRel (fun g g' => HeapSim g g' xs) (storeArray h a key b) (storeArray h' a key b) := by
  cases b with
  | none =>
    simp only [storeArray, ResRel]
    exact noBuffer_step (sim_setNat s a key (by simp) hs) a (by simp [Value.objId?]) (sub_refl _ _)
  | some x =>
    simp only [storeArray]
    refine Tiny.ResRel.same _ fun vs e => ?_
    simp only [ResRel]
    refine noBuffer_step (sim_setNat s a key ?_ hs) a (by simp) (sub_refl _ _)
    intro v hv
    refine hb x rfl v (List.mem_of_mem_take (i := x.n) ?_)
    rw [cellValues_mem e]
    exact List.mem_map_of_mem hv

theorem sub_append_left {h : Heap} {vs ws : List Value} (others : List Value) (k : Sub h vs (ws ++ others)) :
    Sub h (vs ++ others) (ws ++ others) := by
  intro v hv o ho
  rcases List.mem_append.1 hv with h1 | h1
  · exact k v h1 o ho
  · exact .root (by simp [h1]) ho

theorem arrayCall_sim {h h' : Heap} {args others : List Value} (s : HeapSim h h' (args ++ others)) {v : Value} (hv : v ∈ args)
    {op : Arr.Op Value} (hop : ∀ x ∈ opValues op, x ∈ args ∨ x.objId? = none) :
    ResRel (fun a b => b.1 = a.1 ∧ HeapSim a.2 b.2 (a.1 :: others)) (arrayCall op v h) (arrayCall op v h') := by
  unfold arrayCall
  have hv' : v ∈ args ++ others := by simp [hv]
  rw [arrayAt_sim s hv']
  refine Tiny.ResRel.same _ fun ⟨a, key⟩ e => ?_
  dsimp only
  rw [load_sim s]
  refine Tiny.ResRel.same _ fun ⟨b, out⟩ e1 => ?_
  dsimp only
  have hat := arrayAt_values hv' e
  obtain ⟨k1, k2⟩ := step_cells (P := fun v => v ∈ h.natRefs a key ∨ ∀ o, v.objId? = some o → Reach h (args ++ others) o)
    (fun b hb x hx => .inl (loadArray_cells h a key b hb x hx))
    (fun x hx => .inr fun o ho => by
      rcases hop x hx with h1 | h1
      · exact .root (by simp [h1]) ho
      · rw [h1] at ho; cases ho) e1
  cases er : arrayResult key out with
  | ok r =>
    have hr : ∀ o, r.objId? = some o → Reach h (args ++ others) o := by
      intro o ho
      cases out with
      | unit => simp only [arrayResult, Res.ok.injEq] at er; subst er; cases ho
      | num n => simp only [arrayResult, newInt, Res.ok.injEq] at er; subst er; cases ho
      | val x =>
        simp only [arrayResult] at er
        split at er
        · cases er
        · next hc =>
          simp only [Res.ok.injEq] at er
          subst er
          rcases k2 x rfl with h1 | h1
          · rcases hat with h2 | h2
            · exact absurd ⟨h2, by rw [ho]; rfl⟩ hc
            · exact h2 x h1 o ho
          · exact h1 o ho
    refine Tiny.ResRel.bind (store_sim s a key k1 (xs := r :: others) ?_) fun g g' hg => ⟨rfl, hg⟩
    intro x hx o ho
    rcases List.mem_cons.1 hx with rfl | h1
    · exact hr o ho
    · exact .root (by simp [h1]) ho
  | _ =>
    refine Tiny.ResRel.bind (store_sim s a key k1 (xs := others) (Sub.of_mem (by simp_all))) fun g g' hg => ?_
    simp only [Res.bind_abort, Res.bind_ub, Res.bind_limit, Res.bind_timeout]
    trivial

/-- The values in a buffer. -/
def bufValues : Arr Value → List Value
  | none => []
  | some b => b.cells.filterMap id

theorem mem_bufValues {b : Buf Value} {v : Value} : v ∈ bufValues (some b) ↔ some v ∈ b.cells := by
  simp [bufValues]

theorem resRel_eqs {α β : Type} {R : α → β → Prop} {x : Res α} {y : Res β} (h : ResRel R x y) :
    ResRel (fun a b => R a b ∧ x = .ok a ∧ y = .ok b) x y := by
  cases x <;> cases y <;> simp_all [ResRel]

theorem storeArray_inv {h g : Heap} {a key : Nat} {b : Arr Value} (e : storeArray h a key b = .ok g) :
    ∃ vs nb, g = setNat (setNat h a key vs) a noBuffer nb ∧ ∀ v ∈ vs, v ∈ bufValues b := by
  cases b with
  | none => simp only [storeArray, Res.ok.injEq] at e; exact ⟨[], _, e.symm, by simp⟩
  | some x =>
    simp only [storeArray] at e
    obtain ⟨vs, e1, e⟩ := Res.bind_eq_ok.1 e
    simp only [Res.ok.injEq] at e
    refine ⟨vs, _, e.symm, fun v hv => mem_bufValues.2 (List.mem_of_mem_take (i := x.n) ?_)⟩
    rw [cellValues_mem e1]
    exact List.mem_map_of_mem hv

theorem newArray_sim {h h' : Heap} {ws others : List Value} (s : HeapSim h h' (ws ++ others)) {prop key : Nat} {b : Arr Value}
    (hb : Sub h (bufValues b) (ws ++ others))
    (hp : (prop = arrayProp ∧ key = arrayProp) ∨ (prop = primArrayProp ∧ key = primData)) :
    ResRel (fun a b => b.1 = a.1 ∧ HeapSim a.2 b.2 (a.1 :: others)) (newArray prop key b h) (newArray prop key b h') := by
  unfold newArray
  have ha : newAddr h' = newAddr h := by simp only [newAddr, s.next]
  rw [ha]
  generalize newAddr h = a
  have s0 : HeapSim h h' (bufValues b ++ others) := s.sub (sub_append_left others hb)
  have s1 : HeapSim (setNat h a primArrayProp []) (setNat h' a primArrayProp []) (bufValues b ++ others) :=
    sim_setNat s0 _ _ (by simp) (sub_refl _ _)
  have s2 := store_sim s1 a key (b := b) (fun x hx y hy => .inr fun o ho => by
    subst hx
    exact .root (List.mem_append_left _ (mem_bufValues.2 hy)) ho) (sub_refl _ _)
  refine Tiny.ResRel.bind (resRel_eqs s2) fun g g' ⟨s2, eg, eg'⟩ => ?_
  obtain ⟨vs, nb, rfl, hvs⟩ := storeArray_inv eg
  obtain ⟨vs', nb', rfl, _⟩ := storeArray_inv eg'
  have hn : h'.next = h.next := s.next
  simp only [ResRel]
  refine ⟨by simp only [Heap.alloc, setNat]; rw [hn], ?_⟩
  have hkids : Sub (setNat (setNat (setNat h a primArrayProp []) a key vs) a noBuffer nb)
      (Heap.children (Heap.alloc (setNat (setNat (setNat h a primArrayProp []) a key vs) a noBuffer nb)
        (.native a prop)).2 h.next) (bufValues b ++ others) := by
    intro v hv o ho
    refine .root (List.mem_append_left _ ?_) ho
    rcases hp with ⟨rfl, rfl⟩ | ⟨rfl, rfl⟩
    · refine hvs v ?_
      simpa [Heap.children, Heap.alloc, setNat, upd, arrayProp, noBuffer, primArrayProp] using hv
    · simp [Heap.children, Heap.alloc, setNat, upd, primData, noBuffer, primArrayProp] at hv
  exact s2.alloc (ob := .native a prop) hkids rfl (vs := .native h.next :: others) (by
    intro v hv o ho
    rcases List.mem_cons.1 hv with rfl | h1
    · cases ho; exact .inl rfl
    · exact .inr (.root (by simp [h1]) ho))

theorem sortInt_par {qsort : List Value → List Value} (hq : ∀ l, (qsort l).Perm l) {h h' : Heap} {args others : List Value}
    (s : HeapSim h h' (args ++ others)) {v : Value} (hv : v ∈ args) :
    ResRel (fun a b => b.1 = a.1 ∧ HeapSim a.2 b.2 (a.1 :: others)) (sortInt qsort v h) (sortInt qsort v h') := by
  unfold sortInt
  rw [arrayAt_sim s (by simp [hv])]
  refine Tiny.ResRel.same _ fun ⟨a, key⟩ e => ?_
  dsimp only
  rw [s.natRefs]
  have hs : Sub h (.null :: others) (args ++ others) := by
    intro x hx o ho
    rcases List.mem_cons.1 hx with rfl | h1
    · cases ho
    · exact .root (by simp [h1]) ho
  split
  · exact ⟨rfl, s.sub hs⟩
  · split
    · trivial
    · split
      · trivial
      · exact ⟨rfl, sim_setNat s a key (fun v hv => .inl ((hq _).mem_iff.1 hv)) hs⟩

theorem arrayFn_par {qsort : List Value → List Value} (hq : ∀ l, (qsort l).Perm l) (f : ArrayFn) : HeapParametric (arrayFn qsort f) := by
  intro args h h' others s
  have ub : ∀ {R : Value × Heap → Value × Heap → Prop}, ResRel R (.ub : Res (Value × Heap)) .ub := trivial
  unfold arrayFn
  split
  · refine newArray_sim s ?_ ?_
    · intro v hv o ho
      exact .root (List.mem_append_left _ (by simpa [bufValues] using hv)) ho
    · rename_i p
      cases p <;> simp
  all_goals first
    | exact arrayCall_sim s (by simp) (by simp [opValues])
    | exact sortInt_par hq s (by simp)
    | exact ub
    | exact Tiny.ResRel.same _ fun n _ => arrayCall_sim s (by simp) (by simp [opValues, Value.objId?])

/-! ## Dictionaries -/

/-- Two memories which look the same from the values in `S`. -/
def AgreeOn (S : Value → Prop) (m m' : Mem) : Prop :=
  m'.cmem = m.cmem ∧ ∀ v, S v → ∀ o, v.objId? = some o → m'.strBytes o = m.strBytes o ∧ m'.natAddr o = m.natAddr o

theorem hash_agree {S : Value → Prop} {m m' : Mem} (h : AgreeOn S m m') {v : Value} (hv : S v) : hashValue m' v = hashValue m v := by
  have k := h.2 v hv
  cases v with
  | native o => simp only [hashValue, (k o rfl).2]
  | str o => simp only [hashValue, (k o rfl).1]
  | cstr p => simp only [hashValue, Mem.cstrBytes, h.1]
  | _ => rfl

theorem equal_agree {S : Value → Prop} {m m' : Mem} (h : AgreeOn S m m') {v w : Value} (hv : S v) (hw : S w) :
    areValuesEqual m' v w = areValuesEqual m v w := by
  have k := h.2 v hv
  have k' := h.2 w hw
  cases v <;> cases w <;> simp_all [areValuesEqual, Mem.cstrBytes, Value.objId?, h.1]

/-- Everything in a dictionary satisfies `S`. -/
def DictIn (S : Value → Prop) (d : Dict) : Prop := (∀ v ∈ d.keys, S v) ∧ ∀ v ∈ d.values, S v

theorem arrGet_mem {l : List Value} {i : Nat} {v : Value} (h : arrGet l i = .ok v) : v ∈ l := by
  unfold arrGet at h
  split at h
  · next e => simp only [Res.ok.injEq] at h; exact h ▸ List.mem_of_getElem? e
  · cases h

theorem arrSet_mem {l l' : List Value} {i : Nat} {v : Value} (h : arrSet l i v = .ok l') : ∀ x ∈ l', x ∈ l ∨ x = v := by
  unfold arrSet at h
  split at h
  · simp only [Res.ok.injEq] at h
    subst h
    exact fun x hx => List.mem_or_eq_of_mem_set hx
  · cases h


/-- The same outcome, of which `Q` holds. -/
def Agr {α : Type} (Q : α → Prop) (x y : Res α) : Prop := x = y ∧ ∀ a, y = .ok a → Q a

theorem Agr.bind {α β : Type} {P : α → Prop} {Q : β → Prop} {x y : Res α} {f g : α → Res β} (h : Agr P x y)
    (k : ∀ a, P a → Agr Q (f a) (g a)) : Agr Q (x >>= f) (y >>= g) := by
  obtain ⟨rfl, h⟩ := h
  cases x with
  | ok a => exact k a (h a rfl)
  | _ => exact ⟨rfl, fun a e => by cases e⟩

theorem Agr.ite {α : Type} {Q : α → Prop} {c : Prop} [Decidable c] {x y z w : Res α} (h1 : c → Agr Q x z) (h2 : ¬ c → Agr Q y w) :
    Agr Q (if c then x else y) (if c then z else w) := by
  by_cases h : c
  · rw [if_pos h, if_pos h]; exact h1 h
  · rw [if_neg h, if_neg h]; exact h2 h

theorem Agr.ok {α : Type} {Q : α → Prop} {a : α} (h : Q a) : Agr Q (.ok a) (.ok a) := ⟨rfl, fun _ e => by cases e; exact h⟩

theorem Agr.pure {α : Type} {Q : α → Prop} {a : α} (h : Q a) : Agr Q (Pure.pure a) (Pure.pure a) := Agr.ok h

theorem Agr.same {α : Type} {Q : α → Prop} {x : Res α} (h : ∀ a, x = .ok a → Q a) : Agr Q x x := ⟨rfl, h⟩

theorem Agr.any {α : Type} {x y : Res α} (h : x = y) : Agr (fun _ => True) x y := ⟨h, fun _ _ => trivial⟩

theorem Agr.timeout {α : Type} {Q : α → Prop} : Agr Q (.timeout : Res α) .timeout := ⟨rfl, fun _ e => by cases e⟩

/-- What is said of the four functions which insert. -/
structure SetOk (S : Value → Prop) (m m' : Mem) (fuel : Nat) : Prop where
  set : ∀ d k v, DictIn S d → S k → S v → Agr (DictIn S) (Dict.set fuel m' d k v) (Dict.set fuel m d k v)
  probe : ∀ d k v hash i o, DictIn S d → S k → S v →
    Agr (DictIn S) (Dict.setProbe fuel m' d k v hash i o) (Dict.setProbe fuel m d k v hash i o)
  grow : ∀ d, DictIn S d → Agr (DictIn S) (Dict.grow fuel m' d) (Dict.grow fuel m d)
  loop : ∀ d i n, DictIn S d → DictIn S n → Agr (DictIn S) (Dict.growLoop fuel m' d i n) (Dict.growLoop fuel m d i n)

theorem init_in {S : Value → Prop} (h0 : S .null) (n : Nat) : DictIn S (Dict.init n) := by
  constructor <;> intro v hv <;> simp only [Dict.init, List.mem_replicate] at hv <;> exact hv.2 ▸ h0

theorem arrSet_in {S : Value → Prop} {l : List Value} (hl : ∀ v ∈ l, S v) {i : Nat} {v : Value} (hv : S v) :
    Agr (fun l' => ∀ v ∈ l', S v) (arrSet l i v) (arrSet l i v) :=
  .same fun _ e x hx => (arrSet_mem e x hx).elim (hl x) (· ▸ hv)

theorem arrGet_in {S : Value → Prop} {l : List Value} (hl : ∀ v ∈ l, S v) {i : Nat} :
    Agr S (arrGet l i) (arrGet l i) := .same fun _ e => hl _ (arrGet_mem e)

theorem setOk {S : Value → Prop} (h0 : S .null) {m m' : Mem} (h : AgreeOn S m m') : ∀ fuel, SetOk S m m' fuel
  | 0 => ⟨fun _ _ _ _ _ _ => .timeout, fun _ _ _ _ _ _ _ _ _ => .timeout, fun _ _ => .timeout, fun _ _ _ _ _ => .timeout⟩
  | fuel + 1 => by
    have ih := setOk h0 h fuel
    constructor
    · intro d k v hd hk hv
      simp only [Dict.set]
      have step : ∀ d1, DictIn S d1 → Agr (DictIn S)
          (do let hash ← hashValue m' k; Dict.setProbe fuel m' d1 k v hash.toNat (hash.toNat % d1.bucketCount) (hash.toNat % d1.bucketCount))
          (do let hash ← hashValue m k; Dict.setProbe fuel m d1 k v hash.toNat (hash.toNat % d1.bucketCount) (hash.toNat % d1.bucketCount)) :=
        fun d1 h1 => (Agr.any (hash_agree h hk)).bind fun x _ => ih.probe d1 k v _ _ _ h1 hk hv
      exact .ite (fun _ => (ih.grow d hd).bind step) fun _ => (Agr.pure hd).bind step
    · intro d k v hash i o hd hk hv
      simp only [Dict.setProbe]
      refine (arrGet_in hd.1).bind fun p hp => ?_
      rw [equal_agree h hp hk]
      refine .ite (fun _ => .ite (fun _ => (ih.grow d hd).bind fun d1 h1 => ih.probe d1 k v _ _ _ h1 hk hv) fun _ =>
        ih.probe d k v _ _ _ hd hk hv) fun _ => .ite (fun _ => ?_) fun _ => ?_
      · exact (arrSet_in hd.1 hk).bind fun ks hks => (arrSet_in hd.2 hv).bind fun vs hvs => .pure ⟨hks, hvs⟩
      · exact (arrSet_in hd.2 hv).bind fun vs hvs => .pure ⟨hd.1, hvs⟩
    · intro d hd
      exact ih.loop d 0 _ hd (init_in h0 _)
    · intro d i n hd hn
      simp only [Dict.growLoop]
      refine .ite (fun _ => (arrGet_in hd.1).bind fun p hp => ?_) fun _ => .pure hn
      refine .ite (fun _ => (arrGet_in hd.2).bind fun pv hpv => (ih.set n p pv hn hp hpv).bind fun n1 h1 =>
        ih.loop d (i + 1) n1 hd h1) fun _ => (Agr.pure hn).bind fun n1 h1 => ih.loop d (i + 1) n1 hd h1

theorem getLoop_agree {S : Value → Prop} {m m' : Mem} (h : AgreeOn S m m') {d : Dict} (hd : DictIn S d) {k : Value} (hk : S k) :
    ∀ fuel i o, Agr (fun r => ∀ v, r = some v → S v) (Dict.getLoop fuel m' d k i o) (Dict.getLoop fuel m d k i o)
  | 0, i, o => .timeout
  | fuel + 1, i, o => by
    have ih := getLoop_agree h hd hk fuel
    simp only [Dict.getLoop]
    refine (arrGet_in hd.1).bind fun p hp => ?_
    rw [equal_agree h hp hk]
    refine .ite (fun _ => .pure (by simp)) fun _ => .ite (fun _ => (arrGet_in hd.2).bind fun v hv => .pure ?_) fun _ =>
      .ite (fun _ => .pure (by simp)) fun _ => ih _ _
    intro w hw
    cases hw
    exact hv

theorem get_agree {S : Value → Prop} {m m' : Mem} (h : AgreeOn S m m') {d : Dict} (hd : DictIn S d) {k : Value} (hk : S k) (fuel : Nat) :
    Agr (fun r => ∀ v, r = some v → S v) (Dict.get fuel m' d k) (Dict.get fuel m d k) :=
  (Agr.any (hash_agree h hk)).bind fun _ _ => getLoop_agree h hd hk _ _ _

theorem removeLoop_agree {S : Value → Prop} (h0 : S .null) {m m' : Mem} (h : AgreeOn S m m') {k : Value} (hk : S k) :
    ∀ fuel (d : Dict) (i : Nat), DictIn S d → Agr (DictIn S) (Dict.removeLoop fuel m' d k i) (Dict.removeLoop fuel m d k i)
  | 0, d, i, hd => .timeout
  | fuel + 1, d, i, hd => by
    have ih := removeLoop_agree h0 h hk fuel
    simp only [Dict.removeLoop]
    refine (arrGet_in hd.1).bind fun p hp => .ite (fun _ => .pure hd) fun _ => ?_
    rw [equal_agree h hp hk, hash_agree h hp]
    refine .ite (fun _ => (arrSet_in hd.1 h0).bind fun ks hks => (Agr.pure (Q := DictIn S) (a := { d with keys := ks, filledCount := d.filledCount - 1 }) ⟨hks, hd.2⟩).bind fun d1 h1 => ih d1 _ h1) fun _ =>
      (Agr.any rfl).bind fun x _ => .ite (fun _ => ?_) fun _ => (Agr.pure hd).bind fun d1 h1 => ih d1 _ h1
    exact (arrGet_in hd.2).bind fun pv hpv => (arrSet_in hd.1 h0).bind fun ks hks =>
      ((setOk h0 h fuel).set { d with keys := ks, filledCount := d.filledCount - 1 } p pv ⟨hks, hd.2⟩ hp hpv).bind fun d1 h1 => ih d1 _ h1

theorem remove_agree {S : Value → Prop} (h0 : S .null) {m m' : Mem} (h : AgreeOn S m m') {d : Dict} (hd : DictIn S d) {k : Value}
    (hk : S k) (fuel : Nat) : Agr (DictIn S) (Dict.remove fuel m' d k) (Dict.remove fuel m d k) :=
  (Agr.any (hash_agree h hk)).bind fun _ _ => removeLoop_agree h0 h hk _ _ _ hd

theorem setAll_agree {S : Value → Prop} (h0 : S .null) {m m' : Mem} (h : AgreeOn S m m') : ∀ (n : Nat) (args : List Value), args.length ≤ n →
    (∀ v ∈ args, S v) → ∀ d, DictIn S d → Agr (DictIn S) (setAll m' d args) (setAll m d args)
  | _, [], _, _, d, hd => .ok hd
  | _, [_], _, _, d, hd => .ok hd
  | n + 2, k :: v :: r, hn, ha, d, hd => by
    simp only [setAll]
    exact ((setOk h0 h _).set d k v hd (ha k (by simp)) (ha v (by simp))).bind fun d1 h1 =>
      setAll_agree h0 h n r (by simp at hn; omega) (fun x hx => ha x (by simp [hx])) d1 h1
  | 0, _ :: _ :: _, hn, _, _, _ => by simp at hn
  | 1, _ :: _ :: _, hn, _, _, _ => by simp at hn

/-! ## Dictionaries in the heap -/

theorem dictAt_sim {h h' : Heap} {ws : List Value} (s : HeapSim h h' ws) {v : Value} (hv : v ∈ ws) :
    dictAt h' v = dictAt h v := by
  cases v with
  | native o => simp only [dictAt, deref_sim s (.root hv rfl)]
  | _ => rfl

theorem dictAt_inv {h : Heap} {v : Value} {a : Nat} (e : dictAt h v = .ok a) :
    ∃ o, v = .native o ∧ o ∈ h.list ∧ h.obj o = .native a dictProp := by
  cases v with
  | native o =>
    simp only [dictAt, Heap.deref] at e
    by_cases ho : o ∈ h.list
    · rw [if_pos ho, Res.bind_ok] at e
      cases eo : h.obj o with
      | native a' p =>
        rw [eo] at e
        simp only at e
        split at e
        · next hp => simp only [Res.ok.injEq] at e; exact ⟨o, rfl, ho, by rw [← e, ← hp, eo]⟩
        · cases e
      | _ => rw [eo] at e; simp at e
    · rw [if_neg ho] at e; simp at e
  | _ => simp [dictAt] at e

theorem unpair_mem : ∀ (n : Nat) (l : List Value), l.length ≤ n → (∀ v ∈ (unpair l).1, v ∈ l) ∧ ∀ v ∈ (unpair l).2, v ∈ l
  | _, [], _ => by simp [unpair]
  | _, [_], _ => by simp [unpair]
  | n + 2, k :: v :: r, hn => by
    have := unpair_mem n r (by simp at hn; omega)
    simp only [unpair]
    constructor
    · intro x hx
      rcases List.mem_cons.1 hx with rfl | h1
      · simp
      · simp [this.1 x h1]
    · intro x hx
      rcases List.mem_cons.1 hx with rfl | h1
      · simp
      · simp [this.2 x h1]
  | 0, _ :: _ :: _, hn => by simp at hn
  | 1, _ :: _ :: _, hn => by simp at hn

theorem pair_mem {S : Value → Prop} (h0 : S .null) : ∀ {ks vs : List Value}, (∀ v ∈ ks, S v) → (∀ v ∈ vs, S v) → ∀ v ∈ pair ks vs, S v
  | [], _, _, _ => by simp [pair]
  | _ :: _, [], _, _ => by simp [pair]
  | k :: ks, v :: vs, hk, hv => by
    intro x hx
    simp only [pair, List.mem_cons] at hx
    rcases hx with rfl | rfl | hx
    · exact hk _ (by simp)
    · split
      · exact h0
      · exact hv _ (by simp)
    · exact pair_mem h0 (fun y hy => hk y (by simp [hy])) (fun y hy => hv y (by simp [hy])) x hx

/-- What is reachable from `ws`. -/
def Live (h : Heap) (ws : List Value) (v : Value) : Prop := ∀ o, v.objId? = some o → Reach h ws o

theorem live_null (h : Heap) (ws : List Value) : Live h ws .null := fun o ho => by cases ho

theorem live_mem {h : Heap} {ws : List Value} {v : Value} (hv : v ∈ ws) : Live h ws v := fun _ ho => .root hv ho

theorem agree_sim {h h' : Heap} {ws : List Value} (s : HeapSim h h' ws) (cmem : Nat → List UInt8) :
    AgreeOn (Live h ws) ⟨h.obj, cmem⟩ ⟨h'.obj, cmem⟩ :=
  ⟨rfl, fun _ hv o ho => by
    have := (s.same o (hv o ho)).2
    simp only [Mem.strBytes, Mem.natAddr, this, and_self]⟩

theorem loadDict_sim {h h' : Heap} {ws : List Value} (s : HeapSim h h' ws) (a : Nat) : loadDict h' a = loadDict h a := by
  simp only [loadDict, s.natRefs]

theorem loadDict_in {h : Heap} {ws : List Value} {v : Value} (hv : v ∈ ws) {a : Nat} (e : dictAt h v = .ok a) :
    DictIn (Live h ws) (loadDict h a) := by
  obtain ⟨o, rfl, _, eo⟩ := dictAt_inv e
  have : ∀ x ∈ h.natRefs a dictProp, Live h ws x := by
    intro x hx p hp
    exact .step (.root hv rfl) ⟨x, by rw [Heap.children, eo]; exact hx, hp⟩
  have k := unpair_mem _ (h.natRefs a dictProp) Nat.le.refl
  exact ⟨fun x hx => this x (k.1 x hx), fun x hx => this x (k.2 x hx)⟩

theorem storeDict_sim {h h' : Heap} {ws : List Value} (s : HeapSim h h' ws) (a : Nat) {d : Dict} (hd : DictIn (Live h ws) d) {xs}
    (hs : Sub h xs ws) : HeapSim (storeDict h a d) (storeDict h' a d) xs :=
  sim_setNat s a dictProp (fun v hv => .inr (pair_mem (live_null h ws) hd.1 hd.2 v hv)) hs

theorem sub_cons {h : Heap} {v : Value} {args others : List Value} (hv : Live h (args ++ others) v) :
    Sub h (v :: others) (args ++ others) := by
  intro x hx o ho
  rcases List.mem_cons.1 hx with rfl | h1
  · exact hv o ho
  · exact .root (by simp [h1]) ho

theorem agr_rel {α β : Type} {Q : α → Prop} {x y : Res α} {f g : α → Res β} {R : β → β → Prop} (h : Agr Q y x)
    (k : ∀ a, Q a → ResRel R (f a) (g a)) : ResRel R (x >>= f) (y >>= g) := by
  obtain ⟨rfl, h⟩ := h
  exact Tiny.ResRel.same _ fun a e => k a (h a e)

theorem createDict_sim {h h' : Heap} {args others : List Value} (cmem : Nat → List UInt8) (s : HeapSim h h' (args ++ others)) :
    ResRel (fun a b => b.1 = a.1 ∧ HeapSim a.2 b.2 (a.1 :: others)) (createDict cmem args h) (createDict cmem args h') := by
  unfold createDict
  split
  · trivial
  · refine agr_rel (setAll_agree (live_null h _) (agree_sim s cmem) _ args Nat.le.refl (fun v hv => live_mem (by simp [hv])) _
      (init_in (live_null h _) _)) fun d hd => ?_
    have ha : newAddr h' = newAddr h := by simp only [newAddr, s.next]
    have hn : h'.next = h.next := s.next
    rw [ha]
    generalize newAddr h = a
    dsimp only
    refine ⟨by simp only [Heap.alloc, storeDict, setNat]; rw [hn], ?_⟩
    have s0 : HeapSim h h' (pair d.keys d.values ++ others) :=
      s.sub (sub_append_left others fun v hv => pair_mem (live_null h _) hd.1 hd.2 v hv)
    have s1 : HeapSim (storeDict h a d) (storeDict h' a d) (pair d.keys d.values ++ others) :=
      sim_setNat s0 a dictProp (fun v hv => .inr (live_mem (by simp [hv]))) (sub_refl _ _)
    have hkids : Sub (storeDict h a d) (Heap.children (Heap.alloc (storeDict h a d) (.native a dictProp)).2 h.next)
        (pair d.keys d.values ++ others) := by
      intro v hv o ho
      refine .root (List.mem_append_left _ ?_) ho
      simpa [Heap.children, Heap.alloc, storeDict, setNat, upd] using hv
    exact s1.alloc (ob := .native a dictProp) hkids rfl (vs := .native h.next :: others) (by
      intro v hv o ho
      rcases List.mem_cons.1 hv with rfl | h1
      · cases ho; exact .inl rfl
      · exact .inr (.root (by simp [h1]) ho))

theorem bufValues_arrayOf (vs : List Value) : bufValues (arrayOf vs) = vs := by
  unfold arrayOf
  split
  · next h => rw [h]; rfl
  · simp [bufValues, List.filterMap_map]

theorem keysList_in {S : Value → Prop} {d : Dict} (h : DictIn S d) : ∀ v ∈ d.keysList, S v := by
  intro v hv
  exact h.1 v (List.mem_filter.1 hv).1

theorem valuesList_in {S : Value → Prop} {d : Dict} (h : DictIn S d) : ∀ v ∈ d.valuesList, S v := by
  intro v hv
  simp only [Dict.valuesList, List.mem_map] at hv
  obtain ⟨p, hp, rfl⟩ := hv
  exact h.2 _ (List.of_mem_zip (List.mem_filter.1 hp).1).2

theorem dictFn_par (cmem : Nat → List UInt8) (f : DictFn) : HeapParametric (dictFn cmem f) := by
  intro args h h' others s
  have hm := agree_sim s cmem
  have h0 := live_null h (args ++ others)
  have ub : ∀ {R : Value × Heap → Value × Heap → Prop}, ResRel R (.ub : Res (Value × Heap)) .ub := trivial
  unfold dictFn
  split
  · exact createDict_sim cmem s
  · rename_i v k x r
    have hv : v ∈ (v :: k :: x :: r) ++ others := by simp
    rw [dictAt_sim s hv]
    refine Tiny.ResRel.same _ fun a e => ?_
    rw [loadDict_sim s]
    refine agr_rel ((setOk h0 hm _).set _ k x (loadDict_in hv e) (live_mem (by simp)) (live_mem (by simp))) fun d hd => ?_
    exact ⟨rfl, storeDict_sim s a hd (sub_cons h0)⟩
  · rename_i v k r
    have hv : v ∈ (v :: k :: r) ++ others := by simp
    rw [dictAt_sim s hv]
    refine Tiny.ResRel.same _ fun a e => ?_
    rw [loadDict_sim s]
    refine agr_rel (get_agree hm (loadDict_in hv e) (live_mem (by simp)) _) fun r _ => ?_
    exact ⟨rfl, s.sub (sub_cons fun o ho => by cases ho)⟩
  · rename_i v k r
    have hv : v ∈ (v :: k :: r) ++ others := by simp
    rw [dictAt_sim s hv]
    refine Tiny.ResRel.same _ fun a e => ?_
    rw [loadDict_sim s]
    refine agr_rel (get_agree hm (loadDict_in hv e) (live_mem (by simp)) _) fun r hr => ?_
    refine ⟨rfl, s.sub (sub_cons ?_)⟩
    cases r with
    | none => exact h0
    | some x => exact hr x rfl
  · rename_i v k r
    have hv : v ∈ (v :: k :: r) ++ others := by simp
    rw [dictAt_sim s hv]
    refine Tiny.ResRel.same _ fun a e => ?_
    rw [loadDict_sim s]
    refine agr_rel (remove_agree h0 hm (loadDict_in hv e) (live_mem (by simp)) _) fun d hd => ?_
    exact ⟨rfl, storeDict_sim s a hd (sub_cons h0)⟩
  · rename_i v r
    have hv : v ∈ (v :: r) ++ others := by simp
    rw [dictAt_sim s hv]
    refine Tiny.ResRel.same _ fun a e => ?_
    rw [loadDict_sim s]
    refine ⟨rfl, storeDict_sim s a ⟨?_, ?_⟩ (sub_cons h0)⟩
    · intro x hx; simp only [Dict.clear, List.mem_map] at hx; obtain ⟨_, _, rfl⟩ := hx; exact h0
    · intro x hx; simp only [Dict.clear, List.mem_map] at hx; obtain ⟨_, _, rfl⟩ := hx; exact h0
  · rename_i v r
    have hv : v ∈ (v :: r) ++ others := by simp
    rw [dictAt_sim s hv]
    refine Tiny.ResRel.same _ fun a e => ?_
    rw [loadDict_sim s]
    refine newArray_sim s ?_ (.inl ⟨rfl, rfl⟩)
    rw [bufValues_arrayOf]
    exact fun x hx => keysList_in (loadDict_in hv e) x hx
  · rename_i v r
    have hv : v ∈ (v :: r) ++ others := by simp
    rw [dictAt_sim s hv]
    refine Tiny.ResRel.same _ fun a e => ?_
    rw [loadDict_sim s]
    refine newArray_sim s ?_ (.inl ⟨rfl, rfl⟩)
    rw [bufValues_arrayOf]
    exact fun x hx => valuesList_in (loadDict_in hv e) x hx
  · exact ub

/-! ## Strings and 64-bit integers -/

theorem toStr_sim {h h' : Heap} {ws : List Value} (s : HeapSim h h' ws) (cmem : Nat → List UInt8) {v : Value} (hv : v ∈ ws) :
    toStr cmem h' v = toStr cmem h v := by
  cases v with
  | str o => simp only [toStr, deref_sim s (.root hv rfl)]
  | _ => rfl

theorem stringLen_sim {h h' : Heap} {ws : List Value} (s : HeapSim h h' ws) (cmem : Nat → List UInt8) {v : Value} (hv : v ∈ ws) :
    stringLen cmem h' v = stringLen cmem h v := by
  cases v with
  | str o => simp only [stringLen, deref_sim s (.root hv rfl)]
  | _ => rfl

theorem toAddr_sim {h h' : Heap} {ws : List Value} (s : HeapSim h h' ws) {v : Value} (hv : v ∈ ws) : toAddr h' v = toAddr h v := by
  cases v with
  | native o => simp only [toAddr, deref_sim s (.root hv rfl)]
  | _ => rfl

theorem newString_sim {h h' : Heap} {args others : List Value} (s : HeapSim h h' (args ++ others)) (buf : List (Option UInt8)) (n : Nat) :
    ResRel (fun a b => b.1 = a.1 ∧ HeapSim a.2 b.2 (a.1 :: others)) (newString h buf n) (newString h' buf n) := by
  unfold newString
  refine Tiny.ResRel.same _ fun b _ => ?_
  dsimp only
  refine ⟨by simp only [Heap.alloc]; rw [s.next], ?_⟩
  exact s.alloc (ob := .str b) (kids := []) (fun v hv => by cases hv) (by simp [Heap.children, Heap.alloc, upd])
    (vs := .str h.next :: others) (by
      intro v hv o ho
      rcases List.mem_cons.1 hv with rfl | h1
      · cases ho; exact .inl rfl
      · exact .inr (.root (by simp [h1]) ho))

theorem plain_sim {h h' : Heap} {args others : List Value} (s : HeapSim h h' (args ++ others)) {v : Value} (hv : v.objId? = none) :
    ResRel (fun a b => b.1 = a.1 ∧ HeapSim a.2 b.2 (a.1 :: others)) (.ok (v, h)) (.ok (v, h')) :=
  ⟨rfl, s.sub (sub_cons fun o ho => by rw [hv] at ho; cases ho)⟩

theorem totalLen_sim {h h' : Heap} {ws : List Value} (s : HeapSim h h' ws) (cmem : Nat → List UInt8) :
    ∀ {vs : List Value}, (∀ v ∈ vs, v ∈ ws) → totalLen cmem h' vs = totalLen cmem h vs
  | [], _ => rfl
  | v :: vs, hv => by
    simp only [totalLen, stringLen_sim s cmem (hv v (by simp)), totalLen_sim s cmem (vs := vs) fun x hx => hv x (by simp [hx])]

theorem copyAll_sim {h h' : Heap} {ws : List Value} (s : HeapSim h h' ws) (cmem : Nat → List UInt8) :
    ∀ {vs : List Value}, (∀ v ∈ vs, v ∈ ws) → ∀ buf off, copyAll cmem h' buf off vs = copyAll cmem h buf off vs
  | [], _, _, _ => rfl
  | v :: vs, hv, buf, off => by
    simp only [copyAll, stringLen_sim s cmem (hv v (by simp)), toStr_sim s cmem (hv v (by simp)),
      copyAll_sim s cmem (vs := vs) fun x hx => hv x (by simp [hx])]

theorem rel_ite {α β : Type} {R : α → β → Prop} {c : Prop} [Decidable c] {x z : Res α} {y w : Res β} (h1 : ResRel R x y) (h2 : ResRel R z w) :
    ResRel R (if c then x else z) (if c then y else w) := by
  by_cases h : c
  · rw [if_pos h, if_pos h]; exact h1
  · rw [if_neg h, if_neg h]; exact h2

theorem strFn_par (cmem : Nat → List UInt8) (lit : Nat) (f : StrFn) : HeapParametric (strFn cmem lit f) := by
  intro args h h' others s
  have ub : ∀ {R : Value × Heap → Value × Heap → Prop}, ResRel R (.ub : Res (Value × Heap)) .ub := trivial
  have ab : ∀ {R : Value × Heap → Value × Heap → Prop}, ResRel R (.abort : Res (Value × Heap)) .abort := trivial
  cases f with
  | strlen =>
    simp only [strFn, strlenF]
    split
    · rw [toStr_sim s cmem (by simp)]
      exact Tiny.ResRel.same _ fun x _ => Tiny.ResRel.same _ fun n _ => plain_sim s rfl
    · exact ub
  | stridx =>
    simp only [strFn, stridx]
    split
    · rw [toStr_sim s cmem (by simp)]
      refine Tiny.ResRel.same _ fun x _ => Tiny.ResRel.same _ fun n _ => ?_
      unfold stridxAt
      refine Tiny.ResRel.same _ fun _ _ => ?_
      split
      · exact plain_sim s rfl
      · exact ub
    · exact ub
  | strchr =>
    simp only [strFn, strchr]
    split
    · rw [toStr_sim s cmem (by simp), stringLen_sim s cmem (by simp)]
      refine Tiny.ResRel.same _ fun x _ => Tiny.ResRel.same _ fun n _ => ?_
      split
      · exact ub
      · split <;> exact plain_sim s rfl
    · exact ub
  | strcat =>
    simp only [strFn, strcat]
    simp only [totalLen_sim s cmem (vs := args) (by simp +contextual), copyAll_sim s cmem (vs := args) (by simp +contextual)]
    exact Tiny.ResRel.same _ fun n _ => Tiny.ResRel.same _ fun x _ => Tiny.ResRel.same _ fun b _ => newString_sim s _ _
  | substr =>
    simp only [strFn, substr]
    split
    · rw [toStr_sim s cmem (by simp), stringLen_sim s cmem (by simp)]
      refine Tiny.ResRel.same _ fun x _ => Tiny.ResRel.same _ fun n _ => Tiny.ResRel.same _ fun i _ => Tiny.ResRel.same _ fun j _ =>
        Tiny.ResRel.same _ fun _ _ => ?_
      generalize (if j = -1 then _ else j) = k
      exact rel_ite (plain_sim s rfl) (Tiny.ResRel.same _ fun _ _ => Tiny.ResRel.same _ fun _ _ => Tiny.ResRel.same _ fun _ _ =>
        newString_sim s _ _)
    · exact ab
  | stoi =>
    simp only [strFn, stoi]
    split
    · rw [toStr_sim s cmem (by simp)]
      refine Tiny.ResRel.same _ fun x _ => ?_
      split
      · exact ub
      · exact rel_ite (plain_sim s rfl) ub
    · exact ub
  | intToStr =>
    simp only [strFn, intToStr]
    split
    · split
      · exact newString_sim s _ _
      · exact ub
    · exact ub

theorem addMany_sim {h h' : Heap} {ws : List Value} (s : HeapSim h h' ws) : ∀ {vs : List Value}, (∀ v ∈ vs, v ∈ ws) → ∀ x,
    addMany h' x vs = addMany h x vs
  | [], _, _ => rfl
  | v :: vs, hv, x => by
    simp only [addMany, toAddr_sim s (hv v (by simp)), addMany_sim s (vs := vs) fun x hx => hv x (by simp [hx])]

theorem mulMany_sim {h h' : Heap} {ws : List Value} (s : HeapSim h h' ws) : ∀ {vs : List Value}, (∀ v ∈ vs, v ∈ ws) → ∀ x,
    mulMany h' x vs = mulMany h x vs
  | [], _, _ => rfl
  | v :: vs, hv, x => by
    simp only [mulMany, toAddr_sim s (hv v (by simp)), mulMany_sim s (vs := vs) fun x hx => hv x (by simp [hx])]

theorem i64Fn_par (f : I64Fn) : HeapParametric (i64Fn f) := by
  intro args h h' others s
  have ub : ∀ {R : Value × Heap → Value × Heap → Prop}, ResRel R (.ub : Res (Value × Heap)) .ub := trivial
  unfold i64Fn
  split
  · exact plain_sim s rfl
  · rw [toAddr_sim s (by simp)]
    refine Tiny.ResRel.same _ fun x _ => ?_
    rw [addMany_sim s (by simp +contextual)]
    exact Tiny.ResRel.same _ fun _ _ => plain_sim s rfl
  · rw [toAddr_sim s (by simp)]
    refine Tiny.ResRel.same _ fun x _ => ?_
    rw [mulMany_sim s (by simp +contextual)]
    exact Tiny.ResRel.same _ fun _ _ => plain_sim s rfl
  · rw [toAddr_sim s (by simp)]
    refine Tiny.ResRel.same _ fun x _ => ?_
    dsimp only
    split
    · exact newString_sim s _ _
    · exact ub
  · exact ub

theorem libFn_par (L : LibEnv) (hq : ∀ l, (L.qsort l).Perm l) : ∀ f, HeapParametric (libFn L f)
  | .array f => arrayFn_par hq f
  | .dict f => dictFn_par L.cmem f
  | .i64 f => i64Fn_par f
  | .str f => strFn_par L.cmem L.lit f

end Std
end Tiny
