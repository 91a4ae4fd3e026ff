import Verif.Spec.GC
import Verif.Proofs.VMGC

/-! # The collector is invisible: lockstep simulation -/

namespace Tiny
open Spec

theorem ResRel.bind {α β γ δ : Type} {R : α → β → Prop} {S : γ → δ → Prop} {x : Res α} {y : Res β}
    {f : α → Res γ} {g : β → Res δ} (h : ResRel R x y)
    (k : ∀ a b, R a b → ResRel S (f a) (g b)) : ResRel S (x >>= f) (y >>= g) := by
  cases x <;> cases y <;> simp_all [ResRel]

theorem ResRel.same {α γ δ : Type} {S : γ → δ → Prop} (x : Res α)
    {f : α → Res γ} {g : α → Res δ} 
    (k : ∀ a, x = .ok a → ResRel S (f a) (g a)) : ResRel S (x >>= f) (x >>= g) := by
  cases x <;> simp_all [ResRel]

theorem _root_.Tiny.Spec.HeapSim.sub {h h' : Heap} {vs ws : List Value} (s : HeapSim h h' ws) (k : Sub h vs ws) :
    HeapSim h h' vs :=
  ⟨s.wf.sub k, s.next, s.natRefs, fun o r => s.same o (k.reach r)⟩

/-- Indistinguishable threads, the program holding the extra values `xs` in its hands. -/
structure SimX (t u : Thread) (xs : List Value) : Prop where
  pc : u.pc = t.pc
  fp : u.fp = t.fp
  stack : u.stack = t.stack
  frames : u.frames = t.frames
  retVal : u.retVal = t.retVal
  globals : u.world.globals = t.world.globals
  trace : u.world.trace = t.world.trace
  heap : HeapSim t.world.heap u.world.heap (xs ++ t.roots)

theorem SimX.mono {t u : Thread} {xs ys : List Value} (s : SimX t u ys)
    (k : Sub t.world.heap xs (ys ++ t.roots)) : SimX t u xs :=
  { s with heap := s.heap.sub (by
      intro v hv o ho
      rcases List.mem_append.1 hv with h | h
      · exact k v h o ho
      · exact .root (by simp [h]) ho) }

theorem SimX.add {t u : Thread} {xs : List Value} {v : Value} (s : SimX t u xs)
    (k : ∀ o, v.objId? = some o → Reach t.world.heap (xs ++ t.roots) o) : SimX t u (v :: xs) :=
  s.mono (by
    intro w hw o ho
    rcases List.mem_cons.1 hw with rfl | h
    · exact k o ho
    · exact .root (by simp [h]) ho)

theorem SimX.addN {t u : Thread} {xs : List Value} {v : Value} (s : SimX t u xs)
    (k : v.objId? = none) : SimX t u (v :: xs) := s.add (by simp [k])

theorem SimX.drop {t u : Thread} {xs : List Value} (s : SimX t u xs) : SimX t u [] :=
  s.mono (by intro v hv; simp at hv)

theorem SimX.setPc {t u : Thread} {xs : List Value} (s : SimX t u xs) (pc : Int) :
    SimX { t with pc := pc } { u with pc := pc } xs := { s with pc := rfl, heap := s.heap }

abbrev S0 (t u : Thread) : Prop := SimX t u []

theorem pop_sim {t u : Thread} {xs : List Value} (s : SimX t u xs) :
    ResRel (fun a b => b.1 = a.1 ∧ SimX a.2 b.2 (a.1 :: xs)) (pop t) (pop u) := by
  unfold pop
  rw [s.stack]
  cases h : t.stack.getLast? with
  | none => trivial
  | some v =>
    refine ⟨rfl, { s with stack := rfl, heap := s.heap.sub ?_ }⟩
    apply Sub.of_mem
    intro x hx
    have hv : v ∈ t.stack := List.mem_of_getLast? h
    simp only [Thread.roots, List.mem_append, List.mem_cons] at hx ⊢
    rcases hx with (rfl | hx) | rfl | hx | hx
    · exact .inr (.inr (.inl hv))
    · exact .inl hx
    · exact .inr (.inl rfl)
    · exact .inr (.inr (.inl (List.dropLast_subset _ hx)))
    · exact .inr (.inr (.inr hx))

theorem push_sim {env : Env} {t u : Thread} {xs : List Value} {v : Value} (s : SimX t u (v :: xs)) :
    ResRel (fun a b => SimX a b xs) (push env t v) (push env u v) := by
  unfold push
  rw [s.stack]
  by_cases h : t.stack.length < env.stackSize
  · simp only [h, if_true]
    refine { s with stack := by simp [], heap := s.heap.sub ?_ }
    apply Sub.of_mem
    intro x hx
    simp only [Thread.roots, List.mem_append, List.mem_cons, List.not_mem_nil, or_false] at hx ⊢
    rcases hx with hx | rfl | (hx | rfl) | hx <;> simp [*]
  · simp only [h, if_false]; trivial

theorem push0_sim {env : Env} {t u : Thread} {xs : List Value} {v : Value} {pc : Int}
    (s : SimX t u xs) (h : v.objId? = none) :
    ResRel S0 (push env { t with pc := pc } v) (push env { u with pc := pc } v) :=
  push_sim ((s.drop.addN h).setPc pc)

theorem SimX.reach {t u : Thread} {xs : List Value} {v : Value} (s : SimX t u xs) (hv : v ∈ xs)
    {o : ObjId} (ho : v.objId? = some o) : Reach t.world.heap (xs ++ t.roots) o :=
  .root (by simp [hv]) ho

theorem structFields_sim {t u : Thread} {xs : List Value} {v : Value} (s : SimX t u xs) (hv : v ∈ xs) :
    structFields u.world.heap v = structFields t.world.heap v := by
  cases v with
  | struct o =>
    have r := s.reach hv (o := o) rfl
    have h1 := s.heap.wf.noDangling o r
    have h2 := s.heap.same o r
    simp only [structFields, Heap.deref, h1, h2.1, h2.2]
  | _ => rfl

theorem binop_sim {env : Env} {t u : Thread} {xs : List Value} {pc : Int}
    {f : Value → Value → Res Value} (s : SimX t u xs) (hf : ∀ a b r, f a b = .ok r → r.objId? = none) :
    ResRel S0 (pop t >>= fun (b, t) => pop t >>= fun (a, t) => f a b >>= fun r => push env { t with pc := pc } r)
      (pop u >>= fun (b, t) => pop t >>= fun (a, t) => f a b >>= fun r => push env { t with pc := pc } r) := by
  refine ResRel.bind (pop_sim s) ?_
  rintro ⟨b, t1⟩ ⟨b', u1⟩ ⟨rfl, s1⟩
  refine ResRel.bind (pop_sim s1) ?_
  rintro ⟨a, t2⟩ ⟨a', u2⟩ ⟨rfl, s2⟩
  refine ResRel.same _ ?_
  intro r hr
  exact push0_sim s2 (hf _ _ _ hr)

theorem pushIndir_sim {env : Env} {t u : Thread} {xs : List Value} {n : Nat} (s : SimX t u xs) :
    ResRel (fun a b => SimX a b xs) (pushIndir env t n) (pushIndir env u n) := by
  unfold pushIndir
  rw [s.frames]
  by_cases h : t.frames.length < env.maxDepth
  · simp only [h, if_true]
    exact { s with frames := by simp [s.pc, s.fp], fp := by simp [s.stack], heap := s.heap }
  · simp only [h, if_false]; trivial

theorem popIndir_sim {t u : Thread} {xs : List Value} (s : SimX t u xs) :
    ResRel (fun a b => SimX a b xs) (popIndir t) (popIndir u) := by
  unfold popIndir
  rw [s.frames]
  cases h : t.frames.getLast? with
  | none => trivial
  | some f =>
    simp only [s.fp, s.stack]
    by_cases h : t.fp ≤ t.stack.length ∧ f.nargs ≤ t.fp
    · simp only [h, and_self, if_true]
      refine { s with pc := rfl, fp := rfl, stack := rfl, frames := rfl, heap := s.heap.sub ?_ }
      apply Sub.of_mem
      intro x hx
      simp only [Thread.roots, List.mem_append, List.mem_cons] at hx ⊢
      rcases hx with hx | rfl | hx | hx
      · simp [hx]
      · simp
      · simp [List.mem_of_mem_take hx]
      · simp [hx]
    · simp only [h, if_false]; trivial

theorem areValuesEqual_sim {t u : Thread} {xs : List Value} {env : Env} {a b : Value}
    (s : SimX t u xs) (ha : a ∈ xs) (hb : b ∈ xs) :
    equOp env u.world.heap a b = equOp env t.world.heap a b := by
  have key : ∀ v ∈ xs, ∀ o, v.objId? = some o → (o ∈ u.world.heap.list ∧ o ∈ t.world.heap.list) ∧
      u.world.heap.obj o = t.world.heap.obj o := by
    intro v hv o ho
    have r := s.reach hv ho
    have := s.heap.same o r
    exact ⟨⟨this.1, s.heap.wf.noDangling o r⟩, this.2⟩
  have kd : ∀ v ∈ xs, derefable u.world.heap v = derefable t.world.heap v := by
    intro v hv
    cases v with
    | str o => have := key _ hv o rfl; simp [derefable, this]
    | native o => have := key _ hv o rfl; simp [derefable, this]
    | _ => rfl
  unfold equOp
  rw [kd a ha, kd b hb]
  have : areValuesEqual ⟨u.world.heap.obj, env.cmem⟩ a b = areValuesEqual ⟨t.world.heap.obj, env.cmem⟩ a b := by
    have ka := key a ha
    have kb := key b hb
    cases a <;> cases b <;> simp_all [areValuesEqual, Mem.natAddr, Mem.strBytes, Mem.cstrBytes, Value.objId?]
  rw [this]

theorem getSlot_sim {t u : Thread} {xs : List Value} (s : SimX t u xs) (i : Nat) :
    getSlot u i = getSlot t i := by unfold getSlot; rw [s.stack]

theorem _root_.Tiny.Spec.HeapSim.alloc {h h' : Heap} {ws : List Value} {ob : Obj} {kids : List Value}
    (s : HeapSim h h' ws) (hk : Sub h kids ws)
    (hkids : (h.alloc ob).2.children h.next = kids) {vs : List Value}
    (hs : ∀ v ∈ vs, ∀ o, v.objId? = some o → o = h.next ∨ Reach h ws o) :
    HeapSim (h.alloc ob).2 (h'.alloc ob).2 vs := by
  refine ⟨s.wf.alloc hk hkids hs, by simp [Heap.alloc, s.next], s.natRefs, ?_⟩
  intro o r
  simp only [Heap.alloc, List.mem_cons, s.next, upd]
  rcases reach_alloc s.wf hk hkids hs r with rfl | x
  · simp
  · have := s.same o x
    refine ⟨.inr this.1, ?_⟩
    split
    · rfl
    · exact this.2

theorem setObj_reach {h : Heap} {ws : List Value} (o : ObjId) (ob : Obj)
    (hk : Sub h (Heap.children { h with obj := upd h.obj o ob } o) ws) {vs : List Value}
    (hs : Sub h vs ws) {p : ObjId} (r : Reach { h with obj := upd h.obj o ob } vs p) : Reach h ws p := by
  induction r with
  | root a b => exact hs _ a _ b
  | @step a b _ hb ih =>
    obtain ⟨v, hv, hp⟩ := hb
    by_cases hao : a = o
    · subst hao; exact hk v hv _ hp
    · refine .step ih ⟨v, ?_, hp⟩
      simpa [Heap.children, upd, hao] using hv

theorem _root_.Tiny.Spec.HeapSim.setObj {h h' : Heap} {ws : List Value} (s : HeapSim h h' ws) (o : ObjId) (ob : Obj)
    (hk : Sub h (Heap.children { h with obj := upd h.obj o ob } o) ws) {vs : List Value}
    (hs : Sub h vs ws) :
    HeapSim { h with obj := upd h.obj o ob } { h' with obj := upd h'.obj o ob } vs := by
  refine ⟨s.wf.setObj o ob hk hs, s.next, s.natRefs, ?_⟩
  intro p r
  have := s.same p (setObj_reach o ob hk hs r)
  refine ⟨this.1, ?_⟩
  simp only [upd]
  split
  · rfl
  · exact this.2

/-- One instruction on indistinguishable threads. -/
theorem exec_sim {env : Env} (hf : ForeignParametric env) {t u : Thread} (s : S0 t u) :
    ResRel S0 (exec env t) (exec env u) := by
  unfold exec
  rw [s.pc]
  refine ResRel.same _ ?_
  intro b _
  cases Op.ofByte b with
  | none => trivial
  | some op =>
    unfold execOp
    simp only
    cases op with
    | pushNull => exact push0_sim s rfl
    | pushTrue => exact push0_sim s rfl
    | pushFalse => exact push0_sim s rfl
    | push0 => exact push0_sim s rfl
    | push1 => exact push0_sim s rfl
    | pushNullN =>
      refine ResRel.same _ fun n _ => ?_
      simp only [s.stack]
      by_cases h : t.stack.length + n.toNat ≤ env.stackSize
      · simp only [h, if_true]
        refine { s with pc := rfl, stack := rfl, heap := s.heap.sub ?_ }
        intro x hx o ho
        simp only [Thread.roots, List.mem_cons, List.mem_append, List.mem_replicate,
          List.nil_append] at hx
        rcases hx with rfl | (hx | ⟨_, rfl⟩) | hx
        · exact .root (by simp [Thread.roots]) ho
        · exact .root (by simp [Thread.roots, hx]) ho
        · cases ho
        · exact .root (by simp [Thread.roots, hx]) ho
      · simp only [h, if_false]; trivial
    | pushInt => exact ResRel.same _ fun _ _ => push0_sim s rfl
    | pushFloat => exact ResRel.same _ fun _ _ => push0_sim s rfl
    | pushChar => exact ResRel.same _ fun _ _ => push0_sim s rfl
    | pushString =>
      refine ResRel.same _ fun v _ => ?_
      split
      · exact push0_sim s rfl
      · trivial
    | pushStringFF =>
      refine ResRel.same _ fun v _ => ?_
      split
      · exact push0_sim s rfl
      · trivial
    | pushStruct =>
      refine ResRel.same _ fun n _ => ?_
      refine ResRel.same _ fun _ _ => ?_
      simp only [s.stack]
      by_cases h : n.toNat ≤ t.stack.length
      · simp only [h, if_true]
        have e1 : (u.world.heap.alloc (.struct (t.stack.drop (t.stack.length - n.toNat)))).1 =
          (t.world.heap.alloc (.struct (t.stack.drop (t.stack.length - n.toNat)))).1 := s.heap.next
        rw [e1]
        refine push_sim ?_
        refine { pc := rfl, fp := s.fp, stack := rfl, frames := s.frames, retVal := s.retVal,
                 globals := s.globals, trace := s.trace, heap := ?_ }
        refine s.heap.alloc (kids := t.stack.drop (t.stack.length - n.toNat)) ?_ ?_ ?_
        · apply Sub.of_mem
          intro v hv
          have := List.mem_of_mem_drop hv
          simp [Thread.roots, this]
        · simp [Heap.children, Heap.alloc, upd]
        · intro x hx o ho
          simp only [Thread.roots, List.mem_cons, List.mem_append, List.not_mem_nil, or_false] at hx
          rcases hx with rfl | rfl | hx | hx
          · simp only [Value.objId?, Option.some.injEq] at ho
            exact .inl ho.symm
          · exact .inr (.root (by simp [Thread.roots]) ho)
          · have := List.mem_of_mem_take hx
            exact .inr (.root (by simp [Thread.roots, this]) ho)
          · exact .inr (.root (by simp [Thread.roots, hx]) ho)
      · simp only [h, if_false]; trivial
    | structGet =>
      refine ResRel.same _ fun i _ => ?_
      refine ResRel.bind (pop_sim s) ?_
      rintro ⟨v, t1⟩ ⟨v', u1⟩ ⟨rfl, s1⟩
      simp only
      rw [structFields_sim s1 (by simp)]
      refine ResRel.same _ ?_
      rintro ⟨o, fs⟩ e
      simp only
      cases hx : fs[i.toNat]? with
      | none => trivial
      | some x =>
        obtain ⟨q1, q2, _⟩ := structFields_ok e
        refine push_sim (((s1.add (v := x) ?_).mono ?_).setPc _)
        · intro p hp
          refine children_reach (s1.reach (v := v') (by simp) (o := o) (by rw [q1]; rfl)) (v := x) ?_ hp
          simp only [Heap.children, q2]
          exact List.mem_of_getElem? hx
        · apply Sub.of_mem; simp; 
    | structSet =>
      refine ResRel.same _ fun i _ => ?_
      refine ResRel.bind (pop_sim s) ?_
      rintro ⟨vs, t1⟩ ⟨vs', u1⟩ ⟨rfl, s1⟩
      refine ResRel.bind (pop_sim s1) ?_
      rintro ⟨v, t2⟩ ⟨v', u2⟩ ⟨rfl, s2⟩
      simp only at s1 s2 ⊢
      rw [structFields_sim s2 (v := vs') (by simp)]
      refine ResRel.same _ ?_
      rintro ⟨o, fs⟩ e
      obtain ⟨q1, q2, _⟩ := structFields_ok e
      by_cases h : i.toNat < fs.length
      · simp only [h, if_true]
        refine { s2 with pc := rfl, heap := ?_ }
        refine s2.heap.setObj o _ ?_ ?_
        · intro x hx p hp
          simp only [Heap.children, upd, if_true] at hx
          rcases List.mem_or_eq_of_mem_set hx with hx | rfl
          · refine children_reach (s2.reach (v := vs') (by simp) (o := o) (by rw [q1]; rfl)) (v := x) ?_ hp
            simp only [Heap.children, q2]; exact hx
          · exact .root (by simp) hp
        · apply Sub.of_mem
          intro x hx
          simp only [Thread.roots, List.nil_append] at hx ⊢
          simp [hx]
      · simp only [h, if_false]; trivial
    | add => exact binop_sim s fun _ _ _ => binOp_noobj
    | sub => exact binop_sim s fun _ _ _ => binOp_noobj
    | mul => exact binop_sim s fun _ _ _ => binOp_noobj
    | div => exact binop_sim s fun _ _ _ => binOp_noobj
    | mod => exact binop_sim s fun _ _ _ => binOpInt_noobj
    | or => exact binop_sim s fun _ _ _ => binOpInt_noobj
    | and => exact binop_sim s fun _ _ _ => binOpInt_noobj
    | shl => exact binop_sim s fun _ _ _ => binOpInt_noobj
    | shr => exact binop_sim s fun _ _ _ => binOpInt_noobj
    | lt => exact binop_sim s fun _ _ _ => relOp_noobj
    | lte => exact binop_sim s fun _ _ _ => relOp_noobj
    | gt => exact binop_sim s fun _ _ _ => relOp_noobj
    | gte => exact binop_sim s fun _ _ _ => relOp_noobj
    | add1 =>
      refine ResRel.bind (pop_sim s) ?_
      rintro ⟨v, t1⟩ ⟨v', u1⟩ ⟨rfl, s1⟩
      exact ResRel.same _ fun _ h => push0_sim s1 (incr_noobj h)
    | sub1 =>
      refine ResRel.bind (pop_sim s) ?_
      rintro ⟨v, t1⟩ ⟨v', u1⟩ ⟨rfl, s1⟩
      exact ResRel.same _ fun _ h => push0_sim s1 (incr_noobj h)
    | equ =>
      refine ResRel.bind (pop_sim s) ?_
      rintro ⟨b, t1⟩ ⟨b', u1⟩ ⟨rfl, s1⟩
      refine ResRel.bind (pop_sim s1) ?_
      rintro ⟨a, t2⟩ ⟨a', u2⟩ ⟨rfl, s2⟩
      simp only at s2 ⊢
      rw [areValuesEqual_sim s2 (by simp) (by simp)]
      exact ResRel.same _ fun _ h => push0_sim s2 (equOp_noobj h)
    | logNot =>
      refine ResRel.bind (pop_sim s) ?_
      rintro ⟨v, t1⟩ ⟨v', u1⟩ ⟨rfl, s1⟩
      exact ResRel.same _ fun _ h => push0_sim s1 rfl
    | set =>
      refine ResRel.same _ fun i _ => ?_
      refine ResRel.bind (pop_sim s) ?_
      rintro ⟨v, t1⟩ ⟨v', u1⟩ ⟨rfl, s1⟩
      simp only at s1 ⊢
      rw [s1.globals]
      by_cases h : i.1 < t1.world.globals.length
      · simp only [h, if_true]
        refine { s1 with pc := rfl, globals := rfl, heap := s1.heap.sub ?_ }
        apply Sub.of_mem
        intro x hx
        simp only [Thread.roots, List.mem_append, List.mem_cons, List.not_mem_nil, false_or] at hx ⊢
        rcases hx with hx | hx | hx
        · simp [hx]
        · simp [hx]
        · rcases List.mem_or_eq_of_mem_set hx with hx | rfl <;> simp [*]
      · simp only [h, if_false]; trivial
    | get =>
      refine ResRel.same _ fun i _ => ?_
      simp only [s.globals]
      cases hx : t.world.globals[i.1]? with
      | none => trivial
      | some x =>
        refine push_sim ((s.add (v := x) ?_).setPc _)
        intro p hp
        exact .root (by simp [Thread.roots, List.mem_of_getElem? hx]) hp
    | goto => exact ResRel.same _ fun i _ => s.setPc _
    | gotoz =>
      refine ResRel.same _ fun i _ => ?_
      refine ResRel.bind (pop_sim s) ?_
      rintro ⟨v, t1⟩ ⟨v', u1⟩ ⟨rfl, s1⟩
      exact ResRel.same _ fun b _ => s1.drop.setPc _
    | call =>
      refine ResRel.same _ fun n _ => ?_
      refine ResRel.same _ fun i _ => ?_
      refine ResRel.bind (pushIndir_sim (s.setPc _)) ?_
      intro t1 u1 s1
      cases env.functionPcs[i.1]? with
      | none => trivial
      | some f => exact s1.setPc _
    | ret =>
      refine popIndir_sim { s with retVal := rfl, heap := s.heap.sub ?_ }
      intro x hx o ho
      simp only [Thread.roots, List.mem_cons, List.mem_append, List.nil_append] at hx
      rcases hx with rfl | hx | hx
      · cases ho
      · exact .root (by simp [Thread.roots, hx]) ho
      · exact .root (by simp [Thread.roots, hx]) ho
    | retValue =>
      refine ResRel.bind (pop_sim s) ?_
      rintro ⟨v, t1⟩ ⟨v', u1⟩ ⟨rfl, s1⟩
      simp only at s1 ⊢
      refine popIndir_sim { s1 with retVal := rfl, heap := s1.heap.sub ?_ }
      apply Sub.of_mem
      intro x hx
      simp only [Thread.roots, List.mem_cons, List.mem_append, List.not_mem_nil, false_or] at hx ⊢
      rcases hx with rfl | hx | hx <;> simp [*]
    | callf =>
      refine ResRel.same _ fun n _ => ?_
      refine ResRel.same _ fun i _ => ?_
      simp only [s.stack, s.trace]
      by_cases h : n.toNat ≤ t.stack.length ∧ i.1 < env.numForeign
      · simp only [h, and_self, if_true]
        refine ResRel.bind (hf i.1 _ t.world u.world (t.stack.take (t.stack.length - n.toNat)) s.globals s.trace
          (s.heap.sub ?_)) ?_
        · apply Sub.of_mem
          intro x hx
          simp only [List.mem_append] at hx
          rcases hx with (hx | hx) | hx
          · simp [Thread.roots, List.mem_of_mem_drop hx]
          · simp [Thread.roots, hx]
          · simp [Thread.roots, List.mem_of_mem_take hx]
        · rintro ⟨v, w⟩ ⟨v', w'⟩ ⟨rfl, hg, hs⟩
          refine { s with pc := rfl, stack := rfl, retVal := rfl, trace := rfl, globals := hg, heap := ?_ }
          refine hs.sub ?_
          apply Sub.of_mem
          intro x hx
          simp only [Thread.roots, List.mem_cons, List.mem_append, List.not_mem_nil, false_or] at hx ⊢
          rcases hx with hx | hx | hx
          · exact .inl (.inl hx)
          · exact .inr hx
          · exact .inl (.inr hx)
      · simp only [h, if_false]; trivial
    | getLocal =>
      refine ResRel.same _ fun i _ => ?_
      have : localSlot u i.1 = localSlot t i.1 := by simp [localSlot, s.fp]
      simp only [this, getSlot_sim s]
      refine ResRel.same _ fun v hv => ?_
      refine push_sim ((s.add (v := v) ?_).setPc _)
      intro p hp
      exact .root (by simp [Thread.roots, getSlot_ok hv]) hp
    | getLocalW =>
      refine ResRel.same _ fun i _ => ?_
      rw [show getSlot u (u.fp + i.toNat) = getSlot t (t.fp + i.toNat) by rw [getSlot_sim s, s.fp]]
      refine ResRel.same _ fun v hv => ?_
      refine push_sim ((s.add (v := v) ?_).setPc _)
      intro p hp
      exact .root (by simp [Thread.roots, getSlot_ok hv]) hp
    | setLocal =>
      refine ResRel.same _ fun i _ => ?_
      refine ResRel.bind (pop_sim s) ?_
      rintro ⟨v, t1⟩ ⟨v', u1⟩ ⟨rfl, s1⟩
      simp only at s1 ⊢
      have : localSlot u1 i.1 = localSlot t1 i.1 := by simp [localSlot, s1.fp]
      simp only [this, s1.stack]
      by_cases h : localSlot t1 i.1 < t1.stack.length
      · simp only [h, if_true]
        refine { s1 with pc := rfl, stack := rfl, heap := s1.heap.sub ?_ }
        apply Sub.of_mem
        intro x hx
        simp only [Thread.roots, List.mem_append, List.mem_cons, List.not_mem_nil, false_or] at hx ⊢
        rcases hx with hx | hx | hx
        · simp [hx]
        · rcases List.mem_or_eq_of_mem_set hx with hx | rfl <;> simp [*]
        · simp [hx]
      · simp only [h, if_false]; trivial
    | getRetVal =>
      have h : SimX t u [t.retVal] := s.add fun p hp => .root (by simp [Thread.roots]) hp
      have := push_sim (env := env) (h.setPc ((t.pc.toNat + 1 : Nat) : Int))
      rw [← s.retVal] at this
      rw [← s.retVal]
      exact this
    | halt => exact s.setPc _
    | misaligned => trivial

/-- Collecting is invisible. -/
theorem maybeCollect_sim {t t' u : Thread} (s : S0 t u) (e : maybeCollect t = .ok t') : S0 t' u := by
  unfold maybeCollect at e
  split at e
  · obtain ⟨h, e1, e⟩ := Res.bind_eq_ok.1 e
    cases e
    obtain ⟨c1, c2, _, c4, c5, c6, c7, c8, c9⟩ := collect_spec (by simpa using s.heap.wf) e1
    have cw : WfHeap h t.roots := collect_wf (by simpa using s.heap.wf) e1
    refine { s with heap := ⟨cw, ?_, ?_, ?_⟩ }
    · simp only [c9, s.heap.next]
    · simp only [c8, s.heap.natRefs]
    · intro o r
      simp only [c7]
      exact s.heap.same o ((reach_congr c7 c8 _ o).1 r)
  · cases e; exact s

/-- A collection either succeeds or meets a reachable cycle. -/
theorem maybeCollect_cases {t : Thread} (w : WfThread t) :
    (∃ t', maybeCollect t = .ok t') ∨ (maybeCollect t = .timeout ∧ ReachableCycle t.world.heap t.roots) := by
  unfold maybeCollect
  split
  · unfold Heap.collect
    rcases markList_cases (t.world.heap.list.length + 1) t.roots t.world.heap with ⟨k, x⟩ | x | ⟨x, o, ho, hol⟩
    · rw [x]; exact .inl ⟨_, rfl⟩
    · rw [x]; exact .inr ⟨rfl, timeout_cycle x⟩
    · exact absurd (w.noDangling o ho) hol
  · exact .inl ⟨t, rfl⟩

theorem S0.indist {t u : Thread} (s : S0 t u) : Indist t u :=
  ⟨s.pc, s.fp, s.stack, s.frames, s.retVal, s.globals, s.trace, s.heap⟩

theorem indist_S0 {t u : Thread} (s : Indist t u) : S0 t u :=
  ⟨s.pc, s.fp, s.stack, s.frames, s.retVal, s.globals, s.trace, s.heap⟩

theorem WfThread.refl {t : Thread} (w : WfThread t) : S0 t t :=
  ⟨rfl, rfl, rfl, rfl, rfl, rfl, rfl, ⟨w, rfl, rfl, fun o r => ⟨w.noDangling o r, rfl⟩⟩⟩

theorem steps_sim {env : Env} (hf : ForeignParametric env) : ∀ (n : Nat) {t u : Thread}, S0 t u →
    ResRel S0 (stepsGC env n t) (stepsNoGC env n u) ∨
      (stepsGC env n t = .timeout ∧ ∃ k t1, k < n ∧ stepsGC env k t = .ok t1 ∧
        ∃ t2, exec env t1 = .ok t2 ∧ ReachableCycle t2.world.heap t2.roots)
  | 0, t, u, s => .inl s
  | n + 1, t, u, s => by
    simp only [stepsGC, stepsNoGC, cycle, s.pc]
    by_cases hpc : t.pc < 0
    · simp only [hpc, if_true, Res.bind_ok]
      rcases steps_sim hf n s with h | ⟨h, k, t1, hk, ht1, h2⟩
      · exact .inl h
      · refine .inr ⟨h, k + 1, t1, by omega, ?_, h2⟩
        simp only [stepsGC, cycle, hpc, if_true, Res.bind_ok]; exact ht1
    · simp only [hpc, if_false]
      have he := exec_sim hf s
      cases ht : exec env t with
      | ok t1 =>
        rw [ht] at he
        cases hu : exec env u with
        | ok u1 =>
          rw [hu] at he
          have he : S0 t1 u1 := he
          simp only [Res.bind_ok]
          rcases maybeCollect_cases (t := t1) (by simpa [WfThread] using he.heap.wf) with ⟨t2, h2⟩ | ⟨h2, hc⟩
          · have s2 := maybeCollect_sim he h2
            rw [h2]
            simp only [Res.bind_ok]
            rcases steps_sim hf n s2 with h | ⟨h, k, t3, hk, ht3, h4⟩
            · exact .inl h
            · refine .inr ⟨h, k + 1, t3, by omega, ?_, h4⟩
              simp only [stepsGC, cycle, hpc, if_false, ht, Res.bind_ok, h2]; exact ht3
          · rw [h2]
            exact .inr ⟨rfl, 0, t, by omega, rfl, t1, ht, hc⟩
        | _ => rw [hu] at he; exact he.elim
      | abort => rw [ht] at he; cases hu : exec env u <;> rw [hu] at he <;> first | exact he.elim | exact .inl trivial
      | ub => rw [ht] at he; cases hu : exec env u <;> rw [hu] at he <;> first | exact he.elim | exact .inl trivial
      | limit => rw [ht] at he; cases hu : exec env u <;> rw [hu] at he <;> first | exact he.elim | exact .inl trivial
      | timeout => rw [ht] at he; cases hu : exec env u <;> rw [hu] at he <;> first | exact he.elim | exact .inl trivial

end Tiny
