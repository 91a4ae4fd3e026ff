import Verif.Proofs.GCSim

/-!
# C25, C26, C27, C43: the garbage collector
-/

namespace Tiny
open Spec

/-- The start of every thread (`Tiny_InitThread` + `Tiny_StartThread`) is a good state. -/
theorem startThread_wf (n : Nat) : WfThread (startThread n) := by
  refine ⟨List.nodup_nil, rfl, fun _ => rfl, by simp [startThread], List.nodup_nil, by simp [startThread],
    by simp [startThread], ?_⟩
  intro o r
  exfalso
  have : ∀ v ∈ (startThread n).roots, v.objId? = none := by
    intro v hv
    simp only [Thread.roots, startThread, List.nil_append, List.mem_cons, List.mem_replicate] at hv
    rcases hv with rfl | ⟨_, rfl⟩ <;> rfl
  generalize (startThread n).roots = roots at *
  induction r with
  | root a b => rw [this _ a] at b; cases b
  | step _ _ ih => exact ih

/-- **C25.** If the collector runs at the end of a cycle, every object reachable from the pending return
value, the stack or the globals is still there afterwards, with the same contents. -/
theorem c25_reachable_survives {t t' : Thread} (w : WfThread t) (e : maybeCollect t = .ok t') {o : ObjId}
    (r : Reach t.world.heap (t.retVal :: (t.stack ++ t.world.globals)) o) :
    t'.world.heap.deref o = .ok (t.world.heap.obj o) ∧
    t'.world.heap.natRefs = t.world.heap.natRefs ∧
    t'.stack = t.stack ∧ t'.world.globals = t.world.globals ∧ t'.retVal = t.retVal ∧
    t'.pc = t.pc ∧ t'.fp = t.fp ∧ t'.frames = t.frames := by
  unfold maybeCollect at e
  split at e
  · obtain ⟨h, e1, e⟩ := Res.bind_eq_ok.1 e
    cases e
    obtain ⟨c1, _, _, _, _, _, c7, c8, _⟩ := collect_spec w e1
    refine ⟨?_, c8, rfl, rfl, rfl, rfl, rfl, rfl⟩
    simp only [Heap.deref, (c1 o).2 r, if_true, c7]
  · cases e
    refine ⟨?_, rfl, rfl, rfl, rfl, rfl, rfl, rfl⟩
    simp only [Heap.deref, w.noDangling o r, if_true]

/-- **C25.** At no point of any run, from the start of a thread and whatever the program, does a
reachable object turn out to have been deleted, provided foreign functions respect the heap. -/
theorem c25_no_dangling_ever {env : Env} (hf : ForeignKeepsHeap env) :
    ∀ (n g : Nat) {t : Thread}, stepsGC env n (startThread g) = .ok t →
      ∀ o, Reach t.world.heap (t.retVal :: (t.stack ++ t.world.globals)) o →
        o ∈ t.world.heap.list ∧ o ∉ t.world.heap.freed := by
  have key : ∀ (n : Nat) (s t : Thread), WfThread s → stepsGC env n s = .ok t → WfThread t := by
    intro n
    induction n with
    | zero => intro s t w e; cases e; exact w
    | succ n ih =>
      intro s t w e
      obtain ⟨⟨b, s1⟩, e1, e⟩ := Res.bind_eq_ok.1 e
      exact ih s1 t (cycle_wf hf w e1) e
  intro n g t e o r
  have w := key n _ t (startThread_wf g) e
  have h1 := w.noDangling o r
  exact ⟨h1, fun h => (w.freedFresh o h).2 h1⟩

/-- **C26.** What one collection does, exactly. -/
theorem c26_collect_exact {h h' : Heap} {roots : List Value} (w : WfHeap h roots)
    (e : h.collect roots = .ok h') :
    (∀ o, o ∈ h'.list ↔ Reach h roots o) ∧ h'.list.Sublist h.list ∧
    (∃ dead, h'.freed = h.freed ++ dead ∧ dead.Nodup ∧
      ∀ o, o ∈ dead ↔ o ∈ h.list ∧ ¬ Reach h roots o) ∧
    h'.numObjects = h'.list.length ∧ h'.maxNumObjects = 2 * h'.list.length ∧
    (∀ o, h'.marked o = false) ∧ h'.obj = h.obj := by
  obtain ⟨c1, c2, ⟨dead, c3, c3', c3''⟩, c4, c5, c6, c7, _⟩ := collect_spec w e
  exact ⟨c1, c2, ⟨dead, c3, w.nodup.sublist c3', c3''⟩, c4, c5, c6, c7⟩

/-- **C26.** Over the whole life of a thread, ending with `Tiny_DestroyThread`, every object allocated is
deleted exactly once, and nothing else is. -/
theorem c26_each_object_deleted_once {env : Env} (hf : ForeignKeepsHeap env) (n g : Nat) {t : Thread}
    (e : stepsGC env n (startThread g) = .ok t) :
    t.world.heap.destroy.freed.Nodup ∧
    ∀ o, o ∈ t.world.heap.destroy.freed ↔ o < t.world.heap.next := by
  have key : ∀ (n : Nat) (s t : Thread), WfThread s → stepsGC env n s = .ok t → WfThread t := by
    intro n
    induction n with
    | zero => intro s t w e; cases e; exact w
    | succ n ih =>
      intro s t w e
      obtain ⟨⟨b, s1⟩, e1, e⟩ := Res.bind_eq_ok.1 e
      exact ih s1 t (cycle_wf hf w e1) e
  have w := key n _ t (startThread_wf g) e
  constructor
  · simp only [Heap.destroy, List.nodup_append]
    refine ⟨w.freedNodup, w.nodup, ?_⟩
    rintro a ha b hb rfl
    exact (w.freedFresh a ha).2 hb
  · intro o
    simp only [Heap.destroy, List.mem_append]
    constructor
    · rintro (h | h)
      · exact (w.freedFresh o h).1
      · exact w.fresh o h
    · intro h
      exact (w.complete o h).symm

/-- **C27 (partial).** A collection ends exactly when no object reachable from the roots can reach
itself. Missing from C27: termination on cyclic heaps, which the code does not have
(`c27_cycle_never_ends`). -/
theorem c27_collect_terminates_partial {h : Heap} {roots : List Value} (w : WfHeap h roots) :
    (∃ h', h.collect roots = .ok h') ↔ ¬ ReachableCycle h roots :=
  collect_ok_iff w

/-- **C27, the violation.** With a reachable cycle no recursion depth is enough for the marking. -/
theorem c27_cycle_never_ends {h : Heap} {roots : List Value} (w : WfHeap h roots)
    (c : ReachableCycle h roots) (depth : Nat) : h.markList depth roots = .timeout :=
  cycle_never_ends w c depth

/-- **C43.** Collections are invisible: run a program with the collector, and run it without; after the
same number of cycles both fail alike, or both are in states no program can tell apart – unless the
collector met a reachable cycle (C27). -/
theorem c43_gc_transparent {env : Env} (hf : ForeignParametric env) (n g : Nat) :
    ResRel Indist (stepsGC env n (startThread g)) (stepsNoGC env n (startThread g)) ∨
      (stepsGC env n (startThread g) = .timeout ∧ ∃ k t1, k < n ∧ stepsGC env k (startThread g) = .ok t1 ∧
        ∃ t2, exec env t1 = .ok t2 ∧ ReachableCycle t2.world.heap t2.roots) := by
  rcases steps_sim hf n (startThread_wf g).refl with h | h
  · refine .inl ?_
    revert h
    generalize stepsGC env n (startThread g) = x
    generalize stepsNoGC env n (startThread g) = y
    intro h
    cases x <;> cases y <;> first | exact S0.indist h | exact h
  · exact .inr h

/-- A foreign function which cannot tell collected heaps from uncollected ones respects the heap: the
hypothesis of C43 implies the one of C25 and C26. -/
theorem foreignParametric_keeps {env : Env} (hf : ForeignParametric env) : ForeignKeepsHeap env := by
  intro i args w v w' others e wf
  have := hf i args w w others rfl rfl ⟨wf, rfl, rfl, fun o r => ⟨wf.noDangling o r, rfl⟩⟩
  rw [e] at this
  exact this.2.2.wf

/-! ## The hypotheses are met by non-trivial cases -/

/-- A heap as `p = P(s1); ` might leave it: struct 1 → string 0, and an unreachable struct 2 → string 0. -/
def exHeap : Heap where
  next := 3
  list := [2, 1, 0]
  obj := fun o => if o = 0 then .str [104, 105] else .struct [.str 0, .int 7#64]
  numObjects := 3
  maxNumObjects := 3

/-- The roots of the example. -/
def exRoots : List Value := [.null, .struct 1]

theorem exHeap_reach {o : ObjId} (r : Reach exHeap exRoots o) : o = 0 ∨ o = 1 := by
  induction r with
  | root a b =>
    simp only [exRoots, List.mem_cons, List.not_mem_nil, or_false] at a
    rcases a with rfl | rfl
    · cases b
    · cases b; exact .inr rfl
  | step _ b ih =>
    obtain ⟨v, hv, hp⟩ := b
    rcases ih with rfl | rfl
    · simp [exHeap, Heap.children] at hv
    · simp [exHeap, Heap.children] at hv
      rcases hv with rfl | rfl
      · cases hp; exact .inl rfl
      · cases hp

example : WfHeap exHeap exRoots := by
  refine ⟨by decide, rfl, fun _ => rfl, by decide, List.nodup_nil, by simp [exHeap], ?_, ?_⟩
  · intro o ho; left; simp only [exHeap] at ho ⊢
    have : o = 0 ∨ o = 1 ∨ o = 2 := by omega
    rcases this with rfl | rfl | rfl <;> simp
  · intro o r
    rcases exHeap_reach r with rfl | rfl <;> simp [exHeap]

example : (match exHeap.collect exRoots with
    | .ok h => decide (h.list = [1, 0] ∧ h.freed = [2] ∧ h.numObjects = 2 ∧ h.maxNumObjects = 4)
    | _ => false) = true := by
  simp [Heap.collect, exHeap, exRoots, Heap.markList_nil, Heap.markList_cons, Heap.mark_succ, Value.objId?, Heap.children, upd,
    Heap.sweep, Heap.sweepLoop]

/-- A struct which contains itself, as `x.next = x` builds. -/
def cyclicHeap : Heap where
  next := 1
  list := [0]
  obj := fun _ => .struct [.struct 0]
  numObjects := 1

example : WfHeap cyclicHeap [.struct 0] ∧ ReachableCycle cyclicHeap [.struct 0] := by
  constructor
  · refine ⟨by decide, rfl, fun _ => rfl, by decide, List.nodup_nil, by simp [cyclicHeap], ?_, ?_⟩
    · intro o ho; left; simp only [cyclicHeap] at ho ⊢
      have : o = 0 := by omega
      simp [this]
    · intro o r
      have : o = 0 := by
        induction r with
        | root a b => simp at a; subst a; cases b; rfl
        | step _ b _ => obtain ⟨v, hv, hp⟩ := b; simp [cyclicHeap, Heap.children] at hv; subst hv; cases hp; rfl
      simp [cyclicHeap, this]
  · exact ⟨0, .root (v := .struct 0) (by simp) rfl, .root (v := .struct 0) (by simp [cyclicHeap, Heap.children]) rfl⟩

/-- A foreign function that allocates a struct of its arguments satisfies the hypothesis of C43. -/
example (fl : FloatOps) : ForeignParametric
    { program := [], fl := fl, numForeign := 1,
      foreign := fun _ args w =>
        let (o, h) := w.heap.alloc (.struct args)
        .ok (.struct o, { w with heap := h }) } := by
  intro i args w w' others hg _ hs
  refine ⟨congrArg Value.struct hs.next, hg, ?_⟩
  refine hs.alloc (kids := args) (Sub.of_mem (by simp +contextual)) (by simp [Heap.children, Heap.alloc, upd]) ?_
  intro v hv o ho
  simp only [List.mem_cons, List.mem_append, List.cons_append] at hv
  rcases hv with rfl | hv | hv
  · cases ho; exact .inl rfl
  · exact .inr (.root (by simp [hv]) ho)
  · exact .inr (.root (by simp [hv]) ho)

end Tiny
