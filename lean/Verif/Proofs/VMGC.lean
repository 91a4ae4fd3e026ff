import Verif.Model.VM
import Verif.Proofs.Heap

/-! # The interpreter keeps the heap free of dangling references -/

namespace Tiny
open Spec

/-- Every object the first list points to is reachable from the second. -/
def Sub (h : Heap) (vs ws : List Value) : Prop := ∀ v ∈ vs, ∀ o, v.objId? = some o → Reach h ws o

theorem Sub.of_mem {h : Heap} {vs ws : List Value} (s : ∀ v ∈ vs, v ∈ ws) : Sub h vs ws :=
  fun v hv _ ho => .root (s v hv) ho

theorem Sub.reach {h : Heap} {vs ws : List Value} (s : Sub h vs ws) {o : ObjId} (r : Reach h vs o) :
    Reach h ws o := by
  induction r with
  | root a b => exact s _ a _ b
  | step _ b ih => exact .step ih b

theorem _root_.Tiny.Spec.WfHeap.sub {h : Heap} {vs ws : List Value} (w : WfHeap h ws) (s : Sub h vs ws) : WfHeap h vs :=
  ⟨w.nodup, w.count, w.unmarked, w.fresh, w.freedNodup, w.freedFresh, w.complete, fun _ r => w.noDangling _ (s.reach r)⟩

theorem children_reach {h : Heap} {ws : List Value} {o : ObjId} (r : Reach h ws o) {v : Value}
    (hv : v ∈ h.children o) {p : ObjId} (hp : v.objId? = some p) : Reach h ws p :=
  .step r ⟨v, hv, hp⟩

/-- Reachability after allocating an object whose contents were reachable before. -/
theorem reach_alloc {h : Heap} {ws : List Value} {ob : Obj} {kids : List Value}
    (w : WfHeap h ws) (hk : Sub h kids ws)
    (hkids : (h.alloc ob).2.children h.next = kids) {vs : List Value}
    (hs : ∀ v ∈ vs, ∀ o, v.objId? = some o → o = h.next ∨ Reach h ws o) {o : ObjId}
    (r : Reach (h.alloc ob).2 vs o) : o = h.next ∨ Reach h ws o := by
  have hne : ∀ p, Reach h ws p → p ≠ h.next := fun p rp e => by
    have := w.fresh p (w.noDangling p rp); omega
  induction r with
  | root a b => exact hs _ a _ b
  | @step q _ _ b ih =>
    obtain ⟨v, hv, hp⟩ := b
    rcases ih with rfl | ih
    · rw [hkids] at hv
      exact .inr (hk v hv _ hp)
    · refine .inr (.step ih ⟨v, ?_, hp⟩)
      have : (h.alloc ob).2.children q = h.children q := by
        simp only [Heap.alloc, Heap.children, upd, if_neg (hne _ ih)]
      rw [this] at hv; exact hv

theorem _root_.Tiny.Spec.WfHeap.alloc {h : Heap} {ws : List Value} {ob : Obj} {kids : List Value}
    (w : WfHeap h ws) (hk : Sub h kids ws)
    (hkids : (h.alloc ob).2.children h.next = kids) {vs : List Value}
    (hs : ∀ v ∈ vs, ∀ o, v.objId? = some o → o = h.next ∨ Reach h ws o) :
    WfHeap (h.alloc ob).2 vs := by
  refine ⟨?_, ?_, ?_, ?_, w.freedNodup, ?_, ?_, ?_⟩
  · exact List.nodup_cons.2 ⟨fun hm => by have := w.fresh _ hm; omega, w.nodup⟩
  · simp [Heap.alloc, w.count]
  · intro o; simp only [Heap.alloc, upd]; split
    · rfl
    · exact w.unmarked o
  · intro o ho
    simp only [Heap.alloc, List.mem_cons] at ho ⊢
    rcases ho with rfl | ho
    · omega
    · have := w.fresh o ho; omega
  · intro o ho
    have := w.freedFresh o ho
    simp only [Heap.alloc, List.mem_cons, not_or]
    exact ⟨by omega, by omega, this.2⟩
  · intro o ho
    simp only [Heap.alloc, List.mem_cons] at ho ⊢
    by_cases h0 : o = h.next
    · exact .inl (.inl h0)
    · rcases w.complete o (by omega) with x | x
      · exact .inl (.inr x)
      · exact .inr x
  · intro o r
    simp only [Heap.alloc, List.mem_cons]
    rcases reach_alloc w hk hkids hs r with rfl | x
    · exact .inl rfl
    · exact .inr (w.noDangling o x)

/-- Storing a reachable value in an object keeps reachability below what it was. -/
theorem _root_.Tiny.Spec.WfHeap.setObj {h : Heap} {ws : List Value} (w : WfHeap h ws) (o : ObjId) (ob : Obj)
    (hk : Sub h (Heap.children { h with obj := upd h.obj o ob } o) ws) {vs : List Value}
    (hs : Sub h vs ws) : WfHeap { h with obj := upd h.obj o ob } vs := by
  refine ⟨w.nodup, w.count, w.unmarked, w.fresh, w.freedNodup, w.freedFresh, w.complete, ?_⟩
  intro p r
  apply w.noDangling
  induction r with
  | root a b => exact hs _ a _ b
  | @step a b _ hb ih =>
    obtain ⟨v, hv, hp⟩ := hb
    by_cases hao : a = o
    · subst hao; exact hk v hv _ hp
    · refine .step ih ⟨v, ?_, hp⟩
      simpa [Heap.children, upd, hao] using hv

/-- What is required of foreign functions: they may allocate and change objects, but what was reachable
from elsewhere (`others`) or from what they return must not have been deleted, and the object list stays
well formed. -/
def ForeignKeepsHeap (env : Env) : Prop :=
  ∀ i args w v w' others, env.foreign i args w = .ok (v, w') →
    WfHeap w.heap (args ++ w.globals ++ others) → WfHeap w'.heap (v :: w'.globals ++ others)

/-- A thread with a heap free of dangling references. -/
def WfThread (t : Thread) : Prop := WfHeap t.world.heap t.roots

theorem pop_ok {t u : Thread} {v : Value} (e : pop t = .ok (v, u)) :
    t.stack = u.stack ++ [v] ∧ u = { t with stack := u.stack } := by
  unfold pop at e
  cases h : t.stack.getLast? with
  | none => rw [h] at e; cases e
  | some x =>
    rw [h] at e
    injection e with e
    injection e with e1 e2
    subst e1; subst e2
    refine ⟨?_, rfl⟩
    have hne : t.stack ≠ [] := by intro h0; rw [h0] at h; cases h
    rw [List.getLast?_eq_some_getLast hne] at h
    injection h with h
    conv => lhs; rw [← List.dropLast_concat_getLast hne]
    rw [h]

theorem push_ok {env : Env} {t u : Thread} {v : Value} (e : push env t v = .ok u) :
    u = { t with stack := t.stack ++ [v] } := by
  unfold push at e
  split at e
  · cases e; rfl
  · cases e

theorem structFields_ok {h : Heap} {v : Value} {o : ObjId} {fs : List Value}
    (e : structFields h v = .ok (o, fs)) : v = .struct o ∧ h.obj o = .struct fs ∧ o ∈ h.list := by
  cases v with
  | struct p =>
    simp only [structFields, Heap.deref] at e
    by_cases hp : p ∈ h.list
    · simp only [hp, if_true, Res.bind_ok] at e
      cases ho : h.obj p with
      | struct gs => rw [ho] at e; cases e; exact ⟨rfl, ho, hp⟩
      | str _ => rw [ho] at e; cases e
      | native _ _ => rw [ho] at e; cases e
    · simp only [hp, if_false] at e; cases e
  | _ => cases e

/-- The new roots of a thread point to reachable objects only, heap unchanged. -/
theorem WfThread.keep {t u : Thread} (w : WfThread t) (hw : u.world.heap = t.world.heap)
    (s : Sub t.world.heap u.roots t.roots) : WfThread u := by
  unfold WfThread at *
  rw [hw]; exact w.sub s

theorem objId_bool (b : Bool) (o : ObjId) : (Value.bool b).objId? ≠ some o := by simp [Value.objId?]

theorem binOp_noobj {fl : FloatOps} {op : Op} {a b r : Value} (e : binOp fl op a b = .ok r) :
    r.objId? = none := by
  cases a <;> cases b <;> simp only [binOp] at e <;>
    first
    | (cases e; done)
    | (rw [Res.bind_eq_ok] at e; obtain ⟨x, _, e⟩ := e; cases e; rfl)

theorem binOpInt_noobj {op : Op} {a b r : Value} (e : binOpInt op a b = .ok r) :
    r.objId? = none := by
  cases a <;> cases b <;> simp only [binOpInt] at e <;>
    first
    | (cases e; done)
    | (rw [Res.bind_eq_ok] at e; obtain ⟨x, _, e⟩ := e; cases e; rfl)

theorem relOp_noobj {fl : FloatOps} {op : Op} {a b r : Value} (e : relOp fl op a b = .ok r) :
    r.objId? = none := by
  cases a <;> cases b <;> simp only [relOp] at e <;> cases e <;> rfl

theorem incr_noobj {op : Op} {a r : Value} (e : incr op a = .ok r) : r.objId? = none := by
  cases a <;> simp only [incr] at e <;>
    first
    | (cases e; done)
    | (rw [Res.bind_eq_ok] at e; obtain ⟨x, _, e⟩ := e; cases e; rfl)

theorem equOp_noobj {env : Env} {h : Heap} {a b r : Value} (e : equOp env h a b = .ok r) :
    r.objId? = none := by
  unfold equOp at e
  split at e
  · cases e; rfl
  · cases e

theorem WfThread.push {env : Env} {t u : Thread} {v : Value} {pc : Int} (w : WfThread t)
    (hv : ∀ o, v.objId? = some o → Reach t.world.heap t.roots o)
    (e : push env { t with pc := pc } v = .ok u) : WfThread u := by
  have := push_ok e
  subst this
  refine w.keep (u := _) rfl ?_
  intro x hx o ho
  simp only [Thread.roots, List.mem_cons, List.mem_append] at hx
  rcases hx with rfl | (hx | hx) | hx
  · exact .root (by simp [Thread.roots]) ho
  · exact .root (by simp [Thread.roots, hx]) ho
  · simp at hx; subst hx; exact hv o ho
  · exact .root (by simp [Thread.roots, hx]) ho

theorem WfThread.pop {t u : Thread} {v : Value} (w : WfThread t) (e : pop t = .ok (v, u)) :
    WfThread u ∧ ∀ o, v.objId? = some o → Reach t.world.heap t.roots o := by
  obtain ⟨e1, e2⟩ := pop_ok e
  refine ⟨?_, ?_⟩
  · rw [e2]
    refine w.keep (u := _) rfl ?_
    apply Sub.of_mem
    intro x hx
    simp only [Thread.roots, List.mem_cons, List.mem_append, e1] at hx ⊢
    rcases hx with hx | hx | hx <;> simp [hx]
  · intro o ho
    exact .root (by simp [Thread.roots, e1]) ho

theorem popIndir_ok {t u : Thread} (e : popIndir t = .ok u) :
    ∃ (f : Frame) (n : Nat), u = { t with stack := t.stack.take n, fp := f.fp, pc := f.pc, frames := t.frames.dropLast } := by
  unfold popIndir at e
  split at e
  · cases e
  · next f _ =>
    split at e
    · cases e; exact ⟨f, _, rfl⟩
    · cases e

theorem pushIndir_ok {env : Env} {t u : Thread} {n : Nat} (e : pushIndir env t n = .ok u) :
    u = { t with frames := t.frames ++ [⟨t.pc, t.fp, n⟩], fp := t.stack.length } := by
  unfold pushIndir at e
  split at e
  · cases e; rfl
  · cases e

theorem getSlot_ok {t : Thread} {i : Nat} {v : Value} (e : getSlot t i = .ok v) : v ∈ t.stack := by
  unfold getSlot at e
  split at e
  · next h => cases e; exact List.mem_of_getElem? h
  · cases e

/-- Executing one instruction keeps the heap free of dangling references. -/
theorem exec_wf {env : Env} {t u : Thread} (hf : ForeignKeepsHeap env) (w : WfThread t)
    (e : exec env t = .ok u) : WfThread u := by
  have pushN : ∀ {t u : Thread} {pc : Int} {v : Value}, WfThread t → v.objId? = none →
      push env { t with pc := pc } v = .ok u → WfThread u := by
    intro t u pc v w hv e
    exact w.push (by intro o ho; rw [hv] at ho; cases ho) e
  unfold exec at e
  obtain ⟨b, _, e⟩ := Res.bind_eq_ok.1 e
  cases hop : Op.ofByte b with
  | none => rw [hop] at e; cases e
  | some op =>
    rw [hop] at e
    simp only [execOp] at e
    cases op with
    | pushNull => exact pushN w rfl e
    | pushTrue => exact pushN w rfl e
    | pushFalse => exact pushN w rfl e
    | push0 => exact pushN w rfl e
    | push1 => exact pushN w rfl e
    | pushNullN =>
      obtain ⟨n, _, e⟩ := Res.bind_eq_ok.1 e
      split at e
      · cases e
        refine w.keep rfl ?_
        intro x hx o ho
        simp only [Thread.roots, List.mem_cons, List.mem_append, List.mem_replicate] at hx
        rcases hx with rfl | (hx | ⟨_, rfl⟩) | hx
        · exact .root (by simp [Thread.roots]) ho
        · exact .root (by simp [Thread.roots, hx]) ho
        · cases ho
        · exact .root (by simp [Thread.roots, hx]) ho
      · cases e
    | pushInt => obtain ⟨⟨v, pc'⟩, _, e⟩ := Res.bind_eq_ok.1 e; exact pushN w rfl e
    | pushFloat => obtain ⟨⟨v, pc'⟩, _, e⟩ := Res.bind_eq_ok.1 e; exact pushN w rfl e
    | pushChar => obtain ⟨v, _, e⟩ := Res.bind_eq_ok.1 e; exact pushN w rfl e
    | pushString =>
      obtain ⟨⟨v, pc'⟩, _, e⟩ := Res.bind_eq_ok.1 e
      simp only at e
      split at e
      · exact pushN w rfl e
      · cases e
    | pushStringFF =>
      obtain ⟨v, _, e⟩ := Res.bind_eq_ok.1 e
      split at e
      · exact pushN w rfl e
      · cases e
    | pushStruct =>
      obtain ⟨n, _, e⟩ := Res.bind_eq_ok.1 e
      obtain ⟨_, _, e⟩ := Res.bind_eq_ok.1 e
      split at e
      · have := push_ok e
        subst this
        unfold WfThread
        refine w.alloc (kids := t.stack.drop (t.stack.length - n.toNat)) ?_ ?_ ?_
        · apply Sub.of_mem
          intro v hv
          have := List.mem_of_mem_drop hv
          simp [Thread.roots, this]
        · simp [Heap.children, Heap.alloc, upd]
        · intro x hx o ho
          simp only [Thread.roots, List.mem_cons, List.mem_append] at hx
          rcases hx with rfl | (hx | hx) | hx
          · exact .inr (.root (by simp [Thread.roots]) ho)
          · have := List.mem_of_mem_take hx
            exact .inr (.root (by simp [Thread.roots, this]) ho)
          · simp at hx; subst hx
            simp only [Value.objId?, Option.some.injEq] at ho
            exact .inl ho.symm
          · exact .inr (.root (by simp [Thread.roots, hx]) ho)
      · cases e
    | structGet =>
      obtain ⟨i, _, e⟩ := Res.bind_eq_ok.1 e
      obtain ⟨⟨v, t1⟩, e1, e⟩ := Res.bind_eq_ok.1 e
      obtain ⟨⟨o, fs⟩, e2, e⟩ := Res.bind_eq_ok.1 e
      simp only at e e2
      split at e
      · cases e
      · next x hx =>
        have hx' := List.mem_of_getElem? hx
        obtain ⟨s1, s2, _⟩ := structFields_ok e2
        obtain ⟨p1, p2⟩ := pop_ok e1
        have hv := (w.pop e1).2 o (by rw [s1]; rfl)
        have hheap : t1.world.heap = t.world.heap := by rw [p2]
        have := push_ok e
        subst this
        refine w.keep hheap ?_
        intro y hy p hp
        simp only [Thread.roots, List.mem_cons, List.mem_append] at hy
        rw [p2] at hy
        simp only at hy
        rcases hy with rfl | (hy | hy) | hy
        · exact .root (by simp [Thread.roots]) hp
        · exact .root (by simp [Thread.roots, p1, hy]) hp
        · simp at hy; subst hy
          refine children_reach hv ?_ hp
          rw [← hheap]
          simp only [Heap.children, s2]; exact hx'
        · exact .root (by simp [Thread.roots, hy]) hp
    | structSet =>
      obtain ⟨i, _, e⟩ := Res.bind_eq_ok.1 e
      obtain ⟨⟨vs, t1⟩, e1, e⟩ := Res.bind_eq_ok.1 e
      obtain ⟨⟨v, t2⟩, e2, e⟩ := Res.bind_eq_ok.1 e
      obtain ⟨⟨o, fs⟩, e3, e⟩ := Res.bind_eq_ok.1 e
      simp only at e e3
      split at e
      · cases e
        obtain ⟨s1, s2, _⟩ := structFields_ok e3
        have w1 := (w.pop e1).1
        have w2 := (w1.pop e2).1
        have hvs := (w.pop e1).2 o (by rw [s1]; rfl)
        obtain ⟨p1, p2⟩ := pop_ok e1
        obtain ⟨q1, q2⟩ := pop_ok e2
        have hh : t2.world = t.world := by rw [q2, p2]
        have hst : t.stack = t2.stack ++ [v] ++ [vs] := by rw [p1, q1]
        have hrv : t2.retVal = t.retVal := by rw [q2, p2]
        unfold WfThread
        simp only [hh]
        refine Spec.WfHeap.setObj w o _ ?_ ?_
        · intro x hx p hp
          simp only [Heap.children, upd, if_true] at hx
          rcases List.mem_or_eq_of_mem_set hx with hx | rfl
          · refine children_reach hvs ?_ hp
            rw [hh] at s2
            simp only [Heap.children, s2]; exact hx
          · exact .root (by simp [Thread.roots, hst]) hp
        · apply Sub.of_mem
          intro x hx
          simp only [Thread.roots, List.mem_cons, List.mem_append] at hx
          rw [hrv] at hx
          rcases hx with hx | hx | hx <;> simp [Thread.roots, hst, hx]
      · cases e
    | add =>
      obtain ⟨⟨b, t1⟩, e1, e⟩ := Res.bind_eq_ok.1 e
      obtain ⟨⟨a, t2⟩, e2, e⟩ := Res.bind_eq_ok.1 e
      obtain ⟨r, e3, e⟩ := Res.bind_eq_ok.1 e
      exact pushN ((w.pop e1).1.pop e2).1 (binOp_noobj e3) e
    | sub =>
      obtain ⟨⟨b, t1⟩, e1, e⟩ := Res.bind_eq_ok.1 e
      obtain ⟨⟨a, t2⟩, e2, e⟩ := Res.bind_eq_ok.1 e
      obtain ⟨r, e3, e⟩ := Res.bind_eq_ok.1 e
      exact pushN ((w.pop e1).1.pop e2).1 (binOp_noobj e3) e
    | mul =>
      obtain ⟨⟨b, t1⟩, e1, e⟩ := Res.bind_eq_ok.1 e
      obtain ⟨⟨a, t2⟩, e2, e⟩ := Res.bind_eq_ok.1 e
      obtain ⟨r, e3, e⟩ := Res.bind_eq_ok.1 e
      exact pushN ((w.pop e1).1.pop e2).1 (binOp_noobj e3) e
    | div =>
      obtain ⟨⟨b, t1⟩, e1, e⟩ := Res.bind_eq_ok.1 e
      obtain ⟨⟨a, t2⟩, e2, e⟩ := Res.bind_eq_ok.1 e
      obtain ⟨r, e3, e⟩ := Res.bind_eq_ok.1 e
      exact pushN ((w.pop e1).1.pop e2).1 (binOp_noobj e3) e
    | mod =>
      obtain ⟨⟨b, t1⟩, e1, e⟩ := Res.bind_eq_ok.1 e
      obtain ⟨⟨a, t2⟩, e2, e⟩ := Res.bind_eq_ok.1 e
      obtain ⟨r, e3, e⟩ := Res.bind_eq_ok.1 e
      exact pushN ((w.pop e1).1.pop e2).1 (binOpInt_noobj e3) e
    | or =>
      obtain ⟨⟨b, t1⟩, e1, e⟩ := Res.bind_eq_ok.1 e
      obtain ⟨⟨a, t2⟩, e2, e⟩ := Res.bind_eq_ok.1 e
      obtain ⟨r, e3, e⟩ := Res.bind_eq_ok.1 e
      exact pushN ((w.pop e1).1.pop e2).1 (binOpInt_noobj e3) e
    | and =>
      obtain ⟨⟨b, t1⟩, e1, e⟩ := Res.bind_eq_ok.1 e
      obtain ⟨⟨a, t2⟩, e2, e⟩ := Res.bind_eq_ok.1 e
      obtain ⟨r, e3, e⟩ := Res.bind_eq_ok.1 e
      exact pushN ((w.pop e1).1.pop e2).1 (binOpInt_noobj e3) e
    | shl =>
      obtain ⟨⟨b, t1⟩, e1, e⟩ := Res.bind_eq_ok.1 e
      obtain ⟨⟨a, t2⟩, e2, e⟩ := Res.bind_eq_ok.1 e
      obtain ⟨r, e3, e⟩ := Res.bind_eq_ok.1 e
      exact pushN ((w.pop e1).1.pop e2).1 (binOpInt_noobj e3) e
    | shr =>
      obtain ⟨⟨b, t1⟩, e1, e⟩ := Res.bind_eq_ok.1 e
      obtain ⟨⟨a, t2⟩, e2, e⟩ := Res.bind_eq_ok.1 e
      obtain ⟨r, e3, e⟩ := Res.bind_eq_ok.1 e
      exact pushN ((w.pop e1).1.pop e2).1 (binOpInt_noobj e3) e
    | lt =>
      obtain ⟨⟨b, t1⟩, e1, e⟩ := Res.bind_eq_ok.1 e
      obtain ⟨⟨a, t2⟩, e2, e⟩ := Res.bind_eq_ok.1 e
      obtain ⟨r, e3, e⟩ := Res.bind_eq_ok.1 e
      exact pushN ((w.pop e1).1.pop e2).1 (relOp_noobj e3) e
    | lte =>
      obtain ⟨⟨b, t1⟩, e1, e⟩ := Res.bind_eq_ok.1 e
      obtain ⟨⟨a, t2⟩, e2, e⟩ := Res.bind_eq_ok.1 e
      obtain ⟨r, e3, e⟩ := Res.bind_eq_ok.1 e
      exact pushN ((w.pop e1).1.pop e2).1 (relOp_noobj e3) e
    | gt =>
      obtain ⟨⟨b, t1⟩, e1, e⟩ := Res.bind_eq_ok.1 e
      obtain ⟨⟨a, t2⟩, e2, e⟩ := Res.bind_eq_ok.1 e
      obtain ⟨r, e3, e⟩ := Res.bind_eq_ok.1 e
      exact pushN ((w.pop e1).1.pop e2).1 (relOp_noobj e3) e
    | gte =>
      obtain ⟨⟨b, t1⟩, e1, e⟩ := Res.bind_eq_ok.1 e
      obtain ⟨⟨a, t2⟩, e2, e⟩ := Res.bind_eq_ok.1 e
      obtain ⟨r, e3, e⟩ := Res.bind_eq_ok.1 e
      exact pushN ((w.pop e1).1.pop e2).1 (relOp_noobj e3) e
    | add1 =>
      obtain ⟨⟨a, t1⟩, e1, e⟩ := Res.bind_eq_ok.1 e
      obtain ⟨r, e2, e⟩ := Res.bind_eq_ok.1 e
      exact pushN (w.pop e1).1 (incr_noobj e2) e
    | sub1 =>
      obtain ⟨⟨a, t1⟩, e1, e⟩ := Res.bind_eq_ok.1 e
      obtain ⟨r, e2, e⟩ := Res.bind_eq_ok.1 e
      exact pushN (w.pop e1).1 (incr_noobj e2) e
    | equ =>
      obtain ⟨⟨b, t1⟩, e1, e⟩ := Res.bind_eq_ok.1 e
      obtain ⟨⟨a, t2⟩, e2, e⟩ := Res.bind_eq_ok.1 e
      obtain ⟨r, e3, e⟩ := Res.bind_eq_ok.1 e
      exact pushN ((w.pop e1).1.pop e2).1 (equOp_noobj e3) e
    | logNot =>
      obtain ⟨⟨a, t1⟩, e1, e⟩ := Res.bind_eq_ok.1 e
      obtain ⟨r, e2, e⟩ := Res.bind_eq_ok.1 e
      exact pushN (w.pop e1).1 rfl e
    | set =>
      obtain ⟨⟨i, pc'⟩, _, e⟩ := Res.bind_eq_ok.1 e
      obtain ⟨⟨v, t1⟩, e1, e⟩ := Res.bind_eq_ok.1 e
      simp only at e
      split at e
      · cases e
        obtain ⟨p1, p2⟩ := pop_ok e1
        have hh : t1.world = t.world := by rw [p2]
        have hrv : t1.retVal = t.retVal := by rw [p2]
        refine w.keep (by simp [hh]) ?_
        apply Sub.of_mem
        intro x hx
        simp only [Thread.roots, List.mem_cons, List.mem_append, hh, hrv] at hx
        rcases hx with hx | hx | hx
        · simp [Thread.roots, hx]
        · simp [Thread.roots, p1, hx]
        · rcases List.mem_or_eq_of_mem_set hx with hx | rfl
          · simp [Thread.roots, hx]
          · simp [Thread.roots, p1]
      · cases e
    | get =>
      obtain ⟨⟨i, pc'⟩, _, e⟩ := Res.bind_eq_ok.1 e
      simp only at e
      split at e
      · next v hv =>
        refine w.push (fun o ho => .root ?_ ho) e
        simp [Thread.roots, List.mem_of_getElem? hv]
      · cases e
    | goto => obtain ⟨⟨i, pc'⟩, _, e⟩ := Res.bind_eq_ok.1 e; cases e; exact w
    | gotoz =>
      obtain ⟨⟨i, pc'⟩, _, e⟩ := Res.bind_eq_ok.1 e
      obtain ⟨⟨v, t1⟩, e1, e⟩ := Res.bind_eq_ok.1 e
      obtain ⟨_, _, e⟩ := Res.bind_eq_ok.1 e
      cases e
      exact (w.pop e1).1
    | call =>
      obtain ⟨n, _, e⟩ := Res.bind_eq_ok.1 e
      obtain ⟨⟨i, pc'⟩, _, e⟩ := Res.bind_eq_ok.1 e
      obtain ⟨t1, e1, e⟩ := Res.bind_eq_ok.1 e
      have := pushIndir_ok e1
      subst this
      split at e
      · cases e; exact w
      · cases e
    | ret =>
      obtain ⟨f, n, rfl⟩ := popIndir_ok e
      refine w.keep rfl ?_
      intro x hx o ho
      simp only [Thread.roots, List.mem_cons, List.mem_append] at hx
      rcases hx with rfl | hx | hx
      · cases ho
      · exact .root (by simp [Thread.roots, List.mem_of_mem_take hx]) ho
      · exact .root (by simp [Thread.roots, hx]) ho
    | retValue =>
      obtain ⟨⟨v, t1⟩, e1, e⟩ := Res.bind_eq_ok.1 e
      obtain ⟨p1, p2⟩ := pop_ok e1
      obtain ⟨f, n, rfl⟩ := popIndir_ok e
      have hh : t1.world = t.world := by rw [p2]
      refine w.keep (by simp [hh]) ?_
      apply Sub.of_mem
      intro x hx
      simp only [Thread.roots, List.mem_cons, List.mem_append, hh] at hx
      rcases hx with hx | hx | hx
      · simp [Thread.roots, p1, hx]
      · simp [Thread.roots, p1, List.mem_of_mem_take hx]
      · simp [Thread.roots, hx]
    | callf =>
      obtain ⟨n, _, e⟩ := Res.bind_eq_ok.1 e
      obtain ⟨⟨i, pc'⟩, _, e⟩ := Res.bind_eq_ok.1 e
      simp only at e
      split at e
      · obtain ⟨⟨v, w'⟩, e1, e⟩ := Res.bind_eq_ok.1 e
        cases e
        unfold WfThread
        have h1 := hf i _ _ _ _ (t.stack.take (t.stack.length - n.toNat)) e1 (w.sub (by
          apply Sub.of_mem
          intro x hx
          simp only [List.mem_append] at hx
          rcases hx with (hx | hx) | hx
          · simp [Thread.roots, List.mem_of_mem_drop hx]
          · simp [Thread.roots, hx]
          · simp [Thread.roots, List.mem_of_mem_take hx]))
        refine h1.sub ?_
        apply Sub.of_mem
        intro x hx
        simp only [Thread.roots, List.mem_cons, List.mem_append] at hx ⊢
        rcases hx with hx | hx | hx
        · exact .inl (.inl hx)
        · exact .inr hx
        · exact .inl (.inr hx)
      · cases e
    | getLocal =>
      obtain ⟨⟨i, pc'⟩, _, e⟩ := Res.bind_eq_ok.1 e
      obtain ⟨v, e1, e⟩ := Res.bind_eq_ok.1 e
      refine w.push (fun o ho => .root ?_ ho) e
      simp [Thread.roots, getSlot_ok e1]
    | getLocalW =>
      obtain ⟨i, _, e⟩ := Res.bind_eq_ok.1 e
      obtain ⟨v, e1, e⟩ := Res.bind_eq_ok.1 e
      refine w.push (fun o ho => .root ?_ ho) e
      simp [Thread.roots, getSlot_ok e1]
    | setLocal =>
      obtain ⟨⟨i, pc'⟩, _, e⟩ := Res.bind_eq_ok.1 e
      obtain ⟨⟨v, t1⟩, e1, e⟩ := Res.bind_eq_ok.1 e
      simp only at e
      split at e
      · cases e
        obtain ⟨p1, p2⟩ := pop_ok e1
        have hh : t1.world = t.world := by rw [p2]
        have hrv : t1.retVal = t.retVal := by rw [p2]
        refine w.keep (by simp [hh]) ?_
        apply Sub.of_mem
        intro x hx
        simp only [Thread.roots, List.mem_cons, List.mem_append, hh, hrv] at hx
        rcases hx with hx | hx | hx
        · simp [Thread.roots, hx]
        · rcases List.mem_or_eq_of_mem_set hx with hx | rfl
          · simp [Thread.roots, p1, hx]
          · simp [Thread.roots, p1]
        · simp [Thread.roots, hx]
      · cases e
    | getRetVal => exact w.push (fun o ho => .root (by simp [Thread.roots]) ho) e
    | halt => cases e; exact w
    | misaligned => cases e

theorem maybeCollect_wf {t u : Thread} (w : WfThread t) (e : maybeCollect t = .ok u) : WfThread u := by
  unfold maybeCollect at e
  split at e
  · obtain ⟨h, e1, e⟩ := Res.bind_eq_ok.1 e
    cases e
    exact collect_wf w e1
  · cases e; exact w

theorem cycle_wf {env : Env} {t u : Thread} {b : Bool} (hf : ForeignKeepsHeap env) (w : WfThread t)
    (e : cycle env t = .ok (b, u)) : WfThread u := by
  unfold cycle at e
  split at e
  · cases e; exact w
  · obtain ⟨t1, e1, e⟩ := Res.bind_eq_ok.1 e
    obtain ⟨t2, e2, e⟩ := Res.bind_eq_ok.1 e
    cases e
    exact maybeCollect_wf (exec_wf hf w e1) e2

end Tiny
