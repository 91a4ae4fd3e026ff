import Verif.Proofs.StdRun
import Verif.Props.GC

/-!
# C51: the arrays and dictionaries of the standard library
-/

namespace Tiny
open Spec Tiny.Std

theorem implements_parametric {env : Env} {L : LibEnv} (hq : ∀ l, (L.qsort l).Perm l) {i : Nat} {fn : LibFn} (h : Implements env L i fn) :
    ParametricAt env i := by
  intro args w w' others hg _ s
  rw [h args w, h args w']
  have s' : HeapSim w.heap w'.heap (args ++ (w.globals ++ others)) := by rw [← List.append_assoc]; exact s
  have := libFn_par L hq fn args w.heap w'.heap _ s'
  refine Tiny.ResRel.bind this fun a b hab => ?_
  exact ⟨hab.1, hg, by simpa using hab.2⟩

/-- **C51.** The functions of the standard library for arrays, dictionaries, strings and 64-bit integers cannot tell
whether the collector ran: what C20, C24, C37, C43 and C48 ask of foreign functions holds if the others meet it. -/
theorem c51_parametric {env : Env} {L : LibEnv} (hq : ∀ l, (L.qsort l).Perm l)
    (h : ∀ i, (∃ fn, Implements env L i fn) ∨ ParametricAt env i) : ForeignParametric env := by
  intro i
  rcases h i with ⟨fn, k⟩ | k
  · exact implements_parametric hq k
  · exact k

/-- A program with the library behaves alike with and without collections: C43 without its hypothesis. -/
theorem c51_gc {env : Env} {L : LibEnv} (hq : ∀ l, (L.qsort l).Perm l) (h : ∀ i, ∃ fn, Implements env L i fn) (n g : Nat) :
    ResRel Indist (stepsGC env n (startThread g)) (stepsNoGC env n (startThread g)) ∨
      (stepsGC env n (startThread g) = .timeout ∧ ∃ k t1, k < n ∧ stepsGC env k (startThread g) = .ok t1 ∧
        ∃ t2, exec env t1 = .ok t2 ∧ ReachableCycle t2.world.heap t2.roots) :=
  c43_gc_transparent (c51_parametric hq fun i => .inl (h i)) n g

theorem librarySpec (L : LibEnv) (hq : QsortContract compareInts L.qsort) : LibrarySpec L (Known L.cmem) where
  start := ⟨fun _ _ e => (by cases e), fun _ ho => (by cases ho)⟩
  covers := fun k ho e hp => k.2 _ ho _ _ e hp
  array := fun k hm ho hr => array_agrees k hm ho hr
  create := fun k hm => create_agrees k hm
  sort := fun k hσ hi hn => sort_agrees hq k hσ hi hn
  dict := fun k hm hf => by
    obtain ⟨r, h1, h2⟩ := dictFn_refines k.1 hm hf
    exact ⟨r, h1, h2.agrees k.2⟩
  string := fun k e => plain_known k (strFn_plain _ _ _ _ _) e
  i64 := fun k e => plain_known k (i64Fn_plain _ _ _) e
  other := fun k hl => other_known k hl

theorem wf_made {t : Thread} (w : WfThread t) {v : Value} (hv : v ∈ t.roots) : Made t.world.heap v :=
  fun _ ho => w.fresh _ (w.noDangling _ (.root hv ho))

theorem cycle_known {env : Env} {L : LibEnv} (hq : ∀ l, (L.qsort l).Perm l) (hu : UsesLibrary env L) {t u : Thread} {b : Bool}
    (w : WfThread t) {σ : Store} (k : Known L.cmem t.world.heap σ) (e : cycle env t = .ok (b, u)) :
    ∃ σ', Known L.cmem u.world.heap σ' := by
  have hf := foreignParametric_keeps (c51_parametric hq fun i => (hu i).imp_right (·.1))
  unfold cycle at e
  split at e
  · cases e; exact ⟨σ, k⟩
  · obtain ⟨t1, e1, e⟩ := Res.bind_eq_ok.1 e
    obtain ⟨t2, e2, e⟩ := Res.bind_eq_ok.1 e
    cases e
    have w1 := exec_wf hf w e1
    obtain ⟨σ1, k1⟩ : ∃ σ1, Known L.cmem t1.world.heap σ1 := by
      rcases exec_leaves w.fresh e1 with ⟨hl, _⟩ | ⟨i, n, v, w', e3, hw⟩
      · exact ⟨_, other_known k hl⟩
      · rw [hw]
        rcases hu i with ⟨fn, hi⟩ | ⟨_, hl⟩
        · rw [hi] at e3
          obtain ⟨⟨v', h'⟩, e4, e5⟩ := Res.bind_eq_ok.1 e3
          simp only [Res.ok.injEq, Prod.mk.injEq] at e5
          obtain ⟨rfl, rfl⟩ := e5
          exact libFn_known hq k (fun x hx => wf_made w (by simp [Thread.roots, List.mem_of_mem_drop hx])) e4
        · exact ⟨_, other_known k (hl _ _ _ _ e3)⟩
    unfold maybeCollect at e2
    split at e2
    · obtain ⟨h, e5, e2⟩ := Res.bind_eq_ok.1 e2
      cases e2
      exact ⟨_, other_known k1 (leaves_collect w1 e5)⟩
    · cases e2; exact ⟨σ1, k1⟩

/-- **C51.** The arrays of the library are lists and its dictionaries are maps, whatever a program does in between: there is
a relation between memories and what they hold such that every function of the library does what `LibrarySpec` says;
and it holds at every moment of every run of every program with the library. -/
theorem c51_library (L : LibEnv) (hq : QsortContract compareInts L.qsort) (hp : ∀ l, (L.qsort l).Perm l) :
    ∃ R : Heap → Store → Prop, LibrarySpec L R ∧ ∀ env, UsesLibrary env L → ∀ n g t, stepsGC env n (startThread g) = .ok t →
      (∃ σ, R t.world.heap σ) ∧ ∀ v ∈ t.roots, Made t.world.heap v := by
  refine ⟨Known L.cmem, librarySpec L hq, fun env hu => ?_⟩
  have hf := foreignParametric_keeps (c51_parametric hp fun i => (hu i).imp_right (·.1))
  have key : ∀ (n : Nat) (s t : Thread), WfThread s → (∃ σ, Known L.cmem s.world.heap σ) → stepsGC env n s = .ok t →
      (∃ σ, Known L.cmem t.world.heap σ) ∧ WfThread t := by
    intro n
    induction n with
    | zero => intro s t w k e; cases e; exact ⟨k, w⟩
    | succ n ih =>
      rintro s t w ⟨σ, k⟩ e
      obtain ⟨⟨b, u⟩, e1, e2⟩ := Res.bind_eq_ok.1 e
      exact ih u t (cycle_wf hf w e1) (cycle_known hp hu w k e1) e2
  intro n g t e
  obtain ⟨h1, h2⟩ := key n _ _ (startThread_wf g) ⟨fun _ => none, (librarySpec L hq).start⟩ e
  exact ⟨h1, fun v hv => wf_made h2 hv⟩

/-- **C51.** In every run of every program with the library: a function for dictionaries called with a dictionary of the
program and any other arguments of the program returns, or fails an assertion (for a key it cannot hash); it is never
undefined and never runs forever. -/
theorem c51_dict_total {L : LibEnv} (hq : QsortContract compareInts L.qsort) (hp : ∀ l, (L.qsort l).Perm l) {env : Env} (hu : UsesLibrary env L)
    {i : Nat} {f : DictFn} (hi : Implements env L i (.dict f)) {n g : Nat} {t : Thread} (e : stepsGC env n (startThread g) = .ok t)
    {o a : Nat} (ho : .native o ∈ t.stack) (hd : t.world.heap.obj o = .native a dictProp) {rest : List Value} (hr : ∀ v ∈ rest, v ∈ t.stack)
    (hn : rest.length = (match f with | .put => 2 | .exists | .get | .remove => 1 | _ => 0)) :
    (∃ r, env.foreign i (.native o :: rest) t.world = .ok r) ∨ env.foreign i (.native o :: rest) t.world = .abort := by
  have hf := foreignParametric_keeps (c51_parametric hp fun i => (hu i).imp_right (·.1))
  have hin : Value.native o ∈ t.roots := by simp [Thread.roots, ho]
  obtain ⟨R, hR, hrun⟩ : ∃ R : Heap → Store → Prop, R = Known L.cmem ∧ ∀ n g t, stepsGC env n (startThread g) = .ok t →
      (∃ σ, R t.world.heap σ) ∧ WfThread t := by
    refine ⟨_, rfl, fun n g => ?_⟩
    have key : ∀ (n : Nat) (s t : Thread), WfThread s → (∃ σ, Known L.cmem s.world.heap σ) → stepsGC env n s = .ok t →
        (∃ σ, Known L.cmem t.world.heap σ) ∧ WfThread t := by
      intro n
      induction n with
      | zero => intro s t w k e; cases e; exact ⟨k, w⟩
      | succ n ih =>
        rintro s t w ⟨σ, k⟩ e
        obtain ⟨⟨b, u⟩, e1, e2⟩ := Res.bind_eq_ok.1 e
        exact ih u t (cycle_wf hf w e1) (cycle_known hp hu w k e1) e2
    exact fun t e => key n _ _ (startThread_wf g) ⟨fun _ => none, (librarySpec L hq).start⟩ e
  subst hR
  obtain ⟨⟨σ, k⟩, w⟩ := hrun n g t e
  have hl := w.noDangling o (.root hin rfl)
  have hat : dictAt t.world.heap (.native o) = .ok a := by
    simp only [dictAt, Heap.deref, if_pos hl, Res.bind_ok, hd, if_true]
  obtain ⟨o', ops, es, ho', hσ⟩ := content_dict k hat
  cases ho'
  obtain ⟨r, h1, h2⟩ := (librarySpec L hq).dict (f := f) k (args := .native o :: rest) (fun v hv => wf_made w (by
    rcases List.mem_cons.1 hv with rfl | hv
    · exact hin
    · simp [Thread.roots, hr v hv])) (.inr ⟨o, ops, es, rest, rfl, hσ, hn⟩)
  have hr : (∃ x, r = .ok x) ∨ r = .abort := by
    cases h1 with
    | put _ h => exact h.elim (fun ⟨_, _, _, e⟩ => .inl ⟨_, e⟩) (fun h => .inr h.2)
    | remove _ h => exact h.elim (fun ⟨_, _, _, e⟩ => .inl ⟨_, e⟩) (fun h => .inr h.2)
    | clear _ h => exact h.elim (fun ⟨_, _, _, e⟩ => .inl ⟨_, e⟩) (fun h => .inr h.2)
    | _ => first | exact .inl ⟨_, rfl⟩ | exact .inr rfl
  rw [hi]
  generalize libFn L (.dict f) (.native o :: rest) t.world.heap = x at h2
  rcases hr with ⟨y, rfl⟩ | rfl
  · cases x with
    | ok z => exact .inl ⟨_, rfl⟩
    | _ => exact h2.elim
  · cases x with
    | abort => exact .inr rfl
    | _ => exact h2.elim

/-! ## A machine with the library -/

/-- A library with a sorting algorithm. -/
def sampleLib : LibEnv where
  cmem := fun _ => []
  lit := 0
  qsort := List.foldr (insertV compareInts) []

theorem sampleLib_perm (l : List Value) : (sampleLib.qsort l).Perm l := by
  induction l with
  | nil => exact .refl _
  | cons v l ih => exact (insertV_perm _ _ _).trans (ih.cons v)

/-- The foreign functions of the sample machine. -/
def sampleFns (i : Nat) : LibFn :=
  [LibFn.array (.create false), .array .push, .array .get, .dict .create, .dict .put, .dict .get, .dict .keys].getD i (.array .len)

/-- A machine with some functions of the library, for any program. -/
def sampleMachine (fl : FloatOps) (program : List UInt8) : Env where
  program := program
  numForeign := 7
  foreign := fun i args w => do
    let (v, h) ← libFn sampleLib (sampleFns i) args w.heap
    .ok (v, { w with heap := h })
  fl := fl

/-- The hypotheses are met. -/
theorem sampleMachine_uses (fl : FloatOps) (program : List UInt8) :
    UsesLibrary (sampleMachine fl program) sampleLib ∧ QsortContract compareInts sampleLib.qsort ∧ (∀ l, (sampleLib.qsort l).Perm l) :=
  ⟨fun i => .inl ⟨sampleFns i, fun _ _ => rfl⟩, qsort_exists _, sampleLib_perm⟩

/-- Calls one after the other. -/
def callsOf (L : LibEnv) : List (LibFn × List Value) → Heap → Res (List Value × Heap)
  | [], h => .ok ([], h)
  | (f, args) :: cs, h => do
    let (v, h) ← libFn L f args h
    let (vs, h) ← callsOf L cs h
    .ok (v :: vs, h)

/-- What a sequence of calls gives back. -/
def resultsOf (cs : List (LibFn × List Value)) : Res (List Value) := do
  let (vs, _) ← callsOf sampleLib cs {}
  .ok vs

/-- `a = array(5); a.push(7); a.shift(); a.get(0); a.len()` -/
example : resultsOf [(.array (.create false), [intVal 5]), (.array .push, [.native 0, intVal 7]), (.array .shift, [.native 0]),
    (.array .get, [.native 0, intVal 0]), (.array .len, [.native 0])] = .ok [.native 0, .null, intVal 5, intVal 7, intVal 1] := by
  decide +kernel

/-- `d = dict(1, 10); d.put(2, 20); d.put(1, 11); d.get(1); d.get(3); d.remove(2); d.exists(2)` -/
example : resultsOf [(.dict .create, [intVal 1, intVal 10]), (.dict .put, [.native 0, intVal 2, intVal 20]),
    (.dict .put, [.native 0, intVal 1, intVal 11]), (.dict .get, [.native 0, intVal 1]), (.dict .get, [.native 0, intVal 3]),
    (.dict .remove, [.native 0, intVal 2]), (.dict .exists, [.native 0, intVal 2])] =
    .ok [.native 0, .null, .null, intVal 11, .null, .null, .bool false] := by
  decide +kernel

/-! ## Defects -/

/-- **C51, defect.** An index is cut to 32 bits: element 2^32 is element 0. -/
theorem c51_index_cut : resultsOf [(.array (.create false), [intVal 5]), (.array .get, [.native 0, intVal (2 ^ 32)])] = .ok [.native 0, intVal 5] := by
  decide +kernel

/-- **C51, defect.** The array of keys of an empty dictionary cannot be cleared: `memset` of NULL. -/
theorem c51_keys_clear : resultsOf [(.dict .create, []), (.dict .keys, [.native 0]), (.array .clear, [.native 1])] = .ub := by
  decide +kernel

/-- **C51, defect.** `resize` of an array of integers puts null, which is no integer, into it; sorting it then fails. -/
theorem c51_resize_null : resultsOf [(.array (.create true), []), (.array .resize, [.native 0, intVal 2]), (.array .get, [.native 0, intVal 1])] =
      .ok [.native 0, .null, .null] ∧
    resultsOf [(.array (.create true), []), (.array .resize, [.native 0, intVal 2]), (.array .sortInt, [.native 0])] = .abort := by
  decide +kernel

/-- **C51, defect.** `dict_str_int` is said to give an `int`, and gives null where there is none. -/
theorem c51_get_null : resultsOf [(.dict .create, []), (.dict .get, [.native 0, intVal 1])] = .ok [.native 0, .null] := by
  decide +kernel

/-- `v` is an array of the program. -/
def IsArray (h : Heap) (v : Value) : Prop :=
  ∃ o a p, v = .native o ∧ o ∈ h.list ∧ h.obj o = .native a p ∧ (p = arrayProp ∨ p = primArrayProp)

/-- `v` is a dictionary of the program. -/
def IsDict (h : Heap) (v : Value) : Prop := ∃ o a, v = .native o ∧ o ∈ h.list ∧ h.obj o = .native a dictProp

theorem arrayAt_wrong {h : Heap} {v : Value} (hv : ¬ IsArray h v) : arrayAt h v = .ub := by
  cases v with
  | native o =>
    by_cases ho : o ∈ h.list
    · simp only [arrayAt, Heap.deref, if_pos ho, Res.bind_ok]
      cases hb : h.obj o with
      | native a p =>
        show (if p = arrayProp then _ else _) = _
        rw [if_neg fun e => hv ⟨o, a, p, rfl, ho, hb, .inl e⟩, if_neg fun e => hv ⟨o, a, p, rfl, ho, hb, .inr e⟩]
      | _ => rfl
    · simp only [arrayAt, Heap.deref, if_neg ho]; rfl
  | _ => rfl

theorem dictAt_wrong {h : Heap} {v : Value} (hv : ¬ IsDict h v) : dictAt h v = .ub := by
  cases v with
  | native o =>
    by_cases ho : o ∈ h.list
    · simp only [dictAt, Heap.deref, if_pos ho, Res.bind_ok]
      cases hb : h.obj o with
      | native a p =>
        show (if p = dictProp then _ else _) = _
        rw [if_neg fun e => hv ⟨o, a, rfl, ho, by rw [hb, e]⟩]
      | _ => rfl
    · simp only [dictAt, Heap.deref, if_neg ho]; rfl
  | _ => rfl

/-- **C51, defect.** The functions do not check what they are given: a function for arrays called with anything but an
array (a program can do that with `cast`), or one for dictionaries with anything but a dictionary, is undefined. -/
theorem c51_misuse (L : LibEnv) (h : Heap) (v : Value) (args : List Value) :
    (¬ IsArray h v → ∀ f : ArrayFn, (∀ p, f ≠ .create p) → libFn L (.array f) (v :: args) h = .ub) ∧
    (¬ IsDict h v → ∀ f : DictFn, f ≠ .create → libFn L (.dict f) (v :: args) h = .ub) := by
  refine ⟨fun hv f hf => ?_, fun hv f hf => ?_⟩
  · have h1 : ∀ op, arrayCall op v h = .ub := fun op => by rw [arrayCall, arrayAt_wrong hv]; rfl
    have h2 : ∀ (x : Value) (g : Int → Arr.Op Value), (do arrayCall (g (← toNumberInt x)) v h) = .ub := by
      intro x g
      cases e : toNumberInt x with
      | ok n => exact h1 _
      | ub => rfl
      | abort => cases x <;> simp only [toNumberInt] at e <;> (try split at e) <;> cases e
      | timeout => cases x <;> simp only [toNumberInt] at e <;> (try split at e) <;> cases e
      | limit => cases x <;> simp only [toNumberInt] at e <;> (try split at e) <;> cases e
    have h3 : sortInt L.qsort v h = .ub := by rw [sortInt, arrayAt_wrong hv]; rfl
    cases f with
    | create p => exact (hf p rfl).elim
    | sortInt => exact h3
    | len | clear | pop | shift => exact h1 _
    | resize =>
      rcases args with _ | ⟨x, _⟩
      · exact rfl
      · exact h2 x fun n => .resize n .null
    | resizeFill =>
      rcases args with _ | ⟨x, _ | ⟨y, _⟩⟩
      · exact rfl
      · exact rfl
      · exact h2 x fun n => .resize n y
    | push | get | remove =>
      rcases args with _ | ⟨x, _⟩
      · exact rfl
      · exact h1 _
    | set | insert =>
      rcases args with _ | ⟨x, _ | ⟨y, _⟩⟩
      · exact rfl
      · exact rfl
      · exact h1 _
  · have h1 := dictAt_wrong hv
    cases f with
    | create => exact (hf rfl).elim
    | clear | keys | values => simp only [libFn, dictFn, h1]; rfl
    | put => rcases args with _ | ⟨x, _ | ⟨y, _⟩⟩ <;> simp only [libFn, dictFn, h1] <;> rfl
    | «exists» | get | remove => rcases args with _ | ⟨x, _⟩ <;> simp only [libFn, dictFn, h1] <;> rfl

/-- A dictionary is no array. -/
example : resultsOf [(.dict .create, []), (.array .len, [.native 0])] = .ub := by decide +kernel

end Tiny
