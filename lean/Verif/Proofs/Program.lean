import Verif.Proofs.Simulation
import Verif.Proofs.GCSim
import Verif.Spec.Load

/-!
# Whole programs
-/

namespace Tiny
open Spec

/-! ## The functions of a program -/

/-- The functions defined in an item. -/
def Item.procs : Item → List (Nat × Fn)
  | .s _ _ st _ => Spec.procs st
  | .ss _ _ st _ => Spec.procsL st
  | _ => []

/-- Like `FnAt`, before linking. -/
def FnIn (g : Globals) (fp : Nat → Option Nat) (P : List UInt8) (lo hi : Nat) (i : Nat) (fn : Fn) : Prop :=
  ∃ entry p2 p3 fin a, fp i = some entry ∧ lo ≤ entry ∧ fn.nlocals ≤ 255 ∧
    (if fn.nlocals = 0 then p2 = entry
      else AtI P entry (.opB .pushNullN (UInt8.ofNat fn.nlocals)) p2) ∧
    At g fp P p2 (.s 0 0 fn.body a) p3 ∧ AtI P p3 (.op .ret) fin ∧ fin ≤ hi

theorem FnIn.mono {g fp P lo hi lo' hi' i fn} (h : FnIn g fp P lo hi i fn) (h1 : lo' ≤ lo) (h2 : hi ≤ hi') :
    FnIn g fp P lo' hi' i fn := by
  obtain ⟨e, p2, p3, fin, a, h3, h4, h5, h6, h7, h8, h9⟩ := h
  exact ⟨e, p2, p3, fin, a, h3, by omega, h5, h6, h7, h8, by omega⟩

theorem At.fnIn {g : Globals} {fp : Nat → Option Nat} {P : List UInt8} {pos fin : Nat} {it : Item}
    (h : At g fp P pos it fin) : ∀ p ∈ it.procs, FnIn g fp P pos fin p.1 p.2 := by
  induction h with
  | node h ih => exact fun p hp => ih p (by simpa [Item.procs, Spec.procs] using hp)
  | block h ih => exact fun p hp => ih p (by simpa [Item.procs, Spec.procs] using hp)
  | proc h1 h2 h3 h4 h5 h6 ih =>
    intro p hp
    have := h1.lt; have := h5.le; have := h6.lt
    simp only [Item.procs, Spec.procs, List.mem_cons] at hp
    rcases hp with rfl | hp
    · exact ⟨_, _, _, _, _, h2, by omega, h3, h4, h5, h6, Nat.le_refl _⟩
    · refine (ih p hp).mono ?_ (by omega)
      split at h4
      · omega
      · have := h4.lt; omega
  | ifThen h1 h2 h3 _ ih =>
    intro p hp
    have := h1.le; have := h2.lt
    exact (ih p (by simpa [Item.procs, Spec.procs] using hp)).mono (by omega) (by omega)
  | ifElse h1 h2 h3 h4 h5 _ ih1 ih2 =>
    intro p hp
    have := h1.le; have := h2.lt; have := h3.le; have := h4.lt; have := h5.le
    simp only [Item.procs, Spec.procs, List.mem_append] at hp
    rcases hp with hp | hp
    · exact (ih1 p hp).mono (by omega) (by omega)
    · exact (ih2 p hp).mono (by omega) (by omega)
  | «while» h1 h2 h3 h4 _ ih =>
    intro p hp
    have := h1.le; have := h2.lt; have := h4.lt
    exact (ih p (by simpa [Item.procs, Spec.procs] using hp)).mono (by omega) (by omega)
  | «for» h0 h1 h2 h3 h4 h5 ih0 _ ih3 ih4 =>
    intro p hp
    have := h0.le; have := h1.le; have := h2.lt; have := h3.le; have := h4.le; have := h5.lt
    simp only [Item.procs, Spec.procs, List.mem_append] at hp
    rcases hp with (hp | hp) | hp
    · exact (ih0 p hp).mono (by omega) (by omega)
    · exact (ih3 p hp).mono (by omega) (by omega)
    · exact (ih4 p hp).mono (by omega) (by omega)
  | ssCons h1 h2 ih1 ih2 =>
    intro p hp
    have := h1.le; have := h2.le
    simp only [Item.procs, Spec.procsL, List.mem_append] at hp
    rcases hp with hp | hp
    · exact (ih1 p hp).mono (by omega) (by omega)
    · exact (ih2 p hp).mono (by omega) (by omega)
  | _ => intro p hp; simp [Item.procs, Spec.procs, Spec.procsL] at hp

theorem At.append {g fp P b c s1 a1 s2 a2} : ∀ {pos mid fin}, At g fp P pos (.ss b c s1 a1) mid →
    At g fp P mid (.ss b c s2 a2) fin → At g fp P pos (.ss b c (s1 ++ s2) (a1 ++ a2)) fin := by
  induction s1 generalizing a1 with
  | nil => intro pos mid fin h1 h2; cases h1; exact h2
  | cons s s1 ih =>
    intro pos mid fin h1 h2
    cases h1 with
    | ssCons h3 h4 => exact .ssCons h3 (ih h4 h2)

theorem procsL_append : ∀ (a b : List Stmt), procsL (a ++ b) = procsL a ++ procsL b
  | [], b => by simp [procsL]
  | s :: a, b => by simp [procsL, procsL_append a b]

/-! ## More globals -/

theorem _root_.Tiny.Spec.GlobalsLe.fieldIdx {g g' : Globals} (h : GlobalsLe g g') {tag field i} (hi : fieldIdx g tag field = some i) :
    fieldIdx g' tag field = some i := by
  unfold Tiny.fieldIdx at hi ⊢
  cases ht : tag.bind Tag.structName with
  | none => rw [ht] at hi; simp at hi
  | some n =>
    rw [ht] at hi
    simp only at hi ⊢
    cases hs : g.structs n with
    | none => rw [hs] at hi; simp at hi
    | some fs => rw [hs] at hi; rw [h.structs n fs hs]; exact hi

theorem At.globals {g g' : Globals} {fp : Nat → Option Nat} {P : List UInt8} {pos fin : Nat} {it : Item}
    (hg : GlobalsLe g g') (h : At g fp P pos it fin) : At g' fp P pos it fin := by
  induction h
  all_goals
    try have := hg.fieldIdx ‹fieldIdx g _ _ = some _›
    try have := hg.structs _ _ ‹g.structs _ = some _›
    try have := hg.funcs _ _ ‹g.funcs _ = some _›
    first
    | (apply At.leaf <;> assumption)
    | (apply At.paren <;> assumption)
    | (apply At.cast <;> assumption)
    | (apply At.index <;> assumption)
    | (apply At.dot <;> assumption)
    | (apply At.call <;> assumption)
    | (apply At.ctor <;> assumption)
    | (apply At.ctorNamed <;> assumption)
    | (apply At.add1 <;> assumption)
    | (apply At.sub1 <;> assumption)
    | (apply At.bin <;> assumption)
    | (apply At.ne <;> assumption)
    | (apply At.and <;> assumption)
    | (apply At.or <;> assumption)
    | (apply At.negInt <;> assumption)
    | (apply At.neg <;> assumption)
    | (apply At.bang <;> assumption)
    | (apply At.ite <;> assumption)
    | (apply At.esNil <;> assumption)
    | (apply At.esCons <;> assumption)
    | (apply At.fieldsNil <;> assumption)
    | (apply At.fieldsMissing <;> assumption)
    | (apply At.fieldsCons <;> assumption)
    | (apply At.rhsPlain <;> assumption)
    | (apply At.rhsAdd1 <;> assumption)
    | (apply At.rhsSub1 <;> assumption)
    | (apply At.rhsOp <;> assumption)
    | (apply At.storeGlob <;> assumption)
    | (apply At.storeLoc <;> assumption)
    | (apply At.storeIndex <;> assumption)
    | (apply At.storeDot <;> assumption)
    | (apply At.preIndex <;> assumption)
    | (apply At.preId <;> assumption)
    | (apply At.preDot <;> assumption)
    | (apply At.node <;> assumption)
    | (apply At.callS <;> assumption)
    | (apply At.block <;> assumption)
    | (apply At.assignConst <;> assumption)
    | (apply At.assign <;> assumption)
    | (apply At.proc <;> assumption)
    | (apply At.ifThen <;> assumption)
    | (apply At.ifElse <;> assumption)
    | (apply At.while <;> assumption)
    | (apply At.for <;> assumption)
    | (apply At.ret <;> assumption)
    | (apply At.retValue <;> assumption)
    | (apply At.brk <;> assumption)
    | (apply At.cont <;> assumption)
    | (apply At.use <;> assumption)
    | (apply At.ssNil <;> assumption)
    | (apply At.ssCons <;> assumption)

/-! ## Compilations in a row -/

/-- The program without the final `HALT`. -/
def body (P : List UInt8) : List UInt8 := if P.getLast? = some Op.halt.toByte then P.dropLast else P

/-- What is known after compiling the statements `ss`. -/
structure Built (G : Globals) (s : CS) (ss : List Stmt) : Prop where
  code : ∃ as, ∀ fp : Nat → Option Nat, (∀ i ∈ idsL ss, fp i = s.functionPcs[i]?) →
    At G fp (body s.program) 0 (.ss 0 0 ss as) (body s.program).length
  halt : ss = [] ∨ s.program = body s.program ++ [Op.halt.toByte]

theorem Built.empty (G : Globals) : Built G {} [] :=
  ⟨⟨[], fun _ _ => .ssNil⟩, .inl rfl⟩

theorem body_halt (P : List UInt8) : body (P ++ [Op.halt.toByte]) = P := by
  simp [body]

theorem compileState_ok {g newFns prog s s'} (h : compileState g newFns prog s = .ok () s') :
    ∃ as s2, compileSs g prog { s with program := body s.program, functionPcs := s.functionPcs ++ List.replicate newFns 0 } =
      .ok as s2 ∧ s' = { s2 with program := s2.program ++ [Op.halt.toByte] } := by
  unfold compileState at h
  obtain ⟨_, s1, h1, h3⟩ := CG.bind_ok.1 h
  obtain ⟨as2, s2, h2, h4⟩ := CG.bind_ok.1 h3
  clear h h3
  cases h1
  refine ⟨as2, s2, h2, ?_⟩
  unfold genOp genByte at h4
  cases h4
  rfl

theorem Built.compile {G g : Globals} {s s' : CS} {ss prog : List Stmt} {newFns : Nat} (hb : Built G s ss) (hg : GlobalsLe g G)
    (h : compileState g newFns prog s = .ok () s') (hl : s'.program.length ≤ 2 ^ 32) (hnd : (idsL (ss ++ prog)).Nodup) :
    Built G s' (ss ++ prog) ∧ s'.program ≠ [] ∧ s'.program.getLast? = some Op.halt.toByte := by
  obtain ⟨as2, s2, h2, rfl⟩ := compileState_ok h
  have hbody : body (s2.program ++ [Op.halt.toByte]) = s2.program := body_halt _
  simp only [List.length_append, List.length_singleton] at hl
  obtain ⟨ex, keep, _, hat⟩ := compileSs_made g prog _ s2 as2 h2
  simp only at keep hat
  have hnd' : (idsL ss ++ idsL prog).Nodup := by
    have := hnd
    simpa only [idsL, procsL_append, List.map_append] using this
  obtain ⟨as, hcode⟩ := hb.code
  -- entries of earlier functions
  have hold : ∀ i ∈ idsL ss, s2.functionPcs[i]? = s.functionPcs[i]? := by
    intro i hi
    rw [keep i fun hi2 => (List.nodup_append.1 hnd').2.2 i hi i hi2 rfl]
    have q := (hcode (fun i => s.functionPcs[i]?) (fun _ _ => rfl)).fnIn
    obtain ⟨p, hp, rfl⟩ := List.mem_map.1 hi
    obtain ⟨e, _, _, _, _, he, _⟩ := q p hp
    simp only at he
    have : p.1 < s.functionPcs.length := by
      rw [List.getElem?_eq_some_iff] at he; exact he.1
    rw [List.getElem?_append_left this]
  refine ⟨⟨⟨as ++ as2, fun fp hfp => ?_⟩, .inr (by simp only [hbody])⟩, by simp, by simp⟩
  simp only [hbody]
  simp only [idsL, procsL_append, List.map_append, List.mem_append] at hfp
  refine At.append (mid := (body s.program).length) ?_ ?_
  · refine (hcode fp fun i hi => (hfp i (.inl hi)).trans (hold i hi)).agree fun k _ hk => ?_
    exact ex.agree k hk
  · exact At.globals hg (hat (by omega) (List.nodup_append.1 hnd').2.1 fp fun i hi => hfp i (.inr hi))

theorem compileState_len {g newFns prog s s'} (h : compileState g newFns prog s = .ok () s') :
    (body s.program).length < s'.program.length := by
  obtain ⟨as2, s2, h2, rfl⟩ := compileState_ok h
  obtain ⟨ex, _⟩ := compileSs_made g prog _ s2 as2 h2
  have := ex.le
  simp only [List.length_append, List.length_singleton] at this ⊢
  omega

theorem body_len (P : List UInt8) : P.length ≤ (body P).length + 1 := by
  unfold body
  split <;> simp <;> omega

theorem compileUnits_len : ∀ {us s s'}, compileUnits us s = .ok () s' → s.program.length ≤ s'.program.length
  | [], s, s', h => by
    obtain ⟨_, rfl⟩ := CG.pure_ok.1 h
    exact Nat.le_refl _
  | (g, newFns, prog) :: us, s, s', h => by
    rw [compileUnits] at h
    obtain ⟨_, s1, h1, h⟩ := CG.bind_ok.1 h
    have := compileState_len h1
    have := compileUnits_len h
    have := body_len s.program
    omega

theorem built_units {G : Globals} : ∀ {us : List (Globals × Nat × List Stmt)} {s s' : CS} {ss : List Stmt}, Built G s ss →
    (∀ u ∈ us, GlobalsLe u.1 G) → compileUnits us s = .ok () s' → s'.program.length ≤ 2 ^ 32 →
    (idsL (ss ++ allStmts us)).Nodup →
    Built G s' (ss ++ allStmts us) ∧ (us ≠ [] → s'.program.getLast? = some Op.halt.toByte)
  | [], s, s', ss, hb, _, h, _, _ => by
    obtain ⟨_, rfl⟩ := CG.pure_ok.1 h
    simpa [allStmts] using hb
  | (g, newFns, prog) :: us, s, s', ss, hb, hg, h, hl, hnd => by
    rw [compileUnits] at h
    obtain ⟨_, s1, h1, h⟩ := CG.bind_ok.1 h
    have hlen := compileUnits_len h
    have e : ss ++ allStmts ((g, newFns, prog) :: us) = (ss ++ prog) ++ allStmts us := by simp [allStmts]
    rw [e] at hnd ⊢
    have hnd1 : (idsL (ss ++ prog)).Nodup := by
      simp only [idsL, procsL_append (ss ++ prog), List.map_append] at hnd
      exact (List.nodup_append.1 hnd).1
    obtain ⟨hb1, hne, hlast⟩ := hb.compile (hg _ (List.mem_cons_self ..)) h1 (by omega) hnd1
    obtain ⟨hb2, h2⟩ := built_units hb1 (fun u hu => hg u (List.mem_cons_of_mem _ hu)) h hl hnd
    refine ⟨hb2, fun _ => ?_⟩
    cases us with
    | nil =>
      obtain ⟨_, rfl⟩ := CG.pure_ok.1 h
      exact hlast
    | cons u us => exact h2 (by simp)

/-! ## From runs to steps -/

theorem stepsNoGC_succ {env : Env} {t t' : Thread} {k : Nat} (hpc : 0 ≤ t.pc) (e : exec env t = .ok t') :
    stepsNoGC env (k + 1) t = stepsNoGC env k t' := by
  rw [stepsNoGC, if_neg (by omega), e]; rfl

theorem Goes.steps {env : Env} {d : Nat} {A : Prop} {Q : Thread → Prop} {t : Thread} (h : Goes env d A Q t) :
    ∃ k, (∃ u, stepsNoGC env k t = .ok u ∧ Q u) ∨ stepsNoGC env k t = .limit ∨ (A ∧ stepsNoGC env k t = .abort) := by
  induction h with
  | done q => exact ⟨0, .inl ⟨_, rfl, q⟩⟩
  | step hpc e _ ih =>
    obtain ⟨k, ih⟩ := ih
    exact ⟨k + 1, by rw [stepsNoGC_succ hpc.pc e]; exact ih⟩
  | limit hpc e => exact ⟨1, .inr (.inl (by rw [stepsNoGC, if_neg (by have := hpc.pc; omega), e]; rfl))⟩
  | abort hpc e a => exact ⟨1, .inr (.inr ⟨a, by rw [stepsNoGC, if_neg (by have := hpc.pc; omega), e]; rfl⟩)⟩

theorem Runs.steps {env : Env} {d k : Nat} {t : Thread} (h : Runs env d k t) : ∀ j < k,
    stepsNoGC env j t = .limit ∨ stepsNoGC env j t = .timeout ∨ ∃ u, stepsNoGC env j t = .ok u ∧ 0 ≤ u.pc := by
  induction h with
  | zero => omega
  | @step k t t' hpc e _ ih =>
    intro j hj
    cases j with
    | zero => exact .inr (.inr ⟨t, rfl, hpc.pc⟩)
    | succ j => rw [stepsNoGC_succ hpc.pc e]; exact ih j (by omega)
  | @limit k t hpc e =>
    intro j _
    cases j with
    | zero => exact .inr (.inr ⟨t, rfl, hpc.pc⟩)
    | succ j => left; rw [stepsNoGC, if_neg (by have := hpc.pc; omega), e]; rfl
  | @hang k t hpc e =>
    intro j _
    cases j with
    | zero => exact .inr (.inr ⟨t, rfl, hpc.pc⟩)
    | succ j => right; left; rw [stepsNoGC, if_neg (by have := hpc.pc; omega), e]; rfl

theorem _root_.Tiny.Spec.MeetsCycle.back {env : Env} {t t1 t2 : Thread} (hpc : 0 ≤ t.pc) (e : exec env t = .ok t1)
    (e2 : maybeCollect t1 = .ok t2) (h : MeetsCycle env t2) : MeetsCycle env t := by
  obtain ⟨k, a, b, h1, h2, h3, h4⟩ := h
  refine ⟨k + 1, a, b, ?_, h2, h3, h4⟩
  rw [stepsGC, cycle, if_neg (by omega), e]
  simp only [Res.bind_ok, e2]
  exact h1

/-- A run seen by `Tiny_CallFunction`'s loop, with the collector. -/
theorem Goes.callLoop {env : Env} {fc : Nat} {A : Prop} {Q : Thread → Prop} {u : Thread} (hf : ForeignParametric env)
    (h : Goes env (fc + 1) A Q u) (hQ : ∀ v, Q v → v.frames.length ≤ fc) : ∀ t, S0 t u →
    (∃ n, callLoop env fc n t = .limit) ∨ (A ∧ ∃ n, callLoop env fc n t = .abort) ∨ MeetsCycle env t ∨
      ∃ n t' u', callLoop env fc n t = .ok t' ∧ Q u' ∧ S0 t' u' := by
  induction h with
  | @done u q =>
    intro t s
    refine .inr (.inr (.inr ⟨1, t, u, ?_, q, s⟩))
    rw [Tiny.callLoop, if_neg]
    have := hQ u q
    rw [s.frames] at this
    omega
  | @step u u1 hpc e _ ih =>
    intro t s
    have hp : 0 ≤ t.pc := by have := hpc.pc; rw [s.pc] at this; exact this
    have hd : fc < t.frames.length := by have := hpc.depth; rw [s.frames] at this; exact this
    have he := exec_sim hf s
    rw [e] at he
    cases ht : exec env t with
    | ok t1 =>
      rw [ht] at he
      have he : S0 t1 u1 := he
      rcases maybeCollect_cases (t := t1) (by simpa [WfThread] using he.heap.wf) with ⟨t2, h2⟩ | ⟨h2, hc⟩
      · have s2 := maybeCollect_sim he h2
        have eq : ∀ n, Tiny.callLoop env fc (n + 1) t = Tiny.callLoop env fc n t2 := by
          intro n
          rw [Tiny.callLoop, if_pos hd, cycle, if_neg (by omega), ht]
          simp only [Res.bind_ok, h2]
        rcases ih t2 s2 with ⟨n, h⟩ | ⟨a, n, h⟩ | h | ⟨n, t', u', h⟩
        · exact .inl ⟨n + 1, (eq n).trans h⟩
        · exact .inr (.inl ⟨a, n + 1, (eq n).trans h⟩)
        · exact .inr (.inr (.inl (h.back hp ht h2)))
        · exact .inr (.inr (.inr ⟨n + 1, t', u', (eq n).trans h.1, h.2⟩))
      · exact .inr (.inr (.inl ⟨0, t, t1, rfl, hp, ht, hc⟩))
    | _ => rw [ht] at he; exact he.elim
  | @limit u hpc e =>
    intro t s
    have hp : 0 ≤ t.pc := by have := hpc.pc; rw [s.pc] at this; exact this
    have hd : fc < t.frames.length := by have := hpc.depth; rw [s.frames] at this; exact this
    have he := exec_sim hf s
    rw [e] at he
    refine .inl ⟨1, ?_⟩
    rw [Tiny.callLoop, if_pos hd, cycle, if_neg (by omega)]
    cases ht : exec env t <;> rw [ht] at he <;> first | exact he.elim | rfl
  | @abort u hpc e a =>
    intro t s
    have hp : 0 ≤ t.pc := by have := hpc.pc; rw [s.pc] at this; exact this
    have hd : fc < t.frames.length := by have := hpc.depth; rw [s.frames] at this; exact this
    have he := exec_sim hf s
    rw [e] at he
    refine .inr (.inl ⟨a, 1, ?_⟩)
    rw [Tiny.callLoop, if_pos hd, cycle, if_neg (by omega)]
    cases ht : exec env t <;> rw [ht] at he <;> first | exact he.elim | rfl

/-- A run seen by `Tiny_Run`, with the collector. -/
theorem Goes.run {env : Env} {A : Prop} {Q : Thread → Prop} {u : Thread} (hf : ForeignParametric env)
    (h : Goes env 0 A Q u) (hQ : ∀ v, Q v → v.pc < 0) : ∀ t, S0 t u →
    (∃ n, run env n t = .limit) ∨ (A ∧ ∃ n, run env n t = .abort) ∨ MeetsCycle env t ∨
      ∃ n t' u', run env n t = .ok t' ∧ Q u' ∧ S0 t' u' := by
  induction h with
  | @done u q =>
    intro t s
    refine .inr (.inr (.inr ⟨1, t, u, ?_, q, s⟩))
    have := hQ u q
    rw [s.pc] at this
    rw [Tiny.run, cycle, if_pos this]; rfl
  | @step u u1 hpc e _ ih =>
    intro t s
    have hp : 0 ≤ t.pc := by have := hpc.pc; rw [s.pc] at this; exact this
    have he := exec_sim hf s
    rw [e] at he
    cases ht : exec env t with
    | ok t1 =>
      rw [ht] at he
      have he : S0 t1 u1 := he
      rcases maybeCollect_cases (t := t1) (by simpa [WfThread] using he.heap.wf) with ⟨t2, h2⟩ | ⟨h2, hc⟩
      · have s2 := maybeCollect_sim he h2
        have eq : ∀ n, Tiny.run env (n + 1) t = Tiny.run env n t2 := by
          intro n
          rw [Tiny.run, cycle, if_neg (by omega), ht]
          simp only [Res.bind_ok, h2]
        rcases ih t2 s2 with ⟨n, h⟩ | ⟨a, n, h⟩ | h | ⟨n, t', u', h⟩
        · exact .inl ⟨n + 1, (eq n).trans h⟩
        · exact .inr (.inl ⟨a, n + 1, (eq n).trans h⟩)
        · exact .inr (.inr (.inl (h.back hp ht h2)))
        · exact .inr (.inr (.inr ⟨n + 1, t', u', (eq n).trans h.1, h.2⟩))
      · exact .inr (.inr (.inl ⟨0, t, t1, rfl, hp, ht, hc⟩))
    | _ => rw [ht] at he; exact he.elim
  | @limit u hpc e =>
    intro t s
    have hp : 0 ≤ t.pc := by have := hpc.pc; rw [s.pc] at this; exact this
    have he := exec_sim hf s
    rw [e] at he
    refine .inl ⟨1, ?_⟩
    rw [Tiny.run, cycle, if_neg (by omega)]
    cases ht : exec env t <;> rw [ht] at he <;> first | exact he.elim | rfl
  | @abort u hpc e a =>
    intro t s
    have hp : 0 ≤ t.pc := by have := hpc.pc; rw [s.pc] at this; exact this
    have he := exec_sim hf s
    rw [e] at he
    refine .inr (.inl ⟨a, 1, ?_⟩)
    rw [Tiny.run, cycle, if_neg (by omega)]
    cases ht : exec env t <;> rw [ht] at he <;> first | exact he.elim | rfl

/-- A long run seen by `Tiny_Run`. -/
theorem Runs.run {env : Env} {d k : Nat} {u : Thread} (hf : ForeignParametric env) (h : Runs env d k u) :
    ∀ t, S0 t u → ∀ n ≤ k, run env n t = .limit ∨ run env n t = .timeout := by
  induction h with
  | zero => intro t _ n hn; obtain rfl : n = 0 := by omega
            exact .inr rfl
  | @step k u u1 hpc e _ ih =>
    intro t s n hn
    cases n with
    | zero => exact .inr rfl
    | succ n =>
      have hp : 0 ≤ t.pc := by have := hpc.pc; rw [s.pc] at this; exact this
      have he := exec_sim hf s
      rw [e] at he
      rw [Tiny.run, cycle, if_neg (by omega)]
      cases ht : exec env t with
      | ok t1 =>
        rw [ht] at he
        have he : S0 t1 u1 := he
        rcases maybeCollect_cases (t := t1) (by simpa [WfThread] using he.heap.wf) with ⟨t2, h2⟩ | ⟨h2, hc⟩
        · simp only [Res.bind_ok, h2]
          exact ih t2 (maybeCollect_sim he h2) n (by omega)
        · simp only [Res.bind_ok, h2]
          exact .inr rfl
      | _ => rw [ht] at he; exact he.elim
  | @limit k u hpc e =>
    intro t s n hn
    cases n with
    | zero => exact .inr rfl
    | succ n =>
      have hp : 0 ≤ t.pc := by have := hpc.pc; rw [s.pc] at this; exact this
      have he := exec_sim hf s
      rw [e] at he
      rw [Tiny.run, cycle, if_neg (by omega)]
      cases ht : exec env t <;> rw [ht] at he <;> first | exact he.elim | exact .inl rfl
  | @hang k u hpc e =>
    intro t s n hn
    cases n with
    | zero => exact .inr rfl
    | succ n =>
      have hp : 0 ≤ t.pc := by have := hpc.pc; rw [s.pc] at this; exact this
      have he := exec_sim hf s
      rw [e] at he
      rw [Tiny.run, cycle, if_neg (by omega)]
      cases ht : exec env t <;> rw [ht] at he <;> first | exact he.elim | exact .inr rfl

/-- A long run seen by `Tiny_CallFunction`'s loop. -/
theorem Runs.callLoop {env : Env} {fc k : Nat} {u : Thread} (hf : ForeignParametric env) (h : Runs env (fc + 1) k u) :
    ∀ t, S0 t u → ∀ n ≤ k, callLoop env fc n t = .limit ∨ callLoop env fc n t = .timeout := by
  induction h with
  | zero => intro t _ n hn; obtain rfl : n = 0 := by omega
            exact .inr rfl
  | @step k u u1 hpc e _ ih =>
    intro t s n hn
    cases n with
    | zero => exact .inr rfl
    | succ n =>
      have hp : 0 ≤ t.pc := by have := hpc.pc; rw [s.pc] at this; exact this
      have hd : fc < t.frames.length := by have := hpc.depth; rw [s.frames] at this; exact this
      have he := exec_sim hf s
      rw [e] at he
      rw [Tiny.callLoop, if_pos hd, cycle, if_neg (by omega)]
      cases ht : exec env t with
      | ok t1 =>
        rw [ht] at he
        have he : S0 t1 u1 := he
        rcases maybeCollect_cases (t := t1) (by simpa [WfThread] using he.heap.wf) with ⟨t2, h2⟩ | ⟨h2, hc⟩
        · simp only [Res.bind_ok, h2]
          exact ih t2 (maybeCollect_sim he h2) n (by omega)
        · simp only [Res.bind_ok, h2]
          exact .inr rfl
      | _ => rw [ht] at he; exact he.elim
  | @limit k u hpc e =>
    intro t s n hn
    cases n with
    | zero => exact .inr rfl
    | succ n =>
      have hp : 0 ≤ t.pc := by have := hpc.pc; rw [s.pc] at this; exact this
      have hd : fc < t.frames.length := by have := hpc.depth; rw [s.frames] at this; exact this
      have he := exec_sim hf s
      rw [e] at he
      rw [Tiny.callLoop, if_pos hd, cycle, if_neg (by omega)]
      cases ht : exec env t <;> rw [ht] at he <;> first | exact he.elim | exact .inl rfl
  | @hang k u hpc e =>
    intro t s n hn
    cases n with
    | zero => exact .inr rfl
    | succ n =>
      have hp : 0 ≤ t.pc := by have := hpc.pc; rw [s.pc] at this; exact this
      have hd : fc < t.frames.length := by have := hpc.depth; rw [s.frames] at this; exact this
      have he := exec_sim hf s
      rw [e] at he
      rw [Tiny.callLoop, if_pos hd, cycle, if_neg (by omega)]
      cases ht : exec env t <;> rw [ht] at he <;> first | exact he.elim | exact .inr rfl

/-- Running the body of a function from its entry to its return. -/
theorem simBody {c : Ctx} {env : Env} {fp : Nat → Option Nat} {D d m n : Nat} (ih : SimAll c env fp D n) (L : Linked c env fp)
    {i : Nat} {fn : Fn} {vs : List Value} {f : Frame} {F : List Frame} {B w rv} (hfn : c.fns i = some fn)
    (hn : f.nargs = vs.length) (hF : d ≤ F.length + 1) (hm : m = 0 ∨ 300 * sizeOf fn.body + m * (D + 1) < n) :
    ∃ entry, env.functionPcs[i]? = some entry ∧
      Sim env d m (do
          let (o, _, w) ← execS c n fn.body ⟨vs, List.replicate fn.nlocals .null⟩ w
          match o with
          | .normal => .ok (.null, w)
          | .ret v => .ok (v, w)
          | _ => confused)
        (fun a u => u = ⟨f.pc, f.fp, B, F, a.1, a.2⟩) (conf B ⟨vs, []⟩ [] (F ++ [f]) w entry rv) := by
  obtain ⟨hi, entry, p2, p3, fin', a, hpc, hnl, hp2, hbody, hret, hfin⟩ := L.fns i fn hfn
  have hsz := L.size
  have hF1 : d ≤ (F ++ [f]).length := by simp only [List.length_append, List.length_singleton]; omega
  refine ⟨entry, hpc, sim_entry hnl hF1 hp2 ?_⟩
  have := hbody.le; have := hret.lt
  refine Sim.bind (ih.s hF1 hbody (by omega) (by omega) (by omega) hm) ?_
  rintro ⟨o, ρ', w'⟩ u hu
  cases o with
  | normal =>
    obtain ⟨hna, rv', rfl⟩ := hu
    exact .step conf_pc (exec_ret hret (hn.trans hna.symm)) (.ok rfl)
  | ret v =>
    have := hu _ _ rfl hn
    subst this
    exact .ok rfl
  | _ => exact .confused

/-! ## The number of variables does not change -/

/-- The number of arguments and locals. -/
def Spec.Vars.Same (ρ ρ' : Vars) : Prop := ρ'.args.length = ρ.args.length ∧ ρ'.locals.length = ρ.locals.length

theorem Spec.Vars.Same.trans {a b c : Vars} (h : a.Same b) (h' : b.Same c) : a.Same c :=
  ⟨h'.1.trans h.1, h'.2.trans h.2⟩

theorem Spec.Vars.set_same {ρ ρ' : Vars} {i : Int} {v : Value} (h : ρ.set i v = some ρ') : ρ.Same ρ' := by
  unfold Vars.set at h
  split at h
  · split at h
    · cases h; exact ⟨rfl, by simp⟩
    · cases h
  · split at h
    · cases h; exact ⟨by simp, rfl⟩
    · cases h

theorem known_ok {α : Type} {o : Option α} {a : α} (h : known o = .ok a) : o = some a := by
  cases o <;> cases h; rfl

theorem assign_same {c : Ctx} {n op lhs rhs ρ w ρ' w'} (h : execAssign c n op lhs rhs ρ w = .ok (ρ', w')) : ρ.Same ρ' := by
  cases n with
  | zero => rw [execAssign] at h; cases h
  | succ n =>
    unfold execAssign at h
    by_cases h1 : op = .declareConst
    · rw [if_pos h1] at h; cases h; exact ⟨rfl, rfl⟩
    rw [if_neg h1] at h
    by_cases h2 : op = .equal ∨ op = .declare ∨ (compound op).isSome
    swap
    · rw [if_neg h2] at h; cases h
    rw [if_pos h2] at h
    split at h
    · obtain ⟨⟨v, w1⟩, _, h⟩ := Res.bind_eq_ok.1 h
      simp only at h
      split at h
      · cases h
      split at h <;> cases h
      exact ⟨rfl, rfl⟩
    · obtain ⟨⟨v, w1⟩, _, h⟩ := Res.bind_eq_ok.1 h
      obtain ⟨ρ1, h3, h⟩ := Res.bind_eq_ok.1 h
      cases h
      exact Vars.set_same (known_ok h3)
    · obtain ⟨⟨v, w1⟩, _, h⟩ := Res.bind_eq_ok.1 h
      obtain ⟨⟨v, w1⟩, _, h⟩ := Res.bind_eq_ok.1 h
      obtain ⟨w2, _, h⟩ := Res.bind_eq_ok.1 h
      cases h
      exact ⟨rfl, rfl⟩
    · obtain ⟨⟨v, w1⟩, _, h⟩ := Res.bind_eq_ok.1 h
      obtain ⟨⟨v, w1⟩, _, h⟩ := Res.bind_eq_ok.1 h
      obtain ⟨⟨v, w1⟩, _, h⟩ := Res.bind_eq_ok.1 h
      simp only at h
      split at h
      · cases h
      · obtain ⟨⟨v, w1⟩, _, h⟩ := Res.bind_eq_ok.1 h
        cases h
        exact ⟨rfl, rfl⟩
    · cases h

theorem exec_same (c : Ctx) : ∀ n,
    (∀ s ρ w o ρ' w', execS c n s ρ w = .ok (o, ρ', w') → ρ.Same ρ') ∧
    (∀ s ρ w o ρ' w', execSs c n s ρ w = .ok (o, ρ', w') → ρ.Same ρ') ∧
    (∀ e st b ρ w o ρ' w', execLoop c n e st b ρ w = .ok (o, ρ', w') → ρ.Same ρ')
  | 0 => by
    refine ⟨fun _ _ _ _ _ _ h => ?_, fun _ _ _ _ _ _ h => ?_, fun _ _ _ _ _ _ _ _ h => ?_⟩
    · rw [execS] at h; cases h
    · rw [execSs] at h; cases h
    · rw [execLoop] at h; cases h
  | n + 1 => by
    obtain ⟨ih1, ih2, ih3⟩ := exec_same c n
    have rfl' : ∀ ρ : Vars, ρ.Same ρ := fun _ => ⟨rfl, rfl⟩
    refine ⟨fun s ρ w o ρ' w' h => ?_, fun s ρ w o ρ' w' h => ?_, fun e st b ρ w o ρ' w' h => ?_⟩
    · cases s with
      | node => rw [execS] at h; exact ih1 _ _ _ _ _ _ h
      | call =>
        rw [execS] at h
        obtain ⟨⟨v, w1⟩, _, h⟩ := Res.bind_eq_ok.1 h
        simp only at h
        split at h
        · cases h
        · obtain ⟨⟨v, w1⟩, _, h⟩ := Res.bind_eq_ok.1 h
          cases h; exact rfl' _
      | block => rw [execS] at h; exact ih2 _ _ _ _ _ _ h
      | assign =>
        rw [execS] at h
        obtain ⟨⟨ρ1, w1⟩, h1, h⟩ := Res.bind_eq_ok.1 h
        cases h
        exact assign_same h1
      | proc => rw [execS] at h; cases h; exact rfl' _
      | ifThen =>
        rw [execS] at h
        obtain ⟨⟨v, w1⟩, _, h⟩ := Res.bind_eq_ok.1 h
        obtain ⟨b, _, h⟩ := Res.bind_eq_ok.1 h
        split at h
        · exact ih1 _ _ _ _ _ _ h
        · cases h; exact rfl' _
      | ifElse =>
        rw [execS] at h
        obtain ⟨⟨v, w1⟩, _, h⟩ := Res.bind_eq_ok.1 h
        obtain ⟨b, _, h⟩ := Res.bind_eq_ok.1 h
        split at h
        · exact ih1 _ _ _ _ _ _ h
        · exact ih1 _ _ _ _ _ _ h
      | «while» => rw [execS] at h; exact ih3 _ _ _ _ _ _ _ _ h
      | «for» =>
        rw [execS] at h
        obtain ⟨⟨o1, ρ1, w1⟩, h1, h⟩ := Res.bind_eq_ok.1 h
        have := ih1 _ _ _ _ _ _ h1
        cases o1 with
        | normal => exact this.trans (ih3 _ _ _ _ _ _ _ _ h)
        | ret v => cases h; exact this
        | brk => cases h
        | cont => cases h
      | ret e =>
        cases e with
        | none => rw [execS] at h; cases h; exact rfl' _
        | some e =>
          rw [execS] at h
          obtain ⟨⟨v, w1⟩, _, h⟩ := Res.bind_eq_ok.1 h
          cases h; exact rfl' _
      | brk => rw [execS] at h; cases h; exact rfl' _
      | cont => rw [execS] at h; cases h; exact rfl' _
      | use => rw [execS] at h; cases h; exact rfl' _
      | expr => rw [execS] at h; cases h
    · cases s with
      | nil => rw [execSs] at h; cases h; exact rfl' _
      | cons s ss =>
        rw [execSs] at h
        obtain ⟨⟨o1, ρ1, w1⟩, h1, h⟩ := Res.bind_eq_ok.1 h
        have := ih1 _ _ _ _ _ _ h1
        cases o1 with
        | normal => exact this.trans (ih2 _ _ _ _ _ _ h)
        | _ => cases h; exact this
    · rw [execLoop] at h
      obtain ⟨⟨v, w1⟩, _, h⟩ := Res.bind_eq_ok.1 h
      obtain ⟨tr, _, h⟩ := Res.bind_eq_ok.1 h
      split at h
      swap
      · cases h; exact rfl' _
      obtain ⟨⟨o1, ρ1, w1⟩, h1, h⟩ := Res.bind_eq_ok.1 h
      have q := ih1 _ _ _ _ _ _ h1
      have go : ∀ h : (match st with
          | none => execLoop c n e st b ρ1 w1
          | some s => do
            let (o, ρ, w) ← execS c n s ρ1 w1
            match o with
            | .normal => execLoop c n e st b ρ w
            | .ret v => .ok (.ret v, ρ, w)
            | _ => confused) = .ok (o, ρ', w'), ρ.Same ρ' := by
        intro h
        cases st with
        | none => exact q.trans (ih3 _ _ _ _ _ _ _ _ h)
        | some st =>
          obtain ⟨⟨o2, ρ2, w2⟩, h2, h⟩ := Res.bind_eq_ok.1 h
          have q2 := q.trans (ih1 _ _ _ _ _ _ h2)
          cases o2 with
          | normal => exact q2.trans (ih3 _ _ _ _ _ _ _ _ h)
          | ret v => cases h; exact q2
          | brk => cases h
          | cont => cases h
      cases o1 with
      | brk => cases h; exact q
      | ret v => cases h; exact q
      | normal => exact go h
      | cont => exact go h

/-! ## Linking -/

theorem Linked.bound {c : Ctx} {env : Env} {fp : Nat → Option Nat} (L : Linked c env fp) :
    ∃ D, ∀ i fn, c.fns i = some fn → 300 * sizeOf fn.body ≤ D := by
  suffices H : ∀ N, ∃ D, ∀ i fn, i < N → c.fns i = some fn → 300 * sizeOf fn.body ≤ D by
    obtain ⟨D, h⟩ := H env.functionPcs.length
    refine ⟨D, fun i fn hfn => h i fn ?_ hfn⟩
    obtain ⟨_, e, _, _, _, _, he, _⟩ := L.fns i fn hfn
    rw [List.getElem?_eq_some_iff] at he
    exact he.1
  intro N
  induction N with
  | zero => exact ⟨0, fun i fn h => by omega⟩
  | succ N ih =>
    obtain ⟨D, ih⟩ := ih
    cases hN : c.fns N with
    | none =>
      refine ⟨D, fun i fn hi hfn => ?_⟩
      by_cases h : i = N
      · subst h; rw [hN] at hfn; cases hfn
      · exact ih i fn (by omega) hfn
    | some fn0 =>
      refine ⟨D + 300 * sizeOf fn0.body, fun i fn hi hfn => ?_⟩
      by_cases h : i = N
      · subst h; rw [hN] at hfn; cases hfn; omega
      · have := ih i fn (by omega) hfn; omega

theorem FnIn.fnAt {g fp env lo i fn} (hfp : ∀ i, fp i = env.functionPcs[i]?)
    (h : FnIn g fp env.program lo env.program.length i fn) : FnAt g env fp i fn := by
  obtain ⟨e, p2, p3, fin, a, h3, h4, h5, h6, h7, h8, h9⟩ := h
  exact ⟨e, p2, p3, fin, a, by rw [← hfp]; exact h3, h5, h6, h7, h8, h9⟩

/-- Code of statements in the machine. -/
theorem placed_stmt {g : Globals} {st a : Stmt} {s s' : CS} {env : Env} (h : compileS g st s = .ok a s')
    (hp : Placed s s' env) (he : EntriesOf [st] s' env) (hsz : env.program.length < 2 ^ 31) :
    At g (fun i => env.functionPcs[i]?) env.program s.program.length (.s 0 0 st a) s'.program.length := by
  obtain ⟨_, _, _, hat⟩ := compileS_made g st s s' a h
  obtain ⟨hnd, he⟩ := he
  have hpr : procsL [st] = procs st := by simp [procsL]
  rw [hpr] at hnd he
  refine (hat (by have := hp.fits; omega) hnd _ fun i hi => ?_).agree fun k h1 h2 => hp.bytes k h1 h2
  obtain ⟨p, hp', rfl⟩ := List.mem_map.1 hi
  exact he p hp'

theorem placed_expr {g : Globals} {e : Expr} {s s' : CS} {env : Env} (h : compileE g e s = .ok () s')
    (hp : Placed s s' env) (hsz : env.program.length < 2 ^ 31) (fp : Nat → Option Nat) :
    At g fp env.program s.program.length (.e e) s'.program.length := by
  obtain ⟨_, hat⟩ := compileE_made g e s s' h
  exact (hat (by have := hp.fits; omega) fp).agree fun k h1 h2 => hp.bytes k h1 h2

theorem _root_.Tiny.Spec.Loaded.linked {c : Ctx} {env : Env} (L : Loaded c env) : Linked c env (fun i => env.functionPcs[i]?) where
  fl := L.fl
  numForeign := L.numForeign
  foreign := L.foreign
  numStrings := L.numStrings
  cmem := L.cmem
  stack := L.stack
  fewForeign := L.fewForeign
  size := L.size
  fns := fun i fn hfn => by
    obtain ⟨hi, s, a, s', hc, hp, he⟩ := L.fns i fn hfn
    have hat := placed_stmt hc hp he L.size
    have := hat.fnIn (i, fn) (by simp [Item.procs, procs])
    exact ⟨hi, (this.mono (Nat.le_refl _) hp.fits).fnAt fun _ => rfl⟩

end Tiny
