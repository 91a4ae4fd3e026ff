import Verif.Proofs.Program
import Verif.Proofs.Fuel
import Verif.Proofs.Frames
import Verif.Props.GC

/-!
# C20–C24: compiled code runs as the language says
-/

namespace Tiny
open Spec

/-! ## From simulations to runs -/

theorem goes_reaches {env : Env} {Q : Thread → Prop} {t : Thread} (h : Goes env 0 False Q t) : Reaches env t Q := by
  obtain ⟨k, h⟩ := h.steps
  rcases h with h | h | h
  · exact ⟨k, .inr h⟩
  · exact ⟨k, .inl h⟩
  · exact h.1.elim

theorem goes_fails {env : Env} {t : Thread} (h : Goes env 0 True (fun _ => False) t) : Fails env t := by
  obtain ⟨k, h⟩ := h.steps
  rcases h with ⟨_, _, h⟩ | h | h
  · exact h.elim
  · exact ⟨k, .inl h⟩
  · exact ⟨k, .inr h.2⟩

theorem Spec.Reaches.mono {env : Env} {Q Q' : Thread → Prop} {t : Thread} (h : Reaches env t Q) (hq : ∀ u, Q u → Q' u) :
    Reaches env t Q' := by
  obtain ⟨k, h | ⟨u, h, q⟩⟩ := h
  · exact ⟨k, .inl h⟩
  · exact ⟨k, .inr ⟨u, h, hq u q⟩⟩

/-! ## C20: expressions -/

/-- **C20.** The code of an expression, anywhere in a program, run in any function activation: if the
expression has value `v`, the run gets to the end of the code with `v` pushed and nothing else on the stack
or among the frames changed, and with the world (globals, heap, foreign calls) as the language says. If a
run-time check fails, the run fails; if the evaluation does not end, the run does not. -/
theorem c20_expression {c : Ctx} {env : Env} (L : Loaded c env) {e : Expr} {s s' : CS}
    (hc : compileE c.globals e s = .ok () s') (hp : Placed s s' env)
    (B args locs T : List Value) (F : List Frame) (rv : Value) (w : World)
    (hst : (B ++ args ++ locs ++ T).length ≤ env.stackSize) :
    let start := inFunction s.program.length B args locs T F rv w
    (∀ n v w', evalE c n e ⟨args, locs⟩ w = .ok (v, w') →
      Reaches env start fun u => ∃ rv', u = inFunction s'.program.length B args locs (T ++ [v]) F rv' w') ∧
    (∀ n, evalE c n e ⟨args, locs⟩ w = .abort → Fails env start) ∧
    ((∀ n, evalE c n e ⟨args, locs⟩ w = .timeout) → RunsForever env start) := by
  obtain ⟨D, hD⟩ := L.linked.bound
  have hat := placed_expr hc hp L.size (fun i => env.functionPcs[i]?)
  have hfin : s'.program.length < 2 ^ 31 := by have := hp.fits; have := L.size; omega
  have key := fun n m hm => (simAll L.linked hD n).e (d := 0) (m := m) (ρ := ⟨args, locs⟩) (B := B) (T := T) (F := F)
    (w := w) (rv := rv) (Nat.zero_le _) hat hfin hm hst
  refine ⟨fun n v w' h => ?_, fun n h => ?_, fun h k => ?_⟩
  · have := key n 0 (.inl rfl)
    rw [h] at this
    exact goes_reaches this
  · have := key n 0 (.inl rfl)
    rw [h] at this
    exact goes_fails this
  · have := key (300 * sizeOf e + (k + 1) * (D + 1) + 1) (k + 1) (.inr (by omega))
    rw [h] at this
    exact this.steps k (by omega)

/-! ## C22: statements -/

/-- **C22.** The code of a statement, anywhere in a program, run in any function activation. If the
statement ends normally, the run gets to the end of its code with the variables and the world as the
language says and no other change of the stack. If it ends by `return v`, the run gets to the caller, with
the stack, the frames and the frame pointer of the caller and the return value `v`. Failing and endless
statements fail and run without end. -/
theorem c22_statement {c : Ctx} {env : Env} (L : Loaded c env) {st a : Stmt} {s s' : CS}
    (hc : compileS c.globals st s = .ok a s') (hp : Placed s s' env) (he : EntriesOf [st] s' env)
    (B args locs : List Value) (F : List Frame) (rv : Value) (w : World)
    (hst : (B ++ args ++ locs).length ≤ env.stackSize) :
    let start := inFunction s.program.length B args locs [] F rv w
    (∀ n args' locs' w', execS c n st ⟨args, locs⟩ w = .ok (.normal, ⟨args', locs'⟩, w') →
      Reaches env start fun u => args'.length = args.length ∧
        ∃ rv', u = inFunction s'.program.length B args' locs' [] F rv' w') ∧
    (∀ n v ρ' w' F0 f, execS c n st ⟨args, locs⟩ w = .ok (.ret v, ρ', w') → F = F0 ++ [f] → f.nargs = args.length →
      Reaches env start fun u => u = { pc := f.pc, fp := f.fp, stack := B, frames := F0, retVal := v, world := w' }) ∧
    (∀ n, execS c n st ⟨args, locs⟩ w = .abort → Fails env start) ∧
    ((∀ n, execS c n st ⟨args, locs⟩ w = .timeout) → RunsForever env start) := by
  obtain ⟨D, hD⟩ := L.linked.bound
  have hat := placed_stmt hc hp he L.size
  have hfin : s'.program.length < 2 ^ 31 := by have := hp.fits; have := L.size; omega
  have key := fun n m hm => (simAll L.linked hD n).s (d := 0) (m := m) (ρ := ⟨args, locs⟩) (B := B) (F := F)
    (w := w) (rv := rv) (Nat.zero_le _) hat hfin (by omega) (by omega) hm (by simpa [conf] using hst)
  refine ⟨fun n args' locs' w' h => ?_, fun n v ρ' w' F0 f h hF hn => ?_, fun n h => ?_, fun h k => ?_⟩
  · have := key n 0 (.inl rfl)
    rw [h] at this
    exact goes_reaches this
  · have := key n 0 (.inl rfl)
    rw [h] at this
    exact (goes_reaches this).mono fun u hu => hu F0 f hF hn
  · have := key n 0 (.inl rfl)
    rw [h] at this
    exact goes_fails this
  · have := key (300 * sizeOf st + (k + 1) * (D + 1) + 1) (k + 1) (.inr (by omega))
    rw [h] at this
    exact this.steps k (by omega)

/-! ## C20: whole programs -/

theorem Spec.BuiltFrom.code {us : List (Globals × Nat × List Stmt)} {c : Ctx} {env : Env} (L : BuiltFrom us c env) :
    ∃ fin as, At c.globals (fun i => env.functionPcs[i]?) env.program 0 (.ss 0 0 (allStmts us) as) fin ∧
      AtI env.program fin (.op .halt) env.program.length := by
  obtain ⟨s', hc, h1, h2⟩ := L.compiled
  have hsz := L.size
  have hl : s'.program.length ≤ 2 ^ 32 := by rw [← h1]; omega
  obtain ⟨hb, hlast⟩ := built_units (Built.empty c.globals) L.globals hc hl (by simpa [idsL] using L.ids)
  have hlast := hlast L.nonempty
  have hbody : s'.program = body s'.program ++ [Op.halt.toByte] := by
    obtain ⟨ys, hys⟩ := List.getLast?_eq_some_iff.1 hlast
    rw [hys, body_halt]
  obtain ⟨as, hcode⟩ := hb.code
  have hat := hcode (fun i => env.functionPcs[i]?) fun i _ => by rw [h2]
  simp only [List.nil_append] at hat
  refine ⟨(body s'.program).length, as, hat.agree fun k _ hk => ?_, ?_⟩
  · rw [h1, hbody, body_halt, List.getElem?_append_left hk]
  · rw [h1]
    constructor
    · rw [hbody, body_halt]; simp
    · conv_lhs => rw [hbody]
      simp

theorem Spec.BuiltFrom.linked {us : List (Globals × Nat × List Stmt)} {c : Ctx} {env : Env} (L : BuiltFrom us c env) :
    Linked c env (fun i => env.functionPcs[i]?) where
  fl := L.fl
  numForeign := L.numForeign
  foreign := L.foreign
  numStrings := L.numStrings
  cmem := L.cmem
  stack := L.stack
  fewForeign := L.fewForeign
  size := L.size
  fns := fun i fn hfn => by
    have hm := L.fns i fn hfn
    obtain ⟨fin, as, hat, hh⟩ := L.code
    have := hat.fnIn (i, fn) hm
    have := hh.lt
    exact ⟨L.idsFit _ hm, (‹FnIn _ _ _ _ _ _ _›.mono (Nat.le_refl _) (by omega)).fnAt fun _ => rfl⟩

theorem execSs_sim {c : Ctx} {env : Env} (L : Linked c env (fun i => env.functionPcs[i]?)) {prog as : List Stmt} {fin : Nat}
    (hat : At c.globals (fun i => env.functionPcs[i]?) env.program 0 (.ss 0 0 prog as) fin)
    (hh : AtI env.program fin (.op .halt) env.program.length) (g : Nat) :
    ∃ D, ∀ n m, (m = 0 ∨ 300 * sizeOf prog + m * (D + 1) < n) →
      Sim env 0 m (runProgram c n g prog)
        (fun w u => ∃ rv, u = { pc := -1, fp := 0, stack := [], frames := [], retVal := rv, world := w }) (startThread g) := by
  obtain ⟨D, hD⟩ := L.bound
  refine ⟨D, fun n m hm => ?_⟩
  have hsz := L.size
  have := hh.lt
  have key := (simAll L hD n).ss (d := 0) (m := m) (ρ := {}) (B := []) (F := [])
    (w := { globals := List.replicate g .null }) (rv := .null) (Nat.zero_le _) hat (by omega) (by omega) (by omega) hm
  have key2 : Sim env 0 m (execSs c n prog {} { globals := List.replicate g .null })
      (fun a u => SPost [] 0 [] 0 0 fin a u ∧ Vars.Same {} a.2.1) (startThread g) := by
    intro hl
    have k := key hl
    cases hx : execSs c n prog {} { globals := List.replicate g .null } with
    | ok a =>
      rw [hx] at k
      obtain ⟨o, ρ, w⟩ := a
      have := (exec_same c n).2.1 _ _ _ _ _ _ hx
      exact Goes.trans k id fun u hu => .done ⟨hu, this⟩
    | _ => rw [hx] at k; exact k
  refine Sim.bind key2 ?_
  rintro ⟨o, ρ, w⟩ u ⟨hu, hs⟩
  cases o with
  | normal =>
    obtain ⟨_, rv, rfl⟩ := hu
    obtain ⟨args, locs⟩ := ρ
    obtain rfl : args = [] := List.eq_nil_of_length_eq_zero hs.1
    obtain rfl : locs = [] := List.eq_nil_of_length_eq_zero hs.2
    refine .step0 (conf_pc (Nat.zero_le _)) (t' := { pc := -1, fp := 0, stack := [], frames := [], retVal := rv, world := w }) ?_ (.ok ⟨rv, rfl⟩)
    rw [exec_op hh rfl, execOp]
    rfl
  | _ => exact .confused

/-- Any program in the machine's memory. -/
theorem linked_run {c : Ctx} {env : Env} (L : Linked c env (fun i => env.functionPcs[i]?)) {prog as : List Stmt} {fin : Nat}
    (hat : At c.globals (fun i => env.functionPcs[i]?) env.program 0 (.ss 0 0 prog as) fin)
    (hh : AtI env.program fin (.op .halt) env.program.length)
    (hf : ForeignParametric env) (g : Nat) :
    (∀ n w, runProgram c n g prog = .ok w →
      (∃ fuel, run env fuel (startThread g) = .limit) ∨ MeetsCycle env (startThread g) ∨
      ∃ fuel t, run env fuel (startThread g) = .ok t ∧ t.pc < 0 ∧ t.stack = [] ∧ t.frames = [] ∧
        t.world.globals = w.globals ∧ t.world.trace = w.trace ∧ HeapSim t.world.heap w.heap t.roots) ∧
    (∀ n, runProgram c n g prog = .abort →
      (∃ fuel, run env fuel (startThread g) = .limit) ∨ MeetsCycle env (startThread g) ∨
      ∃ fuel, run env fuel (startThread g) = .abort) ∧
    ((∀ n, runProgram c n g prog = .timeout) →
      ∀ fuel, run env fuel (startThread g) = .limit ∨ run env fuel (startThread g) = .timeout) := by
  obtain ⟨D, key⟩ := execSs_sim L hat hh g
  have hst : (startThread g).stack.length ≤ env.stackSize := Nat.zero_le _
  refine ⟨fun n w h => ?_, fun n h => ?_, fun h fuel => ?_⟩
  · have k := key n 0 (.inl rfl) hst
    rw [h] at k
    rcases Goes.run hf k (by rintro v ⟨rv, rfl⟩; simp) _ (startThread_wf g).refl with h | h | h | ⟨fuel, t, u, h, ⟨rv, rfl⟩, s⟩
    · exact .inl h
    · exact h.1.elim
    · exact .inr (.inl h)
    · refine .inr (.inr ⟨fuel, t, h, ?_, s.stack.symm, s.frames.symm, s.globals.symm, s.trace.symm, by simpa using s.heap⟩)
      have := s.pc
      simp only at this
      omega
  · have k := key n 0 (.inl rfl) hst
    rw [h] at k
    rcases Goes.run hf k (by simp) _ (startThread_wf g).refl with h | h | h | ⟨_, _, _, _, h, _⟩
    · exact .inl h
    · exact .inr (.inr h.2)
    · exact .inr (.inl h)
    · exact h.elim
  · have k := key (300 * sizeOf prog + fuel * (D + 1) + 1) fuel (.inr (by omega)) hst
    rw [h] at k
    exact Runs.run hf k _ (startThread_wf g).refl fuel (Nat.le_refl _)

/-- **C20, C22: whole programs.** Any number of sources compiled one after the other into one state, run by
`Tiny_Run` on a fresh thread, with the garbage collector: the run ends with empty stack and frames, and with
the globals, foreign calls and reachable objects the language says; if the language says a run-time check
fails, it does; if the program does not end, `Tiny_Run` does not return. The exceptions: the limits of the
stack or call depth are hit, or the collector meets a cyclic structure (C27). -/
theorem c20_program {us : List (Globals × Nat × List Stmt)} {c : Ctx} {env : Env} (L : BuiltFrom us c env)
    (hf : ForeignParametric env) (g : Nat) :
    (∀ n w, runProgram c n g (allStmts us) = .ok w →
      (∃ fuel, run env fuel (startThread g) = .limit) ∨ MeetsCycle env (startThread g) ∨
      ∃ fuel t, run env fuel (startThread g) = .ok t ∧ t.pc < 0 ∧ t.stack = [] ∧ t.frames = [] ∧
        t.world.globals = w.globals ∧ t.world.trace = w.trace ∧ HeapSim t.world.heap w.heap t.roots) ∧
    (∀ n, runProgram c n g (allStmts us) = .abort →
      (∃ fuel, run env fuel (startThread g) = .limit) ∨ MeetsCycle env (startThread g) ∨
      ∃ fuel, run env fuel (startThread g) = .abort) ∧
    ((∀ n, runProgram c n g (allStmts us) = .timeout) →
      ∀ fuel, run env fuel (startThread g) = .limit ∨ run env fuel (startThread g) = .timeout) := by
  obtain ⟨fin, as, hat, hh⟩ := L.code
  exact linked_run L.linked hat hh hf g

/-! ## C21: short circuits -/

/-- **C21, `&&`.** The right operand takes part exactly if the left one is true: whatever `r` is, if `l` is
false the code ends with `false` and the world as `l` left it; if `l` is true it ends with the value of `r`. -/
theorem c21_and {c : Ctx} {env : Env} (L : Loaded c env) {l r : Expr} {s s' : CS}
    (hc : compileE c.globals (.bin .logAnd l r) s = .ok () s') (hp : Placed s s' env)
    (B args locs T : List Value) (F : List Frame) (rv : Value) (w : World)
    (hst : (B ++ args ++ locs ++ T).length ≤ env.stackSize) :
    let start := inFunction s.program.length B args locs T F rv w
    (∀ n w1, evalE c n l ⟨args, locs⟩ w = .ok (.bool false, w1) →
      Reaches env start fun u => ∃ rv', u = inFunction s'.program.length B args locs (T ++ [.bool false]) F rv' w1) ∧
    (∀ n w1 m v w2, evalE c n l ⟨args, locs⟩ w = .ok (.bool true, w1) → evalE c m r ⟨args, locs⟩ w1 = .ok (v, w2) →
      Reaches env start fun u => ∃ rv', u = inFunction s'.program.length B args locs (T ++ [v]) F rv' w2) ∧
    (∀ n w1 m, evalE c n l ⟨args, locs⟩ w = .ok (.bool true, w1) → evalE c m r ⟨args, locs⟩ w1 = .abort → Fails env start) := by
  obtain ⟨h1, h2, _⟩ := c20_expression L hc hp B args locs T F rv w hst
  refine ⟨fun n w1 h => ?_, fun n w1 m v w2 ha hb => ?_, fun n w1 m ha hb => ?_⟩
  · refine h1 (n + 1) _ _ ?_
    rw [evalE, h]; rfl
  · refine h1 (max n m + 1) _ _ ?_
    rw [evalE, evalE_fuel (Nat.le_max_left n m) (by rw [ha]; simp), ha]
    simp only [Res.bind_ok, truth, if_true]
    rw [evalE_fuel (Nat.le_max_right n m) (by rw [hb]; simp), hb]
  · refine h2 (max n m + 1) ?_
    rw [evalE, evalE_fuel (Nat.le_max_left n m) (by rw [ha]; simp), ha]
    simp only [Res.bind_ok, truth, if_true]
    rw [evalE_fuel (Nat.le_max_right n m) (by rw [hb]; simp), hb]

/-- **C21, `||`.** The right operand takes part exactly if the left one is false. -/
theorem c21_or {c : Ctx} {env : Env} (L : Loaded c env) {l r : Expr} {s s' : CS}
    (hc : compileE c.globals (.bin .logOr l r) s = .ok () s') (hp : Placed s s' env)
    (B args locs T : List Value) (F : List Frame) (rv : Value) (w : World)
    (hst : (B ++ args ++ locs ++ T).length ≤ env.stackSize) :
    let start := inFunction s.program.length B args locs T F rv w
    (∀ n w1, evalE c n l ⟨args, locs⟩ w = .ok (.bool true, w1) →
      Reaches env start fun u => ∃ rv', u = inFunction s'.program.length B args locs (T ++ [.bool true]) F rv' w1) ∧
    (∀ n w1 m v w2, evalE c n l ⟨args, locs⟩ w = .ok (.bool false, w1) → evalE c m r ⟨args, locs⟩ w1 = .ok (v, w2) →
      Reaches env start fun u => ∃ rv', u = inFunction s'.program.length B args locs (T ++ [v]) F rv' w2) ∧
    (∀ n w1 m, evalE c n l ⟨args, locs⟩ w = .ok (.bool false, w1) → evalE c m r ⟨args, locs⟩ w1 = .abort → Fails env start) := by
  obtain ⟨h1, h2, _⟩ := c20_expression L hc hp B args locs T F rv w hst
  refine ⟨fun n w1 h => ?_, fun n w1 m v w2 ha hb => ?_, fun n w1 m ha hb => ?_⟩
  · refine h1 (n + 1) _ _ ?_
    rw [evalE, h]; rfl
  · refine h1 (max n m + 1) _ _ ?_
    rw [evalE, evalE_fuel (Nat.le_max_left n m) (by rw [ha]; simp), ha]
    simp only [Res.bind_ok, truth, Bool.false_eq_true, if_false]
    rw [evalE_fuel (Nat.le_max_right n m) (by rw [hb]; simp), hb]
  · refine h2 (max n m + 1) ?_
    rw [evalE, evalE_fuel (Nat.le_max_left n m) (by rw [ha]; simp), ha]
    simp only [Res.bind_ok, truth, Bool.false_eq_true, if_false]
    rw [evalE_fuel (Nat.le_max_right n m) (by rw [hb]; simp), hb]

/-- **C21, `?:`.** Exactly the selected branch takes part. -/
theorem c21_conditional {c : Ctx} {env : Env} (L : Loaded c env) {q l r : Expr} {s s' : CS}
    (hc : compileE c.globals (.ite q l r) s = .ok () s') (hp : Placed s s' env)
    (B args locs T : List Value) (F : List Frame) (rv : Value) (w : World)
    (hst : (B ++ args ++ locs ++ T).length ≤ env.stackSize) :
    let start := inFunction s.program.length B args locs T F rv w
    ∀ n b w1, evalE c n q ⟨args, locs⟩ w = .ok (.bool b, w1) →
      (∀ m v w2, evalE c m (bif b then l else r) ⟨args, locs⟩ w1 = .ok (v, w2) →
        Reaches env start fun u => ∃ rv', u = inFunction s'.program.length B args locs (T ++ [v]) F rv' w2) ∧
      (∀ m, evalE c m (bif b then l else r) ⟨args, locs⟩ w1 = .abort → Fails env start) := by
  obtain ⟨h1, h2, _⟩ := c20_expression L hc hp B args locs T F rv w hst
  intro start n b w1 ha
  constructor
  · intro m v w2 hb
    refine h1 (max n m + 1) _ _ ?_
    rw [evalE, evalE_fuel (Nat.le_max_left n m) (by rw [ha]; simp), ha]
    cases b
    · simp only [cond_false] at hb
      simp only [Res.bind_ok, truth, Bool.false_eq_true, if_false]
      rw [evalE_fuel (Nat.le_max_right n m) (by rw [hb]; simp), hb]
    · simp only [cond_true] at hb
      simp only [Res.bind_ok, truth, if_true]
      rw [evalE_fuel (Nat.le_max_right n m) (by rw [hb]; simp), hb]
  · intro m hb
    refine h2 (max n m + 1) ?_
    rw [evalE, evalE_fuel (Nat.le_max_left n m) (by rw [ha]; simp), ha]
    cases b
    · simp only [cond_false] at hb
      simp only [Res.bind_ok, truth, Bool.false_eq_true, if_false]
      rw [evalE_fuel (Nat.le_max_right n m) (by rw [hb]; simp), hb]
    · simp only [cond_true] at hb
      simp only [Res.bind_ok, truth, if_true]
      rw [evalE_fuel (Nat.le_max_right n m) (by rw [hb]; simp), hb]

/-! ## C23: calls -/

theorem maybeCollect_same {t u : Thread} (e : maybeCollect t = .ok u) :
    u.frames = t.frames ∧ u.fp = t.fp ∧ u.pc = t.pc ∧ u.stack = t.stack := by
  unfold maybeCollect at e
  split at e
  · obtain ⟨h, _, e⟩ := Res.bind_eq_ok.1 e
    cases e; exact ⟨rfl, rfl, rfl, rfl⟩
  · cases e; exact ⟨rfl, rfl, rfl, rfl⟩

theorem InCall.run {env : Env} {F : List Frame} {f : Frame} {fp : Nat} : ∀ (k : Nat) {t u : Thread}, InCall F f fp t →
    stepsGC env k t = .ok u → (∀ j v, j < k → stepsGC env j t = .ok v → F.length < v.frames.length) →
    u.frames.length ≤ F.length →
    u.frames = F ∧ u.fp = f.fp ∧ u.pc = f.pc ∧ u.stack.length + f.nargs = fp
  | 0, t, u, h, e, _, hl => by
    cases e
    obtain ⟨more, h1, _⟩ := h
    rw [h1] at hl
    simp only [List.length_append, List.length_cons] at hl
    omega
  | k + 1, t, u, h, e, hin, hl => by
    rw [stepsGC] at e
    obtain ⟨⟨b, t1⟩, e1, e⟩ := Res.bind_eq_ok.1 e
    have step : ∀ v j, stepsGC env j t1 = .ok v → stepsGC env (j + 1) t = .ok v := by
      intro v j hv
      rw [stepsGC, e1]; exact hv
    have hin' : ∀ j v, j < k → stepsGC env j t1 = .ok v → F.length < v.frames.length :=
      fun j v hj hv => hin (j + 1) v (by omega) (step v j hv)
    unfold cycle at e1
    split at e1
    · cases e1; exact InCall.run k h e hin' hl
    · obtain ⟨t2, e2, e1⟩ := Res.bind_eq_ok.1 e1
      obtain ⟨t3, e3, e1⟩ := Res.bind_eq_ok.1 e1
      cases e1
      obtain ⟨q1, q2, q3, q4⟩ := maybeCollect_same e3
      rcases h.step e2 with ⟨more, h1, h2⟩ | ⟨h1, h2, h3, h4⟩
      · refine InCall.run k ⟨more, q1.trans h1, ?_⟩ e hin' hl
        cases more with
        | nil => exact q2.trans h2
        | cons => exact h2
      · cases k with
        | zero =>
          cases e
          rw [q1, q2, q3, q4]
          exact ⟨h1, h2, h3, h4⟩
        | succ k =>
          have := hin' 0 t1 (by omega) rfl
          rw [q1, h1] at this
          omega

/-- **C23, any code.** Let the thread be at a `CALL` instruction with `nargs` arguments, and let it run – with
the collector, and whatever the called code is – until for the first time there are no more frames than at
the call. Then it is just after the call, the frames and the frame pointer are what they were, and the stack
is shorter by exactly the arguments. -/
theorem c23_call_any_code {env : Env} {t u : Thread} {nargs : UInt8} {i next k : Nat} (h0 : 0 ≤ t.pc)
    (hop : env.program[t.pc.toNat]? = some Op.call.toByte) (hn : env.program[t.pc.toNat + 1]? = some nargs)
    (hv : readValueAt env.program (t.pc.toNat + 2) 4 = .ok (i, next)) (hk : 0 < k)
    (hrun : stepsGC env k t = .ok u)
    (hin : ∀ j v, 0 < j → j < k → stepsGC env j t = .ok v → t.frames.length < v.frames.length)
    (hret : u.frames.length ≤ t.frames.length) :
    u.pc = next ∧ u.frames = t.frames ∧ u.fp = t.fp ∧ u.stack.length + nargs.toNat = t.stack.length := by
  obtain ⟨k, rfl⟩ : ∃ k', k = k' + 1 := ⟨k - 1, by omega⟩
  rw [stepsGC] at hrun
  obtain ⟨⟨b, t1⟩, e1, e⟩ := Res.bind_eq_ok.1 hrun
  have step : ∀ v j, stepsGC env j t1 = .ok v → stepsGC env (j + 1) t = .ok v := by
    intro v j hv
    rw [stepsGC, e1]; exact hv
  have hin' : ∀ j v, j < k → stepsGC env j t1 = .ok v → t.frames.length < v.frames.length :=
    fun j v hj hv => hin (j + 1) v (by omega) (by omega) (step v j hv)
  unfold cycle at e1
  rw [if_neg (by omega)] at e1
  obtain ⟨t2, e2, e1⟩ := Res.bind_eq_ok.1 e1
  obtain ⟨t3, e3, e1⟩ := Res.bind_eq_ok.1 e1
  cases e1
  rw [exec_at (pc := t.pc.toNat) (by omega) hop, execOp, readByte_some hn, hv] at e2
  simp only [Res.bind_ok] at e2
  obtain ⟨t4, e4, e2⟩ := Res.bind_eq_ok.1 e2
  unfold pushIndir at e4
  split at e4
  · cases e4
    split at e2
    · cases e2
      obtain ⟨q1, q2, q3, q4⟩ := maybeCollect_same e3
      have := InCall.run (F := t.frames) (f := ⟨(next : Nat), t.fp, nargs.toNat⟩) (fp := t.stack.length) k
        ⟨[], q1, q2⟩ e hin' hret
      exact ⟨this.2.2.1, this.1, this.2.1, this.2.2.2⟩
    · cases e2
  · cases e4

/-- **C23, compiled functions.** At a `CALL` of a function of the program, with its arguments `vs` on top of
the stack: if the language says the call returns `v`, the run gets to just after the call, with `v` as return
value, and the whole stack below the arguments, the frames and the frame pointer are untouched. -/
theorem c23_call_compiled {c : Ctx} {env : Env} (L : Loaded c env) {t : Thread} {pc i next : Nat} {fn : Fn}
    {S vs : List Value} (hpc : t.pc = pc) (hfn : c.fns i = some fn) (hvs : vs.length ≤ 255)
    (hop : env.program[pc]? = some Op.call.toByte) (hn : env.program[pc + 1]? = some (UInt8.ofNat vs.length))
    (hv : readValueAt env.program (pc + 2) 4 = .ok (i, next)) (hstack : t.stack = S ++ vs) (hfp : t.fp ≤ S.length)
    (hst : t.stack.length ≤ env.stackSize) :
    (∀ n v w', call c n (.tiny i) vs t.world = .ok (v, w') →
      Reaches env t fun u => u = { pc := (next : Nat), fp := t.fp, stack := S, frames := t.frames, retVal := v, world := w' }) ∧
    (∀ n, call c n (.tiny i) vs t.world = .abort → Fails env t) ∧
    ((∀ n, call c n (.tiny i) vs t.world = .timeout) → RunsForever env t) := by
  obtain ⟨D, hD⟩ := L.linked.bound
  have hi := (L.fns i fn hfn).1
  have hat : AtI env.program pc (callI vs.length (.tiny i)) next := by
    refine ⟨hop, hn, ?_⟩
    rw [Nat.mod_eq_of_lt hi]; exact hv
  have ht : t = conf (S.take t.fp) ⟨[], S.drop t.fp⟩ ([] ++ vs) t.frames t.world pc t.retVal := by
    obtain ⟨pc0, fp, stack, frames, retVal, world⟩ := t
    simp only at hpc hstack hfp ⊢
    subst hpc hstack
    simp [conf, Nat.min_eq_left hfp]
  have key := fun n m hm => (simAll L.linked hD n).call (d := 0) (m := m) (f := .tiny i) (vs := vs) (B := S.take t.fp)
    (ρ := ⟨[], S.drop t.fp⟩) (T := []) (F := t.frames) (w := t.world) (rv := t.retVal) (Nat.zero_le _) hat hvs hm
  rw [← ht] at key
  refine ⟨fun n v w' h => ?_, fun n h => ?_, fun h k => ?_⟩
  · have := key n 0 (.inl rfl) hst
    rw [h] at this
    refine (goes_reaches this).mono fun u hu => ?_
    rw [hu]
    simp [conf, Nat.min_eq_left hfp]
  · have := key n 0 (.inl rfl) hst
    rw [h] at this
    exact goes_fails this
  · have := key ((k + 1) * (D + 1) + 1) (k + 1) (.inr (by omega)) hst
    rw [h] at this
    exact this.steps k (by omega)

/-! ## C24: the host calls a function -/

theorem pushAll_ok {env : Env} : ∀ {vs : List Value} {t : Thread}, t.stack.length ≤ env.stackSize →
    pushAll env t vs = .limit ∨
      (pushAll env t vs = .ok { t with stack := t.stack ++ vs } ∧ t.stack.length + vs.length ≤ env.stackSize)
  | [], t, h => .inr (by rw [pushAll]; simp [h])
  | v :: vs, t, h => by
    rw [pushAll, push]
    by_cases hl : t.stack.length < env.stackSize
    · rw [if_pos hl]
      simp only [Res.bind_ok]
      rcases pushAll_ok (env := env) (vs := vs) (t := { t with stack := t.stack ++ [v] }) (by simp; omega) with h | ⟨h, h2⟩
      · exact .inl h
      · refine .inr ⟨by rw [h]; simp, ?_⟩
        simp only [List.length_append, List.length_cons, List.length_nil] at h2 ⊢
        omega
    · rw [if_neg hl]; exact .inl rfl

/-- The same, for any functions in the machine's memory. -/
theorem linked_call {c : Ctx} {env : Env} (L : Linked c env (fun i => env.functionPcs[i]?)) (hf : ForeignParametric env) {t : Thread} {i : Nat}
    {fn : Fn} {vs : List Value} (hfn : c.fns i = some fn) (hvs : vs.length = fn.nargs) (h255 : vs.length ≤ 255)
    (hst : t.stack.length ≤ env.stackSize)
    (hw : WfHeap t.world.heap (t.retVal :: (t.stack ++ vs ++ t.world.globals))) :
    (∀ n v w, call c n (.tiny i) vs t.world = .ok (v, w) →
      (∃ fuel, callFunction env fuel t i vs = .limit) ∨
      (∃ t', pushAll env t vs = .ok t' ∧ ∃ e, env.functionPcs[i]? = some e ∧
        ∃ t'', pushIndir env { t' with pc := (e : Nat) } (vs.length % 256) = .ok t'' ∧ MeetsCycle env t'') ∨
      ∃ fuel t', callFunction env fuel t i vs = .ok (v, t') ∧
        t'.pc = t.pc ∧ t'.fp = t.fp ∧ t'.stack = t.stack ∧ t'.frames = t.frames ∧ t'.retVal = t.retVal ∧
        t'.world.globals = w.globals ∧ t'.world.trace = w.trace ∧
        HeapSim t'.world.heap w.heap (v :: (t.stack ++ w.globals))) ∧
    (∀ n, call c n (.tiny i) vs t.world = .abort →
      (∃ fuel, callFunction env fuel t i vs = .limit) ∨
      (∃ t', pushAll env t vs = .ok t' ∧ ∃ e, env.functionPcs[i]? = some e ∧
        ∃ t'', pushIndir env { t' with pc := (e : Nat) } (vs.length % 256) = .ok t'' ∧ MeetsCycle env t'') ∨
      ∃ fuel, callFunction env fuel t i vs = .abort) ∧
    ((∀ n, call c n (.tiny i) vs t.world = .timeout) →
      ∀ fuel, callFunction env fuel t i vs = .limit ∨ callFunction env fuel t i vs = .timeout) := by
  obtain ⟨D, hD⟩ := L.bound
  rcases pushAll_ok (vs := vs) hst with hp | ⟨hp, hroom⟩
  · have h : ∀ fuel, callFunction env fuel t i vs = .limit := fun fuel => by rw [callFunction, hp]; rfl
    exact ⟨fun _ _ _ _ => .inl ⟨0, h 0⟩, fun _ _ => .inl ⟨0, h 0⟩, fun _ fuel => .inl (h fuel)⟩
  obtain ⟨entry, hentry, _⟩ := simBody (d := 0) (m := 0) (simAll L hD 0) L (f := ⟨0, 0, vs.length⟩) (F := [])
    (B := []) (w := t.world) (rv := .null) hfn rfl (Nat.zero_le _) (.inl rfl)
  by_cases hdep : t.frames.length < env.maxDepth
  swap
  · have : pushIndir env { t with pc := (entry : Nat), stack := t.stack ++ vs } (vs.length % 256) = .limit := by
      rw [pushIndir, if_neg hdep]
    have h : ∀ fuel, callFunction env fuel t i vs = .limit := fun fuel => by
      rw [callFunction, hp]
      simp only [Res.bind_ok, hentry, this]
      rfl
    exact ⟨fun _ _ _ _ => .inl ⟨0, h 0⟩, fun _ _ => .inl ⟨0, h 0⟩, fun _ fuel => .inl (h fuel)⟩
  have hm : vs.length % 256 = vs.length := Nat.mod_eq_of_lt (by omega)
  have hpi : pushIndir env { t with pc := (entry : Nat), stack := t.stack ++ vs } (vs.length % 256) =
      .ok (conf t.stack ⟨vs, []⟩ [] (t.frames ++ [⟨(entry : Nat), t.fp, vs.length⟩]) t.world entry t.retVal) := by
    rw [pushIndir, if_pos hdep, hm]
    simp [conf]
  have hwf : WfThread (conf t.stack ⟨vs, []⟩ [] (t.frames ++ [⟨(entry : Nat), t.fp, vs.length⟩]) t.world entry t.retVal) := by
    simpa [WfThread, conf, Thread.roots] using hw
  have hbody : ∀ n m, (m = 0 ∨ 300 * sizeOf fn.body + m * (D + 1) < n) →
      Sim env (t.frames.length + 1) m (call c (n + 1) (.tiny i) vs t.world)
        (fun a u => u = ⟨(entry : Nat), t.fp, t.stack, t.frames, a.1, a.2⟩)
        (conf t.stack ⟨vs, []⟩ [] (t.frames ++ [⟨(entry : Nat), t.fp, vs.length⟩]) t.world entry t.retVal) := by
    intro n m hm
    obtain ⟨e2, he2, k⟩ := simBody (d := t.frames.length + 1) (m := m) (simAll L hD n) L
      (f := ⟨(entry : Nat), t.fp, vs.length⟩) (F := t.frames) (B := t.stack) (w := t.world) (rv := t.retVal) hfn rfl
      (Nat.le_refl _) hm
    rw [hentry] at he2
    cases he2
    rw [call]
    simp only [hfn, hvs, if_true]
    rw [← hvs]
    exact k
  have hcf : ∀ fuel, callFunction env fuel t i vs = (callLoop env t.frames.length fuel
      (conf t.stack ⟨vs, []⟩ [] (t.frames ++ [⟨(entry : Nat), t.fp, vs.length⟩]) t.world entry t.retVal) >>= fun t3 =>
      if t.stack.length ≤ t3.stack.length ∧ t.frames.length ≤ t3.frames.length then
        .ok (t3.retVal, { pc := t.pc, fp := t.fp, stack := t3.stack.take t.stack.length,
                          frames := t3.frames.take t.frames.length, retVal := t.retVal,
                          world := t3.world })
      else .ub) := by
    intro fuel
    rw [callFunction, hp]
    simp only [Res.bind_ok, hentry, hpi]
  have hcyc : MeetsCycle env (conf t.stack ⟨vs, []⟩ [] (t.frames ++ [⟨(entry : Nat), t.fp, vs.length⟩]) t.world entry t.retVal) →
      ∃ t', pushAll env t vs = .ok t' ∧ ∃ e, env.functionPcs[i]? = some e ∧
        ∃ t'', pushIndir env { t' with pc := (e : Nat) } (vs.length % 256) = .ok t'' ∧ MeetsCycle env t'' :=
    fun h => ⟨_, hp, entry, hentry, _, hpi, h⟩
  refine ⟨?_, ?_, ?_⟩
  · intro n v w h
    cases n with
    | zero => rw [call] at h; cases h
    | succ n =>
      have k := hbody n 0 (.inl rfl) (by simpa [conf] using hroom)
      rw [h] at k
      rcases Goes.callLoop hf k (by rintro v rfl; exact Nat.le_refl _) _ hwf.refl with ⟨fuel, h⟩ | h | h | ⟨fuel, t', u', h, rfl, s⟩
      · exact .inl ⟨fuel, by rw [hcf, h]; rfl⟩
      · exact h.1.elim
      · exact .inr (.inl (hcyc h))
      · have s1 : t'.stack = t.stack := s.stack.symm
        have s2 : t'.frames = t.frames := s.frames.symm
        have s3 : t'.retVal = v := s.retVal.symm
        have s4 : t'.world.globals = w.globals := s.globals.symm
        refine .inr (.inr ⟨fuel, { t with world := t'.world }, ?_, rfl, rfl, rfl, rfl, rfl, s4, s.trace.symm, ?_⟩)
        · rw [hcf, h]
          simp only [Res.bind_ok, s1, s2, Nat.le_refl, and_self, if_true, s3, List.take_length]
        · simpa [Thread.roots, s1, s3, s4] using s.heap
  · intro n h
    cases n with
    | zero => rw [call] at h; cases h
    | succ n =>
      have k := hbody n 0 (.inl rfl) (by simpa [conf] using hroom)
      rw [h] at k
      rcases Goes.callLoop hf k (by simp) _ hwf.refl with ⟨fuel, h⟩ | h | h | ⟨_, _, _, _, h, _⟩
      · exact .inl ⟨fuel, by rw [hcf, h]; rfl⟩
      · obtain ⟨_, fuel, h⟩ := h
        exact .inr (.inr ⟨fuel, by rw [hcf, h]; rfl⟩)
      · exact .inr (.inl (hcyc h))
      · exact h.elim
  · intro h fuel
    have k := hbody (300 * sizeOf fn.body + fuel * (D + 1) + 1) fuel (.inr (by omega)) (by simpa [conf] using hroom)
    rw [h] at k
    rcases Runs.callLoop hf k _ hwf.refl fuel (Nat.le_refl _) with h | h
    · exact .inl (by rw [hcf, h]; rfl)
    · exact .inr (by rw [hcf, h]; rfl)

/-- **C24.** The host calls a function of the program on a thread in any state (running or stopped) with the
right number of arguments, all objects involved being live; the garbage collector may run. If the language
says the call returns `v`, then `Tiny_CallFunction` returns `v` and leaves the thread with the program
counter, frame pointer, stack, frames and return value it had, with the globals and foreign calls the language
says, and with everything reachable from the result, the stack and the globals intact. Exceptions: the limits
of the stack or call depth are hit, or the collector meets a cyclic structure (C27). -/
theorem c24_call_function {c : Ctx} {env : Env} (L : Loaded c env) (hf : ForeignParametric env) {t : Thread} {i : Nat}
    {fn : Fn} {vs : List Value} (hfn : c.fns i = some fn) (hvs : vs.length = fn.nargs) (h255 : vs.length ≤ 255)
    (hst : t.stack.length ≤ env.stackSize)
    (hw : WfHeap t.world.heap (t.retVal :: (t.stack ++ vs ++ t.world.globals))) :
    (∀ n v w, call c n (.tiny i) vs t.world = .ok (v, w) →
      (∃ fuel, callFunction env fuel t i vs = .limit) ∨
      (∃ t', pushAll env t vs = .ok t' ∧ ∃ e, env.functionPcs[i]? = some e ∧
        ∃ t'', pushIndir env { t' with pc := (e : Nat) } (vs.length % 256) = .ok t'' ∧ MeetsCycle env t'') ∨
      ∃ fuel t', callFunction env fuel t i vs = .ok (v, t') ∧
        t'.pc = t.pc ∧ t'.fp = t.fp ∧ t'.stack = t.stack ∧ t'.frames = t.frames ∧ t'.retVal = t.retVal ∧
        t'.world.globals = w.globals ∧ t'.world.trace = w.trace ∧
        HeapSim t'.world.heap w.heap (v :: (t.stack ++ w.globals))) ∧
    (∀ n, call c n (.tiny i) vs t.world = .abort →
      (∃ fuel, callFunction env fuel t i vs = .limit) ∨
      (∃ t', pushAll env t vs = .ok t' ∧ ∃ e, env.functionPcs[i]? = some e ∧
        ∃ t'', pushIndir env { t' with pc := (e : Nat) } (vs.length % 256) = .ok t'' ∧ MeetsCycle env t'') ∨
      ∃ fuel, callFunction env fuel t i vs = .abort) ∧
    ((∀ n, call c n (.tiny i) vs t.world = .timeout) →
      ∀ fuel, callFunction env fuel t i vs = .limit ∨ callFunction env fuel t i vs = .timeout) :=
  linked_call L.linked hf hfn hvs h255 hst hw

end Tiny
