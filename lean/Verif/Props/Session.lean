import Verif.Proofs.SessionInv
import Verif.Props.Sound

/-!
# C48: from the calls of a host to runs

Whatever the host has bound, and whichever sources have been compiled, with or without success, by the host or by the
macros of a source: running the program, or calling a function, does what the language says about the statements of the
sources which were compiled without error.
-/

namespace Tiny
open Spec

theorem setup_tables {f : Front} (h : Setup f) : Tables f ∧ f.currFunc = .none ∧ ∀ fi, Sym.func fi ∉ f.syms := by
  induction h with
  | new => exact ⟨(reached_tables .new).1, rfl, by simp⟩
  | call _ hk ih =>
    have k := hostCall_keeps hk
    refine ⟨k.tables ih.1, k.cur.trans ih.2.1, fun fi hm => ?_⟩
    obtain ⟨j, hj⟩ := List.getElem?_of_mem hm
    exact ih.2.2 fi (List.mem_of_getElem? (k.funcs j fi hj))

theorem setup_inv {f : Front} (h : Setup f) : Inv { front := f } [] [] := by
  obtain ⟨a, b, c⟩ := setup_tables h
  refine ⟨a, b, fun _ => ⟨⟨[], fun _ _ => .ssNil⟩, .inl rfl⟩, by simp, List.nodup_nil, ?_, ?_, by simp, by simp, by simp⟩
  · intro i fn hm; cases hm
  · intro j fi hj
    exact (c fi (List.mem_of_getElem? hj)).elim

/-- The invariant, from a new state on. -/
theorem session_start {f0 : Front} (h0 : Setup f0) {s : TState} {ps : List (Front × List Stmt)} (h : Session { front := f0 } s ps) :
    Inv s ps [] := by
  simpa using session_inv h [] [] (setup_inv h0)

theorem Inv.code {s : TState} {ps : List (Front × List Stmt)} {pend : List Nat} (h : Inv s ps pend) (hne : ps ≠ []) {c : Ctx} {env : Env}
    (M : MachineOf s (program ps) c env) :
    ∃ fin as, At c.globals (fun i => env.functionPcs[i]?) env.program 0 (.ss 0 0 (program ps) as) fin ∧
      AtI env.program fin (.op .halt) env.program.length := by
  have hsz := M.size
  rw [M.program] at hsz
  have hb := h.built (by omega)
  have hbody : s.program = body s.program ++ [Op.halt.toByte] := by
    obtain ⟨ys, hys⟩ := List.getLast?_eq_some_iff.1 (h.halt hne)
    rw [hys, body_halt]
  obtain ⟨as, hcode⟩ := hb.code
  have hat := hcode (fun i => env.functionPcs[i]?) fun i _ => by rw [M.functionPcs]
  refine ⟨(body s.program).length, as, ?_, ?_⟩
  · rw [M.globals]
    refine hat.agree fun k _ hk => ?_
    rw [M.program]
    conv_lhs => rw [hbody]
    rw [List.getElem?_append_left hk]
  · rw [M.program]
    constructor
    · have e : ∀ P Q : List UInt8, P = Q ++ [Op.halt.toByte] → P[Q.length]? = some Op.halt.toByte := by
        rintro P Q rfl; simp
      exact e _ _ hbody
    · have e := congrArg List.length hbody
      simpa using e

theorem Inv.linked {s : TState} {ps : List (Front × List Stmt)} {pend : List Nat} (h : Inv s ps pend) (hne : ps ≠ []) {c : Ctx} {env : Env}
    (M : MachineOf s (program ps) c env) : Linked c env (fun i => env.functionPcs[i]?) where
  fl := M.fl
  numForeign := M.numForeign
  «foreign» := M.foreign
  numStrings := M.numStrings
  cmem := M.cmem
  stack := M.stack
  fewForeign := M.fewForeign
  size := M.size
  fns := fun i fn hfn => by
    have hm := (M.fns i fn).1 hfn
    obtain ⟨fin, as, hat, hh⟩ := h.code hne M
    have := hat.fnIn (i, fn) hm
    have := hh.lt
    refine ⟨?_, (‹FnIn _ _ _ _ _ _ _›.mono (Nat.le_refl _) (by omega)).fnAt fun _ => rfl⟩
    obtain ⟨j, fi, h1, rfl, -⟩ := h.procs i fn hm
    have := h.tables.slots.funcBound fi.index (List.mem_filterMap.2 ⟨_, List.mem_of_getElem? h1, rfl⟩)
    have := M.few
    omega

/-- **C48, runs.** A new thread which runs the program of the state does what the language says about the statements of
all sources which were compiled without error, in the order of their compilation (the sources the macros compile first):
if they end, the run ends, or exceeds the limits of the machine (or a garbage collection meets a cycle), with the same
global variables, calls of foreign functions and objects; if they fail a run-time check, so does the run; if they
never end, the run never ends. -/
theorem c48_run {f0 : Front} (h0 : Setup f0) {s : TState} {ps : List (Front × List Stmt)} (hs : Session { front := f0 } s ps)
    (hne : ps ≠ []) {c : Ctx} {env : Env} (M : MachineOf s (program ps) c env) (hf : ForeignParametric env) :
    (∀ n w, runProgram c n s.front.numGlobalVars (program ps) = .ok w →
      (∃ fuel, run env fuel (startThread s.front.numGlobalVars) = .limit) ∨
      MeetsCycle env (startThread s.front.numGlobalVars) ∨
      ∃ fuel t, run env fuel (startThread s.front.numGlobalVars) = .ok t ∧ t.pc < 0 ∧ t.stack = [] ∧ t.frames = [] ∧
        t.world.globals = w.globals ∧ t.world.trace = w.trace ∧ HeapSim t.world.heap w.heap t.roots) ∧
    (∀ n, runProgram c n s.front.numGlobalVars (program ps) = .abort →
      (∃ fuel, run env fuel (startThread s.front.numGlobalVars) = .limit) ∨
      MeetsCycle env (startThread s.front.numGlobalVars) ∨
      ∃ fuel, run env fuel (startThread s.front.numGlobalVars) = .abort) ∧
    ((∀ n, runProgram c n s.front.numGlobalVars (program ps) = .timeout) →
      ∀ fuel, run env fuel (startThread s.front.numGlobalVars) = .limit ∨
        run env fuel (startThread s.front.numGlobalVars) = .timeout) := by
  have I := session_start h0 hs
  obtain ⟨fin, as, hat, hh⟩ := I.code hne M
  exact linked_run (I.linked hne M) hat hh hf _

/-- **C48, names of functions.** What `Tiny_GetFunctionIndex` finds is a function which was defined in one of the
sources compiled without error, and takes that many arguments. -/
theorem c48_function {f0 : Front} (h0 : Setup f0) {s : TState} {ps : List (Front × List Stmt)} (hs : Session { front := f0 } s ps)
    {n : Name} {fi : FuncInfo} (hn : referenceFunction s.front.syms n = some (.func fi)) :
    ∃ fn, (fi.index, fn) ∈ procsL (program ps) ∧ fn.nargs = fi.args.length := by
  have I := session_start h0 hs
  have hm := List.mem_of_find?_eq_some hn
  obtain ⟨j, hj⟩ := List.getElem?_of_mem hm
  rcases I.cover j fi hj with h | ⟨fn, h⟩
  · cases h
  · obtain ⟨k, fk, h1, h2, -, h3, -⟩ := I.procs _ _ h
    have := func_same I.tables.slots h1 hj h2
    subst this
    rw [hj] at h1
    cases h1
    exact ⟨fn, h, h3⟩

/-- **C48, calls.** `Tiny_CallFunction` of a function of the program, with as many arguments as it has, does what the
language says about the call, whatever the thread did before. -/
theorem c48_call {f0 : Front} (h0 : Setup f0) {s : TState} {ps : List (Front × List Stmt)} (hs : Session { front := f0 } s ps)
    (hne : ps ≠ []) {c : Ctx} {env : Env} (M : MachineOf s (program ps) c env) (hf : ForeignParametric env)
    {i : Nat} {fn : Fn} (hm : (i, fn) ∈ procsL (program ps)) {t : Thread} {vs : List Value} (hvs : vs.length = fn.nargs)
    (h255 : vs.length ≤ 255) (hst : t.stack.length ≤ env.stackSize)
    (hw : WfHeap t.world.heap (t.retVal :: (t.stack ++ vs ++ t.world.globals))) :
    (∀ n v w, Spec.call c n (.tiny i) vs t.world = .ok (v, w) →
      (∃ fuel, callFunction env fuel t i vs = .limit) ∨
      (∃ t', pushAll env t vs = .ok t' ∧ ∃ e, env.functionPcs[i]? = some e ∧
        ∃ t'', pushIndir env { t' with pc := (e : Nat) } (vs.length % 256) = .ok t'' ∧ MeetsCycle env t'') ∨
      ∃ fuel t', callFunction env fuel t i vs = .ok (v, t') ∧
        t'.pc = t.pc ∧ t'.fp = t.fp ∧ t'.stack = t.stack ∧ t'.frames = t.frames ∧ t'.retVal = t.retVal ∧
        t'.world.globals = w.globals ∧ t'.world.trace = w.trace ∧
        HeapSim t'.world.heap w.heap (v :: (t.stack ++ w.globals))) ∧
    (∀ n, Spec.call c n (.tiny i) vs t.world = .abort →
      (∃ fuel, callFunction env fuel t i vs = .limit) ∨
      (∃ t', pushAll env t vs = .ok t' ∧ ∃ e, env.functionPcs[i]? = some e ∧
        ∃ t'', pushIndir env { t' with pc := (e : Nat) } (vs.length % 256) = .ok t'' ∧ MeetsCycle env t'') ∨
      ∃ fuel, callFunction env fuel t i vs = .abort) ∧
    ((∀ n, Spec.call c n (.tiny i) vs t.world = .timeout) →
      ∀ fuel, callFunction env fuel t i vs = .limit ∨ callFunction env fuel t i vs = .timeout) :=
  linked_call ((session_start h0 hs).linked hne M) hf ((M.fns i fn).2 hm) hvs h255 hst hw

/-- **C48, bound functions.** The C functions which were bound when a source was compiled are still bound, under their
numbers, and are in the table the machine calls them through, with their names. -/
theorem c48_bound {f0 : Front} (h0 : Setup f0) {s : TState} {ps : List (Front × List Stmt)} (hs : Session { front := f0 } s ps)
    {p : Front × List Stmt} (hp : p ∈ ps) {n : Name} {i : Nat} {ts : List Tag} {va : Bool} {r : Tag}
    (hm : Sym.foreign n i ts va r ∈ p.1.syms) :
    Sym.foreign n i ts va r ∈ s.front.syms ∧ s.foreignFns[i]? = some (some n) ∧ i < s.front.numForeign := by
  have I := session_start h0 hs
  obtain ⟨a, b⟩ := I.bound p hp n i ts va r hm
  exact ⟨a, b, I.tables.slots.foreignBound i (List.mem_filterMap.2 ⟨_, a, rfl⟩)⟩

/-- **C48, types.** Each of the sources follows the typing rules, with the types of the tables when it was compiled;
and with those at the end, unless index functions were added. -/
theorem c48_checked {f0 : Front} (h0 : Setup f0) {s : TState} {ps : List (Front × List Stmt)} (hs : Session { front := f0 } s ps)
    {p : Front × List Stmt} (hp : p ∈ ps) : Checked (baseEnv p.1) none (.block p.2) ∧
      (SameSetters (baseEnv p.1) (baseEnv s.front) → Checked (baseEnv s.front) none (.block p.2)) := by
  obtain ⟨a, -, b⟩ := (session_start h0 hs).pieces p hp
  exact ⟨b, fun k => b.more a k⟩

/-- The whole program follows the rules. -/
theorem Inv.checked {s : TState} {ps : List (Front × List Stmt)} {pend : List Nat} (h : Inv s ps pend)
    (hk : ∀ p ∈ ps, SameSetters (baseEnv p.1) (baseEnv s.front)) : Checked (baseEnv s.front) none (.block (program ps)) := by
  refine .block fun x hx => ?_
  obtain ⟨p, hp, hx⟩ := List.mem_flatMap.1 hx
  obtain ⟨a, -, b⟩ := h.pieces p hp
  cases b.more a (hk p hp) with
  | block q => exact q x hx

/-! ## Soundness of the types -/

theorem typeAt_mem {i : Int} {vs : List VarInfo} {t : Tag} (h : typeAt i vs = some t) : ∃ v ∈ vs, v.idx = i ∧ v.tag = some t := by
  unfold typeAt at h
  obtain ⟨v, h1, h2⟩ := Option.bind_eq_some_iff.1 h
  have := List.find?_some h1
  exact ⟨v, List.mem_of_find?_eq_some h1, by simpa using this, h2⟩

/-- What `CoreProgram` says about the tables is true after every session. -/
theorem core_program {s : TState} {ps : List (Front × List Stmt)} (I : Inv s ps []) {c : Ctx} {env : Env}
    (M : MachineOf s (program ps) c env) {D : Discipline} {Φ : HostTypes} {I' : VarSym → Prop}
    (hc : CoreSession s ps D Φ c.foreign I') :
    CoreProgram (baseEnv s.front) D Φ c s.front.numGlobalVars (program ps) I' where
  funcs := fun n => by
    rw [M.globals]
    exact (symSig_fst I.tables).symm
  structs := fun n => by rw [M.globals]; rfl
  consts := fun v t h => by
    replace h : some (constTag v) = some t := h
    cases h
    rfl
  mono := hc.mono
  named := hc.named
  «foreign» := fun n i na va sig h => by
    replace h : (referenceFunction s.front.syms n).bind symSig = some (.foreign i na va, sig) := h
    obtain ⟨g, h1, h2⟩ := Option.bind_eq_some_iff.1 h
    have hm := List.mem_of_find?_eq_some h1
    obtain ⟨h3, h4⟩ := symSig_iff.1 h2
    cases g <;> simp only [Sym.fnSym, Option.some.injEq, reduceCtorEq, FnSym.foreign.injEq] at h3
    obtain ⟨rfl, rfl, rfl⟩ := h3
    next m i ts va r =>
    simp only [Sym.sig, Option.some.injEq, Prod.mk.injEq] at h4
    obtain ⟨h5, h6, h7⟩ := h4
    obtain ⟨ps, va', r'⟩ := sig
    simp only at h5 h6 h7
    have h5 : ts = ps := by
      have := congrArg (List.filterMap id) h5
      simpa [List.filterMap_map] using this
    subst h5 h6 h7
    refine ⟨?_, rfl, rfl, hc.host _ _ _ _ _ hm⟩
    rw [M.foreigns]
    exact I.tables.slots.foreignBound _ (List.mem_filterMap.2 ⟨_, hm, rfl⟩)
  tiny := fun n i sig h => by
    replace h : (referenceFunction s.front.syms n).bind symSig = some (.tiny i, sig) := h
    obtain ⟨g, h1, h2⟩ := Option.bind_eq_some_iff.1 h
    have hm := List.mem_of_find?_eq_some h1
    obtain ⟨h3, h4⟩ := symSig_iff.1 h2
    cases g <;> simp only [Sym.fnSym, Option.some.injEq, reduceCtorEq, FnSym.tiny.injEq] at h3
    next fi =>
    subst h3
    simp only [Sym.sig, Option.some.injEq, Prod.mk.injEq] at h4
    obtain ⟨h5, h6, h7⟩ := h4
    obtain ⟨j, hj⟩ := List.getElem?_of_mem hm
    obtain ⟨r, hr, hb⟩ := baseEnv_body I.tables hm
    rw [hr] at h7
    cases h7
    rcases I.cover j fi hj with hx | ⟨fn, hx⟩
    · cases hx
    · obtain ⟨k, fk, e1, e2, -, e3, e4⟩ := I.procs _ _ hx
      have := func_same I.tables.slots e1 hj e2
      subst this
      rw [hj] at e1
      cases e1
      have hlen : sig.params.length = fi.args.length := by
        have := congrArg List.length h5
        simpa using this.symm
      obtain ⟨f1, f2⟩ := hc.fns _ _ _ _ hx hb
      refine ⟨h6.symm, fn, funcVars fi, hx, (M.fns _ _).2 hx, hb, ⟨by rw [e3, hlen], ?_, ?_, f1, f2⟩⟩
      · intro k t hk
        have hk' : k < fi.args.length := by
          have := (List.getElem?_eq_some_iff.1 hk).1
          omega
        have hv : fi.args[k]? = some fi.args[k] := List.getElem?_eq_getElem hk'
        have := funcVars_arg I.tables.slots hm hv
        have e := I.tables.slots.args fi hm k _ hv
        rw [e] at this
        rw [e3, show (k : Int) - fi.args.length = -(fi.args.length : Int) + k by omega, this]
        have := congrArg (fun l : List (Option Tag) => l[k]?) h5
        simp only [List.getElem?_map, hv, hk, Option.map_some, Option.some.injEq] at this
        exact this
      · intro i t hi
        obtain ⟨v, hv, rfl, -⟩ := typeAt_mem hi
        rw [e3, e4]
        rcases List.mem_append.1 hv with hv | hv
        · obtain ⟨k, hk⟩ := List.getElem?_of_mem hv
          have := I.tables.slots.args fi hm k v hk
          have := (List.getElem?_eq_some_iff.1 hk).1
          omega
        · obtain ⟨k, hk⟩ := List.getElem?_of_mem hv
          have := I.tables.slots.locals fi hm k v hk
          have := (List.getElem?_eq_some_iff.1 hk).1
          omega
  globals := fun i t h => by
    replace h : typeAt i (s.front.syms.filterMap globVar) = some t := h
    obtain ⟨v, hv, e, -⟩ := typeAt_mem h
    obtain ⟨x, hx, e2⟩ := List.mem_filterMap.1 hv
    cases x <;> simp only [globVar, Option.some.injEq, reduceCtorEq] at e2
    subst e2
    have := I.tables.slots.globBound _ (List.mem_filterMap.2 ⟨_, hx, rfl⟩)
    omega
  locals := fun _ => rfl
  flow := hc.flow

/-- **C48, soundness.** If the sources (and the C functions) keep to the core language, running the program fails no
run-time check, and reads, writes and jumps to nothing which does not exist, unless it computes something whose result
is undefined (`hu`: overflow, division by zero, shifts). -/
theorem c48_sound {f0 : Front} (h0 : Setup f0) {s : TState} {ps : List (Front × List Stmt)} (hs : Session { front := f0 } s ps)
    (hne : ps ≠ []) {c : Ctx} {env : Env} (M : MachineOf s (program ps) c env) (hf : ForeignParametric env)
    {D : Discipline} {Φ : HostTypes} {I' : VarSym → Prop} (hc : CoreSession s ps D Φ c.foreign I')
    (hk : ∀ p ∈ ps, SameSetters (baseEnv p.1) (baseEnv s.front))
    (hu : ∀ n, runProgram c n s.front.numGlobalVars (program ps) ≠ .ub) :
    (∀ n, Good (runProgram c n s.front.numGlobalVars (program ps)) fun w => ∃ S, WorldTy (baseEnv s.front) Φ S I' w) ∧
    (MeetsCycle env (startThread s.front.numGlobalVars) ∨
      ∀ fuel, run env fuel (startThread s.front.numGlobalVars) ≠ .abort ∧ run env fuel (startThread s.front.numGlobalVars) ≠ .ub) := by
  have I := session_start h0 hs
  have key := c37_program (core_program I M hc) (I.checked hk)
  refine ⟨key, ?_⟩
  obtain ⟨h1, -, h3⟩ := c48_run h0 hs hne M hf
  by_cases hn : ∀ n, runProgram c n s.front.numGlobalVars (program ps) = .timeout
  · right
    intro fuel
    rcases h3 hn fuel with e | e <;> rw [e] <;> simp
  · obtain ⟨n, hn⟩ := Classical.not_forall.1 hn
    have key := key n
    cases e : runProgram c n s.front.numGlobalVars (program ps) with
    | timeout => exact absurd e hn
    | ub => exact absurd e (hu n)
    | abort => rw [e] at key; exact key.elim
    | limit => rw [e] at key; exact key.elim
    | ok w =>
      rcases h1 n w e with ⟨m, h⟩ | h | ⟨m, t, h, -⟩
      · right
        intro fuel
        rcases run_unique h rfl (by simp) (m := fuel) with k | k <;> rw [k] <;> simp
      · exact .inl h
      · right
        intro fuel
        rcases run_unique h rfl (by simp) (m := fuel) with k | k <;> rw [k] <;> simp

/-! ## Source texts -/

theorem compile_true {E : CompileEnv} {file : Option Name} {ts : List Tk} {s s' : TState} (h : compileTokens E file ts s = .ok true s') :
    ∃ xs q t ss f, parseProgram E.fuel ⟨ts, s.front⟩ = .ok xs q ∧
      useMacros E xs { s with nest := s.nest + 1, front := q.st } = .ok () t ∧ resolveSs xs t.front = .ok ss f := by
  unfold compileTokens at h
  by_cases hn : s.nest < maxNest
  · rw [if_pos hn] at h
    cases hr : compilePhases E file ts { s with nest := s.nest + 1 } with
    | ok a u =>
      clear h
      unfold compilePhases at hr
      obtain ⟨s0, _, h1, hr1⟩ := Act.ok_inv (x := Act.get) hr
      clear hr
      cases h1
      obtain ⟨xs, s1, h1, hr2⟩ := Act.ok_inv (x := parseTokens E.fuel ts) hr1
      clear hr1
      unfold parseTokens at h1
      cases hp : parseProgram E.fuel ⟨ts, s.front⟩ with
      | ok xs' q =>
        simp only [hp] at h1
        cases h1
        obtain ⟨s0, _, h1, hr3⟩ := Act.ok_inv (x := Act.get) hr2
        clear hr2
        cases h1
        obtain ⟨_, t, hm, hr4⟩ := Act.ok_inv (x := useMacros E xs) hr3
        clear hr3
        obtain ⟨_, t1, h1, hr5⟩ := Act.ok_inv (x := checkStructs _ _) hr4
        clear hr4
        have e : t1 = t := by
          unfold checkStructs at h1
          obtain ⟨g, t2, h2, h3⟩ := Act.ok_inv (x := Act.get) h1
          cases h2
          split at h3 <;> cases h3
          rfl
        subst e
        clear h1
        obtain ⟨ss1, t2, h2, -⟩ := Act.ok_inv (x := compileTree file xs) hr5
        clear hr5
        unfold compileTree at h2
        obtain ⟨_, t4, h4, h3⟩ := Act.ok_inv (x := dropHalt) h2
        cases h4
        obtain ⟨ss2, t5, h5, -⟩ := Act.ok_inv (x := onFront (resolveSs xs)) h3
        unfold onFront at h5
        cases hx : resolveSs xs t1.front with
        | ok ss f => exact ⟨xs, q, t1, ss, f, rfl, hm, hx⟩
        | _ => simp only at h5; rw [hx] at h5; cases h5
      | _ => simp only [hp] at h1; cases h1
    | err u => rw [hr] at h; cases h
    | abort => rw [hr] at h; cases h
    | ub => rw [hr] at h; cases h
    | timeout => rw [hr] at h; cases h
  · rw [if_neg hn] at h; cases h

/-- **C48, source texts.** A source without `use` which is compiled without error continues the session with its
statements: those the grammar gives to its text (C45), with the variables its names refer to and their types (C47). -/
theorem c48_source {f0 : Front} (h0 : Setup f0) {s s' : TState} {ps : List (Front × List Stmt)}
    (hs : Session { front := f0 } s ps) {E : CompileEnv} {file : Option Name}
    {src : List UInt8} (hz : 0 ∉ src) (hl : (sourceTokens E.strtod src).length = src.length + 4)
    (hu : ∀ xs q, parseProgram E.fuel ⟨sourceTokens E.strtod src, s.front⟩ = .ok xs q → NoUse xs)
    (h : compileString E file src s = .ok true s') :
    ∃ us nx rest tree xs q ss f, sourceTokens E.strtod src = us ++ nx :: rest ∧ nx.kind = .eofTok ∧ ProgIs tree us nx ∧
      nameStmts frontOps tree s.front = .ok xs q ∧ ResolvedS q (.block xs) (.block ss) ∧
      Session { front := f0 } s' (ps ++ [(f, ss)]) := by
  have ht : Tail3 (sourceTokens E.strtod src) := by
    rcases stream_tail E.strtod (init_view hz) (fuel := src.length + 2) (m := src.length + 4) (by simp) (by simp) with h | h
    · exact absurd hl (by unfold sourceTokens; omega)
    · exact h
  obtain ⟨xs, q, t, ss, f, h1, h2, h3⟩ := compile_true h
  have e : t = { s with nest := s.nest + 1, front := q.st } := by
    rw [useMacros_none (hu xs q h1)] at h2
    cases h2
    rfl
  subst e
  have := Session.compile (ps' := []) hs ht h1 h2 .start h3 h
  obtain ⟨tree, us, nx, rest, st, g1, rfl, g3, g4⟩ := c45_program_sound frontOps h1
  refine ⟨us, nx, rest, tree, xs, st, ss, f, g1, c45_no_eof g3, g3, g4, ?_, by simpa using this⟩
  have I := session_start h0 hs
  have P := parse_parsed ht I.tables I.cur h1
  exact (resolveSs_has xs P.tables P.own h3).resolved

/-! ## There is such a machine -/

theorem lookup_mem {α : Type} : ∀ {l : List (Nat × α)}, (l.map Prod.fst).Nodup → ∀ i a, l.lookup i = some a ↔ (i, a) ∈ l
  | [], _, i, a => by simp
  | (j, b) :: l, h, i, a => by
    simp only [List.map_cons, List.nodup_cons] at h
    rw [List.lookup_cons]
    by_cases e : i = j
    · subst e
      simp only [beq_self_eq_true, Option.some.injEq, List.mem_cons, Prod.mk.injEq, true_and]
      constructor
      · rintro rfl; exact .inl rfl
      · rintro (rfl | hm)
        · rfl
        · exact (h.1 (List.mem_map.2 ⟨_, hm, rfl⟩)).elim
    · have : (i == j) = false := by simpa using e
      simp only [this]
      rw [lookup_mem h.2]
      simp [e]

/-- After every session there is the machine the theorems speak of, for every choice of what the C functions, the string
constants and floating point numbers are, as long as the program is smaller than 2 GB. -/
theorem c48_machine {f0 : Front} (h0 : Setup f0) {s : TState} {ps : List (Front × List Stmt)} (hs : Session { front := f0 } s ps)
    (hsize : s.program.length < 2 ^ 31) (hff : s.front.numForeign ≤ 2 ^ 32) (hfn : s.front.numFunctions ≤ 2 ^ 32)
    (fns : Nat → List Value → World → Res (Value × World)) (fl : FloatOps) (cmem : Nat → List UInt8) :
    ∃ c, c.foreign = fns ∧ MachineOf s (program ps) c { program := s.program, numStrings := s.front.strings.length, cmem := cmem, functionPcs := s.functionPcs, numForeign := s.front.numForeign, «foreign» := fns, fl := fl } := by
  have I := session_start h0 hs
  refine ⟨⟨globalsOf s.front, fun i => List.lookup i (procsL (program ps)), s.front.numForeign, fns, fl, s.front.strings.length, cmem⟩, rfl, ?_⟩
  exact ⟨⟨rfl, rfl, rfl, rfl, rfl, by show 128 ≤ 2 ^ 31; decide, hff, hsize⟩, rfl, rfl, rfl, rfl, rfl, lookup_mem I.nodup, hfn⟩

end Tiny
