import Verif.Proofs.Initialized
import Verif.Props.SoundExamples

/-!
# C53: no source is rejected for an uninitialized variable
-/

namespace Tiny
open Spec

/-- `Tiny_CompileString` on the tokens of a source, without the last phase, `CheckInitialized`: parsing, macros, the check
that all structs are defined, types and code. -/
def Spec.compileUnchecked (E : CompileEnv) (file : Option Name) (ts : List Tk) : Act TState Bool := fun s =>
  let phases : Act TState Unit := do
    let s0 ← .get
    let xs ← parseTokens E.fuel ts
    let s1 ← .get
    useMacros E xs
    checkStructs s0.front.syms.length s1.front.syms.length
    let ss ← compileTree file xs
    markAll ss
  if s.nest < maxNest then
    match phases { s with nest := s.nest + 1 } with
    | .ok _ s' => .ok true { s' with nest := s'.nest - 1 }
    | .err s' => .ok false (rollback s s')
    | .abort => .abort
    | .ub => .ub
    | .timeout => .timeout
  else .abort

theorem tree_inv {file : Option Name} {xs : List CStmt} {t u : TState} {ss : List Stmt} (h : compileTree file xs t = .ok ss u) :
    ∃ f, resolveSs xs t.front = .ok ss f ∧ u.front.syms = f.syms := by
  unfold compileTree at h
  obtain ⟨_, t4, h4, h2⟩ := Act.ok_inv (x := dropHalt) h
  cases h4
  obtain ⟨ss2, t5, h5, h2⟩ := Act.ok_inv (x := onFront (resolveSs xs)) h2
  cases hr : resolveSs xs t.front with
  | ok ss1 f =>
    simp only [onFront, hr] at h5
    cases h5
    obtain ⟨_, t6, h6, h2⟩ := Act.ok_inv (x := reallocTables) h2
    cases h6
    obtain ⟨i, t7, h7, h2⟩ := Act.ok_inv (x := fileIndex file _) h2
    obtain ⟨f2, rfl, e1, -, -, -, -⟩ := file_inv h7
    obtain ⟨g, t8, h8, h2⟩ := Act.ok_inv (x := Act.get) h2
    cases h8
    obtain ⟨_, t9, h9, h2⟩ := Act.ok_inv (x := onCode i _) h2
    cases h2
    unfold onCode at h9
    simp only at h9
    split at h9
    · cases h9; exact ⟨f, rfl, e1⟩
    all_goals cases h9
  | _ => simp only [onFront, hr] at h5; cases h5

theorem macros_survive {E : CompileEnv} (hE : MacrosKeep E) {ys : List CStmt} {s t : TState} {u : Unit} (hT : Tables s.front)
    (hc : s.front.currFunc = .none) (h : useMacros E ys s = .ok u t) :
    Survives s t ∧ Tables t.front ∧ t.front.currFunc = .none := by
  have := sh_macros hE (s0 := s) (xs := []) ys s
    ⟨.refl s, Nat.le_refl _, hT, hc, by simp [DeclareOwn], by simp [pdeclsL], by simp [procPosL], by simp [procPosL]⟩
  rw [h] at this
  exact ⟨this.survives, this.tables, this.cur⟩

/-- The check finds nothing to report. -/
theorem check_passes {E : CompileEnv} (hE : MacrosKeep E) {file : Option Name} {ts : List Tk} (ht : Tail3 ts) {s t u : TState}
    (hT : Tables s.front) (hc : s.front.currFunc = .none) {xs : List CStmt} {q : PS Front} {ss : List Stmt} {k : Nat} {x : Unit}
    (hp : parseProgram E.fuel ⟨ts, s.front⟩ = .ok xs q) (hm : useMacros E xs { s with nest := k, front := q.st } = .ok x t)
    (h : compileTree file xs t = .ok ss u) :
    ((u.front.syms.map (Sym.mark (assignedL none ss))).take q.st.syms.length |>.drop s.front.syms.length).any Sym.uninitialized = false := by
  have pp := parse_parsed ht hT hc hp
  obtain ⟨tree, us, nx, rest, s', h1, h2, h3, h4⟩ := c45_program_sound frontOps hp
  obtain ⟨cv, -⟩ := covered_stmts tree (typedEqual_prog h3) h4
  obtain ⟨sv, hT2, hc2⟩ := macros_survive hE (s := { s with nest := k, front := q.st }) pp.tables pp.cur hm
  obtain ⟨f, hr, hu⟩ := tree_inv h
  have ha := resolveSs_has xs hT2 pp.own hr
  have hq : q.st = s' := by rw [h2]
  rw [← hq, hc] at cv
  have hass := passign_assigned ha.resolved
  rw [hc2] at hass
  have e0 : curFn t.front = none := by simp [curFn, hc2]
  rw [e0] at hass
  simp only [passign, assigned] at hass
  -- variables of this source are assigned to
  have old : ∀ (i : Nat) (y : Sym), t.front.syms[i]? = some y → i < q.st.syms.length →
      (q.st.syms.map Sym.core)[i]? = some y.core := by
    intro i y hy hi
    obtain ⟨z, e1, e2⟩ := sv.syms i q.st.syms[i] (by simp [hi])
    rw [hy] at e1
    cases e1
    rw [List.getElem?_map, List.getElem?_eq_getElem hi, kept_core e2]
    rfl
  rw [List.any_eq_false]
  intro z hz
  obtain ⟨i, hi⟩ := getElem_of_mem hz
  rw [List.getElem?_drop] at hi
  have hlt : s.front.syms.length + i < q.st.syms.length := by
    have := (List.getElem?_eq_some_iff.1 hi).1
    simp only [List.length_take] at this
    omega
  rw [List.getElem?_take_of_lt hlt, List.getElem?_map, hu] at hi
  obtain ⟨y, hy, rfl⟩ := Option.map_eq_some_iff.1 hi
  have hb : ∃ y0, t.front.syms[s.front.syms.length + i]? = some y0 ∧ y0.bare = y.bare := by
    have := congrArg (fun l => l[s.front.syms.length + i]?) ha.like.syms
    simp only [List.getElem?_map, hy, Option.map_some] at this
    obtain ⟨y0, e1, e2⟩ := Option.map_eq_some_iff.1 this.symm
    exact ⟨y0, e1, e2⟩
  obtain ⟨y0, hy0, hb⟩ := hb
  have hcore := old _ _ hy0 hlt
  have notOld : ∀ d, PlaceGe s.front.syms.length d → tagOf s.front d = none := by
    rintro ⟨c, r⟩ hd
    cases r with
    | glob j =>
      have : s.front.syms.length ≤ j := by cases c <;> exact hd
      simp only [tagOf, tagIn]
      rw [List.getElem?_eq_none (by simpa using this)]
    | loc k =>
      cases c with
      | «at» j =>
        have : s.front.syms.length ≤ j := hd
        simp only [tagOf, tagIn]
        rw [List.getElem?_eq_none (by simpa using this)]
      | none => rfl
      | dangling => rfl
    | arg k => cases c <;> rfl
  cases y with
  | glob v =>
    have : ∃ v0, y0 = .glob v0 ∧ v0.idx = v.idx := by
      cases y0 <;> simp only [Sym.bare, reduceCtorEq, Sym.glob.injEq] at hb
      exact ⟨_, rfl, show (VarInfo.bare _).idx = (VarInfo.bare _).idx from congrArg VarInfo.idx hb⟩
    obtain ⟨v0, rfl, ev⟩ := this
    have hin := cv (.none, .glob (s.front.syms.length + i)) (fun _ _ => rfl) (by
      simp only [tagOf, tagIn, hcore, Sym.core]; simp)
    rw [notOld (.none, .glob (s.front.syms.length + i)) (Nat.le_add_right _ _)] at hin
    have hm := hass _ (hin.resolve_left fun h => h rfl) _ (.glob hy0)
    simp only [Sym.mark, ← ev, if_pos hm, Sym.uninitialized]
    simp
  | func fi =>
    have : ∃ fi0, y0 = .func fi0 ∧ fi0.index = fi.index ∧ fi0.locals.map VarInfo.bare = fi.locals.map VarInfo.bare := by
      cases y0 <;> simp only [Sym.bare, reduceCtorEq, Sym.func.injEq, FuncInfo.mk.injEq] at hb
      exact ⟨_, rfl, hb.2.1, hb.2.2.2.1⟩
    obtain ⟨fi0, rfl, e1, e2⟩ := this
    simp only [Sym.mark, Sym.uninitialized, Bool.not_eq_true, List.any_eq_false, List.mem_map, forall_exists_index, and_imp]
    rintro w v hv rfl
    obtain ⟨j, hj⟩ := getElem_of_mem hv
    obtain ⟨v0, hj0, ev⟩ : ∃ v0, fi0.locals[j]? = some v0 ∧ v0.idx = v.idx := by
      have := congrArg (fun l => l[j]?) e2
      simp only [List.getElem?_map, hj, Option.map_some] at this
      obtain ⟨v0, a, b⟩ := Option.map_eq_some_iff.1 this
      exact ⟨v0, a, show (VarInfo.bare _).idx = (VarInfo.bare _).idx from congrArg VarInfo.idx b⟩
    have hin := cv (.at (s.front.syms.length + i), .loc j) (fun _ h => (by cases h)) (by
      simp only [tagOf, tagIn, hcore, Sym.core, List.getElem?_map, hj0]; simp)
    rw [notOld (.at (s.front.syms.length + i), .loc j) (Nat.le_add_right _ _)] at hin
    have hm := hass _ (hin.resolve_left fun h => h rfl) _ (.loc hy0 hj0)
    simp only [markLocal, ← e1, ← ev, if_pos hm]
    simp
  | _ => simp [Sym.mark, Sym.uninitialized]

/-- **C53.** After any history of calls, compiling a source with the check for uninitialized variables is the same as
compiling it without: the error "Attempted to use uninitialized variable" is never reported. -/
theorem c53_never {E : CompileEnv} (hE : MacrosKeep E) {file : Option Name} {ts : List Tk} (ht : Tail3 ts) {s : TState}
    (hs : History s) : compileTokens E file ts s = compileUnchecked E file ts s := by
  obtain ⟨hT, hc⟩ := history_tables hs
  unfold compileTokens compileUnchecked
  by_cases hn : s.nest < maxNest
  · rw [if_pos hn]
    simp only [if_pos hn]
    congr 1
    unfold compilePhases
    simp only [Act.bind_apply, Act.get]
    unfold parseTokens
    simp only
    cases hp : parseProgram E.fuel ⟨ts, s.front⟩ with
    | ok xs q =>
      simp only
      cases hm : useMacros E xs { s with nest := s.nest + 1, front := q.st } with
      | ok x t =>
        simp only
        cases hk : checkStructs s.front.syms.length q.st.syms.length t with
        | ok y t' =>
          simp only
          have : t' = t := by
            unfold checkStructs at hk
            obtain ⟨g, t2, h2, h1⟩ := Act.ok_inv (x := Act.get) hk
            cases h2
            split at h1 <;> cases h1
            rfl
          subst this
          cases hr : compileTree file xs t' with
          | ok ss u =>
            simp only [markAll, Act.modify]
            unfold checkInitialized
            simp only [Act.bind_apply, Act.get]
            exact congrFun (if_neg (by
              have := check_passes hE ht hT hc hp hm hr
              simp only [Front.slice]
              rw [this]
              decide)) _
          | _ => rfl
        | _ => rfl
      | _ => rfl
    | _ => rfl
  · rw [if_neg hn]; simp only [if_neg hn]

/-- **C53** for a source text (on which the lexer returns, see C46). -/
theorem c53_source {E : CompileEnv} (hE : MacrosKeep E) {file : Option Name} {src : List UInt8} (hz : 0 ∉ src)
    (hr : (sourceTokens E.strtod src).length = src.length + 4) {s : TState} (hs : History s) :
    compileString E file src s = compileUnchecked E file (sourceTokens E.strtod src) s := by
  have ht : Tail3 (sourceTokens E.strtod src) := by
    rcases stream_tail E.strtod (init_view hz) (fuel := src.length + 2) (m := src.length + 4) (by simp) (by simp) with h | h
    · exact absurd hr (by unfold sourceTokens; omega)
    · exact h
  exact c53_never hE ht hs

/-- The hypotheses are met: a source which reads a variable of a function before it is set; it is accepted (and goes wrong,
see `c37_uninitialized`). -/
def sampleEarly : String := "func f() : int { if false x : int = 5 return x + 1 } y := f()"

theorem sampleEarly_source : compileString plainHost none (bytes sampleEarly) {} =
    compileUnchecked plainHost none (sourceTokens plainHost.strtod (bytes sampleEarly)) {} :=
  c53_source plainHost_keeps (by decide +kernel) (by decide +kernel) .new

example : (compileAll [sampleEarly] {}).map (·.1) = some [true] ∧ GoesWrong sampleEarly := by
  refine ⟨by decide +kernel, ?_⟩
  unfold GoesWrong
  match h : accepted sampleEarly with
  | some (program, pcs, globals, strings) =>
    refine ⟨program, pcs, globals, strings, rfl, ?_⟩
    have : (match accepted sampleEarly with
      | some (program, pcs, globals, strings) => isUb (run (plainEnv program pcs strings) 200 (startThread globals))
      | none => false) = true := by decide +kernel
    rw [h] at this
    exact this
  | none =>
    have : (accepted sampleEarly).isSome = true := by decide +kernel
    rw [h] at this
    cases this

end Tiny
