import Verif.Proofs.FrontLe
import Verif.Props.Rollback
import Verif.Props.Compile

/-!
# What is true after any session
-/

namespace Tiny
open Spec

/-! ## Calls of the host -/

/-- What calls of the host have in common. -/
structure HostKeeps (f f' : Front) : Prop where
  le : FrontLe f f'
  funcs : ∀ (j : Nat) fi, f'.syms[j]? = some (.func fi) → f.syms[j]? = some (.func fi)
  strings : f.strings <+: f'.strings
  globals : f'.numGlobalVars = f.numGlobalVars
  functions : f'.numFunctions = f.numFunctions
  foreign : f.numForeign ≤ f'.numForeign
  tables : Tables f → Tables f'
  cur : f'.currFunc = f.currFunc

theorem append_le {f f' : Front} {l : List Sym} (h : f'.syms = f.syms ++ l) : FrontLe f f' := by
  intro i x hx
  refine ⟨x, ?_, .same _⟩
  rw [h, List.getElem?_append_left (List.getElem?_eq_some_iff.1 hx).1]
  exact hx

theorem append_funcs {f f' : Front} {l : List Sym} (h : f'.syms = f.syms ++ l) (hl : ∀ fi, Sym.func fi ∉ l) (j : Nat) (fi : FuncInfo)
    (hj : f'.syms[j]? = some (.func fi)) : f.syms[j]? = some (.func fi) := by
  rw [h] at hj
  by_cases hlt : j < f.syms.length
  · rwa [List.getElem?_append_left hlt] at hj
  · rw [List.getElem?_append_right (by omega)] at hj
    exact (hl fi (List.mem_of_getElem? hj)).elim

theorem HostKeeps.refl (f : Front) : HostKeeps f f :=
  ⟨.refl f, fun _ _ h => h, List.prefix_refl _, rfl, rfl, Nat.le_refl _, id, rfl⟩

theorem HostKeeps.push {f : Front} {x : Sym} (h : x.core = neutral) : HostKeeps f { f with syms := f.syms ++ [x] } where
  le := append_le rfl
  funcs := append_funcs rfl (by
    intro fi hm
    simp only [List.mem_singleton] at hm
    subst hm
    cases h)
  strings := List.prefix_refl _
  globals := rfl
  functions := rfl
  foreign := Nat.le_refl _
  tables := (adds_push h).step.tables
  cur := rfl

theorem hostCall_keeps {f f' : Front} (h : HostCall f f') : HostKeeps f f' := by
  cases h with
  | @bind n as va r e =>
    have ht : Tables f → Tables f' := fun hf => by
      have hs : Slots f' := runTable_slots (e := .bind n as va r) hf.slots e
      simp only [bindFunction, act_bind, Act.get] at e
      split at e
      · cases e
      · cases e
        exact tables_push hf hs rfl (by simp) (by simp)
    simp only [bindFunction, act_bind, Act.get] at e
    split at e
    · cases e
    · cases e
      exact ⟨append_le rfl, append_funcs rfl (by simp), List.prefix_refl _, rfl, rfl, Nat.le_succ _, ht, rfl⟩
  | @const n v e =>
    have ht : Tables f → Tables f' := fun hf => by
      unfold declareConst at e
      obtain ⟨o, f1, h1, e⟩ := Act.ok_inv e
      rw [referenceVariable_state h1] at e
      cases o with
      | some _ => cases e
      | none =>
        cases e
        exact tables_push hf (hf.slots.push rfl rfl rfl) rfl (by
          intro n t c h
          cases h
          rfl) (by simp)
    unfold declareConst at e
    obtain ⟨o, f1, h1, e⟩ := Act.ok_inv e
    rw [referenceVariable_state h1] at e
    cases o with
    | some _ => cases e
    | none =>
      cases e
      exact ⟨append_le rfl, append_funcs rfl (by simp), List.prefix_refl _, rfl, rfl, Nat.le_refl _, ht, rfl⟩
  | string e =>
    have a := adds_str e
    unfold registerString at e
    split at e
    · cases e; exact .refl _
    · split at e
      · cases e
        exact ⟨append_le (l := []) (by simp), append_funcs (l := []) (by simp) (by simp), List.prefix_append _ _, rfl, rfl, Nat.le_refl _, a.step.tables, rfl⟩
      · cases e
  | @typeName n t e =>
    unfold getTagFromName at e
    cases hp : primTag n with
    | some t => rw [hp] at e; cases e; exact .refl _
    | none =>
      rw [hp] at e
      simp only [act_bind, Act.get] at e
      cases hx : f.syms.findSome? (·.asType n) with
      | some t => rw [hx] at e; cases e; exact .refl _
      | none => rw [hx] at e; cases e; exact .push rfl
  | nullable e =>
    simp only [getOrCreateNullable, act_bind, Act.get] at e
    split at e
    · cases e; exact .refl _
    · cases e; exact .push rfl
  | module e =>
    simp only [bindMacro, act_bind, Act.get] at e
    split at e
    · cases e
    · cases e; exact .push rfl
  | @register n e =>
    have ht : Tables f → Tables f' := fun hf => (tables_register hf e).1
    unfold registerType at e
    by_cases hp : (primTag n).isSome
    · rw [if_pos hp] at e; cases e; exact .refl _
    · rw [if_neg hp] at e
      simp only [act_bind, Act.get] at e
      cases hx : f.syms.find? (fun x => (x.asType n).isSome) with
      | none => rw [hx] at e; cases e; exact .push rfl
      | some x =>
        rw [hx] at e
        by_cases hs : ∃ m fs, x = .struct m false fs
        · obtain ⟨m, fs, rfl⟩ := hs
          cases e
          obtain ⟨A, B, h1, h2, -⟩ := convertType_split hx
          refine ⟨?_, ?_, List.prefix_refl _, rfl, rfl, Nat.le_refl _, ht, rfl⟩
          · intro i x hi
            simp only [h2]
            rw [h1] at hi
            by_cases hA : i < A.length
            · rw [List.getElem?_append_left hA] at hi ⊢
              exact ⟨x, hi, .same _⟩
            · rw [List.getElem?_append_right (by omega)] at hi ⊢
              cases hk : i - A.length with
              | zero =>
                rw [hk] at hi
                cases hi
                exact ⟨_, rfl, .opaque n fs⟩
              | succ k =>
                rw [hk] at hi
                exact ⟨x, hi, .same _⟩
          · intro i fi hi
            simp only [h2] at hi
            rw [h1]
            by_cases hA : i < A.length
            · rwa [List.getElem?_append_left hA] at hi ⊢
            · rw [List.getElem?_append_right (by omega)] at hi ⊢
              cases hk : i - A.length with
              | zero => rw [hk] at hi; cases hi
              | succ k => rw [hk] at hi; exact hi
        · have : f' = f := by
            cases x with
            | struct m d fs =>
              cases d with
              | false => exact (hs ⟨m, fs, rfl⟩).elim
              | true => cases e; rfl
            | _ => cases e; rfl
          subst this
          exact .refl _

theorem HostKeeps.survives {s : TState} {f : Front} (h : HostKeeps s.front f) : Survives s { s with front := f } where
  syms := h.le
  strings := h.strings
  globals := Nat.le_of_eq h.globals.symm
  functions := Nat.le_of_eq h.functions.symm
  foreign := h.foreign
  code := fun _ _ => rfl
  entries := fun _ _ _ h => h
  bound := fun _ _ _ _ _ _ h => h
  lines := .refl _
  nest := rfl

/-! ## Compilations -/

/-- What follows the macros. -/
def restPhases (first last : Nat) (file : Option Name) (xs : List CStmt) : Act TState Unit := do
  checkStructs first last
  let ss ← compileTree file xs
  markAll ss
  checkInitialized first last

theorem compile_inv {E : CompileEnv} {file : Option Name} {ts : List Tk} {s t s' : TState} {xs : List CStmt} {q : PS Front}
    (hp : parseProgram E.fuel ⟨ts, s.front⟩ = .ok xs q)
    (hm : useMacros E xs { s with nest := s.nest + 1, front := q.st } = .ok () t)
    (h : compileTokens E file ts s = .ok true s') :
    ∃ u, restPhases s.front.syms.length q.st.syms.length file xs t = .ok () u ∧ s' = { u with nest := u.nest - 1 } := by
  unfold compileTokens at h
  by_cases hn : s.nest < maxNest
  · rw [if_pos hn] at h
    have e : compilePhases E file ts { s with nest := s.nest + 1 } =
        restPhases s.front.syms.length q.st.syms.length file xs t := by
      unfold compilePhases
      rw [Act.bind_apply]
      simp only [Act.get]
      rw [Act.bind_apply]
      simp only [parseTokens, hp]
      rw [Act.bind_apply]
      simp only [Act.get]
      rw [Act.bind_apply, hm]
      rfl
    rw [e] at h
    cases hr : restPhases s.front.syms.length q.st.syms.length file xs t with
    | ok _ u => rw [hr] at h; cases h; exact ⟨u, rfl, rfl⟩
    | err u => rw [hr] at h; cases h
    | abort => rw [hr] at h; cases h
    | ub => rw [hr] at h; cases h
    | timeout => rw [hr] at h; cases h
  · rw [if_neg hn] at h; cases h

theorem sh_rest {s0 : TState} {xs : List CStmt} (first last : Nat) (file : Option Name) :
    SH s0 (Mid s0 xs) (restPhases first last file xs) fun _ => Coded s0 := by
  unfold restPhases
  refine (sh_structs _ _).bind fun _ => ?_
  refine (sh_tree file).bind fun ss => (sh_mark ss).bind fun _ => ?_
  unfold checkInitialized
  exact sh_get.bind fun s => sh_if (fun _ => sh_report fun t ht => ht.2.survives) fun _ => .pure fun t ht => ht.2

/-- A host whose macros do nothing. -/
theorem quiet_keeps (E : CompileEnv) : MacrosKeep { E with macros := fun _ _ _ => pure true } := by
  intro m args a s hT hc
  show Survives s s ∧ s.program.length ≤ s.program.length ∧ Tables s.front ∧ s.front.currFunc = .none
  exact ⟨.refl _, Nat.le_refl _, hT, hc⟩

/-- Without `use` the macros do not matter. -/
theorem compile_noUse {E : CompileEnv} {file : Option Name} {ts : List Tk} {s : TState}
    (h : ∀ xs q, parseProgram E.fuel ⟨ts, s.front⟩ = .ok xs q → NoUse xs) :
    compileTokens E file ts s = compileTokens { E with macros := fun _ _ _ => pure true } file ts s := by
  have e : compilePhases E file ts { s with nest := s.nest + 1 } =
      compilePhases { E with macros := fun _ _ _ => pure true } file ts { s with nest := s.nest + 1 } := by
    unfold compilePhases
    simp only [Act.bind_apply, Act.get, parseTokens]
    cases hp : parseProgram E.fuel ⟨ts, s.front⟩ with
    | ok xs q =>
      simp only
      rw [useMacros_none (h xs q hp), useMacros_none (h xs q hp)]
    | _ => rfl
  unfold compileTokens
  rw [e]

/-! ## What survives a session -/

theorem mid_of {s t : TState} {xs : List CStmt} {ts : List Tk} {q : PS Front} {E : CompileEnv} (ht : Tail3 ts)
    (hT : Tables s.front) (hc : s.front.currFunc = .none) (hp : parseProgram E.fuel ⟨ts, s.front⟩ = .ok xs q)
    (hv : Survives { s with nest := s.nest + 1, front := q.st } t) (hz : s.program.length ≤ t.program.length)
    (hT' : Tables t.front) (hc' : t.front.currFunc = .none) : Mid { s with nest := s.nest + 1 } xs t := by
  have m := sh_parse (E := E) (s0 := { s with nest := s.nest + 1 }) ht hT hc _ rfl
  simp only [parseTokens, hp] at m
  exact ⟨m.survives.trans m.size hv, hz, hT', hc', m.own, m.places, m.later, m.sorted⟩

theorem session_keeps {s0 s : TState} {ps : List (Front × List Stmt)} (h : Session s0 s ps) : Tables s0.front →
    s0.front.currFunc = .none →
    Survives s0 s ∧ s0.program.length ≤ s.program.length ∧ Tables s.front ∧ s.front.currFunc = .none := by
  induction h with
  | start => exact fun hT hc => ⟨.refl _, Nat.le_refl _, hT, hc⟩
  | call _ hk ih =>
    intro hT hc
    obtain ⟨a, b, c, d⟩ := ih hT hc
    have k := hostCall_keeps hk
    exact ⟨a.trans b k.survives, b, k.tables c, k.cur.trans d⟩
  | @compile s0 s t s' ps ps' E file ts xs q ss f _ ht hp hm _ hr h ih1 ih2 =>
    intro hT hc
    obtain ⟨a, b, c, d⟩ := ih1 hT hc
    have pp := parse_parsed ht c d hp
    obtain ⟨a2, b2, c2, d2⟩ := ih2 pp.tables pp.cur
    have m := mid_of ht c d hp a2 b2 c2 d2
    obtain ⟨u, h1, rfl⟩ := compile_inv hp hm h
    have k := sh_rest s.front.syms.length q.st.syms.length file t m
    rw [h1] at k
    have k : Coded { s with nest := s.nest + 1 } u := k
    have hv := k.survives
    refine ⟨a.trans b ⟨hv.syms, hv.strings, hv.globals, hv.functions, hv.foreign, hv.code, hv.entries, hv.bound, hv.lines, ?_⟩,
      Nat.le_trans b k.size, k.tables, k.cur⟩
    have := hv.nest
    simp only at this ⊢
    omega
  | @fail s0 s s' ps E file ts _ ht hx h hcur ih =>
    intro hT hc
    obtain ⟨a, b, c, d⟩ := ih hT hc
    rw [compile_noUse fun xs q e => (hx xs q e).1] at h
    obtain ⟨a2, b2, c2, -, -⟩ := compile_cases (quiet_keeps E) ht c d h
    exact ⟨a.trans b a2, Nat.le_trans b b2, c2, hcur⟩

/-! ## The code of a source -/

theorem file_inv {file : Option Name} {ss : List Stmt} {s s' : TState} {i : Option Nat} (h : fileIndex file ss s = .ok i s') :
    ∃ f, s' = { s with front := f } ∧ f.syms = s.front.syms ∧ s.front.strings <+: f.strings ∧
      f.numGlobalVars = s.front.numGlobalVars ∧ f.numFunctions = s.front.numFunctions ∧ f.numForeign = s.front.numForeign := by
  unfold fileIndex at h
  have same : ∀ {j : Option Nat}, (pure j : Act TState (Option Nat)) s = .ok i s' → ∃ f, s' = { s with front := f } ∧
      f.syms = s.front.syms ∧ s.front.strings <+: f.strings ∧
      f.numGlobalVars = s.front.numGlobalVars ∧ f.numFunctions = s.front.numFunctions ∧ f.numForeign = s.front.numForeign := by
    intro j h
    cases h
    exact ⟨s.front, rfl, rfl, List.prefix_refl _, rfl, rfl, rfl⟩
  cases file with
  | none => exact same h
  | some n =>
    simp only at h
    by_cases hn : ss.any isNode = true
    · rw [if_pos hn] at h
      obtain ⟨k, s1, h1, h⟩ := Act.ok_inv h
      cases h
      unfold onFront at h1
      cases hr : registerString n s.front with
      | ok k' f =>
        rw [hr] at h1
        cases h1
        unfold registerString at hr
        split at hr
        · cases hr; exact ⟨_, rfl, rfl, List.prefix_refl _, rfl, rfl, rfl⟩
        · split at hr
          · cases hr; exact ⟨_, rfl, rfl, List.prefix_append _ _, rfl, rfl, rfl⟩
          · cases hr
      | _ => rw [hr] at h1; cases h1
    · rw [if_neg hn] at h; exact same h

/-- What the phases after the macros do. -/
structure Result (ss : List Stmt) (f : Front) (t u : TState) : Prop where
  code : ∃ i c, compileState (globalsOf f) (f.numFunctions - t.functionPcs.length) ss ⟨t.program, t.lines, i, t.functionPcs⟩ = .ok () c ∧
    u.program = c.program ∧ u.functionPcs = c.functionPcs
  syms : u.front.syms = f.syms.map (Sym.mark (assignedL none ss))
  foreignFns : u.foreignFns = buildForeign f.syms (t.foreignFns ++ List.replicate (f.numForeign - t.foreignFns.length) none)
  globals : u.front.numGlobalVars = f.numGlobalVars
  functions : u.front.numFunctions = f.numFunctions
  foreigns : u.front.numForeign = f.numForeign

theorem checkInit_inv {first last : Nat} {s s' : TState} {x : Unit} (h : checkInitialized first last s = .ok x s') : s = s' := by
  unfold checkInitialized at h
  obtain ⟨g, t3, h3, h⟩ := Act.ok_inv (x := Act.get) h
  cases h3
  split at h
  · cases h
  · cases h; rfl

theorem rest_inv {first last : Nat} {file : Option Name} {xs : List CStmt} {t u : TState} {ss : List Stmt} {f : Front}
    (hr : resolveSs xs t.front = .ok ss f) (h : restPhases first last file xs t = .ok () u) : Result ss f t u := by
  unfold restPhases at h
  obtain ⟨_, t1, h1, h'⟩ := Act.ok_inv (x := checkStructs first last) h
  clear h
  have : t1 = t := by
    unfold checkStructs at h1
    obtain ⟨g, t2, h2, h1⟩ := Act.ok_inv (x := Act.get) h1
    cases h2
    split at h1 <;> cases h1
    rfl
  subst this
  obtain ⟨ss1, t2, h2, h⟩ := Act.ok_inv (x := compileTree file xs) h'
  obtain ⟨_, t3, h3, h⟩ := Act.ok_inv (x := markAll ss1) h
  cases h3
  cases checkInit_inv h
  clear h
  unfold compileTree at h2
  obtain ⟨_, t4, h4, h2⟩ := Act.ok_inv (x := dropHalt) h2
  cases h4
  obtain ⟨ss2, t5, h5, h2⟩ := Act.ok_inv (x := onFront (resolveSs xs)) h2
  simp only [onFront, hr] at h5
  cases h5
  obtain ⟨_, t6, h6, h2⟩ := Act.ok_inv (x := reallocTables) h2
  cases h6
  obtain ⟨i, t7, h7, h2⟩ := Act.ok_inv (x := fileIndex file _) h2
  obtain ⟨f2, rfl, e1, -, e2, e3, e4⟩ := file_inv h7
  obtain ⟨g, t8, h8, h2⟩ := Act.ok_inv (x := Act.get) h2
  cases h8
  obtain ⟨_, t9, h9, h2⟩ := Act.ok_inv (x := onCode i _) h2
  cases h2
  simp only at e1 e2 e3 e4
  have eg : globalsOf f2 = globalsOf f := by unfold globalsOf; rw [e1]
  unfold onCode at h9
  simp only at h9
  rw [eg] at h9
  split at h9
  · next c hc =>
    cases h9
    refine ⟨⟨i, c, ?_, rfl, rfl⟩, by simp [e1], rfl, e2, e3, e4⟩
    exact hc
  all_goals cases h9

end Tiny
