import Verif.Proofs.GenExact
import Verif.Proofs.Exist
import Verif.Props.Initialized
import Verif.Props.Crash

/-!
# C58: the programs which are accepted
-/

namespace Tiny
open Spec

/-- The rules about types and sizes, after names were looked up. -/
def TypedFits (f : Front) (xs : List CStmt) : Prop :=
  ∃ ss Γ, ResolvedS f (.block xs) (.block ss) ∧ Checks (baseEnv f) none (.block ss) Γ ∧ FitsL (fun n => (Γ.func n).map Prod.fst) ss

theorem ex_get {σ β : Type} {g : σ → Act σ β} {s : σ} {P : Prop} {R : β → σ → Prop} (h : Ex (g s) s P R) : Ex (Act.get >>= g) s P R := h

theorem slice_sub {f : Front} {a b : Nat} {x : Sym} (h : x ∈ f.slice a b) : x ∈ f.syms := by
  unfold Front.slice at h
  exact List.mem_of_mem_take (List.mem_of_mem_drop h)

/-- The code generator. -/
theorem ex_code {s : TState} {i : Option Nat} {g : Globals} {ss : List Stmt} {Γ : TyEnv} (hs : ∀ n, Γ.fields n = g.structs n)
    (hF : ∀ n, g.funcs n = (Γ.func n).map Prod.fst) (hg : GenSs g s.functionPcs.length ss) (hc : Checked Γ none (.block ss)) :
    Ex (onCode i (do let _ ← compileSs g ss; genOp .halt)) s (FitsL (fun n => (Γ.func n).map Prod.fst) ss) fun _ s' => s'.front = s.front := by
  have eF : (fun n => (Γ.func n).map Prod.fst) = g.funcs := funext fun n => (hF n).symm
  rw [eF]
  have k1 := okp_checked hc hs
  have k2 := fit_checked hc hF
  unfold Ex onCode
  cases hx : (do let _ ← compileSs g ss; genOp .halt : CG Unit) ⟨s.program, s.lines, i, s.functionPcs⟩ with
  | ok a c =>
    refine ⟨?_, rfl⟩
    obtain ⟨ys, s1, h1, h2⟩ := CG.bind_ok.1 hx
    have := k1 ⟨s.program, s.lines, i, s.functionPcs⟩ (.block ys) s1 (by rw [compileS]; exact CG.bind_ok.2 ⟨ys, s1, h1, rfl⟩)
    simpa only [Fits] using this
  | err c =>
    intro hf
    have h3 := k2 (by simpa only [Fits] using hf)
    simp only [FitS] at h3
    have k : GS s.functionPcs.length False 0 (do let _ ← compileSs g ss; genOp .halt) fun _ _ => True :=
      (gs_Ss g ss hg (.inr h3)).bind fun a n _ _ => gs_op .halt
    have k := k ⟨s.program, s.lines, i, s.functionPcs⟩ rfl (Nat.zero_le _)
    rw [hx] at k
    exact k
  | abort => trivial
  | ub => trivial

/-- The phases after the parser. -/
theorem rest_exact {f0 f1 : Front} {tree : List SStmt} {xs : List CStmt} {t : TState} (r : Rest f0) (hd : AllStructsDefined f0) (hsc : 0 ≤ f0.currScope)
    (h : nameStmts frontOps tree f0 = .ok xs f1) (hw : WfSs tree) (hp : Plains tree) (hneg : ¬ NegateMin tree) (hT : Tables t.front)
    (hcur : t.front.currFunc = .none) (ht : t.front = f1) (file : Option Name)
    (hchk : ∀ ss u, compileTree file xs t = .ok ss u →
      ((u.front.syms.map (Sym.mark (assignedL none ss))).take f1.syms.length |>.drop f0.syms.length).any Sym.uninitialized = false) :
    Ex (restPhases f0.syms.length f1.syms.length file xs) t (TypesExist f0 tree ∧ TypedFits f1 xs) fun _ _ => True := by
  have u : Used f1 t := ⟨by rw [ht]; exact .refl _, hT, hcur, fun i n fs h => by rw [← ht]; exact h⟩
  have sd := said_stmts tree hw h
  unfold restPhases
  refine Ex.bind (Q := fun _ t' => t' = t ∧ AllDefined t.front) ?_ ?_
  · unfold checkStructs
    refine ex_get ?_
    rw [← exist_iff r.cur hsc hd h]
    by_cases hc : (t.front.slice f0.syms.length f1.syms.length).any Sym.undefinedStruct = true
    · rw [if_pos hc]
      intro hall
      obtain ⟨x, hx, hx'⟩ := List.any_eq_true.1 hc
      have := hall x (by rw [← ht]; exact slice_sub hx)
      rw [this] at hx'
      cases hx'
    · rw [if_neg hc]
      have := defined_all (allDefined hd) sd.evo.after u hc
      exact ⟨by rw [← ht]; exact this, rfl, this⟩
  rintro _ _ _ ⟨e0, hd'⟩
  rw [e0]; clear e0
  refine Ex.map (Q := fun ss v => compileTree file xs t = .ok ss v) ?_ ?_
  · have A := checks_safe r h hw hp u hd' (fun k _ hk => by rw [ht]; exact hk)
    have cfn : curFn t.front = none := by simp [curFn, hcur]
    obtain ⟨-, own⟩ := step_stmts tree hp h
    suffices hs : Ex (compileTree file xs) t (TypedFits f1 xs) fun _ _ => True by
      unfold Ex at hs ⊢
      cases hc : compileTree file xs t with
      | ok a f' => rw [hc] at hs; exact ⟨hs.1, rfl⟩
      | err f' => rw [hc] at hs; exact hs
      | abort => trivial
      | ub => trivial
      | timeout => trivial
    unfold compileTree
    refine Ex.then (x := dropHalt) (Q := fun _ s => s.front = t.front) ⟨trivial, rfl⟩ ?_
    intro _ s1 e1
    cases hr : resolveSs xs t.front with
    | ok ys g =>
      unfold ActOk at A
      rw [hr] at A
      · have ck : Checkd f0 xs t.front g ys := A rfl
        have acc := resolveSs_has xs hT own hr
        have iff : TypedFits f1 xs ↔ FitsL (fun n => ((baseEnv g).func n).map Prod.fst) ys := by
          constructor
          · rintro ⟨ss, Γ, a, b, c⟩
            rw [← ht] at a b
            obtain ⟨f', e1, e2⟩ := resolveSs_complete xs hT own a (by rw [cfn]; exact b)
            rw [hr] at e1
            cases e1
            rw [e2]
            exact c
          · intro c
            refine ⟨ys, baseEnv g, by rw [← ht]; exact ck.resolved, ?_, c⟩
            have := acc.checks
            rw [cfn] at this
            rw [← ht]
            exact this
        refine Ex.imp (P := FitsL (fun n => ((baseEnv g).func n).map Prod.fst) ys) (Q := fun _ _ => True) ?_ iff.symm fun _ _ _ h => h
        refine Ex.then (x := onFront (resolveSs xs)) (Q := fun zs s2 => ys = zs ∧ s2.front = g) ?_ ?_
        · unfold Ex onFront
          rw [e1, hr]
          exact ⟨trivial, rfl, rfl⟩
        rintro _ s2 ⟨rfl, rfl⟩
        refine Ex.then (x := reallocTables) (Q := fun _ s => s.front = s2.front ∧ s2.front.numFunctions ≤ s.functionPcs.length) ⟨trivial, rfl, ?_⟩ ?_
        · simp only [List.length_append, List.length_replicate]; omega
        rintro _ s3 ⟨e3, hF⟩
        refine Ex.then (x := fileIndex file _) (Q := fun _ s => ∃ f, s = { s3 with front := f } ∧ f.syms = s3.front.syms) ?_ ?_
        · unfold Ex
          cases hf : fileIndex file ys s3 with
          | ok i s4 =>
            obtain ⟨f2, rfl, e1, -⟩ := file_inv hf
            exact ⟨trivial, f2, rfl, e1⟩
          | err s4 =>
            exfalso
            unfold fileIndex at hf
            cases file with
            | none => cases hf
            | some n =>
              simp only at hf
              by_cases hn : ys.any isNode = true
              · rw [if_pos hn, act_bind] at hf
                unfold onFront at hf
                cases hk : registerString n s3.front with
                | err f' =>
                  unfold registerString at hk
                  split at hk
                  · cases hk
                  · split at hk <;> cases hk
                | _ => rw [hk] at hf; cases hf
              · rw [if_neg hn] at hf; cases hf
          | abort => trivial
          | ub => trivial
          | timeout => trivial
        rintro i _ ⟨f, rfl, e4⟩
        refine ex_get ?_
        have es : f.syms = s2.front.syms := by rw [e4, ← e3]
        have gen : GenSs (globalsOf f) s3.functionPcs.length ys := by
          refine genSs_block (gen_checked ck.resolved (sees_fields es ck.rest.types) (fun i b hb => ?_) ck.checked ?_)
          · have := body_bound ck.rest.tables hb
            omega
          · intro hx
            simp only [NegatesMin] at hx
            exact hneg (neg_stmts tree h hx)
        refine Ex.map (ex_code (s := { s3 with front := f }) (Γ := baseEnv s2.front) (sees_fields es ck.rest.types).same (fun n => ?_) gen ck.checked) fun _ _ _ _ => ⟨trivial, trivial⟩
        have := symSig_fst ck.rest.tables (n := n)
        unfold globalsOf
        simp only [es]
        exact this.symm
    | err g =>
      have e : (do let ss ← onFront (resolveSs xs); reallocTables; let i ← fileIndex file ss; let s ← Act.get; onCode i (do let _ ← compileSs (globalsOf s.front) ss; genOp .halt); pure ss : Act TState (List Stmt)) s1 = .err { s1 with front := g } := by
        rw [act_bind]
        unfold onFront
        rw [e1, hr]
      unfold Ex
      rw [e]
      rintro ⟨ss, Γ, a, b, -⟩
      rw [← ht] at a b
      obtain ⟨f', e1, e2⟩ := resolveSs_complete xs hT own a (by rw [cfn]; exact b)
      rw [hr] at e1
      cases e1
    | abort => unfold ActOk at A; rw [hr] at A; exact A.elim
    | ub => unfold ActOk at A; rw [hr] at A; exact A.elim
    | timeout => unfold ActOk at A; rw [hr] at A; exact A.elim
  · intro _ ss v hv
    refine Ex.then (x := markAll ss) (Q := fun _ w => w.front.syms = v.front.syms.map (Sym.mark (assignedL none ss))) ⟨trivial, rfl⟩ ?_
    intro _ w hw
    unfold checkInitialized
    refine ex_get ?_
    rw [if_neg]
    · exact ⟨trivial, trivial⟩
    · have := hchk ss v hv
      unfold Front.slice
      rw [hw, this]
      decide

theorem noUse_of {n : Nat} {ts : List Tk} {f : Front} (hu : WithoutUse ts) {xs : List CStmt} {q : PS Front}
    (hp : parseProgram n ⟨ts, f⟩ = .ok xs q) : NoUse xs := by
  intro l mm args a hm
  obtain ⟨ss', us, nx, rest, s', h1, rfl, h3, h4⟩ := c45_program_sound frontOps hp
  exact hu ss' us nx rest h1 h3 l mm args a (use_in h4 hm)

/-- A program is a program in one way. -/
theorem prog_unique {ss ss' : List SStmt} {us us' rest rest' : List Tk} {nx nx' : Tk} (h : ProgIs ss us nx) (h' : ProgIs ss' us' nx')
    (e : us ++ nx :: rest = us' ++ nx' :: rest') : ss = ss' := by
  obtain ⟨N, hN⟩ := c45_program synOps h rest ()
  obtain ⟨N', hN'⟩ := c45_program synOps h' rest' ()
  have a := hN (max N N') (Nat.le_max_left _ _)
  have b := hN' (max N N') (Nat.le_max_right _ _)
  rw [syn_prog h] at a
  rw [syn_prog h', ← e, a] at b
  cases b
  rfl

/-- A compilation. -/
theorem tokens_exact {E : CompileEnv} {file : Option Name} {ts : List Tk} (ht : Tail3 ts) {s : TState} (r : Rest s.front)
    (hd : AllStructsDefined s.front) (hsc : 0 ≤ s.front.currScope) (hn : s.nest < maxNest) (hc : NotCrashing ts) (hu : WithoutUse ts)
    (hN : ∀ tree us nx rest, ts = us ++ nx :: rest → ProgIs tree us nx →
      parseProgram E.fuel ⟨ts, s.front⟩ = lift (nameStmts frontOps tree) ⟨nx :: rest, s.front⟩) :
    match compileTokens E file ts s with
    | .ok true _ => ValidTokens s.front ts
    | .ok false _ => ¬ ValidTokens s.front ts
    | _ => True := by
  have hE : MacrosKeep { E with macros := fun _ _ _ => pure true } := fun _ _ _ s hT hc => ⟨.refl s, Nat.le_refl _, hT, hc⟩
  rw [compile_noUse fun xs q hp => noUse_of hu hp]
  unfold compileTokens
  rw [if_pos hn]
  have ag := agrees_start r.cur hsc hd
  cases hp : parseProgram E.fuel ⟨ts, s.front⟩ with
  | ok xs q =>
    obtain ⟨tree, us, nx, rest, f1, e, hq, hg, hs⟩ := c45_program_sound frontOps hp
    have hq' : q.st = f1 := by rw [hq]
    rw [← hq'] at hs
    have hm : useMacros { E with macros := fun _ _ _ => pure true } xs { s with nest := s.nest + 1, front := q.st } =
        .ok () { s with nest := s.nest + 1, front := q.st } := by rw [useMacros_none (noUse_of hu hp)]; rfl
    have ep : compilePhases { E with macros := fun _ _ _ => pure true } file ts { s with nest := s.nest + 1 } =
        restPhases s.front.syms.length q.st.syms.length file xs { s with nest := s.nest + 1, front := q.st } := by
      unfold compilePhases
      rw [Act.bind_apply]
      simp only [Act.get]
      rw [Act.bind_apply]
      simp only [parseTokens, hp]
      rw [Act.bind_apply]
      simp only [Act.get]
      rw [Act.bind_apply, hm]
      rfl
    have nc := hc tree us nx rest e hg
    simp only [Crashing, not_or] at nc
    have pp := parse_parsed ht r.tables r.cur hp
    have R := rest_exact (t := { s with nest := s.nest + 1, front := q.st }) r hd hsc hs (wf_prog hg nc.1) (plain_prog hg) nc.2.1 pp.tables pp.cur rfl file
      fun ss u h => check_passes hE (s := s) (k := s.nest + 1) ht r.tables r.cur hp hm h
    have nm := ex_stmts tree ag
    unfold Ex at nm R
    rw [hs] at nm
    rw [ep]
    have iff : ValidTokens s.front ts ↔ TypesExist s.front tree ∧ TypedFits q.st xs := by
      constructor
      · rintro ⟨tree', us', nx', rest', e', hg', hv⟩
        have := prog_unique hg hg' (e.symm.trans e')
        subst this
        obtain ⟨xs', f', ss, Γ, k1, k2⟩ := hv.typed
        rw [hs] at k1
        cases k1
        exact ⟨hv.exist, ss, Γ, k2⟩
      · rintro ⟨a, ss, Γ, b⟩
        exact ⟨tree, us, nx, rest, e, hg, nm.1, a, xs, q.st, ss, Γ, hs, b⟩
    cases hr : restPhases s.front.syms.length q.st.syms.length file xs { s with nest := s.nest + 1, front := q.st } with
    | ok _ u => rw [hr] at R; exact iff.2 R.1
    | err u => rw [hr] at R; exact fun h => R (iff.1 h)
    | abort => trivial
    | ub => trivial
    | timeout => trivial
  | err q =>
    have ep : compilePhases { E with macros := fun _ _ _ => pure true } file ts { s with nest := s.nest + 1 } =
        .err { s with nest := s.nest + 1, front := q.st } := by
      unfold compilePhases
      rw [Act.bind_apply]
      simp only [Act.get]
      rw [Act.bind_apply]
      simp only [parseTokens, hp]
    rw [ep]
    rintro ⟨tree, us, nx, rest, e, hg, hv⟩
    have := hN tree us nx rest e hg
    rw [hp] at this
    have nm := ex_stmts tree ag
    unfold Ex at nm
    unfold lift at this
    cases hs : nameStmts frontOps tree s.front with
    | err f => rw [hs] at nm; exact nm hv.names
    | _ => simp only [hs] at this; cases this
  | _ =>
    have ep : ∀ b u, (match compilePhases { E with macros := fun _ _ _ => pure true } file ts { s with nest := s.nest + 1 } with
        | .ok _ s' => Out.ok true { s' with nest := s'.nest - 1 }
        | .err s' => .ok false (rollback s s')
        | .abort => .abort
        | .ub => .ub
        | .timeout => .timeout) ≠ .ok b u := by
      intro b u
      unfold compilePhases
      rw [Act.bind_apply]
      simp only [Act.get]
      rw [Act.bind_apply]
      simp only [parseTokens, hp]
      exact fun h => by cases h
    split
    · next h => exact absurd h (ep _ _)
    · next h => exact absurd h (ep _ _)
    · trivial

/-- **C58** for the tokens of a source: it is accepted exactly if it is a valid program; else an error is reported, unless
there are too many strings. -/
theorem c58_tokens {E : CompileEnv} (hE : MacrosKeep E) {file : Option Name} {ts : List Tk} (ht : Tail3 ts) {s : TState} (hs : Clean s)
    (hd : AllStructsDefined s.front) (hsc : 0 ≤ s.front.currScope) (hn : s.nest < maxNest) (hc : NotCrashing ts) (hu : WithoutUse ts) :
    ∃ N, ∀ n, N ≤ n → match compileTokens { E with fuel := n } file ts s with
      | .ok true _ => ValidTokens s.front ts
      | .ok false _ => ¬ ValidTokens s.front ts
      | .abort => TooMany s.front fun x => Literal ts x ∨ file = some x
      | _ => False := by
  have r := clean_rest hs
  obtain ⟨N, hN⟩ := c57_tokens hE ht hs hd hn hc (file := file) fun m xs q hp => by
    have hnu := noUse_of hu hp
    refine ⟨macrosFine_none hnu, fun t ht k _ hk => ?_⟩
    rw [useMacros_none hnu] at ht
    cases ht
    exact hk
  obtain ⟨M, hM⟩ : ∃ M, ∀ n, M ≤ n → ∀ tree us nx rest, ts = us ++ nx :: rest → ProgIs tree us nx →
      parseProgram n ⟨ts, s.front⟩ = lift (nameStmts frontOps tree) ⟨nx :: rest, s.front⟩ := by
    by_cases h : ∃ tree us nx rest, ts = us ++ nx :: rest ∧ ProgIs tree us nx
    · obtain ⟨tree, us, nx, rest, rfl, hg⟩ := h
      obtain ⟨M, hM⟩ := c45_program frontOps hg rest s.front
      refine ⟨M, fun n hn tree' us' nx' rest' e hg' => ?_⟩
      have h1 := prog_unique hg hg' e
      subst h1
      have h2 := congrArg List.length e
      obtain ⟨M', hM'⟩ := c45_program synOps hg' rest' ()
      obtain ⟨M'', hM''⟩ := c45_program synOps hg rest ()
      have a := hM' (max M' M'') (Nat.le_max_left _ _)
      have b := hM'' (max M' M'') (Nat.le_max_right _ _)
      rw [syn_prog hg] at a b
      rw [e, a] at b
      cases b
      exact hM n hn
    · exact ⟨0, fun n _ tree us nx rest e hg => absurd ⟨tree, us, nx, rest, e, hg⟩ h⟩
  refine ⟨max N M, fun n hle => ?_⟩
  have k1 := hN n (Nat.le_trans (Nat.le_max_left _ _) hle)
  have k2 := tokens_exact (E := { E with fuel := n }) (file := file) ht r hd hsc hn hc hu (hM n (Nat.le_trans (Nat.le_max_right _ _) hle))
  cases hr : compileTokens { E with fuel := n } file ts s with
  | ok b s' => rw [hr] at k2; cases b <;> exact k2
  | err s' => rw [hr] at k1; exact k1
  | abort => rw [hr] at k1; exact k1
  | ub => rw [hr] at k1; exact k1
  | timeout => rw [hr] at k1; exact k1

/-- **C58** (`Tiny_CompileString`). -/
theorem c58_source {E : CompileEnv} (hE : MacrosKeep E) {file : Option Name} {src : List UInt8} (hz : 0 ∉ src)
    (hl : (sourceTokens E.strtod src).length = src.length + 4) {s : TState} (hs : Clean s) (hd : AllStructsDefined s.front)
    (hsc : 0 ≤ s.front.currScope) (hn : s.nest < maxNest) (hc : NotCrashing (sourceTokens E.strtod src)) (hu : WithoutUse (sourceTokens E.strtod src)) :
    ∃ N, ∀ n, N ≤ n → match compileString { E with fuel := n } file src s with
      | .ok true _ => ValidTokens s.front (sourceTokens E.strtod src)
      | .ok false _ => ¬ ValidTokens s.front (sourceTokens E.strtod src)
      | .abort => TooMany s.front fun x => Literal (sourceTokens E.strtod src) x ∨ file = some x
      | _ => False :=
  c58_tokens hE (Session1.tail_of hz hl) hs hd hsc hn hc hu

end Tiny
