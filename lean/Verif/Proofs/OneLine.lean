import Verif.Props.Accept
import Verif.Proofs.JsonBuf

/-!
# Compiling a source which is one function with one statement
-/

namespace Tiny
open Spec

/-! ## Names -/

/-- The name of a type means this type. -/
def Means (f : Front) (n : Name) (t : Tag) : Prop :=
  primTag n = some t ∨ (primTag n = none ∧ f.syms.findSome? (·.asType n) = some t)

theorem Means.named {f : Front} {n : Name} {t : Tag} (h : Means f n t) : getTagFromName n f = .ok t f := by
  unfold getTagFromName
  rcases h with h | ⟨h, h'⟩
  · rw [h]
    rfl
  · rw [h]
    simp only [Act.bind_apply, act_get_ok, h']
    rfl

theorem Means.more {f g : Front} {n : Name} {t : Tag} (h : Means f n t) {xs : List Sym} (e : g.syms = f.syms ++ xs) : Means g n t := by
  refine h.imp_right fun ⟨a, b⟩ => ⟨a, ?_⟩
  rw [e, List.findSome?_append, b]
  rfl

/-- The arguments. -/
def lineArgs (N : Nat) : Nat → List (Name × Tag) → List VarInfo
  | _, [] => []
  | i, p :: ps => { name := p.1, idx := -(N : Int) + i, tag := some p.2 } :: lineArgs N (i + 1) ps

theorem lineArgs_length (N : Nat) : ∀ (i : Nat) (ps : List (Name × Tag)), (lineArgs N i ps).length = ps.length
  | _, [] => rfl
  | i, p :: ps => by simp [lineArgs, lineArgs_length N (i + 1) ps]

theorem lineArgs_get (N : Nat) : ∀ (ps : List (Name × Tag)) (i k : Nat),
    (lineArgs N i ps)[k]? = (ps[k]?).map fun p => { name := p.1, idx := -(N : Int) + (i + k : Nat), tag := some p.2 }
  | [], i, k => by simp [lineArgs]
  | p :: ps, i, 0 => by simp [lineArgs]
  | p :: ps, i, k + 1 => by
    simp only [lineArgs, List.getElem?_cons_succ, lineArgs_get N ps (i + 1) k]
    congr 2
    funext q
    congr 2
    omega

theorem lineArgs_names (N : Nat) : ∀ (ps : List (Name × Tag)) (i : Nat), (lineArgs N i ps).map VarInfo.name = ps.map Prod.fst
  | [], i => rfl
  | p :: ps, i => by simp [lineArgs, lineArgs_names N ps (i + 1)]

/-- The function. -/
def lineFunc (f : Front) (n : Name) (ps : List (Name × Tag)) (r : Tag) : FuncInfo :=
  { name := n, index := f.numFunctions, args := lineArgs ps.length 0 ps, ret := some r }

/-- The table, in its body. -/
def lineIn (f : Front) (n : Name) (ps : List (Name × Tag)) (r : Tag) : Front :=
  { f with syms := f.syms ++ [.func (lineFunc f n ps r)], numFunctions := f.numFunctions + 1, currFunc := .at f.syms.length,
           currScope := f.currScope + 1 + 1 }

/-- The table, after it. -/
def lineAfter (f : Front) (n : Name) (ps : List (Name × Tag)) (r : Tag) (σ : List (List UInt8)) : Front :=
  { f with syms := f.syms ++ [.func (lineFunc f n ps r)], numFunctions := f.numFunctions + 1, strings := σ }

theorem declareArguments_step {N : Nat} : ∀ (ps : List (Name × Tag)) {f : Front} {k : Nat} {syms : List Sym} {fi : FuncInfo}, f.currFunc = .at syms.length →
    f.syms = syms ++ [.func fi] → (fi.args.map VarInfo.name ++ ps.map Prod.fst).Nodup → fi.args.length = k →
    declareArguments N ps f = .ok () { f with syms := syms ++ [.func { fi with args := fi.args ++ lineArgs N k ps }] }
  | [], f, k, syms, fi, hc, hs, hn, hk => by
    cases f
    simp_all [declareArguments, lineArgs, pure]
  | p :: ps, f, k, syms, fi, hc, hs, hn, hk => by
    have hg : f.syms[syms.length]? = some (.func fi) := by rw [hs]; simp
    have hno : fi.args.any (fun v => v.name == p.1) = false := by
      rw [List.any_eq_false]
      intro v hv e
      have := (List.nodup_append.1 hn).2.2 v.name (List.mem_map.2 ⟨v, hv, rfl⟩) p.1 (by simp)
      exact this (by simpa using e)
    have h1 : declareArgument p.1 p.2 N f = .ok () { f with syms := syms ++ [.func { fi with args := fi.args ++ [{ name := p.1, idx := -(N : Int) + k, tag := some p.2 }] }] } := by
      unfold declareArgument
      simp only [Act.bind_apply, currentFunc, hc, hg, hno, Bool.false_eq_true, if_false, updateFunc, hk]
      rw [hs]
      simp
    rw [declareArguments]
    simp only [Act.bind_apply, h1]
    have h2 := declareArguments_step (N := N) ps (f := { f with syms := syms ++ [.func { fi with args := fi.args ++ [{ name := p.1, idx := -(N : Int) + k, tag := some p.2 }] }] })
      (k := k + 1) (syms := syms) (fi := { fi with args := fi.args ++ [{ name := p.1, idx := -(N : Int) + k, tag := some p.2 }] }) hc rfl
      (by simpa [List.append_assoc] using hn) (by simp [hk])
    rw [h2]
    simp [lineArgs]

/-- The names of the types of the parameters mean these types. -/
def ParamsMean (f : Front) (qs : List (Name × SType)) (ps : List (Name × Tag)) : Prop :=
  List.Forall₂ (fun q p => q.1 = p.1 ∧ q.2.2 = false ∧ Means f q.2.1 p.2) qs ps

theorem params_named {f : Front} {qs : List (Name × SType)} {ps : List (Name × Tag)} (h : ParamsMean f qs ps) :
    nameParams frontOps qs f = .ok ps f := by
  induction h with
  | nil => rfl
  | cons h _ ih =>
    rename_i q p qs ps _
    obtain ⟨a, ⟨b, c⟩⟩ := q
    obtain ⟨d, t⟩ := p
    obtain ⟨rfl, rfl, h3⟩ := h
    have h4 : nameType frontOps (b, false) f = .ok t f := by
      simp only [nameType, Act.bind_apply, show frontOps.named b f = .ok t f from h3.named, Bool.false_eq_true, if_false]
      rfl
    rw [nameParams]
    simp only [Act.bind_apply, h4, ih]
    rfl

theorem ParamsMean.more {f g : Front} {qs : List (Name × SType)} {ps : List (Name × Tag)} (h : ParamsMean f qs ps) {xs : List Sym}
    (e : g.syms = f.syms ++ xs) : ParamsMean g qs ps :=
  List.Forall₂.imp (fun _ _ k => ⟨k.1, k.2.1, k.2.2.more e⟩) h

/-- The result. -/
def ResultMeans (f : Front) : Option SType → Option Tag → Prop
  | none, none => True
  | some q, some t => q.2 = false ∧ Means f q.1 t
  | _, _ => False

theorem result_named {f : Front} : ∀ {q : Option SType} {r : Option Tag}, ResultMeans f q r → nameRet frontOps q f = .ok r f
  | none, none, _ => rfl
  | some (b, _), some t, ⟨h1, h2⟩ => by
    cases h1
    have h4 : nameType frontOps (b, false) f = .ok t f := by
      simp only [nameType, Act.bind_apply, show frontOps.named b f = .ok t f from h2.named, Bool.false_eq_true, if_false]
      rfl
    rw [nameRet]
    simp only [Act.bind_apply, h4]
    rfl

theorem ResultMeans.more {f g : Front} : ∀ {q : Option SType} {r : Option Tag}, ResultMeans f q r → ∀ {xs : List Sym},
    g.syms = f.syms ++ xs → ResultMeans g q r
  | none, none, _, _, _ => trivial
  | some _, some _, h, _, e => ⟨h.1, h.2.more e⟩

/-- What the parser makes of the function. -/
theorem name_line {f : Front} (hc : f.currFunc = .none) {l m : Nat} {n : Name} {qs : List (Name × SType)} {ps : List (Name × Tag)}
    {q : Option SType} {r : Option Tag} (hps : ParamsMean f qs ps) (hr : ResultMeans f q r) (hd : (ps.map Prod.fst).Nodup)
    {b : SStmt} {b' : CStmt} {σ : List (List UInt8)}
    (hb : nameStmt frontOps b (lineIn f n ps (r.getD .void)) = .ok b' { lineIn f n ps (r.getD .void) with strings := σ }) :
    nameStmts frontOps [.node l (.proc () n qs q (.node m (.block [b])))] f =
      .ok [.node l (.proc f.syms.length n ps r (.node m (.block [b'])))] (lineAfter f n ps (r.getD .void) σ) := by
  have h1 : frontOps.noFunc f = .ok () f := by
    show requireFunc false f = _
    simp [requireFunc, Act.bind_apply, act_get_ok, hc, act_pure_ok]
  let fi0 : FuncInfo := { name := n, index := f.numFunctions }
  let f1 : Front := { f with syms := f.syms ++ [.func fi0], numFunctions := f.numFunctions + 1, currFunc := .at f.syms.length }
  have h2 : frontOps.beginFunc n f = .ok f.syms.length f1 := rfl
  have h3 : nameParams frontOps qs f1 = .ok ps f1 := params_named (hps.more (xs := [.func fi0]) rfl)
  let fi1 : FuncInfo := { fi0 with args := lineArgs ps.length 0 ps }
  let f2 : Front := { f1 with syms := f.syms ++ [.func fi1] }
  have h4 : frontOps.params ps f1 = .ok () f2 :=
    declareArguments_step (N := ps.length) ps (f := f1) (k := 0) (syms := f.syms) (fi := fi0) rfl rfl (by simpa [fi0] using hd) rfl
  have h5 : nameRet frontOps q f2 = .ok r f2 := result_named (hr.more (xs := [.func fi1]) rfl)
  let f3 : Front := { f1 with syms := f.syms ++ [.func (lineFunc f n ps (r.getD .void))] }
  have h6 : frontOps.setRet r f2 = .ok () f3 := by
    show updateFunc _ f2 = _
    simp [updateFunc, f2, f1, f3, fi1, fi0, lineFunc]
  have h7 : nameStmt frontOps (.block [b]) { f3 with currScope := f.currScope + 1 } =
      .ok (.block [b']) { f3 with currScope := f.currScope + 1, strings := σ } := by
    rw [nameStmt, nameStmts, nameStmts]
    have e : frontOps.openScope { f3 with currScope := f.currScope + 1 } = .ok () (lineIn f n ps (r.getD .void)) := rfl
    have e' : frontOps.closeScope { lineIn f n ps (r.getD .void) with strings := σ } = .ok () { f3 with currScope := f.currScope + 1, strings := σ } := by
      show closeScope _ = _
      simp [closeScope, Act.bind_apply, act_get_ok, lineIn, updateFunc, lineFunc, Act.modify, f3, f1]
    simp only [Act.bind_apply, e, hb, act_pure_ok, e']
  have e1 : frontOps.openScope f3 = .ok () { f3 with currScope := f.currScope + 1 } := rfl
  have e2 : frontOps.closeScope { f3 with currScope := f.currScope + 1, strings := σ } = .ok () { f3 with strings := σ } := by
    show closeScope _ = _
    simp [closeScope, Act.bind_apply, act_get_ok, updateFunc, lineFunc, Act.modify, f3, f1]
  have e3 : frontOps.endFunc { f3 with strings := σ } = .ok () (lineAfter f n ps (r.getD .void) σ) := by
    simp [frontOps, Act.modify, f3, f1, lineAfter, hc]
  rw [nameStmts, nameStmts, nameStmt, nameStmt, nameStmt]
  simp only [Act.bind_apply, h1, h2, h3, h4, h5, h6, e1, h7, act_pure_ok, e2, e3]

/-! ## Compiling -/

theorem mark_nil (x : Sym) : x.mark [] = x := by
  cases x with
  | glob v => simp [Sym.mark]
  | func fi => simp [Sym.mark, show markLocal [] fi.index = id from funext fun v => by simp [markLocal]]
  | _ => rfl

theorem bind_pure_ok {σ α β : Type} {x : Act σ α} {s s' : σ} {a : α} {b : β} (h : x s = .ok a s') : (do let _ ← x; pure b) s = .ok b s' := by
  rw [Act.bind_apply, h]
  rfl

/-- The file name can be registered. -/
def FileFits (σ : List (List UInt8)) (file : Option Name) : Prop := ∀ n, file = some n → n ∈ σ ∨ σ.length < maxStrings

theorem register_fits {f : Front} {x : List UInt8} (h : x ∈ f.strings ∨ f.strings.length < maxStrings) :
    ∃ i σ, registerString x f = .ok i { f with strings := f.strings ++ σ } ∧ σ.length ≤ 1 ∧ (∀ y ∈ σ, y = x ∧ y ∉ f.strings) ∧
      (f.strings ++ σ)[i]? = some x := by
  unfold registerString
  cases hx : f.strings.findIdx? (· == x) with
  | some i =>
    refine ⟨i, [], by simp, by simp, by simp, ?_⟩
    obtain ⟨h1, h2, -⟩ := List.findIdx?_eq_some_iff_getElem.1 hx
    simp only [beq_iff_eq] at h2
    rw [List.append_nil, List.getElem?_eq_getElem h1, h2]
  | none =>
    have : x ∉ f.strings := by
      rw [List.findIdx?_eq_none_iff] at hx
      intro hm
      have := hx x hm
      simp at this
    have hlt := h.resolve_left this
    refine ⟨f.strings.length, [x], by simp [hlt], by simp, by simpa using this, by simp⟩

theorem resolve_line {f1 : Front} {k : Nat} {fi : FuncInfo} (hk : f1.syms[k]? = some (.func fi)) (hc : f1.currFunc = .none)
    {l m : Nat} {n : Name} {ps : List (Name × Tag)} {r : Option Tag} {b : CStmt} {y : Stmt}
    (hb : resolveS b { f1 with currFunc := .at k } = .ok y { f1 with currFunc := .at k }) :
    resolveSs [.node l (.proc k n ps r (.node m (.block [b])))] f1 =
      .ok [.node l (.proc fi.index fi.args.length fi.locals.length (.node m (.block [y])))] f1 := by
  have h1 : procInfo { f1 with currFunc := .at k } k = .ok (fi.index, fi.args.length, fi.locals.length) := by
    unfold procInfo
    simp only [hk]
  rw [resolveSs, resolveSs, resolveS, resolveS, resolveS, resolveS, resolveSs, resolveSs]
  simp only [Act.bind_apply, act_get_ok, Act.modify, Act.check, h1, hb, act_pure_ok]

/-- A source which is one function with one statement. -/
theorem compile_line {E : CompileEnv} {file : Option Name} {us rest : List Tk} {nx : Tk} (ht : Tail3 (us ++ nx :: rest)) {s : TState}
    (hT : Tables s.front) (hc : s.front.currFunc = .none) (hn : s.nest < maxNest) {l m : Nat} {n : Name} {qs : List (Name × SType)}
    {ps : List (Name × Tag)} {q : Option SType} {r : Option Tag} {b : SStmt} {b' : CStmt} {y : Stmt} {σ : List (List UInt8)}
    (hp : ProgIs [.node l (.proc () n qs q (.node m (.block [b])))] us nx)
    (hps : ParamsMean s.front qs ps) (hr : ResultMeans s.front q r) (hd : (ps.map Prod.fst).Nodup)
    (hb : nameStmt frontOps b (lineIn s.front n ps (r.getD .void)) = .ok b' { lineIn s.front n ps (r.getD .void) with strings := σ })
    (hy : Tables (lineAfter s.front n ps (r.getD .void) σ) →
      resolveS b' { lineAfter s.front n ps (r.getD .void) σ with currFunc := .at s.front.syms.length } =
      .ok y { lineAfter s.front n ps (r.getD .void) σ with currFunc := .at s.front.syms.length })
    (ha : assigned (some s.front.numFunctions) y = [])
    (hg : ∀ F, s.front.numFunctions < F → GenS (globalsOf (lineAfter s.front n ps (r.getD .void) σ)) F y)
    (hf : FitS (globalsOf (lineAfter s.front n ps (r.getD .void) σ)) y) (hfile : FileFits σ file) :
    ∃ N s' ρ, (∀ k, N ≤ k → compileTokens { E with fuel := k } file (us ++ nx :: rest) s = .ok true s') ∧
      Session s s' [(lineAfter s.front n ps (r.getD .void) σ, [.node l (.proc s.front.numFunctions ps.length 0 (.node m (.block [y])))])] ∧
      s'.front = lineAfter s.front n ps (r.getD .void) (σ ++ ρ) ∧ ρ.length ≤ 1 ∧ (∀ y ∈ ρ, file = some y ∧ y ∉ σ) ∧ s'.nest = s.nest ∧ Tables s'.front := by
  obtain ⟨N, hN⟩ := c45_program frontOps hp rest s.front
  have hnm := name_line hc (l := l) (m := m) hps hr hd hb
  let f1 := lineAfter s.front n ps (r.getD .void) σ
  let x : CStmt := .node l (.proc s.front.syms.length n ps r (.node m (.block [b'])))
  have hP : ∀ k, N ≤ k → parseProgram k ⟨us ++ nx :: rest, s.front⟩ = .ok [x] ⟨nx :: rest, f1⟩ := by
    intro k hk
    have := hN k hk
    unfold lift at this
    simp only [hnm] at this
    exact this
  have pp := parse_parsed ht hT hc (hP N (Nat.le_refl _))
  have hT1 : Tables f1 := pp.tables
  have hc1 : f1.currFunc = .none := hc
  let fi := lineFunc s.front n ps (r.getD .void)
  have hk1 : f1.syms[s.front.syms.length]? = some (.func fi) := by simp [f1, lineAfter, fi]
  have hres : resolveSs [x] f1 = .ok [.node l (.proc fi.index fi.args.length fi.locals.length (.node m (.block [y])))] f1 :=
    resolve_line hk1 hc1 (hy hT1)
  let Y : Stmt := .node l (.proc fi.index fi.args.length fi.locals.length (.node m (.block [y])))
  have hnu : NoUse [x] := by
    intro a b c d hm
    simp [x] at hm
  -- the tables of the state
  have hslice : ∀ xs : List Sym, xs = s.front.syms ++ [.func fi] → ((xs.take f1.syms.length).drop s.front.syms.length) = [.func fi] := by
    intro xs e
    rw [e, List.take_of_length_le (by simp [f1, lineAfter])]
    simp
  -- the string
  obtain ⟨i, ρ, hfi, hρ1, hρ2⟩ : ∃ i ρ, (∀ w : TState, w.front = f1 → fileIndex file [Y] w = .ok i { w with front := { f1 with strings := σ ++ ρ } }) ∧
      ρ.length ≤ 1 ∧ ∀ y ∈ ρ, file = some y ∧ y ∉ σ := by
    cases file with
    | none =>
      refine ⟨none, [], fun w hw => ?_, by simp, by simp⟩
      show Out.ok none w = _
      cases w
      simp_all [f1, lineAfter]
    | some a =>
      obtain ⟨i, ρ, h1, h2, h3, -⟩ := register_fits (f := f1) (x := a) (hfile a rfl)
      refine ⟨some i, ρ, fun w hw => ?_, h2, fun y hy => ⟨by rw [(h3 y hy).1], (h3 y hy).2⟩⟩
      unfold fileIndex
      have hY : [Y].any isNode = true := rfl
      simp only [hY, if_true, Act.bind_apply, onFront, hw, h1]
      rfl
  -- the code
  let f2 : Front := { f1 with strings := σ ++ ρ }
  have hG : globalsOf f2 = globalsOf f1 := rfl
  have key : ∃ s', restPhases s.front.syms.length f1.syms.length file [x] { s with nest := s.nest + 1, front := f1 } = .ok () s' ∧
      s'.front = f2 ∧ s'.nest = s.nest + 1 := by
    let p' := if s.program.getLast? = some Op.halt.toByte then s.program.dropLast else s.program
    let s2 : TState := { s with nest := s.nest + 1, front := f1, program := p' }
    let s3 : TState := { s2 with
      functionPcs := s.functionPcs ++ List.replicate (f1.numFunctions - s.functionPcs.length) 0
      foreignFns := buildForeign f1.syms (s.foreignFns ++ List.replicate (f1.numForeign - s.foreignFns.length) none) }
    have hF : s.front.numFunctions < s3.functionPcs.length := by
      show _ < (s.functionPcs ++ List.replicate (s.front.numFunctions + 1 - s.functionPcs.length) 0).length
      simp only [List.length_append, List.length_replicate]
      omega
    have hgen : GenSs (globalsOf f2) s3.functionPcs.length [Y] := by
      rw [hG]
      simp only [Y, GenSs, GenS, and_true]
      exact ⟨hF, hg _ hF⟩
    have hfit : FitSs (globalsOf f2) [Y] := by
      rw [hG]
      simp only [Y, FitSs, FitS, and_true]
      exact ⟨by simp [fi, lineFunc], hf⟩
    have hcode := ((gs_Ss (F := s3.functionPcs.length) (E := False) (k := 0) (globalsOf f2) [Y] hgen (.inr hfit)).bind fun a n _ _ => gs_op .halt)
      ⟨s3.program, s3.lines, i, s3.functionPcs⟩ rfl (Nat.zero_le _)
    obtain ⟨c, hcode⟩ : ∃ c, (do let _ ← compileSs (globalsOf f2) [Y]; genOp .halt : CG Unit) ⟨s3.program, s3.lines, i, s3.functionPcs⟩ = .ok () c := by
      cases hx : (do let _ ← compileSs (globalsOf f2) [Y]; genOp .halt : CG Unit) ⟨s3.program, s3.lines, i, s3.functionPcs⟩ with
      | ok a c => exact ⟨c, rfl⟩
      | err c => rw [hx] at hcode; exact hcode.elim
      | abort => rw [hx] at hcode; exact hcode.elim
      | ub => rw [hx] at hcode; exact hcode.elim
    let s4 : TState := { s3 with front := f2, program := c.program, lines := c.lines, functionPcs := c.functionPcs }
    have htree : compileTree file [x] { s with nest := s.nest + 1, front := f1 } = .ok [Y] s4 := by
      unfold compileTree
      simp only [Act.bind_apply, dropHalt, Act.modify, onFront, hres, reallocTables]
      rw [hfi _ rfl]
      simp only [act_get_ok]
      have e : onCode i (do let _ ← compileSs (globalsOf f2) [Y]; genOp .halt) { s3 with front := f2 } = .ok () s4 := by
        unfold onCode
        rw [hcode]
      exact bind_pure_ok e
    have hmark : f2.syms.map (Sym.mark (assignedL none [Y])) = f2.syms := by
      have : assignedL none [Y] = [] := by
        simp only [Y, assignedL, assigned, List.append_nil]
        exact ha
      rw [this, show Sym.mark [] = id from funext mark_nil, List.map_id]
    refine ⟨s4, ?_, rfl, rfl⟩
    unfold restPhases
    simp only [Act.bind_apply, checkStructs, act_get_ok]
    have h5 : (Front.slice f1 s.front.syms.length f1.syms.length) = [.func fi] := hslice _ rfl
    simp only [h5, List.any_cons, List.any_nil, Sym.undefinedStruct, Bool.or_false, Bool.false_eq_true, if_false, act_pure_ok, htree, markAll,
      Act.modify, checkInitialized, Act.bind_apply, act_get_ok]
    have h6 : Front.slice { f2 with syms := f2.syms.map (Sym.mark (assignedL none [Y])) } s.front.syms.length f1.syms.length = [.func fi] := by
      unfold Front.slice
      rw [hmark]
      exact hslice _ rfl
    rw [show s4.front = f2 from rfl, h6]
    simp only [List.any_cons, List.any_nil, Sym.uninitialized, fi, lineFunc, Bool.or_false, Bool.false_eq_true, if_false, act_pure_ok]
    rw [hmark]
  obtain ⟨s', h1, h2, h3⟩ := key
  have hres' : resolveSs [x] f1 = .ok [.node l (.proc s.front.numFunctions ps.length 0 (.node m (.block [y])))] f1 := by
    rw [hres]
    simp [fi, lineFunc, lineArgs_length]
  have hmac : ∀ k, useMacros { E with fuel := k } [x] { s with nest := s.nest + 1, front := f1 } = .ok () { s with nest := s.nest + 1, front := f1 } := by
    intro k
    rw [useMacros_none hnu]
    rfl
  have hall : ∀ k, N ≤ k → compileTokens { E with fuel := k } file (us ++ nx :: rest) s = .ok true { s' with nest := s'.nest - 1 } := ?hall
  refine ⟨N, { s' with nest := s'.nest - 1 }, ρ, hall, ?_, h2, hρ1, hρ2, ?_, ?_⟩
  case hall =>
    intro k hk
    unfold compileTokens
    rw [if_pos hn]
    have hm := hmac k
    have ep : compilePhases { E with fuel := k } file (us ++ nx :: rest) { s with nest := s.nest + 1 } =
        restPhases s.front.syms.length f1.syms.length file [x] { s with nest := s.nest + 1, front := f1 } := by
      unfold compilePhases
      rw [Act.bind_apply]
      simp only [Act.get]
      rw [Act.bind_apply]
      simp only [parseTokens, hP k hk]
      rw [Act.bind_apply]
      simp only [Act.get]
      rw [Act.bind_apply, hm]
      rfl
    rw [ep, h1]
  · exact Session.compile (E := { E with fuel := N }) (file := file) .start ht (hP N (Nat.le_refl _)) (hmac N) .start hres' (hall N (Nat.le_refl _))
  · show s'.nest - 1 = s.nest
    omega
  · show Tables s'.front
    rw [h2]
    have h := hT1.slots
    exact ⟨⟨h.1, h.2, h.3, h.4, h.5, h.6, h.7, h.8⟩, hT1.consts, hT1.args, hT1.rets⟩

end Tiny
