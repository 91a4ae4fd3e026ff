import Verif.Proofs.DelegateBind

/-!
# The two functions which the macro `delegate` compiles
-/

namespace Tiny
open Spec

/-! ## The function which calls -/

/-- The parameters with their types. -/
def delegateTags : Nat → List Tag → List (Name × Tag)
  | _, [] => []
  | i, t :: ts => (argName i, t) :: delegateTags (i + 1) ts

/-- All parameters. -/
def callParams (D : Name) (ts : List Tag) : List (Name × Tag) := (bytes "f", .named D) :: delegateTags 0 ts

theorem delegateTags_length : ∀ (i : Nat) (ts : List Tag), (delegateTags i ts).length = ts.length
  | _, [] => rfl
  | i, t :: ts => by simp [delegateTags, delegateTags_length (i + 1) ts]

theorem delegateTags_tags : ∀ (i : Nat) (ts : List Tag), (delegateTags i ts).map Prod.snd = ts
  | _, [] => rfl
  | i, t :: ts => by simp [delegateTags, delegateTags_tags (i + 1) ts]

theorem delegateTags_ids : ∀ (i : Nat) (ts : List Tag), delegateIds i (ts.map Tag.name) = (delegateTags i ts).map fun p => .id p.1 ()
  | _, [] => rfl
  | i, t :: ts => by simp [delegateTags, delegateIds, delegateTags_ids (i + 1) ts]

theorem delegateTags_names {n : Name} : ∀ {i : Nat} {ts : List Tag}, n ∈ (delegateTags i ts).map Prod.fst → ∃ j, i ≤ j ∧ n = argName j
  | i, [], h => by simp [delegateTags] at h
  | i, t :: ts, h => by
    simp only [delegateTags, List.map_cons, List.mem_cons] at h
    rcases h with rfl | h
    · exact ⟨i, Nat.le_refl _, rfl⟩
    · obtain ⟨j, hj, e⟩ := delegateTags_names h
      exact ⟨j, by omega, e⟩

theorem delegateTags_nodup : ∀ (i : Nat) (ts : List Tag), ((delegateTags i ts).map Prod.fst).Nodup
  | _, [] => by simp [delegateTags]
  | i, t :: ts => by
    simp only [delegateTags, List.map_cons, List.nodup_cons]
    refine ⟨fun h => ?_, delegateTags_nodup (i + 1) ts⟩
    obtain ⟨j, hj, e⟩ := delegateTags_names h
    have := argName_inj e
    omega

theorem callParams_nodup (D : Name) (ts : List Tag) : ((callParams D ts).map Prod.fst).Nodup := by
  simp only [callParams, List.map_cons, List.nodup_cons]
  refine ⟨fun h => ?_, delegateTags_nodup 0 ts⟩
  obtain ⟨j, -, e⟩ := delegateTags_names h
  have : (bytes "f").head? = (argName j).head? := by rw [e]
  simp [bytes, argName] at this

theorem params_mean {f : Front} : ∀ (i : Nat) {ts : List Tag}, (∀ t ∈ ts, Means f t.name t) → ParamsMean f (delegateParams i (ts.map Tag.name)) (delegateTags i ts)
  | _, [], _ => .nil
  | i, t :: ts, h => .cons ⟨rfl, rfl, h t (by simp)⟩ (params_mean (i + 1) fun u hu => h u (by simp [hu]))

/-- What the source is compiled to. -/
def callBody (D : Name) (ts : List Tag) : Option Tag → Stmt
  | some r => .ret (some (.cast (.call (bytes "call_function") (passed (callParams D ts).length 0 (callParams D ts))) r))
  | none => .call (bytes "call_function") (passed (callParams D ts).length 0 (callParams D ts))

theorem zero_ids : ∀ (i : Nat) (ts : List Name), ∀ x ∈ delegateIdTexts i ts, ∀ c ∈ x, c ≠ 0
  | _, [] => by simp [delegateIdTexts]
  | i, t :: ts => by
    intro x hx c hc e
    simp only [delegateIdTexts, List.mem_cons] at hx
    rcases hx with rfl | hx
    · exact ident_zero (argName_ident i) (e ▸ hc)
    · exact zero_ids (i + 1) ts x hx c hc e

theorem zero_args : ∀ (i : Nat) {ts : List Name}, (∀ t ∈ ts, IsIdent t) → ∀ x ∈ delegateArgTexts i ts, ∀ c ∈ x, c ≠ 0
  | _, [], _ => by simp [delegateArgTexts]
  | i, t :: ts, h => by
    intro x hx c hc e
    simp only [delegateArgTexts, List.mem_cons] at hx
    rcases hx with rfl | hx
    · subst e
      simp only [List.mem_append] at hc
      rcases hc with (hc | hc) | hc
      · exact ident_zero (argName_ident i) hc
      · exact absurd hc (by decide)
      · exact ident_zero (h t (by simp)) hc
    · exact zero_args (i + 1) (fun u hu => h u (by simp [hu])) x hx c hc e

theorem call_zero {D : Name} (hD : IsIdent D) {ts : List Name} (ht : ∀ t ∈ ts, IsIdent t) {r : Option Name} (hr : ∀ t ∈ r, IsIdent t) :
    0 ∉ delegateCallSource D ts r := by
  have h1 : 0 ∉ List.intercalate (bytes ", ") (delegateArgTexts 0 ts) := fun h => intercalate_mem (p := (· ≠ 0)) (by decide) (zero_args 0 ht) 0 h rfl
  have h2 : 0 ∉ List.intercalate (bytes ", ") (delegateIdTexts 0 ts) := fun h => intercalate_mem (p := (· ≠ 0)) (by decide) (zero_ids 0 ts) 0 h rfl
  have h3 := ident_zero hD
  cases r with
  | none =>
    simp only [delegateCallSource, callName, List.mem_append, not_or, and_assoc]
    exact ⟨by decide +kernel, h3, by decide +kernel, by decide +kernel, h3, by decide +kernel, h1, by decide +kernel, by decide +kernel, h2, by decide +kernel⟩
  | some r =>
    have h4 := ident_zero (hr r rfl)
    simp only [delegateCallSource, callName, List.mem_append, not_or, and_assoc]
    exact ⟨by decide +kernel, h3, by decide +kernel, by decide +kernel, h3, by decide +kernel, h1, by decide +kernel, by decide +kernel, h4, by decide +kernel, h2, by decide +kernel, h4, by decide +kernel⟩

/-- There are not too many parameters. -/
theorem call_few {D : Name} {ts : List Name} {r : Option Name} (h : (delegateCallSource D ts r).length < 512) : ts.length ≤ 254 := by
  have e : ∀ (i : Nat) (ts : List Name), 2 * ts.length ≤ (List.intercalate (bytes ", ") (delegateIdTexts i ts)).length := by
    intro i ts
    induction ts generalizing i with
    | nil => simp
    | cons t ts ih =>
      have hd : 2 ≤ (argName i).length := by
        have : decimal i ≠ [] := decimal_ne_nil i
        have := List.length_pos_of_ne_nil this
        simp only [argName, List.length_append, bytes]
        simp
        omega
      cases ts with
      | nil => simp only [delegateIdTexts, intercalate_one, List.length_cons, List.length_nil]; omega
      | cons u ts =>
        have := ih (i + 1)
        simp only [delegateIdTexts, intercalate_two, List.length_append, List.length_cons] at this ⊢
        omega
  have := e 0 ts
  have e5 : (bytes "func ").length = 5 := by decide +kernel
  cases r <;> simp only [delegateCallSource, List.length_append, e5] at h <;> omega

/-- What the macro compiles first. -/
theorem compile_call {E : CompileEnv} {f0 : Front} {L : Name → Prop} (hm : ¬ TooMany f0 L) {s : TState} (hT : Tables s.front)
    (hc : s.front.currFunc = .none) (hn : s.nest < maxNest) (hR : Room L f0.strings s.front.strings) {D : Name} (hD : IsIdent D) (hDm : Means s.front D (.named D))
    {ts : List Tag} (ht : ∀ t ∈ ts, IsIdent t.name ∧ Means s.front t.name t) {r : Option Tag}
    (hr : ∀ t ∈ r, IsIdent t.name ∧ Means s.front t.name t ∧ t ≠ .void ∧ isTagAssignableTo t t = true)
    (hl : (delegateCallSource D (ts.map Tag.name) (r.map Tag.name)).length < 512) {i : Nat}
    (hcf : referenceFunction s.front.syms (bytes "call_function") = some (.foreign (bytes "call_function") i [.any] true .any))
    (hL : L (bytes "(delegate call function)")) :
    ∃ N s' ρ us nx rest, sourceTokens E.strtod (delegateCallSource D (ts.map Tag.name) (r.map Tag.name)) = us ++ nx :: rest ∧
      ProgIs [delegateCallFn D (ts.map Tag.name) (r.map Tag.name)] us nx ∧
      (∀ k, N ≤ k → compileString { E with fuel := k } (some (bytes "(delegate call function)")) (delegateCallSource D (ts.map Tag.name) (r.map Tag.name)) s = .ok true s') ∧
      Session s s' [(lineAfter s.front (callName D) (callParams D ts) (r.getD .void) s.front.strings,
        [.node 1 (.proc s.front.numFunctions (ts.length + 1) 0 (.node 1 (.block [.node 1 (callBody D ts r)])))])] ∧
      s'.front = lineAfter s.front (callName D) (callParams D ts) (r.getD .void) (s.front.strings ++ ρ) ∧ Room L f0.strings (s.front.strings ++ ρ) ∧ s'.nest = s.nest ∧ Tables s'.front := by
  have hti : ∀ t ∈ ts.map Tag.name, IsIdent t := by
    intro t h
    obtain ⟨u, hu, rfl⟩ := List.mem_map.1 h
    exact (ht u hu).1
  have hri : ∀ t ∈ r.map Tag.name, IsIdent t := by
    intro t h
    obtain ⟨u, hu, rfl⟩ := Option.map_eq_some_iff.1 h
    exact (hr u hu).1
  have hz := call_zero hD hti hri
  have hlines := lines_call hD hti hri
  have hpm : ParamsMean s.front ((bytes "f", D, false) :: delegateParams 0 (ts.map Tag.name)) (callParams D ts) :=
    .cons ⟨rfl, rfl, hDm⟩ (params_mean 0 fun t h => (ht t h).2)
  have hrm : ResultMeans s.front ((r.map Tag.name).map fun r => (r, false)) r := by
    cases r with
    | none => trivial
    | some r => exact ⟨rfl, (hr r rfl).2.1⟩
  have hd := callParams_nodup D ts
  have hplen : (callParams D ts).length = ts.length + 1 := by simp [callParams, delegateTags_length]
  let fb := lineIn s.front (callName D) (callParams D ts) (r.getD .void)
  have hname : nameExprs frontOps (.id (bytes "f") () :: delegateIds 0 (ts.map Tag.name)) fb = .ok (passedRef 0 (callParams D ts)) fb := by
    have := name_passed (f := fb) (callParams D ts) 0 fun k p hk => by rw [Nat.zero_add]; exact ref_param hd hk
    rw [delegateTags_ids]
    exact this
  let f2 : Front := { lineAfter s.front (callName D) (callParams D ts) (r.getD .void) s.front.strings with currFunc := .at s.front.syms.length }
  have hcf2 : ∀ f : Front, f.syms = f2.syms → referenceFunction f.syms (bytes "call_function") = some (.foreign (bytes "call_function") i [.any] true .any) := by
    intro f e
    rw [e]
    unfold referenceFunction at hcf ⊢
    show (s.front.syms ++ _).find? _ = _
    rw [List.find?_append, hcf]
    rfl
  have hres : resolveE f2 (.call (bytes "call_function") (passedRef 0 (callParams D ts))) =
      .ok (.call (bytes "call_function") (passed (callParams D ts).length 0 (callParams D ts)), .any) :=
    resolve_callf (by simp) (hcf2 f2 rfl) fun k p hk => info_param hk
  obtain ⟨hg, hf⟩ := gen_passed (globalsOf (lineAfter s.front (callName D) (callParams D ts) (r.getD .void) s.front.strings)) (callParams D ts).length (callParams D ts) 0
  have hfit : FitE (globalsOf (lineAfter s.front (callName D) (callParams D ts) (r.getD .void) s.front.strings)) (.call (bytes "call_function") (passed (callParams D ts).length 0 (callParams D ts))) := by
    have hfew := call_few hl
    rw [List.length_map] at hfew
    simp only [FitE]
    refine ⟨?_, by rw [passed_length, hplen]; omega, hf⟩
    unfold globalsOf
    refine ⟨_, by simp only [hcf2 (lineAfter s.front (callName D) (callParams D ts) (r.getD .void) s.front.strings) rfl, Option.bind_some]; rfl, ?_⟩
    exact .inl ⟨rfl, by rw [passed_length, hplen]; simp⟩
  have hfb : fb.strings = s.front.strings := rfl
  have hprog : ∀ {us : List Tk} {nx : Tk}, AreToks E.strtod us (callToks D (ts.map Tag.name) (r.map Tag.name)) → nx.kind = .eofTok →
    ProgIs [delegateCallFn D (ts.map Tag.name) (r.map Tag.name)] us nx := fun h hx => prog_call h hx
  cases r with
  | none =>
    have hb : nameStmt frontOps (.node 1 (.call (bytes "call_function") (.id (bytes "f") () :: delegateIds 0 (ts.map Tag.name)))) fb =
        .ok (.node 1 (.call (bytes "call_function") (passedRef 0 (callParams D ts)))) { fb with strings := s.front.strings } := by
      rw [nameStmt, nameStmt]
      simp only [Act.bind_apply, hname, act_pure_ok]
      rfl
    have hy : resolveS (.node 1 (.call (bytes "call_function") (passedRef 0 (callParams D ts)))) f2 = .ok (.node 1 (callBody D ts none)) f2 := by
      rw [resolveS, resolveS]
      simp only [Act.bind_apply, Act.check, hres]
      rfl
    have := compile_source (E := E) hm hT hc hn hz hlines hprog hpm hrm hd hb hy (by simp [assigned, callBody]) (fun F hF => by simp only [callBody, GenS]; exact hg)
      (by simp only [callBody, FitS]; exact hfit) hL hR
    rw [hplen] at this
    exact this
  | some r =>
    obtain ⟨-, r1, r2, r3⟩ := hr r rfl
    have hcf' : currentFunc fb = .ok (some (lineFunc s.front (callName D) (callParams D ts) r)) fb := by
      unfold currentFunc
      simp [fb, lineIn]
    have hb : nameStmt frontOps (.node 1 (.ret (some (.cast (.call (bytes "call_function") (.id (bytes "f") () :: delegateIds 0 (ts.map Tag.name))) (r.name, false))))) fb =
        .ok (.node 1 (.ret (some (.cast (.call (bytes "call_function") (passedRef 0 (callParams D ts))) r)))) { fb with strings := s.front.strings } := by
      have e1 : frontOps.inFunc fb = .ok () fb := by
        show requireFunc true fb = _
        simp [requireFunc, Act.bind_apply, act_get_ok, fb, lineIn, act_pure_ok]
      have e2 : frontOps.valueFunc fb = .ok () fb := by
        show requireValueFunc fb = _
        unfold requireValueFunc
        rw [Act.bind_apply, hcf']
        simp only [lineFunc]; rfl
      have e3 : nameType frontOps (r.name, false) fb = .ok r fb := by
        have := (r1.more (g := fb) (xs := [.func (lineFunc s.front (callName D) (callParams D ts) r)]) rfl).named
        simp only [nameType, Act.bind_apply, show frontOps.named r.name fb = .ok r fb from this, Bool.false_eq_true, if_false]
        rfl
      rw [nameStmt, nameStmt, nameExpr, nameExpr]
      simp only [Act.bind_apply, e1, e2, hname, act_pure_ok, e3]
      rfl
    have hy : resolveS (.node 1 (.ret (some (.cast (.call (bytes "call_function") (passedRef 0 (callParams D ts))) r)))) f2 = .ok (.node 1 (callBody D ts (some r))) f2 := by
      have e : currentFunc f2 = .ok (some (lineFunc s.front (callName D) (callParams D ts) r)) f2 := by
        unfold currentFunc
        simp [f2, lineAfter]
      have e2 : Act.check (fun f => resolveE f (.cast (.call (bytes "call_function") (passedRef 0 (callParams D ts))) r)) f2 =
          .ok (.cast (.call (bytes "call_function") (passed (callParams D ts).length 0 (callParams D ts))) r, r) f2 := by
        have e3 : resolveE f2 (.cast (.call (bytes "call_function") (passedRef 0 (callParams D ts))) r) =
            .ok (.cast (.call (bytes "call_function") (passed (callParams D ts).length 0 (callParams D ts))) r, r) := by
          rw [resolveE, hres, Chk.ok_bind]
          simp
        unfold Act.check
        simp only [e3]
      rw [resolveS, resolveS]
      unfold resolveRet
      simp only [Act.bind_apply, e, e2, lineFunc, r3, if_true]
      rfl
    have := compile_source (E := E) hm hT hc hn hz hlines hprog hpm hrm hd hb hy (by simp [assigned, callBody]) (fun F hF => by simp only [callBody, GenS, GenE]; exact hg)
      (by simp only [callBody, FitS, FitE]; simpa only [FitE] using hfit) hL hR
    rw [hplen] at this
    exact this

/-! ## The function which creates -/

theorem create_zero {g D n : Name} (hg : IsIdent g) (hD : IsIdent D) (hn : IsIdent n) : 0 ∉ delegateCreateSource g D n := by
  simp only [delegateCreateSource, List.mem_append, not_or, and_assoc]
  exact ⟨by decide +kernel, ident_zero hg, by decide +kernel, ident_zero hD, by decide +kernel, ident_zero hn, by decide +kernel, ident_zero hD, by decide +kernel⟩

/-- What the macro compiles second. -/
theorem compile_create {E : CompileEnv} {f0 : Front} {L : Name → Prop} (hm : ¬ TooMany f0 L) {s : TState} (hT : Tables s.front)
    (hc : s.front.currFunc = .none) (hn : s.nest < maxNest) (hR : Room L f0.strings s.front.strings) {g D n : Name} (hg : IsIdent g) (hD : IsIdent D) (hni : IsIdent n)
    (hDm : Means s.front D (.named D)) {i : Nat}
    (hgf : referenceFunction s.front.syms (bytes "get_function_index") = some (.foreign (bytes "get_function_index") i [.str] false .any))
    (hL : L (bytes "(delegate create function)")) (hLn : L n) :
    ∃ N s' σ ρ j us nx rest, sourceTokens E.strtod (delegateCreateSource g D n) = us ++ nx :: rest ∧ ProgIs [delegateCreateFn g D n] us nx ∧
      (∀ k, N ≤ k → compileString { E with fuel := k } (some (bytes "(delegate create function)")) (delegateCreateSource g D n) s = .ok true s') ∧
      Session s s' [(lineAfter s.front g [] (.named D) σ,
        [.node 1 (.proc s.front.numFunctions 0 0 (.node 1 (.block [.node 1 (.ret (some (.cast (.call (bytes "get_function_index") [.str j]) (.named D))))])))])] ∧
      s'.front = lineAfter s.front g [] (.named D) (σ ++ ρ) ∧ s.front.strings <+: σ ∧ σ[j]? = some n ∧ Room L f0.strings (σ ++ ρ) ∧ s'.nest = s.nest ∧ Tables s'.front := by
  have hz := create_zero hg hD hni
  have hlines := lines_create hg hD hni
  let fb := lineIn s.front g [] (.named D)
  obtain ⟨j, σ, k1, k2, k3⟩ := Room.register (f := fb) hR hm hLn
  have hcf' : currentFunc fb = .ok (some (lineFunc s.front g [] (.named D))) fb := by
    unfold currentFunc
    simp [fb, lineIn]
  let σ' := s.front.strings ++ σ
  have hb : nameStmt frontOps (.node 1 (.ret (some (.cast (.call (bytes "get_function_index") [.str n]) (D, false))))) fb =
      .ok (.node 1 (.ret (some (.cast (.call (bytes "get_function_index") [.str j]) (.named D))))) { fb with strings := σ' } := by
    have e1 : frontOps.inFunc fb = .ok () fb := by
      show requireFunc true fb = _
      simp [requireFunc, Act.bind_apply, act_get_ok, fb, lineIn, act_pure_ok]
    have e2 : frontOps.valueFunc fb = .ok () fb := by
      show requireValueFunc fb = _
      unfold requireValueFunc
      rw [Act.bind_apply, hcf']
      rfl
    have e3 : nameType frontOps (D, false) { fb with strings := σ' } = .ok (.named D) { fb with strings := σ' } := by
      have := (hDm.more (g := { fb with strings := σ' }) (xs := [.func (lineFunc s.front g [] (.named D))]) rfl).named
      simp only [nameType, Act.bind_apply, show frontOps.named D { fb with strings := σ' } = _ from this, Bool.false_eq_true, if_false]
      rfl
    have e4 : frontOps.str n fb = .ok j { fb with strings := σ' } := k1
    rw [nameStmt, nameStmt, nameExpr, nameExpr, nameExprs, nameExprs, nameExpr]
    simp only [Act.bind_apply, e1, e2, e4, act_pure_ok, e3]
  let f2 : Front := { lineAfter s.front g [] (.named D) σ' with currFunc := .at s.front.syms.length }
  have hgf2 : ∀ f : Front, f.syms = f2.syms → referenceFunction f.syms (bytes "get_function_index") = some (.foreign (bytes "get_function_index") i [.str] false .any) := by
    intro f e
    rw [e]
    unfold referenceFunction at hgf ⊢
    show (s.front.syms ++ _).find? _ = _
    rw [List.find?_append, hgf]
    rfl
  have hy : resolveS (.node 1 (.ret (some (.cast (.call (bytes "get_function_index") [.str j]) (.named D))))) f2 =
      .ok (.node 1 (.ret (some (.cast (.call (bytes "get_function_index") [.str j]) (.named D))))) f2 := by
    have e : currentFunc f2 = .ok (some (lineFunc s.front g [] (.named D))) f2 := by
      unfold currentFunc
      simp [f2, lineAfter]
    have e1 : resolveE f2 (.call (bytes "get_function_index") [.str j]) = .ok (.call (bytes "get_function_index") [.str j], .any) := by
      rw [resolveE, hgf2 f2 rfl]
      simp only [Sym.sig, List.map_cons, List.map_nil]
      rw [resolveArgs, resolveE, Chk.ok_bind]
      simp only
      rw [show checkArg false .str [some .str] = .ok [] from rfl, Chk.ok_bind, resolveArgs]
      rfl
    have e2 : Act.check (fun f => resolveE f (.cast (.call (bytes "get_function_index") [.str j]) (.named D))) f2 =
        .ok (.cast (.call (bytes "get_function_index") [.str j]) (.named D), .named D) f2 := by
      have e3 : resolveE f2 (.cast (.call (bytes "get_function_index") [.str j]) (.named D)) =
          .ok (.cast (.call (bytes "get_function_index") [.str j]) (.named D), .named D) := by
        rw [resolveE, e1, Chk.ok_bind]
        simp
      unfold Act.check
      simp only [e3]
    rw [resolveS, resolveS]
    unfold resolveRet
    simp only [Act.bind_apply, e, e2, lineFunc, show isTagAssignableTo (.named D) (.named D) = true by simp [isTagAssignableTo], if_true]
    rfl
  have hfit : FitE (globalsOf (lineAfter s.front g [] (.named D) σ')) (.call (bytes "get_function_index") [.str j]) := by
    simp only [FitE, FitEs, List.length_cons, List.length_nil, and_true]
    refine ⟨?_, by omega⟩
    unfold globalsOf
    refine ⟨_, by simp only [hgf2 (lineAfter s.front g [] (.named D) σ') rfl, Option.bind_some]; rfl, ?_⟩
    exact .inr rfl
  have hrm : ResultMeans s.front (some (D, false)) (some (.named D)) := ⟨rfl, hDm⟩
  obtain ⟨N, s', ρ, us, nx, rest, a1, a2, a3, a4, a5, a6, a7, a8⟩ := compile_source (E := E) hm hT hc hn hz hlines (fun h hx => prog_create h hx) (ps := []) .nil hrm (by simp) hb hy (by simp [assigned])
    (fun F hF => by simp [GenS, GenE, GenEs]) (by simp only [FitS]; rw [FitE]; exact hfit) hL k2
  exact ⟨N, s', σ', ρ, j, us, nx, rest, a1, a2, a3, a4, a5, List.prefix_append _ _, k3, a6, a7, a8⟩

end Tiny
