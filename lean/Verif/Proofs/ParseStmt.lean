import Verif.Proofs.ParseComplete

/-!
# Every statement and program of the grammar is parsed to its tree
-/

namespace Tiny
open Spec

section
variable {σ V S T F α β : Type} (o : Ops σ V S T F)

theorem params_complete : ∀ {ps : List (Name × SType)} {us : List Tk}, ParamsAre ps us →
    ∀ (K : List (Name × T) → Act (PS σ) β) nx rest s,
      (PPar o >>= fun p => lift (o.params p) >>= fun _ => next >>= fun _ => K p) ⟨us ++ nx :: rest, s⟩ =
        (lift (nameParams o ps) >>= fun p => lift (o.params p) >>= fun _ => K p) ⟨nx :: rest, s⟩ := by
  have key : ∀ {ps : List (Name × SType)} {us : List Tk}, ParamsAre ps us → ∃ vs rp, us = vs ++ [rp] ∧
      ReadsTo (PPar o) vs rp (nameParams o ps) := by
    intro ps us h
    induction h with
    | @nil rp h =>
      refine ⟨[], rp, rfl, fun rest s => ?_⟩
      rw [PPar_eq, List.nil_append, cur_bind, if_pos h]
      rfl
    | @last n c rp ty us h1 h2 ht h3 =>
      refine ⟨n :: c :: us, rp, rfl, fun rest s => ?_⟩
      rw [PPar_eq, List.cons_append, List.cons_append, cur_bind, if_neg (by rw [h1]; decide), expect_bind _ _ _ h1,
        cur_bind, getExpect_bind _ _ _ h2, next_app, (type_complete o ht).bind, nameParams]
      refine lift_then _ fun x s' => ?_
      rw [cur_bind, if_neg (by rw [h3]; decide)]
      dsimp only
      rw [if_neg (by rw [h3]; decide), PPar_eq, bind_assoc, cur_bind, if_pos h3]
      rfl
    | @cons n c cm ty us vs ps h1 h2 ht h3 _ ih =>
      obtain ⟨vs', rp, rfl, ih⟩ := ih
      refine ⟨n :: c :: us ++ cm :: vs', rp, by simp, fun rest s => ?_⟩
      simp only [List.cons_append, List.append_assoc]
      rw [PPar_eq, cur_bind, if_neg (by rw [h1]; decide), expect_bind _ _ _ h1,
        cur_bind, getExpect_bind _ _ _ h2, next_app, (type_complete o ht).bind, nameParams]
      refine lift_then _ fun x s' => ?_
      rw [cur_bind, if_neg (by rw [h3]; decide)]
      dsimp only
      rw [if_pos h3, next_app, ih.bind]
      exact lift_then _ fun y s' => rfl
  intro ps us h K nx rest s
  obtain ⟨vs, rp, rfl, hr⟩ := key h
  rw [List.append_assoc, List.singleton_append, hr.bind]
  refine lift_congr _ fun x s' => lift_congr _ fun y s' => ?_
  rw [next_bind]

theorem ret_complete {r : Option SType} {us : List Tk} {nx : Tk} (h : RetIs r us nx) :
    ReadsTo (parseRet o) us nx (nameRet o r) := by
  intro rest s
  cases h with
  | no h => rw [parseRet, List.nil_append, cur_bind, if_pos h]; rfl
  | yes h ht =>
    rw [parseRet, List.cons_append, cur_bind, if_neg (by rw [h]; decide), next_app, (type_complete o ht).bind]
    exact lift_then _ fun x s' => rfl

theorem useArgs_complete {ns : List Name} {us : List Tk} (h : UseArgs ns us) :
    ∃ vs rp, us = vs ++ [rp] ∧ ReadsTo (PUse (σ := σ)) vs rp (pure ns) := by
  induction h with
  | @nil rp h =>
    refine ⟨[], rp, rfl, fun rest s => ?_⟩
    rw [PUse_eq, List.nil_append, cur_bind, if_pos h]
    rfl
  | @cons t ns us h hu ih =>
    obtain ⟨vs, rp, rfl, ih⟩ := ih
    refine ⟨t :: vs, rp, rfl, fun rest s => ?_⟩
    have hh : (vs.headD rp).kind ≠ .comma := by
      have hh : ∀ {ns us}, UseArgs ns us → ∀ vs rp, us = vs ++ [rp] → (vs.headD rp).kind ≠ .comma := by
        intro ns us hu vs rp he
        cases hu <;> cases vs <;> simp_all
      exact hh hu vs rp rfl
    rw [PUse_eq, List.cons_append, cur_bind, if_neg (by rw [h]; decide), expect_bind _ _ _ h, next_app, cur_head]
    dsimp only
    rw [if_neg hh, ih.bind]
    rfl
  | @comma t c ns us h h' hu ih =>
    obtain ⟨vs, rp, rfl, ih⟩ := ih
    refine ⟨t :: c :: vs, rp, rfl, fun rest s => ?_⟩
    rw [PUse_eq, List.cons_append, List.cons_append, cur_bind, if_neg (by rw [h]; decide), expect_bind _ _ _ h,
      next_bind, cur_bind]
    dsimp only
    rw [if_pos h', next_app, ih.bind]
    rfl

theorem useAs_complete {a : Option Name} {us : List Tk} {nx : Tk} (h : UseAs a us nx) :
    ReadsTo (parseUseAs (σ := σ)) us nx (pure a) := by
  intro rest s
  cases h with
  | no h => rw [parseUseAs, List.nil_append, cur_bind, if_neg h]; rfl
  | @yes a t nx h1 h2 h3 =>
    rw [parseUseAs, List.cons_append, List.singleton_append, cur_bind, if_pos ⟨h1, h2⟩, getExpect_bind _ _ _ h3,
      cur_bind, next_bind]
    rfl

/-- Tokens which can begin a statement. -/
def startsStmt (t : Tok) : Bool :=
  startsExpr t || t == .openCurly || t == .funcTok || t == .whileTok || t == .forTok || t == .returnTok ||
    t == .breakTok || t == .continueTok || t == .useTok

theorem starts_stmt {b : SStmt} {us : List Tk} {nx : Tk} (h : StmtIs b us nx) :
    ∃ t ts, us = t :: ts ∧ startsStmt t.kind = true := by
  cases h with
  | call h _ =>
    obtain ⟨t, ts, rfl, ht⟩ := starts_fac h
    exact ⟨t, ts, rfl, by simp [startsStmt, ht]⟩
  | assign h _ _ _ _ _ _ _ _ =>
    obtain ⟨t, ts, rfl, ht⟩ := starts_fac h
    exact ⟨t, _, rfl, by simp [startsStmt, ht]⟩
  | _ =>
    refine ⟨_, _, rfl, ?_⟩
    simp only [*]
    rfl

/-- A name followed by something which is not `(` is read as a name. -/
theorem id_read {t nx : Tk} (h : t.kind = .ident) (hn : nx.kind ≠ .openParen) (hs : isSuffix nx.kind = false) :
    ReadsTo (PF o) [t] nx (o.ref t.lexeme >>= fun v => pure (.id t.lexeme v, t.line)) := by
  have := (fac_complete o (.val (.id h hn))).read hs
  rw [nameExpr, bind_assoc] at this
  exact this

/-- `parseConst` for something which is not a constant. -/
theorem parseConst_other {op : Tok} (h : op ≠ .declareConst) (l r : PExpr V S T) : parseConst o op l r = pure () := by
  unfold parseConst
  rw [if_neg h]

theorem lit_name {e : SExpr} (h : e.lit.isSome) {s s' : σ} {e' : PExpr V S T} (hn : nameExpr o e s = .ok e' s') :
    ∃ c, e'.lit = some c := by
  cases e <;> simp only [PExpr.lit] at h <;> try (cases h)
  all_goals simp only [nameExpr] at hn
  all_goals try (cases hn; exact ⟨_, rfl⟩)
  rw [Act.bind_apply] at hn
  split at hn <;> cases hn
  exact ⟨_, rfl⟩

theorem lift_congr' (a : Act σ α) {f g : α → Act (PS σ) β} {ts ts' : List Tk} {s : σ}
    (h : ∀ x s', a s = .ok x s' → f x ⟨ts, s'⟩ = g x ⟨ts', s'⟩) : (lift a >>= f) ⟨ts, s⟩ = (lift a >>= g) ⟨ts', s⟩ := by
  simp only [lift, Act.bind_apply]
  cases ha : a s with
  | ok x s' => exact h x s' ha
  | _ => rfl

theorem lift_then' (a : Act σ α) {f : α → Act (PS σ) β} {b : α → Act σ β} {ts ts' : List Tk} {s : σ}
    (h : ∀ x s', a s = .ok x s' → f x ⟨ts, s'⟩ = lift (b x) ⟨ts', s'⟩) :
    (lift a >>= f) ⟨ts, s⟩ = lift (a >>= b) ⟨ts', s⟩ := by
  simp only [lift, Act.bind_apply]
  cases ha : a s with
  | ok x s' => exact h x s' ha
  | _ => rfl

theorem left_not_call {lhs : SExpr} (hl : IsLeft lhs) {s s' : σ} {e' : PExpr V S T}
    (hn : nameExpr o lhs s = .ok e' s') (f : Name) (as : List (PExpr V S T)) : e' ≠ .call f as := by
  rintro rfl
  cases lhs <;> simp only [nameExpr, Act.bind_apply] at hn
  all_goals try exact hl.elim
  all_goals try (cases hn; done)
  all_goals
    repeat' split at hn
  all_goals cases hn

theorem PSimple_call {f : Name} {args : List SExpr} {l : Nat} {us : List Tk} {nx : Tk}
    (h : FacIs (.call f args) l us nx) (hn : isSuffix nx.kind = false) :
    ReadsTo (PSimple o) us nx (nameStmt o (.node l (.call f args))) := by
  intro rest s
  rw [PSimple_eq, ((fac_complete o h).read hn).bind, nameStmt, nameStmt, nameExpr]
  simp only [bind_assoc]
  rw [lift_bind, bind_assoc]
  exact lift_then _ fun x s' => rfl

theorem PSimple_left {lhs : SExpr} (hl : IsLeft lhs) {l : Nat} {us : List Tk} {op : Tk} (h : FacIs lhs l us op)
    (hn : isSuffix op.kind = false) (rest : List Tk) (s : σ) :
    PSimple o ⟨us ++ op :: rest, s⟩ = (lift (nameExpr o lhs) >>= fun l' => PAs o l') ⟨op :: rest, s⟩ := by
  rw [PSimple_eq, ((fac_complete o h).read hn).bind, lift_bind, bind_assoc]
  refine lift_congr' _ fun x s' hx => ?_
  have := left_not_call o hl hx
  rw [lift_pure, pure_bind]
  cases x with
  | call f as => exact absurd rfl (this f as)
  | _ => rfl

theorem PAs_assign {lhs e : SExpr} {vs : List Tk} {op nx : Tk} (hp : level op.kind = none) (h1 : op.kind ≠ .declare)
    (h2 : op.kind ≠ .colon) (hc : op.kind = .declareConst → IsConst lhs e) (he : ExprIs e vs nx)
    (hn : level nx.kind = none) (rest : List Tk) (s : σ) :
    (lift (nameExpr o lhs) >>= fun l' => PAs o l') ⟨op :: (vs ++ nx :: rest), s⟩ =
      lift (nameStmt o (.node op.line (.assign op.kind none lhs e))) ⟨nx :: rest, s⟩ := by
  have hk := prec_of_none hp
  have hs : nameStmt o (.node op.line (.assign op.kind none lhs e)) =
      nameAssign o op.kind lhs e >>= fun s => pure (.node op.line s) := by
    rw [nameStmt]
    congr 1
    cases hk : op.kind <;> first | exact absurd hk h1 | (cases lhs <;> rfl)
  rw [hs, nameAssign]
  simp only [bind_assoc]
  refine lift_then' _ fun l' s' hl' => ?_
  rw [PAs_eq, cur_bind]
  dsimp only
  rw [if_neg (fun h => h.elim h1 h2), pure_bind, if_neg (by dsimp only; omega), next_app]
  refine (((expr_complete o he).read hn).bind _ _ _).trans (lift_then' _ fun r' s' hr' => ?_)
  by_cases hd : op.kind = .declareConst
  · cases lhs with
    | id n v =>
      obtain ⟨c, hc'⟩ := lit_name o (hc hd) hr'
      rw [nameExpr, Act.bind_apply] at hl'
      split at hl' <;> cases hl'
      simp only [hd, parseConst, hc', if_true, bind_assoc]
      exact lift_then _ fun x s' => rfl
    | _ => exact (hc hd).elim
  · rw [parseConst_other o hd]
    cases hk : op.kind <;> first | exact absurd hk hd | rfl

theorem PAs_declare {t d nx : Tk} {e : SExpr} {us : List Tk} (h2 : d.kind = .declare)
    (he : ExprIs e us nx) (hn : level nx.kind = none) (rest : List Tk) (s : σ) :
    (lift (nameExpr o (.id t.lexeme ())) >>= fun l' => PAs o l') ⟨d :: (us ++ nx :: rest), s⟩ =
      lift (nameStmt o (.node d.line (.assign .declare none (.id t.lexeme ()) e))) ⟨nx :: rest, s⟩ := by
  rw [nameStmt, nameStmt, nameDecl, nameExpr, lift_bind]
  simp only [bind_assoc]
  refine lift_then _ fun v s' => ?_
  rw [lift_pure, pure_bind, PAs_eq, cur_bind]
  dsimp only
  rw [if_pos (.inl h2), parseDeclare]
  simp only [bind_assoc]
  refine lift_then _ fun v s' => ?_
  rw [if_neg (by rw [h2]; decide), pure_bind]
  simp only [h2]
  rw [if_neg (by decide), next_app]
  refine (((expr_complete o he).read hn).bind _ _ _).trans (lift_then _ fun r' s' => ?_)
  rw [parseConst_other o (by decide)]
  rfl

theorem PAs_typed {t c q nx : Tk} {ty : SType} {e : SExpr} {us vs : List Tk} (h2 : c.kind = .colon)
    (ht : TypeIs ty us q) (h3 : q.kind = .equal) (he : ExprIs e vs nx) (hn : level nx.kind = none)
    (rest : List Tk) (s : σ) :
    (lift (nameExpr o (.id t.lexeme ())) >>= fun l' => PAs o l') ⟨c :: (us ++ q :: (vs ++ nx :: rest)), s⟩ =
      lift (nameStmt o (.node c.line (.assign .equal (some ty) (.id t.lexeme ()) e))) ⟨nx :: rest, s⟩ := by
  rw [nameStmt, nameStmt, nameDecl, nameExpr, lift_bind]
  simp only [bind_assoc]
  refine lift_then _ fun v s' => ?_
  rw [lift_pure, pure_bind, PAs_eq, cur_bind]
  dsimp only
  rw [if_pos (.inr h2), parseDeclare]
  simp only [bind_assoc]
  refine lift_then _ fun v s' => ?_
  rw [if_pos h2]
  simp only [bind_assoc]
  rw [next_app]
  refine ((type_complete o ht).bind _ _ _).trans (lift_then _ fun ty' s' => lift_then _ fun _ s' => ?_)
  rw [expect_bind _ _ _ h3, pure_bind]
  dsimp only
  rw [if_neg (by decide), next_app]
  refine (((expr_complete o he).read hn).bind _ _ _).trans (lift_then _ fun r' s' => ?_)
  rw [parseConst_other o (by decide)]
  rfl

theorem app_head {vs : List Tk} {nx : Tk} (rest : List Tk) : ∃ ts, vs ++ nx :: rest = vs.headD nx :: ts := by
  cases vs
  · exact ⟨rest, rfl⟩
  · exact ⟨_, rfl⟩

/-- Reading up to the beginning of what follows. -/
theorem ReadsTo.headBind {m : Act (PS σ) α} {us vs : List Tk} {nx : Tk} {a : Act σ α}
    (h : ReadsTo m us (vs.headD nx) a) (f : α → Act (PS σ) β) (rest : List Tk) (s : σ) :
    (m >>= f) ⟨us ++ (vs ++ nx :: rest), s⟩ = (lift a >>= f) ⟨vs ++ nx :: rest, s⟩ := by
  obtain ⟨ts, hts⟩ := app_head (vs := vs) (nx := nx) rest
  rw [hts]
  exact h.bind f ts s

theorem PSt_simple {t : Tk} {ts : List Tk} {s : σ} (h : startsExpr t.kind = true) (hi : t.kind ≠ .ifTok) :
    PSt o ⟨t :: ts, s⟩ = PSimple o ⟨t :: ts, s⟩ := by
  rw [PSt_eq, cur_bind]
  cases hk : t.kind <;> rw [hk] at h hi <;> first | rfl | exact absurd h (by decide) | exact absurd rfl hi

theorem fac_if {e : SExpr} {l : Nat} {us : List Tk} {nx : Tk} (h : FacIs e l us nx) :
    ∀ t ts, us = t :: ts → t.kind = .ifTok → (∃ c a b, e = .ite c a b) ∧ isSuffix nx.kind = false := by
  refine FacIs.rec (motive_1 := fun _ _ _ _ _ => True)
    (motive_2 := fun e _ us nx _ => ∀ t ts, us = t :: ts → t.kind = .ifTok →
      (∃ c a b, e = .ite c a b) ∧ isSuffix nx.kind = false)
    (motive_3 := fun _ _ nx _ => isSuffix nx.kind = false) (motive_4 := fun _ _ _ => True)
    (motive_5 := fun _ _ _ _ => True)
    ?_ ?_ ?_ ?_ ?_ ?_ ?_ ?_ ?_ ?_ ?_ ?_ ?_ ?_ ?_ ?_ ?_ ?_ ?_ ?_ ?_ ?_ ?_ ?_ ?_ h
  all_goals try (intros; trivial)
  · intro e l us nx h _ t ts hu ht
    cases h
    case ite h6 _ =>
      cases hu
      refine ⟨⟨_, _, _, rfl⟩, ?_⟩
      have : ∀ {e us nx}, ExprIs e us nx → isSuffix nx.kind = false := by
        intro e us nx h
        refine ExprIs.rec (motive_1 := fun _ _ _ _ _ => True) (motive_2 := fun _ _ _ _ _ => True)
          (motive_3 := fun _ _ nx _ => isSuffix nx.kind = false)
          (motive_4 := fun _ _ _ => True) (motive_5 := fun _ _ _ _ => True)
          ?_ ?_ ?_ ?_ ?_ ?_ ?_ ?_ ?_ ?_ ?_ ?_ ?_ ?_ ?_ ?_ ?_ ?_ ?_ ?_ ?_ ?_ ?_ ?_ ?_ h
        all_goals try (intros; trivial)
        all_goals (intros; assumption)
      exact this h6
    all_goals (cases hu; simp_all)
  · rintro e l us d f nx hf h1 h2 ih t ts hu ht
    obtain ⟨u, us', rfl, -⟩ := starts_fac hf
    cases hu
    have := (ih _ _ rfl ht).2
    rw [h1] at this
    exact absurd this (by decide)
  · rintro e i l us vs b rb nx hf h1 - - ih - t ts hu ht
    obtain ⟨u, us', rfl, -⟩ := starts_fac hf
    cases hu
    have := (ih _ _ rfl ht).2
    rw [h1] at this
    exact absurd this (by decide)
  · rintro e l us vs a f lp nx args hf h1 - - - ih - t ts hu ht
    obtain ⟨u, us', rfl, -⟩ := starts_fac hf
    cases hu
    have := (ih _ _ rfl ht).2
    rw [h1] at this
    exact absurd this (by decide)
  all_goals (intros; assumption)

mutual
theorem stmt_complete : ∀ {b : SStmt} {us : List Tk} {nx : Tk}, StmtIs b us nx →
    ReadsTo (PSt o) us nx (nameStmt o b)
  | _, _, nx, .block (t := t) (rc := rc) (us := us) h hs h' => by
    intro rest s
    rw [PSt_eq, List.append_assoc, List.cons_append, cur_bind]
    simp only [h]
    rw [List.singleton_append, next_app, nameStmt, nameStmt]
    simp only [bind_assoc]
    refine lift_then _ fun _ s' => ?_
    refine ((stmts_complete hs h').bind _ _ _).trans (lift_then _ fun ss s' => ?_)
    rw [next_bind]
    exact lift_then _ fun x s' => rfl
  | _, _, nx, .func (t := t) (m := m) (lp := lp) (ps := ps) (us := us) (vs := vs) (ws := ws) h h1 h2 hp hr hb => by
    intro rest s
    rw [PSt_eq]
    simp only [List.cons_append, List.append_assoc]
    rw [cur_bind]
    simp only [h]
    rw [nameStmt, nameStmt]
    simp only [bind_assoc]
    refine lift_then _ fun _ s' => ?_
    rw [getExpect_bind _ _ _ h1, cur_bind]
    refine lift_then _ fun f s' => ?_
    obtain ⟨w, ws', rfl, -⟩ := starts_stmt hb
    have happ : vs ++ (w :: ws' ++ nx :: rest) = (vs ++ w :: ws') ++ nx :: rest := by simp
    obtain ⟨ts, hts⟩ := app_head (vs := vs) (nx := w) (ws' ++ nx :: rest)
    rw [getExpect_bind _ _ _ h2]
    have hts' : us ++ (vs ++ (w :: ws' ++ nx :: rest)) = us ++ vs.headD w :: ts := by rw [← hts]; rfl
    rw [hts', next_app]
    refine (params_complete o hp _ _ _ _).trans (lift_then _ fun ps' s' => lift_then _ fun _ s' => ?_)
    rw [← hts]
    refine ((ret_complete o hr).bind _ _ _).trans (lift_then _ fun r s' => lift_then _ fun _ s' => lift_then _ fun _ s' => ?_)
    refine ((stmt_complete hb).bind _ _ _).trans (lift_then _ fun r s' => lift_then _ fun _ s' => lift_then _ fun _ s' => ?_)
    rfl
  | _, _, nx, .ifThen (t := t) (us := us) (vs := vs) h hc hl hb hn => by
    intro rest s
    rw [PSt_eq, List.append_assoc, List.cons_append, cur_bind]
    simp only [h]
    rw [← List.append_assoc, next_app, List.append_assoc, nameStmt, nameStmt]
    simp only [bind_assoc]
    refine (((expr_complete o hc).read hl).headBind _ _ _).trans (lift_then _ fun c s' => ?_)
    refine ((stmt_complete hb).bind _ _ _).trans (lift_then _ fun b s' => ?_)
    rw [cur_bind, if_neg hn]
    rfl
  | _, _, nx, .ifElse (t := t) (el := el) (us := us) (vs := vs) (ws := ws) h hc hl hb he ha => by
    intro rest s
    rw [PSt_eq]
    simp only [List.cons_append, List.append_assoc]
    rw [cur_bind]
    simp only [h]
    rw [← List.append_assoc, next_app, List.append_assoc, nameStmt, nameStmt]
    simp only [bind_assoc]
    refine (((expr_complete o hc).read hl).headBind _ _ _).trans (lift_then _ fun c s' => ?_)
    refine ((stmt_complete hb).bind _ _ _).trans (lift_then _ fun b s' => ?_)
    rw [cur_bind, if_pos he, next_app]
    refine ((stmt_complete ha).bind _ _ _).trans (lift_then _ fun b s' => ?_)
    rfl
  | _, _, nx, .while (t := t) (us := us) (vs := vs) h hc hl hb => by
    intro rest s
    obtain ⟨u, us', rfl, -⟩ := starts_expr hc
    rw [PSt_eq, List.append_assoc, List.cons_append, cur_bind]
    simp only [h]
    rw [← List.append_assoc, next_app, List.append_assoc, nameStmt, nameStmt, List.cons_append, cur_bind,
      ← List.cons_append]
    simp only [bind_assoc]
    refine (((expr_complete o hc).read hl).headBind _ _ _).trans (lift_then _ fun c s' => lift_then _ fun _ s' => ?_)
    refine ((stmt_complete hb).bind _ _ _).trans (lift_then _ fun b s' => lift_then _ fun _ s' => ?_)
    rfl
  | _, _, nx, .for (t := t) (s1 := s1) (s2 := s2) (us := us) (vs := vs) (ws := ws) (xs := xs) h hi h1 hc h2 hs hb => by
    intro rest s
    obtain ⟨u, us', rfl, -⟩ := starts_stmt hi
    rw [PSt_eq]
    simp only [List.cons_append, List.append_assoc]
    rw [cur_bind]
    simp only [h]
    rw [next_bind, cur_bind, nameStmt, nameStmt]
    simp only [bind_assoc]
    refine lift_then _ fun _ s' => ?_
    refine ((stmt_complete hi).bind _ _ _).trans (lift_then _ fun b s' => ?_)
    rw [expect_bind _ _ _ h1, next_app]
    refine ((exprSemi (expr_complete o hc) h2).bind _ _ _).trans (lift_then _ fun b s' => ?_)
    rw [expect_bind _ _ _ h2, ← List.append_assoc, next_app, List.append_assoc]
    refine ((stmt_complete hs).headBind _ _ _).trans (lift_then _ fun b s' => ?_)
    refine ((stmt_complete hb).bind _ _ _).trans (lift_then _ fun b s' => lift_then _ fun _ s' => ?_)
    rfl
  | _, _, nx, .retNone (t := t) (s := se) h h' => by
    intro rest s
    rw [PSt_eq, List.cons_append, List.singleton_append, cur_bind]
    simp only [h]
    rw [nameStmt, nameStmt, bind_assoc]
    refine lift_then _ fun _ s' => ?_
    rw [next_bind, cur_bind, if_pos h', next_bind]
    rfl
  | _, _, nx, .ret (t := t) (us := us) h he hn => by
    intro rest s
    obtain ⟨u, us', rfl, hu⟩ := starts_expr he
    rw [PSt_eq, List.cons_append, cur_bind]
    simp only [h]
    rw [nameStmt, nameStmt]
    simp only [bind_assoc]
    refine lift_then _ fun _ s' => ?_
    rw [next_app, List.cons_append, cur_bind, if_neg, ← List.cons_append]
    · refine lift_then _ fun _ s' => ?_
      exact (((expr_complete o he).read hn).bind _ _ _).trans (lift_then _ fun b s' => rfl)
    · intro hk
      rw [hk] at hu
      exact absurd hu (by decide)
  | _, _, nx, .brk (t := t) h => by
    intro rest s
    rw [PSt_eq, List.singleton_append, cur_bind]
    simp only [h]
    rfl
  | _, _, nx, .cont (t := t) h => by
    intro rest s
    rw [PSt_eq, List.singleton_append, cur_bind]
    simp only [h]
    rfl
  | _, _, nx, .use (t := t) (m := m) (lp := lp) (us := us) (vs := vs) h h1 h2 hu ha => by
    intro rest s
    obtain ⟨us', rp, rfl, hu'⟩ := useArgs_complete (σ := σ) hu
    rw [PSt_eq]
    simp only [List.cons_append, List.append_assoc, List.nil_append]
    rw [cur_bind]
    simp only [h]
    rw [nameStmt, nameStmt, bind_assoc]
    refine lift_then _ fun _ s' => ?_
    rw [getExpect_bind _ _ _ h1, cur_bind, getExpect_bind _ _ _ h2, next_app, hu'.bind, lift_pure, pure_bind, next_app,
      (useAs_complete ha).bind]
    rfl
  | _, _, nx, .call (us := us) h hn => by
    intro rest s
    obtain ⟨u, us', rfl, hu⟩ := starts_fac h
    have := PSimple_call o h hn rest s
    rw [List.cons_append] at this ⊢
    rw [PSt_simple o hu, this]
    intro hk
    obtain ⟨⟨_, _, _, h⟩, -⟩ := fac_if h _ _ rfl hk
    cases h
  | _, _, nx, .declare (t := t) (d := d) (us := us) h1 h2 he hn => by
    intro rest s
    have hd : isSuffix d.kind = false := by rw [h2]; rfl
    have h := PSimple_left o (lhs := .id t.lexeme ()) trivial (us := [t]) (.val (.id h1 (by rw [h2]; decide))) hd
      (us ++ nx :: rest) s
    rw [List.cons_append, PSt_simple o (by rw [h1]; rfl) (by rw [h1]; decide), List.cons_append]
    exact h.trans (PAs_declare o h2 he hn rest s)
  | _, _, nx, .typed (t := t) (c := c) (q := q) (us := us) (vs := vs) h1 h2 ht h3 he hn => by
    intro rest s
    have hd : isSuffix c.kind = false := by rw [h2]; rfl
    have h := PSimple_left o (lhs := .id t.lexeme ()) trivial (us := [t]) (.val (.id h1 (by rw [h2]; decide))) hd
      (us ++ q :: (vs ++ nx :: rest)) s
    simp only [List.cons_append, List.append_assoc]
    rw [PSt_simple o (by rw [h1]; rfl) (by rw [h1]; decide)]
    exact h.trans (PAs_typed o h2 ht h3 he hn rest s)
  | _, _, nx, .assign (us := us) (vs := vs) (op := op) h hn hl hp h1 h2 hc he hn' => by
    intro rest s
    obtain ⟨u, us', rfl, hu⟩ := starts_fac h
    have h' := PSimple_left o hl h hn (vs ++ nx :: rest) s
    simp only [List.cons_append, List.append_assoc] at h' ⊢
    rw [PSt_simple o hu, h']
    · exact PAs_assign o hp h1 h2 hc he hn' rest s
    · intro hk
      obtain ⟨⟨_, _, _, h⟩, -⟩ := fac_if h _ _ rfl hk
      subst h
      exact hl
theorem stmts_complete : ∀ {ss : List SStmt} {us : List Tk} {nx : Tk}, StmtsAre ss us nx → nx.kind = .closeCurly →
    ReadsTo (PBl o) us nx (nameStmts o ss)
  | _, _, nx, .nil, hn => by
    intro rest s
    rw [PBl_eq, List.nil_append, cur_bind, if_pos hn]
    rfl
  | _, _, nx, .cons (us := us) (vs := vs) hb hs, hn => by
    intro rest s
    obtain ⟨u, us', rfl, hu⟩ := starts_stmt hb
    rw [PBl_eq, List.append_assoc, List.cons_append, cur_bind, if_neg, ← List.cons_append, nameStmts]
    · refine ((stmt_complete hb).headBind _ _ _).trans (lift_then _ fun b s' => ?_)
      exact ((stmts_complete hs hn).bind _ _ _).trans (lift_then _ fun b s' => rfl)
    · intro hk
      rw [hk] at hu
      exact absurd hu (by decide)
end

theorem fields_complete (n : Name) {fs : List (Name × SType)} {us : List Tk} {nx : Tk} (h : FieldsAre fs us nx)
    (hn : nx.kind = .closeCurly) : ReadsTo (PFld o n) us nx (nameFields o n fs) := by
  induction h with
  | nil =>
    intro rest s
    rw [PFld_eq, List.nil_append, cur_bind, if_pos hn]
    rfl
  | @cons m c nx ty fs us vs h1 h2 ht hf ih =>
    intro rest s
    simp only [List.cons_append, List.append_assoc]
    rw [PFld_eq, cur_bind, if_neg (by rw [h1]; decide), expect_bind _ _ _ h1, cur_bind, nameFields]
    refine lift_then _ fun _ s' => ?_
    rw [getExpect_bind _ _ _ h2, ← List.append_assoc, next_app, List.append_assoc]
    refine ((type_complete o ht).headBind _ _ _).trans (lift_then _ fun b s' => lift_then _ fun _ s' => ?_)
    exact ((ih hn).bind _ _ _).trans (lift_then _ fun b s' => rfl)

theorem prog_complete {ss : List SStmt} {us : List Tk} {nx : Tk} (h : ProgIs ss us nx) :
    ReadsTo (PIt o) us nx (nameStmts o ss) := by
  induction h with
  | nil hn =>
    intro rest s
    rw [PIt_eq, List.nil_append, cur_bind, if_pos hn]
    rfl
  | @stmt b ss us vs nx hb hs ih =>
    intro rest s
    obtain ⟨u, us', rfl, hu⟩ := starts_stmt hb
    rw [PIt_eq, List.append_assoc, List.cons_append, cur_bind, if_neg, ← List.cons_append, nameStmts]
    · dsimp only
      rw [if_neg]
      · refine ((stmt_complete o hb).headBind _ _ _).trans (lift_then _ fun b s' => ?_)
        exact (ih.bind _ _ _).trans (lift_then _ fun b s' => rfl)
      · intro hk
        rw [hk] at hu
        exact absurd hu (by decide)
    · intro hk
      rw [hk] at hu
      exact absurd hu (by decide)
  | @struct t m lc rc nx fs ss us vs h h1 h2 hf h3 hs ih =>
    intro rest s
    simp only [List.cons_append, List.append_assoc]
    rw [PIt_eq, cur_bind, if_neg (by rw [h]; decide)]
    dsimp only
    rw [if_pos h, PStr_eq, nameStmts, nameStmt]
    simp only [bind_assoc]
    refine lift_then _ fun _ s' => ?_
    rw [getExpect_bind _ _ _ h1, cur_bind]
    refine lift_then _ fun _ s' => ?_
    rw [getExpect_bind _ _ _ h2, next_app]
    refine ((fields_complete o _ hf h3).bind _ _ _).trans (lift_then _ fun b s' => ?_)
    rw [next_app]
    refine lift_then _ fun _ s' => ?_
    exact (ih.bind _ _ _).trans (lift_then _ fun b s' => rfl)

end

end Tiny
