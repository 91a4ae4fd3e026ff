import Verif.Proofs.ParseSafe

/-!
# Statements and programs: termination and phases
-/

namespace Tiny

section
variable {σ V S T F α β : Type} {L : Name → Prop} {A : Prop} {E : σ → Prop} {ph : Phase V → σ → Prop} {o : Ops σ V S T F}
variable (hO : OpsSafe L A E ph o)
include hO

theorem safe_expr' {ts : List Tk} {s : σ} {b : Bool} (ht : TailL L ts) (hs : ph (.stmt b) s) :
    Safe A E (PE o) ⟨ts, s⟩ fun _ q => Fine L ph (.stmt b) ts.length q :=
  (safeE hO (ts.length + 1)).expr ht (Nat.lt_succ_self _) hs

theorem safe_fac' {ts : List Tk} {s : σ} {b : Bool} (ht : TailL L ts) (hs : ph (.stmt b) s) :
    Safe A E (PF o) ⟨ts, s⟩ fun _ q => Fine L ph (.stmt b) ts.length q :=
  (safeE hO (ts.length + 1)).fac ht (Nat.lt_succ_self _) hs

/-- An expression cannot begin with a sticky token. -/
theorem PE_sticky {t : Tk} {ts : List Tk} {s : σ} {b : Bool} (h : sticky t.kind) (hs : ph (.stmt b) s)
    {Q : PExpr V S T → PS σ → Prop} : Safe A E (PE o) ⟨t :: ts, s⟩ Q := by
  rw [PE_eq, PF_eq, PV_eq]
  refine Safe.bind (Q := fun _ _ => False) ?_ fun _ _ h => h.elim
  refine Safe.bind (Q := fun _ _ => False) ?_ fun _ _ h => h.elim
  refine Safe.cur ?_
  rcases h with h | h <;> simp only [h] <;> exact Safe.reject (hO.err _ _ hs)

theorem safe_params (n : Nat) : ∀ {ts : List Tk} {s : σ}, TailL L ts → ts.length < n → ph .header s →
    Safe A E (PPar o) ⟨ts, s⟩ fun _ q =>
      Fine L ph .header (ts.length + 1) q ∧ ∃ t ts', q.toks = t :: ts' ∧ t.kind = .closeParen := by
  induction n with
  | zero => intros; omega
  | succ n ih =>
    intro ts s ht hn hs
    obtain ⟨t, ts, rfl⟩ := ht.cons
    rw [PPar_eq]
    refine Safe.cur ?_
    by_cases hc : t.kind = .closeParen
    · rw [if_pos hc]
      exact Safe.pure ⟨⟨ht, by simp, hs⟩, t, ts, rfl, hc⟩
    rw [if_neg hc]
    refine Safe.expect (hO.err _ _ hs) fun hk => Safe.cur (Safe.getExpect (hO.err _ _ hs) ht fun c us hcu hck => ?_)
    subst hcu
    have h1 := ht.tail (nostick hk (by decide))
    refine Safe.skip h1 (nostick hck (by decide)) fun h2 _ => ?_
    refine (safe_type hO h2 hs).bind ?_
    rintro ty ⟨qt, s1⟩ ⟨h3, h4, h5⟩
    obtain ⟨v, vs, rfl⟩ := h3.cons
    refine Safe.cur ?_
    by_cases hm : v.kind = .comma
    · rw [if_neg (by rw [hm]; decide)]
      dsimp only
      rw [if_pos hm]
      refine Safe.skip h3 (nostick hm (by decide)) fun h6 _ => ?_
      refine (ih h6 (by simp at hn h4 ⊢; omega) h5).bind ?_
      rintro e ⟨qt, s2⟩ ⟨⟨h7, h8, h9⟩, h10⟩
      exact Safe.pure ⟨⟨h7, by simp at h4 h8 ⊢; omega, h9⟩, h10⟩
    by_cases hc' : v.kind = .closeParen
    · rw [if_neg (by rw [hc']; decide)]
      dsimp only
      rw [if_neg hm]
      refine (ih h3 (by simp at hn h4 ⊢; omega) h5).bind ?_
      rintro e ⟨qt, s2⟩ ⟨⟨h7, h8, h9⟩, h10⟩
      exact Safe.pure ⟨⟨h7, by simp at h4 h8 ⊢; omega, h9⟩, h10⟩
    · rw [if_pos ⟨hc', hm⟩]
      exact Safe.reject (hO.err _ _ h5)

theorem safe_ret {ts : List Tk} {s : σ} (ht : TailL L ts) (hs : ph .header s) :
    Safe A E (parseRet o) ⟨ts, s⟩ fun _ q => Fine L ph .header (ts.length + 1) q := by
  obtain ⟨t, ts, rfl⟩ := ht.cons
  rw [parseRet]
  refine Safe.cur ?_
  by_cases hc : t.kind = .colon
  · rw [if_neg (by simp [hc])]
    refine Safe.skip ht (nostick hc (by decide)) fun h1 _ => ?_
    refine (safe_type hO h1 hs).bind ?_
    rintro ty ⟨qt, s1⟩ ⟨h3, h4, h5⟩
    exact Safe.pure ⟨h3, by simp at h4 ⊢; omega, h5⟩
  · rw [if_pos hc]
    exact Safe.pure ⟨ht, by simp, hs⟩

theorem safe_use {b : Bool} (n : Nat) : ∀ {ts : List Tk} {s : σ}, TailL L ts → ts.length < n → ph (.stmt b) s →
    Safe A E PUse ⟨ts, s⟩ fun _ q =>
      Fine L ph (.stmt b) (ts.length + 1) q ∧ ∃ t ts', q.toks = t :: ts' ∧ t.kind = .closeParen := by
  induction n with
  | zero => intros; omega
  | succ n ih =>
    intro ts s ht hn hs
    obtain ⟨t, ts, rfl⟩ := ht.cons
    rw [PUse_eq]
    refine Safe.cur ?_
    by_cases hc : t.kind = .closeParen
    · rw [if_pos hc]
      exact Safe.pure ⟨⟨ht, by simp, hs⟩, t, ts, rfl, hc⟩
    rw [if_neg hc]
    refine Safe.expect (hO.err _ _ hs) fun hk => Safe.skip ht (nostick hk (by decide)) fun h1 _ => ?_
    obtain ⟨u, us, rfl⟩ := h1.cons
    refine Safe.cur ?_
    dsimp only
    by_cases hm : u.kind = .comma
    · rw [if_pos hm]
      refine Safe.skip h1 (nostick hm (by decide)) fun h2 _ => ?_
      refine (ih h2 (by simp at hn ⊢; omega) hs).bind ?_
      rintro e ⟨qt, s2⟩ ⟨⟨h7, h8, h9⟩, h10⟩
      exact Safe.pure ⟨⟨h7, by simp at h8 ⊢; omega, h9⟩, h10⟩
    · rw [if_neg hm]
      refine (ih h1 (by simp at hn ⊢; omega) hs).bind ?_
      rintro e ⟨qt, s2⟩ ⟨⟨h7, h8, h9⟩, h10⟩
      exact Safe.pure ⟨⟨h7, by simp at h8 ⊢; omega, h9⟩, h10⟩

theorem safe_useAs {b : Bool} {ts : List Tk} {s : σ} (ht : TailL L ts) (hs : ph (.stmt b) s) :
    Safe A E parseUseAs ⟨ts, s⟩ fun _ q => Fine L ph (.stmt b) (ts.length + 1) q := by
  obtain ⟨t, ts, rfl⟩ := ht.cons
  rw [parseUseAs]
  refine Safe.cur ?_
  by_cases hc : t.kind = .ident ∧ t.lexeme = nameOf "as"
  · rw [if_pos hc]
    refine Safe.getExpect (hO.err _ _ hs) ht fun u us hu huk => ?_
    subst hu
    have h1 := ht.tail (nostick hc.1 (by decide))
    refine Safe.cur (Safe.skip h1 (nostick huk (by decide)) fun h2 _ => Safe.pure ⟨h2, by simp; omega, hs⟩)
  · rw [if_neg hc]
    exact Safe.pure ⟨ht, by simp, hs⟩

theorem safe_const {b : Bool} {ts : List Tk} {s : σ} {op : Tok} {l r : PExpr V S T} (hs : ph (.stmt b) s) :
    Safe A E (parseConst o op l r) ⟨ts, s⟩ fun _ q => q.toks = ts ∧ ph (.stmt b) q.st := by
  unfold parseConst
  by_cases hd : op = .declareConst
  · rw [if_pos hd]
    cases l with
    | id n v =>
      cases hl : r.lit with
      | none => exact Safe.reject (hO.err _ _ hs)
      | some c =>
        have := Safe.lift (f := fun x => (pure x : Act (PS σ) Unit)) (ts := ts) (hO.const n c b) hs
          (R := fun _ q => q.toks = ts ∧ ph (.stmt b) q.st) fun x s' hs' => Safe.pure ⟨rfl, hs'⟩
        rw [bind_pure] at this
        exact this
    | _ => exact Safe.reject (hO.err _ _ hs)
  · rw [if_neg hd]
    exact Safe.pure ⟨rfl, hs⟩

/-- The end of an assignment: operator, right side. -/
theorem safe_rhs {b : Bool} {t : Tk} {ts : List Tk} {s : σ} {k : Tok} {l : PExpr V S T} {ann : Option T} {line : Nat}
    (ht : TailL L (t :: ts)) (hs : ph (.stmt b) s) :
    Safe A E (do
      next
      let rhs ← PE o
      parseConst o k l rhs
      pure (.node line (.assign k ann l rhs)) : Act (PS σ) (PStmt V S T F)) ⟨t :: ts, s⟩
      fun _ q => Fine L ph (.stmt b) ts.length q := by
  rcases ht.split with h | ⟨-, c, d, rfl, hc, -⟩
  · refine Safe.next ht fun u us hu => ?_
    subst hu
    refine (safe_expr' hO h hs).bind ?_
    rintro r ⟨qt, s1⟩ ⟨h1, h2, h3⟩
    refine (safe_const hO h3).bind ?_
    rintro r ⟨qt', s2⟩ ⟨h4, h5⟩
    cases h4
    exact Safe.pure ⟨h1, h2, h5⟩
  · refine Safe.next ht fun u us hu => ?_
    cases hu
    exact Safe.bind (PE_sticky hO hc hs (Q := fun _ _ => False)) fun _ _ h => h.elim

theorem safe_assign {b : Bool} {ts : List Tk} {s : σ} {l : PExpr V S T} (ht : TailL L ts) (hs : ph (.stmt b) s) :
    Safe A E (PAs o l) ⟨ts, s⟩ fun _ q => Fine L ph (.stmt b) ts.length q := by
  obtain ⟨t, ts, rfl⟩ := ht.cons
  rw [PAs_eq]
  refine Safe.cur ?_
  dsimp only
  have fin : ∀ {n : Nat} {q : PS σ}, Fine L ph (.stmt b) n q → n ≤ (t :: ts).length →
      Fine L ph (.stmt b) (t :: ts).length q := fun h hn => ⟨h.1, Nat.lt_of_lt_of_le h.2.1 hn, h.2.2⟩
  by_cases hd : t.kind = .declare ∨ t.kind = .colon
  · rw [if_pos hd]
    unfold parseDeclare
    cases l with
    | id nm v =>
      dsimp only
      simp only [bind_assoc]
      refine Safe.lift (hO.declare nm b) hs fun w s1 hs1 => ?_
      by_cases hc : t.kind = .colon
      · rw [if_pos hc]
        simp only [bind_assoc]
        refine Safe.skip ht (nostick hc (by decide)) fun h1 _ => ?_
        refine (safe_type hO h1 hs1).bind ?_
        rintro ty ⟨qt, s2⟩ ⟨h2, h3, h4⟩
        obtain ⟨u, us, rfl⟩ := h2.cons
        refine Safe.lift (hO.setTag b w ty) h4 fun _ s3 hs3 => ?_
        refine Safe.expect (hO.err _ _ hs3) fun hu => ?_
        rw [pure_bind]
        dsimp only
        rw [if_neg (by decide)]
        exact (safe_rhs hO h2 (hO.declared _ _ _ hs3)).imp fun _ q hq => fin hq (by simp at h3 ⊢; omega)
      · rw [if_neg hc, pure_bind]
        dsimp only
        rw [if_neg (by rw [hd.resolve_right hc]; decide)]
        exact (safe_rhs hO ht (hO.declared _ _ _ hs1)).imp fun _ q hq => fin hq (by simp)
    | _ => exact Safe.bind (Safe.reject (Q := fun _ _ => False) (hO.err _ _ hs)) fun _ _ h => h.elim
  · rw [if_neg hd, pure_bind]
    dsimp only
    by_cases hp : 0 ≤ tokenPrec t.kind
    · rw [if_pos hp]; exact Safe.reject (hO.err _ _ hs)
    · rw [if_neg hp]
      exact (safe_rhs hO ht hs).imp fun _ q hq => fin hq (by simp)

theorem safe_simple {b : Bool} {ts : List Tk} {s : σ} (ht : TailL L ts) (hs : ph (.stmt b) s) :
    Safe A E (PSimple o) ⟨ts, s⟩ fun _ q => Fine L ph (.stmt b) ts.length q := by
  rw [PSimple_eq]
  refine (safe_fac' hO ht hs).bind ?_
  rintro ⟨l, line⟩ ⟨qt, s1⟩ ⟨h1, h2, h3⟩
  by_cases hc : ∃ f as, l = .call f as
  · obtain ⟨f, as, rfl⟩ := hc
    exact Safe.pure ⟨h1, h2, h3⟩
  · have : Safe A E (PAs o l) ⟨qt, s1⟩ fun _ q => Fine L ph (.stmt b) ts.length q :=
      (safe_assign hO h1 h3).imp fun _ q hq => ⟨hq.1, Nat.lt_trans hq.2.1 h2, hq.2.2⟩
    cases l <;> first | exact this | exact absurd ⟨_, _, rfl⟩ hc

structure SafeS (L : Name → Prop) (A : Prop) (E : σ → Prop) (ph : Phase V → σ → Prop) (o : Ops σ V S T F) (n : Nat) : Prop where
  stmt : ∀ {ts : List Tk} {s : σ} {b}, TailL L ts → ts.length < n → ph (.stmt b) s →
    Safe A E (PSt o) ⟨ts, s⟩ fun _ q => Fine L ph (.stmt b) ts.length q
  block : ∀ {ts : List Tk} {s : σ} {b}, TailL L ts → ts.length < n → ph (.stmt b) s →
    Safe A E (PBl o) ⟨ts, s⟩ fun _ q => Fine L ph (.stmt b) (ts.length + 1) q ∧ ∃ t ts', q.toks = t :: ts' ∧ t.kind = .closeCurly

variable {n : Nat} (ih : SafeS L A E ph o n)
include ih

theorem safe_stmt {ts : List Tk} {s : σ} {b : Bool} (ht : TailL L ts) (hn : ts.length < n + 1) (hs : ph (.stmt b) s) :
    Safe A E (PSt o) ⟨ts, s⟩ fun _ q => Fine L ph (.stmt b) ts.length q := by
  obtain ⟨t, ts, rfl⟩ := ht.cons
  rw [PSt_eq]
  refine Safe.cur ?_
  cases hk : t.kind
  all_goals dsimp only
  all_goals try exact safe_simple hO ht hs
  all_goals have h0 : ¬ sticky t.kind := by rw [hk]; decide
  case openCurly =>
    refine Safe.skip ht h0 fun h1 _ => Safe.lift (hO.openScope b) hs fun _ s1 hs1 => ?_
    refine (ih.block h1 (by simp at hn ⊢; omega) hs1).bind ?_
    rintro e ⟨qt, s2⟩ ⟨⟨h7, h8, h9⟩, v, vs, hv, hvk⟩
    cases hv
    refine Safe.skip h7 (nostick hvk (by decide)) fun h10 _ => Safe.lift (hO.closeScope b) h9 fun _ s3 hs3 => ?_
    exact Safe.pure ⟨h10, by simp at h8 ⊢; omega, hs3⟩
  case funcTok =>
    refine Safe.lift (hO.noFunc b) hs fun _ s1 hs1 => ?_
    obtain ⟨rfl, hs1⟩ := hs1
    refine Safe.getExpect (hO.err _ _ hs1) ht fun m us hm hmk => Safe.cur ?_
    subst hm
    have h1 := ht.tail h0
    refine Safe.lift (hO.beginFunc _) hs1 fun f s2 hs2 => Safe.getExpect (hO.err _ _ hs2) h1 fun lp us hlp hlpk => ?_
    subst hlp
    have h2 := h1.tail (nostick hmk (by decide))
    refine Safe.skip h2 (nostick hlpk (by decide)) fun h3 _ => ?_
    refine (safe_params hO _ h3 (Nat.lt_succ_self _) hs2).bind ?_
    rintro ps ⟨qt, s3⟩ ⟨⟨h4, h5, h6⟩, v, vs, hv, hvk⟩
    cases hv
    refine Safe.lift (hO.params ps) h6 fun _ s4 hs4 => Safe.skip h4 (nostick hvk (by decide)) fun h7 _ => ?_
    refine (safe_ret hO h7 hs4).bind ?_
    rintro r ⟨qt, s5⟩ ⟨h8, h9, h10⟩
    refine Safe.lift (hO.setRet r) h10 fun _ s6 hs6 => Safe.lift (hO.openScope true) hs6 fun _ s7 hs7 => ?_
    refine (ih.stmt h8 (by simp at hn h5 h9 ⊢; omega) hs7).bind ?_
    rintro body ⟨qt, s8⟩ ⟨h11, h12, h13⟩
    refine Safe.lift (hO.closeScope true) h13 fun _ s9 hs9 => Safe.lift hO.endFunc hs9 fun _ s10 hs10 => ?_
    exact Safe.pure ⟨h11, by simp at h5 h9 h12 ⊢; omega, hs10⟩
  case ifTok =>
    refine Safe.skip ht h0 fun h1 _ => ?_
    refine (safe_expr' hO h1 hs).bind ?_
    rintro c ⟨qt, s1⟩ ⟨h2, h3, h4⟩
    refine (ih.stmt h2 (by simp at hn h3 ⊢; omega) h4).bind ?_
    rintro bd ⟨qt, s2⟩ ⟨h5, h6, h7⟩
    obtain ⟨v, vs, rfl⟩ := h5.cons
    refine Safe.cur ?_
    by_cases hel : v.kind = .elseTok
    · rw [if_pos hel]
      refine Safe.skip h5 (nostick hel (by decide)) fun h8 _ => ?_
      refine (ih.stmt h8 (by simp at hn h3 h6 ⊢; omega) h7).bind ?_
      rintro bd ⟨qt, s3⟩ ⟨h9, h10, h11⟩
      exact Safe.pure ⟨h9, by simp at h3 h6 h10 ⊢; omega, h11⟩
    · rw [if_neg hel]
      exact Safe.pure ⟨h5, by simp at h3 h6 ⊢; omega, h7⟩
  case whileTok =>
    refine Safe.skip ht h0 fun h1 _ => ?_
    obtain ⟨u, us, rfl⟩ := h1.cons
    refine Safe.cur ((safe_expr' hO h1 hs).bind ?_)
    rintro c ⟨qt, s1⟩ ⟨h2, h3, h4⟩
    refine Safe.lift (hO.openScope b) h4 fun _ s2 hs2 => ?_
    refine (ih.stmt h2 (by simp at hn h3 ⊢; omega) hs2).bind ?_
    rintro bd ⟨qt, s3⟩ ⟨h5, h6, h7⟩
    refine Safe.lift (hO.closeScope b) h7 fun _ s4 hs4 => Safe.pure ⟨h5, by simp at h3 h6 ⊢; omega, hs4⟩
  case forTok =>
    refine Safe.skip ht h0 fun h1 _ => ?_
    obtain ⟨u, us, rfl⟩ := h1.cons
    refine Safe.cur (Safe.lift (hO.openScope b) hs fun _ s1 hs1 => ?_)
    refine (ih.stmt h1 (by simp at hn ⊢; omega) hs1).bind ?_
    rintro i ⟨qt, s2⟩ ⟨h2, h3, h4⟩
    obtain ⟨v, vs, rfl⟩ := h2.cons
    refine Safe.expect (hO.err _ _ h4) fun hv => Safe.skip h2 (nostick hv (by decide)) fun h5 _ => ?_
    refine (safe_expr' hO h5 h4).bind ?_
    rintro c ⟨qt, s3⟩ ⟨h6, h7, h8⟩
    obtain ⟨w, ws, rfl⟩ := h6.cons
    refine Safe.expect (hO.err _ _ h8) fun hw => Safe.skip h6 (nostick hw (by decide)) fun h9 _ => ?_
    refine (ih.stmt h9 (by simp at hn h3 h7 ⊢; omega) h8).bind ?_
    rintro st ⟨qt, s4⟩ ⟨h10, h11, h12⟩
    refine (ih.stmt h10 (by simp at hn h3 h7 h11 ⊢; omega) h12).bind ?_
    rintro bd ⟨qt, s5⟩ ⟨h13, h14, h15⟩
    refine Safe.lift (hO.closeScope b) h15 fun _ s6 hs6 => Safe.pure ⟨h13, by simp at h3 h7 h11 h14 ⊢; omega, hs6⟩
  case returnTok =>
    refine Safe.lift (hO.inFunc b) hs fun _ s1 hs1 => ?_
    obtain ⟨rfl, hs1⟩ := hs1
    refine Safe.skip ht h0 fun h1 _ => ?_
    obtain ⟨u, us, rfl⟩ := h1.cons
    refine Safe.cur ?_
    by_cases hse : u.kind = .semi
    · rw [if_pos hse]
      exact Safe.skip h1 (nostick hse (by decide)) fun h2 _ => Safe.pure ⟨h2, by simp; omega, hs1⟩
    · rw [if_neg hse]
      refine Safe.lift hO.valueFunc hs1 fun _ s2 hs2 => (safe_expr' hO h1 hs2).bind ?_
      rintro c ⟨qt, s3⟩ ⟨h2, h3, h4⟩
      exact Safe.pure ⟨h2, by simp at h3 ⊢; omega, h4⟩
  case breakTok =>
    refine Safe.skip ht h0 fun h1 _ => ?_
    obtain ⟨u, us, rfl⟩ := h1.cons
    exact Safe.cur (Safe.pure ⟨h1, by simp, hs⟩)
  case continueTok => exact Safe.skip ht h0 fun h1 _ => Safe.pure ⟨h1, by simp, hs⟩
  case useTok =>
    refine Safe.lift (hO.topLevel b) hs fun _ s1 hs1 => ?_
    refine Safe.getExpect (hO.err _ _ hs1) ht fun m us hm hmk => Safe.cur ?_
    subst hm
    have h1 := ht.tail h0
    refine Safe.getExpect (hO.err _ _ hs1) h1 fun lp us hlp hlpk => ?_
    subst hlp
    have h2 := h1.tail (nostick hmk (by decide))
    refine Safe.skip h2 (nostick hlpk (by decide)) fun h3 _ => ?_
    refine (safe_use hO _ h3 (Nat.lt_succ_self _) hs1).bind ?_
    rintro ps ⟨qt, s3⟩ ⟨⟨h4, h5, h6⟩, v, vs, hv, hvk⟩
    cases hv
    refine Safe.skip h4 (nostick hvk (by decide)) fun h7 _ => (safe_useAs hO h7 h6).bind ?_
    rintro a ⟨qt, s4⟩ ⟨h8, h9, h10⟩
    exact Safe.pure ⟨h8, by simp at h5 h9 ⊢; omega, h10⟩

theorem safe_block {ts : List Tk} {s : σ} {b : Bool} (ht : TailL L ts) (hn : ts.length < n + 1) (hs : ph (.stmt b) s) :
    Safe A E (PBl o) ⟨ts, s⟩ fun _ q =>
      Fine L ph (.stmt b) (ts.length + 1) q ∧ ∃ t ts', q.toks = t :: ts' ∧ t.kind = .closeCurly := by
  obtain ⟨t, ts, rfl⟩ := ht.cons
  rw [PBl_eq]
  refine Safe.cur ?_
  by_cases hc : t.kind = .closeCurly
  · rw [if_pos hc]
    exact Safe.pure ⟨⟨ht, by simp, hs⟩, t, ts, rfl, hc⟩
  · rw [if_neg hc]
    refine (safe_stmt hO ih ht hn hs).bind ?_
    rintro bd ⟨qt, s2⟩ ⟨h5, h6, h7⟩
    refine (ih.block h5 (by simp at hn h6 ⊢; omega) h7).bind ?_
    rintro e ⟨qt, s2⟩ ⟨⟨h7, h8, h9⟩, h10⟩
    exact Safe.pure ⟨⟨h7, by simp at h6 h8 ⊢; omega, h9⟩, h10⟩

omit ih in
theorem safeS (n : Nat) : SafeS L A E ph o n := by
  induction n with
  | zero => constructor <;> (intros; omega)
  | succ n ih => exact ⟨safe_stmt hO ih, safe_block hO ih⟩

omit ih in
theorem safe_fields {nm : Name} (n : Nat) : ∀ {ts : List Tk} {s : σ}, TailL L ts → ts.length < n → ph (.struct nm) s →
    Safe A E (PFld o nm) ⟨ts, s⟩ fun _ q =>
      Fine L ph (.struct nm) (ts.length + 1) q ∧ ∃ t ts', q.toks = t :: ts' ∧ t.kind = .closeCurly := by
  induction n with
  | zero => intros; omega
  | succ n ih =>
    intro ts s ht hn hs
    obtain ⟨t, ts, rfl⟩ := ht.cons
    rw [PFld_eq]
    refine Safe.cur ?_
    by_cases hc : t.kind = .closeCurly
    · rw [if_pos hc]
      exact Safe.pure ⟨⟨ht, by simp, hs⟩, t, ts, rfl, hc⟩
    rw [if_neg hc]
    refine Safe.expect (hO.err _ _ hs) fun hk => Safe.cur (Safe.lift (hO.checkField nm _) hs fun _ s1 hs1 => ?_)
    refine Safe.getExpect (hO.err _ _ hs1) ht fun c us hcu hck => ?_
    subst hcu
    have h1 := ht.tail (nostick hk (by decide))
    refine Safe.skip h1 (nostick hck (by decide)) fun h2 _ => ?_
    refine (safe_type hO h2 hs1).bind ?_
    rintro ty ⟨qt, s2⟩ ⟨h3, h4, h5⟩
    refine Safe.lift (hO.addField nm _ ty) h5 fun _ s3 hs3 => ?_
    refine (ih h3 (by simp at hn h4 ⊢; omega) hs3).bind ?_
    rintro e ⟨qt, s2⟩ ⟨⟨h7, h8, h9⟩, h10⟩
    exact Safe.pure ⟨⟨h7, by simp at h4 h8 ⊢; omega, h9⟩, h10⟩

omit ih in
theorem safe_struct {t : Tk} {ts : List Tk} {s : σ} {b : Bool} (ht : TailL L (t :: ts)) (h0 : ¬ sticky t.kind)
    (hs : ph (.stmt b) s) : Safe A E (PStr o) ⟨t :: ts, s⟩ fun _ q => Fine L ph (.stmt false) (t :: ts).length q ∧ b = false := by
  rw [PStr_eq]
  refine Safe.lift (hO.noFunc b) hs fun _ s1 hs1 => ?_
  obtain ⟨rfl, hs1⟩ := hs1
  refine Safe.getExpect (hO.err _ _ hs1) ht fun m us hm hmk => Safe.cur ?_
  subst hm
  have h1 := ht.tail h0
  refine Safe.lift (hO.beginStruct _) hs1 fun f s2 hs2 => Safe.getExpect (hO.err _ _ hs2) h1 fun lp us hlp hlpk => ?_
  subst hlp
  have h2 := h1.tail (nostick hmk (by decide))
  refine Safe.skip h2 (nostick hlpk (by decide)) fun h3 _ => ?_
  refine (safe_fields hO _ h3 (Nat.lt_succ_self _) hs2).bind ?_
  rintro ps ⟨qt, s3⟩ ⟨⟨h4, h5, h6⟩, v, vs, hv, hvk⟩
  cases hv
  refine Safe.skip h4 (nostick hvk (by decide)) fun h7 _ => Safe.lift (hO.endStruct _) h6 fun _ s4 hs4 => ?_
  exact Safe.pure ⟨⟨h7, by simp at h5 ⊢; omega, hs4⟩, rfl⟩

omit ih in
theorem safe_items (n : Nat) : ∀ {ts : List Tk} {s : σ}, TailL L ts → ts.length < n → ph (.stmt false) s →
    Safe A E (PIt o) ⟨ts, s⟩ fun _ q => ph (.stmt false) q.st := by
  induction n with
  | zero => intros; omega
  | succ n ih =>
    intro ts s ht hn hs
    obtain ⟨t, ts, rfl⟩ := ht.cons
    rw [PIt_eq]
    refine Safe.cur ?_
    by_cases hc : t.kind = .eofTok
    · rw [if_pos hc]
      exact Safe.pure hs
    rw [if_neg hc]
    dsimp only
    by_cases hst : t.kind = .structTok
    · rw [if_pos hst]
      refine (safe_struct hO ht (nostick hst (by decide)) hs).bind ?_
      rintro bd ⟨qt, s2⟩ ⟨⟨h5, h6, h7⟩, -⟩
      exact (ih h5 (by simp at hn h6 ⊢; omega) h7).bind fun _ _ h => Safe.pure h
    · rw [if_neg hst]
      refine ((safeS hO (n + 1)).stmt ht hn hs).bind ?_
      rintro bd ⟨qt, s2⟩ ⟨h5, h6, h7⟩
      exact (ih h5 (by simp at hn h6 ⊢; omega) h7).bind fun _ _ h => Safe.pure h

omit ih in
/-- The parser on a whole source. -/
theorem safe_parse {ts : List Tk} {s : σ} (ht : TailL L ts) (hs : ph (.stmt false) s) :
    ∃ N, ∀ n, N ≤ n → Safe A E (parseItems o n) ⟨ts, s⟩ fun _ q => ph (.stmt false) q.st := by
  obtain ⟨N, hN⟩ := (PIt_conv o).out ⟨ts, s⟩
  refine ⟨N, fun n hn => ?_⟩
  have := safe_items hO (ts.length + 1) ht (Nat.lt_succ_self _) hs
  unfold Safe at *
  rw [hN n hn]
  exact this

end

end Tiny
