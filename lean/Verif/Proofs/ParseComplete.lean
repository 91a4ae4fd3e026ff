import Verif.Proofs.ParseLim

/-!
# Every phrase of the grammar is parsed to its tree
-/

namespace Tiny
open Spec

section
variable {σ V S T F α β : Type}

theorem cur_bind (f : Tk → Act (PS σ) α) (t : Tk) (ts : List Tk) (s : σ) :
    (cur >>= f) ⟨t :: ts, s⟩ = f t ⟨t :: ts, s⟩ := rfl

theorem next_bind (f : Unit → Act (PS σ) α) (t u : Tk) (ts : List Tk) (s : σ) :
    (next >>= f) ⟨t :: u :: ts, s⟩ = f () ⟨u :: ts, s⟩ := rfl

theorem next_app (f : Unit → Act (PS σ) α) (t nx : Tk) (us ts : List Tk) (s : σ) :
    (next >>= f) ⟨t :: (us ++ nx :: ts), s⟩ = f () ⟨us ++ nx :: ts, s⟩ := by
  cases us <;> rfl

theorem expect_bind {k : Tok} (f : Unit → Act (PS σ) α) {t : Tk} (ts : List Tk) (s : σ) (h : t.kind = k) :
    (expect k >>= f) ⟨t :: ts, s⟩ = f () ⟨t :: ts, s⟩ := by
  subst h
  simp only [expect, Act.bind_apply, cur, if_true]
  rfl

theorem getExpect_bind {k : Tok} (f : Unit → Act (PS σ) α) {t u : Tk} (ts : List Tk) (s : σ) (h : u.kind = k) :
    (getExpect k >>= f) ⟨t :: u :: ts, s⟩ = f () ⟨u :: ts, s⟩ := by
  rw [getExpect, bind_assoc, next_bind, expect_bind f ts s h]

theorem lift_bind (a : Act σ α) (b : α → Act σ β) : lift (a >>= b) = lift a >>= fun x => lift (b x) := by
  funext s
  simp only [lift, Act.bind_apply]
  cases a s.st <;> rfl

theorem lift_pure (a : α) : lift (pure a : Act σ α) = pure a := rfl

/-- What follows an operation on the symbol table runs with the same tokens. -/
theorem lift_congr (a : Act σ α) {f g : α → Act (PS σ) β} {ts ts' : List Tk} {s : σ}
    (h : ∀ x s', f x ⟨ts, s'⟩ = g x ⟨ts', s'⟩) : (lift a >>= f) ⟨ts, s⟩ = (lift a >>= g) ⟨ts', s⟩ := by
  simp only [lift, Act.bind_apply]
  cases a s with
  | ok x s' => exact h x s'
  | _ => rfl

/-- An operation on the symbol table, then reading tokens while doing another one. -/
theorem lift_then (a : Act σ α) {f : α → Act (PS σ) β} {b : α → Act σ β} {ts ts' : List Tk} {s : σ}
    (h : ∀ x s', f x ⟨ts, s'⟩ = lift (b x) ⟨ts', s'⟩) : (lift a >>= f) ⟨ts, s⟩ = lift (a >>= b) ⟨ts', s⟩ := by
  simp only [lift, Act.bind_apply]
  cases a s with
  | ok x s' => exact h x s'
  | _ => rfl

/-- `m` reads exactly `us`, when followed by `nx`, and does `a`. -/
def ReadsTo (m : Act (PS σ) α) (us : List Tk) (nx : Tk) (a : Act σ α) : Prop :=
  ∀ rest s, m ⟨us ++ nx :: rest, s⟩ = lift a ⟨nx :: rest, s⟩

theorem ReadsTo.bind {m : Act (PS σ) α} {us : List Tk} {nx : Tk} {a : Act σ α} (h : ReadsTo m us nx a)
    (f : α → Act (PS σ) β) (rest : List Tk) (s : σ) :
    (m >>= f) ⟨us ++ nx :: rest, s⟩ = (lift a >>= f) ⟨nx :: rest, s⟩ := by
  rw [Act.bind_apply, h, Act.bind_apply]

theorem prec_of_level {t : Tok} {k : Nat} (h : level t = some k) : tokenPrec t = k := by
  cases t <;> simp_all [level, tokenPrec] <;> omega

theorem prec_of_none {t : Tok} (h : level t = none) : tokenPrec t = -1 := by
  cases t <;> simp_all [level, tokenPrec]

theorem level_none_of {t : Tok} (h : tokenPrec t < 0) : level t = none := by
  cases t <;> simp_all [level, tokenPrec]

theorem level_of_prec {t : Tok} (h : 0 ≤ tokenPrec t) : ∃ k : Nat, level t = some k ∧ tokenPrec t = k := by
  cases t <;> simp_all [level, tokenPrec]

theorem prec_le {t : Tok} : -1 ≤ tokenPrec t := by
  cases t <;> simp [tokenPrec]

/-- A type. -/
theorem type_complete (o : Ops σ V S T F) {ty : SType} {us : List Tk} {nx : Tk} (h : TypeIs ty us nx) :
    ReadsTo (parseType o) us nx (nameType o ty) := by
  intro rest s
  cases h with
  | @plain t nx h1 h2 =>
    rw [parseType, List.singleton_append, expect_bind _ _ _ h1, cur_bind]
    refine lift_then _ fun x s' => ?_
    rw [next_bind, cur_bind, if_neg h2]
    rfl
  | @opt t q nx h1 h2 =>
    rw [parseType, List.cons_append, List.singleton_append, expect_bind _ _ _ h1, cur_bind]
    refine lift_then _ fun x s' => ?_
    rw [next_bind, cur_bind, if_pos h2]
    have := lift_then (o.nullable x) (ts := q :: nx :: rest) (ts' := nx :: rest) (s := s')
      (f := fun y => do next; pure y) (b := fun y => pure y) (fun y s' => rfl)
    rw [bind_pure] at this
    exact this

variable (o : Ops σ V S T F)

/-- What is proved of a factor. -/
def FacC (e : SExpr) (l : Nat) (us : List Tk) (nx : Tk) : Prop :=
  ∀ rest s, (PV o >>= fun v => PSx o v) ⟨us ++ nx :: rest, s⟩ =
    (lift (nameExpr o e) >>= fun e' => PSx o (e', l)) ⟨nx :: rest, s⟩

/-- What is proved of arguments. -/
def ArgsC (args : List SExpr) (us : List Tk) : Prop :=
  ∀ {β : Type} (K : List (PExpr V S T) → Act (PS σ) β) nx rest s,
    (PA o >>= fun a => next >>= fun _ => K a) ⟨us ++ nx :: rest, s⟩ =
      (lift (nameExprs o args) >>= K) ⟨nx :: rest, s⟩

/-- What is proved of constructor arguments. -/
def InitsC (ns : List Name) (args : List SExpr) (us : List Tk) : Prop :=
  ∀ {β : Type} (K : List Name × List (PExpr V S T) → Act (PS σ) β) nx rest s,
    (PI o >>= fun a => next >>= fun _ => K a) ⟨us ++ nx :: rest, s⟩ =
      (lift (nameExprs o args) >>= fun as => K (ns, as)) ⟨nx :: rest, s⟩

/-- The operator at the top. -/
def topOp : SExpr → Option Tok
  | .bin op _ _ => some op
  | _ => none

/-- What is proved of an expression. -/
structure ExprC (e : SExpr) (us : List Tk) (nx : Tk) : Prop where
  isOp : ∀ op, topOp e = some op → 0 ≤ tokenPrec op
  fac : topOp e = none → ∃ l : Nat, ReadsTo (PF o) us nx (nameExpr o e >>= fun e' => pure (e', l))
  first : ∀ op, topOp e = some op → ∀ {β : Type} (K1 K2 : PExpr V S T × Nat → Act (PS σ) β),
    (∀ f t ts s, tokenPrec op ≤ tokenPrec t.kind → K1 f ⟨t :: ts, s⟩ = K2 f ⟨t :: ts, s⟩) →
    ∀ rest s, (PF o >>= K1) ⟨us ++ nx :: rest, s⟩ = (PF o >>= K2) ⟨us ++ nx :: rest, s⟩
  loop : ∀ p : Int, (∀ op, topOp e = some op → p ≤ tokenPrec op ∧ tokenPrec nx.kind ≤ tokenPrec op) →
    ∀ rest s, (PF o >>= fun f => PB o p f.1) ⟨us ++ nx :: rest, s⟩ =
      (lift (nameExpr o e) >>= fun e' => PB o p e') ⟨nx :: rest, s⟩

theorem PB_stop {p : Int} {e : PExpr V S T} {nx : Tk} (h : tokenPrec nx.kind < p) (rest : List Tk) (s : σ) :
    PB o p e ⟨nx :: rest, s⟩ = .ok e ⟨nx :: rest, s⟩ := by
  rw [PB_eq, cur_bind, if_pos h]
  rfl

theorem PSx_stop {e : PExpr V S T × Nat} {nx : Tk} (h : isSuffix nx.kind = false) (rest : List Tk) (s : σ) :
    PSx o e ⟨nx :: rest, s⟩ = .ok e ⟨nx :: rest, s⟩ := by
  rw [PSx_eq, cur_bind, if_neg, if_neg, if_neg]
  · rfl
  all_goals (intro hk; rw [hk] at h; exact absurd h (by decide))

theorem lift_bind_pure (a : Act σ α) (f : α → Act (PS σ) β) (g : α → β) {ts : List Tk} {s : σ}
    (h : ∀ x s', f x ⟨ts, s'⟩ = .ok (g x) ⟨ts, s'⟩) :
    (lift a >>= f) ⟨ts, s⟩ = lift (a >>= fun x => pure (g x)) ⟨ts, s⟩ :=
  lift_then a fun x s' => by rw [h]; rfl

variable {o}

theorem FacC.read {e : SExpr} {l : Nat} {us : List Tk} {nx : Tk} (h : FacC o e l us nx)
    (hn : isSuffix nx.kind = false) : ReadsTo (PF o) us nx (nameExpr o e >>= fun e' => pure (e', l)) := by
  intro rest s
  rw [PF_eq, h]
  exact lift_bind_pure _ _ _ fun x s' => PSx_stop o hn rest s'

theorem ExprC.read {e : SExpr} {us : List Tk} {nx : Tk} (h : ExprC o e us nx) (hn : level nx.kind = none) :
    ReadsTo (PE o) us nx (nameExpr o e) := by
  intro rest s
  have hp := prec_of_none hn
  rw [PE_eq, h.loop 0]
  · have := lift_bind_pure (nameExpr o e) (fun e' => PB o 0 e') id (ts := nx :: rest) (s := s)
      fun x s' => PB_stop o (by omega) rest s'
    simp only [id_eq, bind_pure] at this
    exact this
  · intro op hop
    have := h.isOp op hop
    omega

theorem topOp_fac {e : SExpr} {l : Nat} {us : List Tk} {nx : Tk} (h : FacIs e l us nx) : topOp e = none := by
  cases h with
  | val h => cases h <;> rfl
  | _ => rfl

/-- After an operator, the right operand is read. -/
theorem ExprC.rhs {r : SExpr} {vs : List Tk} {nx : Tk} (h : ExprC o r vs nx) {k : Int}
    (hr : ∀ op, topOp r = some op → k < tokenPrec op) (hn : tokenPrec nx.kind ≤ k)
    (K : PExpr V S T → Act (PS σ) β) (rest : List Tk) (s : σ) :
    (PF o >>= fun rhs => cur >>= fun t2 =>
      if k < tokenPrec t2.kind then PB o (k + 1) rhs.1 >>= K else pure rhs.1 >>= K) ⟨vs ++ nx :: rest, s⟩ =
    (lift (nameExpr o r) >>= K) ⟨nx :: rest, s⟩ := by
  cases ht : topOp r with
  | none =>
    obtain ⟨l, hl⟩ := h.fac ht
    rw [hl.bind, lift_bind, bind_assoc]
    refine lift_congr _ fun x s' => ?_
    rw [lift_pure, pure_bind, cur_bind, if_neg (by omega)]
    rfl
  | some op =>
    have hop := hr op ht
    rw [h.first op ht _ (fun f => PB o (k + 1) f.1 >>= K)]
    · rw [← bind_assoc, Act.bind_apply, h.loop (k + 1), ← Act.bind_apply, bind_assoc]
      · refine lift_congr _ fun x s' => ?_
        rw [Act.bind_apply, PB_stop o (by omega)]
      · intro op' hop'
        rw [ht] at hop'
        cases hop'
        omega
    · intro f t ts s' hle
      rw [cur_bind, if_pos (by omega)]

theorem ExprC.bin {l r : SExpr} {us vs : List Tk} {op nx : Tk} {k : Nat} (hk : level op.kind = some k)
    (hl : ExprC o l us op) (hr : ExprC o r vs nx) (h1 : AtLeast k l) (h2 : AtLeast (k + 1) r) :
    ExprC o (.bin op.kind l r) (us ++ op :: vs) nx := by
  have hp := prec_of_level hk
  have h1' : ∀ op', topOp l = some op' → (k : Int) ≤ tokenPrec op' := by
    intro op' h
    cases l with
    | bin o' a b =>
      cases h
      obtain ⟨j, hj, hle⟩ := h1
      rw [prec_of_level hj]
      omega
    | _ => cases h
  have h2' : ∀ op', topOp r = some op' → (k : Int) < tokenPrec op' := by
    intro op' h
    cases r with
    | bin o' a b =>
      cases h
      obtain ⟨j, hj, hle⟩ := h2
      rw [prec_of_level hj]
      omega
    | _ => cases h
  constructor
  · rintro op' ⟨⟩
    omega
  · rintro ⟨⟩
  · rintro op' ⟨⟩ β K1 K2 hK rest s
    rw [List.append_assoc, List.cons_append]
    cases ht : topOp l with
    | none =>
      obtain ⟨ln, hln⟩ := hl.fac ht
      rw [hln.bind, hln.bind]
      exact lift_congr _ fun x s' => hK x _ _ s' (Int.le_refl _)
    | some op' =>
      refine hl.first op' ht K1 K2 (fun f t ts s' hle => hK f t ts s' ?_) _ _
      have := h1' op' ht
      omega
  · intro p hp' rest s
    obtain ⟨hp1, hp2⟩ := hp' op.kind rfl
    rw [List.append_assoc, List.cons_append, hl.loop p]
    · rw [nameExpr, lift_bind, bind_assoc]
      refine lift_congr _ fun l' s' => ?_
      rw [PB_eq, cur_bind, if_neg (by omega), next_app, lift_bind, bind_assoc]
      have := hr.rhs (k := tokenPrec op.kind) (fun op' h => by have := h2' op' h; omega) hp2
        (fun r' => PB o p (.bin op.kind l' r')) rest s'
      exact this
    · intro op' hop'
      have := h1' op' hop'
      omega


theorem exprComma {e : SExpr} {us : List Tk} {nx : Tk} (h : ExprC o e us nx) (hn : nx.kind = .comma) :
    ReadsTo (PE o) us nx (nameExpr o e) := h.read (by rw [hn]; rfl)
theorem exprParen {e : SExpr} {us : List Tk} {nx : Tk} (h : ExprC o e us nx) (hn : nx.kind = .closeParen) :
    ReadsTo (PE o) us nx (nameExpr o e) := h.read (by rw [hn]; rfl)
theorem exprCurly {e : SExpr} {us : List Tk} {nx : Tk} (h : ExprC o e us nx) (hn : nx.kind = .closeCurly) :
    ReadsTo (PE o) us nx (nameExpr o e) := h.read (by rw [hn]; rfl)
theorem exprSquare {e : SExpr} {us : List Tk} {nx : Tk} (h : ExprC o e us nx) (hn : nx.kind = .closeSquare) :
    ReadsTo (PE o) us nx (nameExpr o e) := h.read (by rw [hn]; rfl)
theorem exprElse {e : SExpr} {us : List Tk} {nx : Tk} (h : ExprC o e us nx) (hn : nx.kind = .elseTok) :
    ReadsTo (PE o) us nx (nameExpr o e) := h.read (by rw [hn]; rfl)
theorem exprSemi {e : SExpr} {us : List Tk} {nx : Tk} (h : ExprC o e us nx) (hn : nx.kind = .semi) :
    ReadsTo (PE o) us nx (nameExpr o e) := h.read (by rw [hn]; rfl)

/-- Tokens which can begin an expression. -/
def startsExpr : Tok → Bool
  | .null | .bool | .char | .int | .float | .string | .ident | .minus | .bang | .openParen | .newTok | .castTok
  | .ifTok => true
  | _ => false

theorem starts_val {e : SExpr} {l : Nat} {us : List Tk} {nx : Tk} (h : ValIs e l us nx) :
    ∃ t ts, us = t :: ts ∧ startsExpr t.kind = true := by
  cases h <;> refine ⟨_, _, rfl, ?_⟩
  all_goals first
    | (simp only [*]; rfl)
    | (rename_i h _ _; rcases h with h | h <;> rw [h] <;> rfl)

theorem starts_fac {e : SExpr} {l : Nat} {us : List Tk} {nx : Tk} (h : FacIs e l us nx) :
    ∃ t ts, us = t :: ts ∧ startsExpr t.kind = true := by
  refine FacIs.rec (motive_1 := fun _ _ _ _ _ => True)
    (motive_2 := fun _ _ us _ _ => ∃ t ts, us = t :: ts ∧ startsExpr t.kind = true)
    (motive_3 := fun _ _ _ _ => True) (motive_4 := fun _ _ _ => True) (motive_5 := fun _ _ _ _ => True)
    ?_ ?_ ?_ ?_ ?_ ?_ ?_ ?_ ?_ ?_ ?_ ?_ ?_ ?_ ?_ ?_ ?_ ?_ ?_ ?_ ?_ ?_ ?_ ?_ ?_ h
  all_goals try (intros; trivial)
  · intro e l us nx h _
    exact starts_val h
  · rintro e l us d f nx - - - ⟨t, ts, rfl, h⟩
    exact ⟨t, _, rfl, h⟩
  · rintro e i l us vs b rb nx - - - - ⟨t, ts, rfl, h⟩ -
    exact ⟨t, _, rfl, h⟩
  · rintro e l us vs a f lp nx args - - - - - ⟨t, ts, rfl, h⟩ -
    exact ⟨t, _, rfl, h⟩

theorem starts_expr {e : SExpr} {us : List Tk} {nx : Tk} (h : ExprIs e us nx) :
    ∃ t ts, us = t :: ts ∧ startsExpr t.kind = true := by
  refine ExprIs.rec (motive_1 := fun _ _ _ _ _ => True) (motive_2 := fun _ _ _ _ _ => True)
    (motive_3 := fun _ us _ _ => ∃ t ts, us = t :: ts ∧ startsExpr t.kind = true)
    (motive_4 := fun _ _ _ => True) (motive_5 := fun _ _ _ _ => True)
    ?_ ?_ ?_ ?_ ?_ ?_ ?_ ?_ ?_ ?_ ?_ ?_ ?_ ?_ ?_ ?_ ?_ ?_ ?_ ?_ ?_ ?_ ?_ ?_ ?_ h
  all_goals try (intros; trivial)
  · intro e l us nx h _ _
    exact starts_fac h
  · rintro l r us vs op nx k - - - - - ⟨t, ts, rfl, h⟩ -
    exact ⟨t, _, rfl, h⟩

variable (o)

theorem PC_read {args : List SExpr} {us : List Tk} (h : ArgsC o args us) {lp : Tk}
    (K : List (PExpr V S T) × Nat → Act (PS σ) β) (nx : Tk) (rest : List Tk) (s : σ) :
    (PC o >>= K) ⟨lp :: (us ++ nx :: rest), s⟩ =
      (lift (nameExprs o args) >>= fun as => K (as, lp.line)) ⟨nx :: rest, s⟩ := by
  rw [PC_eq]
  simp only [bind_assoc]
  rw [cur_bind, next_app]
  exact h (fun as => pure (as, lp.line) >>= K) nx rest s

/-- `pure` after an operation. -/
theorem lift_ret (a : Act σ α) (g : α → β) {ts : List Tk} {s : σ} :
    (lift a >>= fun x => pure (g x)) ⟨ts, s⟩ = lift (a >>= fun x => pure (g x)) ⟨ts, s⟩ := by
  rw [lift_bind]
  rfl

/-- One constructor argument. -/
theorem PI_step {ns : List Name} {ds us : List Tk} (h : Desig ns ds)
    (hu : ∃ t ts, us = t :: ts ∧ startsExpr t.kind = true)
    (K : List Name × List (PExpr V S T) → Act (PS σ) β) (ts : List Tk) (s : σ) :
    (PI o >>= K) ⟨ds ++ us ++ ts, s⟩ = (PE o >>= fun e => cur >>= fun t =>
      if t.kind ≠ .closeCurly ∧ t.kind ≠ .comma then reject
      else if t.kind = .comma then next >>= fun _ => PI o >>= fun r => K (ns ++ r.1, e :: r.2)
      else PI o >>= fun r => K (ns ++ r.1, e :: r.2)) ⟨us ++ ts, s⟩ := by
  obtain ⟨t, us', rfl, ht⟩ := hu
  have body : ∀ ns : List Name, ((PE o >>= fun e => cur >>= fun t =>
      if t.kind ≠ .closeCurly ∧ t.kind ≠ .comma then reject
      else if t.kind = .comma then next >>= fun _ => PI o >>= fun r => pure (ns ++ r.1, e :: r.2)
      else PI o >>= fun r => pure (ns ++ r.1, e :: r.2)) >>= K) = (PE o >>= fun e => cur >>= fun t =>
      if t.kind ≠ .closeCurly ∧ t.kind ≠ .comma then reject
      else if t.kind = .comma then next >>= fun _ => PI o >>= fun r => K (ns ++ r.1, e :: r.2)
      else PI o >>= fun r => K (ns ++ r.1, e :: r.2)) := by
    intro ns
    simp only [bind_assoc]
    congr 1
    funext e
    congr 1
    funext t
    by_cases h1 : t.kind ≠ .closeCurly ∧ t.kind ≠ .comma
    · rw [if_pos h1, if_pos h1]; rfl
    · rw [if_neg h1, if_neg h1]
      by_cases h2 : t.kind = .comma
      · rw [if_pos h2, if_pos h2]; simp only [bind_assoc]; rfl
      · rw [if_neg h2, if_neg h2]; simp only [bind_assoc]; rfl
  rw [← body]
  have key : PI o ⟨ds ++ t :: us' ++ ts, s⟩ = (PE o >>= fun e => cur >>= fun t =>
      if t.kind ≠ .closeCurly ∧ t.kind ≠ .comma then reject
      else if t.kind = .comma then next >>= fun _ => PI o >>= fun r => pure (ns ++ r.1, e :: r.2)
      else PI o >>= fun r => pure (ns ++ r.1, e :: r.2)) ⟨t :: us' ++ ts, s⟩ := by
    conv => lhs; rw [PI_eq o]
    cases h with
    | no =>
      rw [List.nil_append, List.cons_append, cur_bind, if_neg, if_neg]
      · rfl
      all_goals (intro hk; rw [hk] at ht; exact absurd ht (by decide))
    | @yes d f q h1 h2 h3 =>
      simp only [List.cons_append, List.nil_append]
      rw [cur_bind, if_neg (by rw [h1]; decide), if_pos h1]
      rw [getExpect_bind _ _ _ h2, cur_bind, getExpect_bind _ _ _ h3, next_bind]
      rfl
  rw [Act.bind_apply, key, ← Act.bind_apply]

/-- The dots after a cast are ordinary suffixes. -/
theorem PD_PSx : ∀ (n : Nat) (ts : List Tk), ts.length ≤ n → ∀ (x : PExpr V S T × Nat) (s : σ),
    (PD o x >>= fun v => PSx o v) ⟨ts, s⟩ = PSx o x ⟨ts, s⟩ := by
  intro n
  induction n with
  | zero =>
    intro ts h x s
    cases ts with
    | nil => rw [Act.bind_apply, PD_eq, PSx_eq]; rfl
    | cons t ts => cases h
  | succ n ih =>
    intro ts h x s
    cases ts with
    | nil => rw [Act.bind_apply, PD_eq, PSx_eq]; rfl
    | cons t ts =>
      by_cases hd : t.kind = .dot
      · rw [Act.bind_apply, PD_eq, ← Act.bind_apply]
        conv => rhs; rw [PSx_eq]
        rw [cur_bind, if_neg (by rw [hd]; decide), if_neg (by rw [hd]; decide), if_pos hd]
        rw [bind_assoc, cur_bind, if_pos hd]
        simp only [bind_assoc]
        cases ts with
        | nil => rfl
        | cons u ts =>
          by_cases hu : u.kind = .ident
          · rw [getExpect_bind _ _ _ hu, getExpect_bind _ _ _ hu, cur_bind, cur_bind]
            cases ts with
            | nil => rfl
            | cons w ts =>
              rw [next_bind, next_bind]
              exact ih _ (by simp at h ⊢; omega) _ _
          · simp only [getExpect, bind_assoc]
            rw [next_bind, next_bind]
            simp only [expect, bind_assoc]
            rw [cur_bind, cur_bind, if_neg hu]
            rfl
      · rw [Act.bind_apply, PD_eq, cur_bind, if_neg hd]
        rfl

theorem ReadsTo.facC {e : SExpr} {l : Nat} {us : List Tk} {nx : Tk}
    (h : ReadsTo (PV o) us nx (nameExpr o e >>= fun e' => pure (e', l))) : FacC o e l us nx := by
  intro rest s
  rw [h.bind, lift_bind, bind_assoc]
  rfl

theorem cur_head (f : Tk → Act (PS σ) α) (us : List Tk) (nx : Tk) (rest : List Tk) (s : σ) :
    (cur >>= f) ⟨us ++ nx :: rest, s⟩ = f (us.headD nx) ⟨us ++ nx :: rest, s⟩ := by
  cases us <;> rfl

mutual
theorem val_complete : ∀ {e : SExpr} {l : Nat} {us : List Tk} {nx : Tk}, ValIs e l us nx →
    FacC o e l us nx
  | _, _, _, nx, .null (t := t) h => by
    refine ReadsTo.facC o ?_
    intro rest s
    rw [PV_eq, List.singleton_append, cur_bind]
    simp only [h]
    rw [next_bind]; rfl
  | _, _, _, nx, .bool (t := t) h => by
    refine ReadsTo.facC o ?_
    intro rest s
    rw [PV_eq, List.singleton_append, cur_bind]
    simp only [h]
    rw [next_bind]; rfl
  | _, _, _, nx, .char (t := t) h => by
    refine ReadsTo.facC o ?_
    intro rest s
    rw [PV_eq, List.singleton_append, cur_bind]
    simp only [h]
    rw [next_bind]; rfl
  | _, _, _, nx, .int (t := t) h => by
    refine ReadsTo.facC o ?_
    intro rest s
    rw [PV_eq, List.singleton_append, cur_bind]
    simp only [h]
    rw [next_bind]; rfl
  | _, _, _, nx, .float (t := t) h => by
    refine ReadsTo.facC o ?_
    intro rest s
    rw [PV_eq, List.singleton_append, cur_bind]
    simp only [h]
    rw [next_bind]; rfl
  | _, _, _, nx, .str (t := t) h => by
    refine ReadsTo.facC o ?_
    intro rest s
    rw [PV_eq, List.singleton_append, cur_bind]
    simp only [h]
    rw [nameExpr, bind_assoc]
    exact lift_then _ fun x s' => rfl
  | _, _, _, nx, .id (t := t) h h' => by
    refine ReadsTo.facC o ?_
    intro rest s
    rw [PV_eq, List.singleton_append, cur_bind]
    simp only [h]
    rw [next_bind, cur_bind, if_neg h', nameExpr, bind_assoc]
    exact lift_then _ fun x s' => rfl
  | _, _, _, nx, .call (t := t) (lp := lp) (us := us) h h' ha => by
    refine ReadsTo.facC o ?_
    intro rest s
    rw [PV_eq, List.cons_append, cur_bind]
    simp only [h]
    rw [List.cons_append, next_bind, cur_bind, if_pos h', PC_read o (args_complete ha), nameExpr, bind_assoc]
    exact lift_then _ fun x s' => rfl
  | _, _, _, nx, .un (t := t) (us := us) h hf hn => by
    refine ReadsTo.facC o ?_
    intro rest s
    have ih := (fac_complete hf).read hn
    rw [PV_eq, List.cons_append, cur_bind]
    rcases h with h | h
    all_goals
      simp only [h]
      rw [next_app, cur_head, ih.bind, nameExpr]
      simp only [bind_assoc]
      rw [lift_bind, bind_assoc]
      exact lift_then _ fun x s' => rfl
  | _, _, _, nx, .paren (lp := lp) (rp := rp) (us := us) h he h' => by
    refine ReadsTo.facC o ?_
    intro rest s
    have ih := exprParen (expr_complete he) h'
    rw [PV_eq, List.append_assoc, List.cons_append, cur_bind]
    simp only [h]
    rw [List.singleton_append, next_app, ih.bind, nameExpr, bind_assoc]
    refine lift_then _ fun x s' => ?_
    rw [expect_bind _ _ _ h', next_bind]
    rfl
  | _, _, _, nx, .ctor (t := t) (m := m) (lc := lc) (names := names) (us := us) h h' hi => by
    refine ReadsTo.facC o ?_
    intro rest s
    rw [PV_eq, List.cons_append, cur_bind]
    simp only [h]
    rw [List.cons_append, List.cons_append, next_bind, cur_bind, nameExpr, bind_assoc]
    refine lift_then _ fun x s' => ?_
    rw [getExpect_bind _ _ _ h', next_app]
    have := inits_complete hi (fun r => pure (PExpr.ctor m.lexeme r.1 r.2, t.line)) nx rest s'
    rw [this, bind_assoc]
    exact lift_then _ fun x s' => rfl
  | _, _, _, nx, .cast (t := t) (lp := lp) (c := c) (rp := rp) (us := us) (vs := vs) h h1 he h2 ht h3 => by
    intro rest s
    have ih := exprComma (expr_complete he) h2
    have iht := type_complete o ht
    rw [PV_eq]
    simp only [List.cons_append, List.append_assoc, List.nil_append]
    rw [bind_assoc, cur_bind]
    simp only [h, bind_assoc]
    rw [getExpect_bind _ _ _ h1, next_app, ih.bind, nameExpr, lift_bind, bind_assoc]
    refine lift_congr _ fun x s' => ?_
    rw [expect_bind _ _ _ h2, next_app, iht.bind, lift_bind, bind_assoc]
    refine lift_congr _ fun y s' => ?_
    rw [expect_bind _ _ _ h3, next_bind, PD_PSx o _ _ (Nat.le_refl _)]
    rfl
  | _, _, _, nx, .ite (t := t) (el := el) (us := us) (vs := vs) (ws := ws) h hc hl ha he hb hn => by
    refine ReadsTo.facC o ?_
    intro rest s
    have ihc := (expr_complete hc).read hl
    have iha := exprElse (expr_complete ha) he
    have ihb := (expr_complete hb).read hn
    obtain ⟨v, vs', rfl, -⟩ := starts_expr ha
    rw [PV_eq]
    simp only [List.cons_append, List.append_assoc, List.nil_append]
    rw [cur_bind]
    simp only [h]
    rw [next_app, nameExpr, bind_assoc]
    refine (ihc.bind _ _ _).trans (lift_then _ fun x s' => ?_)
    rw [bind_assoc]
    refine (iha.bind _ _ _).trans (lift_then _ fun y s' => ?_)
    rw [expect_bind _ _ _ he, next_app, ihb.bind, bind_assoc]
    exact lift_then _ fun x s' => rfl
theorem fac_complete : ∀ {e : SExpr} {l : Nat} {us : List Tk} {nx : Tk}, FacIs e l us nx → FacC o e l us nx
  | _, _, _, nx, .val h => val_complete h
  | _, _, _, nx, .dot (us := us) (d := d) (f := f) h h1 h2 => by
    intro rest s
    rw [List.append_assoc, List.cons_append, List.singleton_append, fac_complete h, nameExpr, lift_bind, bind_assoc]
    refine lift_congr _ fun x s' => ?_
    rw [PSx_eq, cur_bind, if_neg (by rw [h1]; decide), if_neg (by rw [h1]; decide), if_pos h1,
      getExpect_bind _ _ _ h2, cur_bind, next_bind]
    rfl
  | _, _, _, nx, .index (us := us) (vs := vs) (b := b) (rb := rb) h h1 hi h2 => by
    intro rest s
    have ih := exprSquare (expr_complete hi) h2
    simp only [List.cons_append, List.append_assoc, List.nil_append]
    rw [fac_complete h, nameExpr, lift_bind, bind_assoc]
    refine lift_congr _ fun x s' => ?_
    rw [PSx_eq, cur_bind, if_pos h1, next_app, cur_head, ih.bind, lift_bind, bind_assoc]
    refine lift_congr _ fun y s' => ?_
    rw [expect_bind _ _ _ h2, next_bind]
    rfl
  | _, _, _, nx, .arrow (us := us) (vs := vs) (a := a) (f := f) (lp := lp) h h1 h2 h3 ha => by
    intro rest s
    simp only [List.cons_append, List.append_assoc, List.nil_append]
    rw [fac_complete h, nameExpr, nameExprs]
    simp only [lift_bind, bind_assoc]
    refine lift_congr _ fun x s' => ?_
    rw [PSx_eq, cur_bind, if_neg (by rw [h1]; decide), if_pos h1, getExpect_bind _ _ _ h2, cur_bind,
      getExpect_bind _ _ _ h3, PC_read o (args_complete ha)]
    rfl
theorem expr_complete : ∀ {e : SExpr} {us : List Tk} {nx : Tk}, ExprIs e us nx → ExprC o e us nx
  | _, _, nx, .fac (us := us) (l := l) h hn => by
    have ih := (fac_complete h).read hn
    have ht := topOp_fac h
    constructor
    · intro op hop; rw [ht] at hop; cases hop
    · intro _; exact ⟨l, ih⟩
    · intro op hop; rw [ht] at hop; cases hop
    · intro p _ rest s
      rw [ih.bind, lift_bind, bind_assoc]
      rfl
  | _, _, nx, .bin hk hl hr h1 h2 => ExprC.bin hk (expr_complete hl) (expr_complete hr) h1 h2
theorem args_complete : ∀ {args : List SExpr} {us : List Tk}, ArgsIs args us → ArgsC o args us
  | _, _, .nil (rp := rp) h => by
    intro K nx rest s
    rw [PA_eq, bind_assoc, List.singleton_append, cur_bind, if_pos h]
    rfl
  | _, _, .last (us := us) (rp := rp) he h => by
    intro K nx rest s
    have ih := exprParen (expr_complete he) h
    obtain ⟨u, us', rfl, hu⟩ := starts_expr he
    have hk : u.kind ≠ .closeParen := by
      intro hk
      rw [hk] at hu
      exact absurd hu (by decide)
    rw [PA_eq, bind_assoc]
    simp only [List.cons_append, List.append_assoc, List.nil_append]
    rw [cur_bind, if_neg hk, bind_assoc]
    refine (ih.bind _ _ _).trans ?_
    rw [nameExprs, nameExprs]
    simp only [lift_bind, bind_assoc]
    refine lift_congr _ fun x s' => ?_
    rw [cur_bind, if_neg (by rw [h]; decide), if_pos h, bind_assoc, PA_eq, bind_assoc, cur_bind, if_pos h]
    rfl
  | _, _, .cons (us := us) (vs := vs) (c := c) he h ha => by
    intro K nx rest s
    have ih := exprComma (expr_complete he) h
    obtain ⟨u, us', rfl, hu⟩ := starts_expr he
    have hk : u.kind ≠ .closeParen := by
      intro hk
      rw [hk] at hu
      exact absurd hu (by decide)
    rw [PA_eq, bind_assoc]
    simp only [List.cons_append, List.append_assoc, List.nil_append]
    rw [cur_bind, if_neg hk, bind_assoc]
    refine (ih.bind _ _ _).trans ?_
    rw [nameExprs]
    simp only [lift_bind, bind_assoc]
    refine lift_congr _ fun x s' => ?_
    rw [cur_bind, if_pos h]
    simp only [bind_assoc]
    rw [next_app]
    exact args_complete ha (fun es => K (x :: es)) nx rest s'
theorem inits_complete : ∀ {ns : List Name} {args : List SExpr} {us : List Tk}, InitsAre ns args us → InitsC o ns args us
  | _, _, _, .nil (rc := rc) h => by
    intro K nx rest s
    rw [PI_eq, bind_assoc, List.singleton_append, cur_bind, if_pos h]
    rfl
  | _, _, _, .last (ns := ns) (ds := ds) (us := us) (rc := rc) hd he h => by
    intro K nx rest s
    have ih := exprCurly (expr_complete he) h
    rw [List.append_assoc, PI_step o hd (starts_expr he), List.singleton_append]
    refine (ih.bind _ _ _).trans ?_
    rw [nameExprs, nameExprs]
    simp only [lift_bind, bind_assoc]
    refine lift_congr _ fun x s' => ?_
    rw [cur_bind, if_neg (by rw [h]; decide), if_neg (by rw [h]; decide), PI_eq, bind_assoc, cur_bind, if_pos h,
      pure_bind, List.append_nil]
    rfl
  | _, _, _, .cons (ns := ns) (ns' := ns') (ds := ds) (us := us) (vs := vs) (c := c) hd he h ha => by
    intro K nx rest s
    have ih := exprComma (expr_complete he) h
    rw [List.append_assoc, PI_step o hd (starts_expr he), List.cons_append]
    refine (ih.bind _ _ _).trans ?_
    rw [nameExprs]
    simp only [lift_bind, bind_assoc]
    refine lift_congr _ fun x s' => ?_
    rw [cur_bind, if_neg (by rw [h]; decide), if_pos h, next_app]
    exact inits_complete ha (fun r => K (ns ++ r.1, x :: r.2)) nx rest s'
end

end

end Tiny
