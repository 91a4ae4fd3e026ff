import Verif.Proofs.ParseStmt

/-!
# Whatever the parser accepts is a phrase of the grammar
-/

namespace Tiny
open Spec

section
variable {σ V S T F α β : Type}

theorem bind_inv {τ : Type} {m : Act τ α} {f : α → Act τ β} {p : τ} {x : β} {q : τ} (h : (m >>= f) p = .ok x q) :
    ∃ y r, m p = .ok y r ∧ f y r = .ok x q := by
  rw [Act.bind_apply] at h
  split at h <;> first | exact ⟨_, _, by assumption, h⟩ | cases h

theorem cur_inv {f : Tk → Act (PS σ) α} {ts : List Tk} {s : σ} {x : α} {q : PS σ}
    (h : (cur >>= f) ⟨ts, s⟩ = .ok x q) : ∃ t ts', ts = t :: ts' ∧ f t ⟨t :: ts', s⟩ = .ok x q := by
  cases ts with
  | nil => cases h
  | cons t ts => exact ⟨t, ts, rfl, h⟩

theorem next_inv {f : Unit → Act (PS σ) α} {t : Tk} {ts : List Tk} {s : σ} {x : α} {q : PS σ}
    (h : (next >>= f) ⟨t :: ts, s⟩ = .ok x q) : ∃ u us, ts = u :: us ∧ f () ⟨u :: us, s⟩ = .ok x q := by
  cases ts with
  | nil => cases h
  | cons u us => exact ⟨u, us, rfl, h⟩

theorem expect_inv {k : Tok} {f : Unit → Act (PS σ) α} {t : Tk} {ts : List Tk} {s : σ} {x : α} {q : PS σ}
    (h : (expect k >>= f) ⟨t :: ts, s⟩ = .ok x q) : t.kind = k ∧ f () ⟨t :: ts, s⟩ = .ok x q := by
  by_cases hk : t.kind = k
  · rw [expect_bind _ _ _ hk] at h
    exact ⟨hk, h⟩
  · rw [expect, bind_assoc, cur_bind, if_neg hk] at h
    cases h

theorem getExpect_inv {k : Tok} {f : Unit → Act (PS σ) α} {t : Tk} {ts : List Tk} {s : σ} {x : α} {q : PS σ}
    (h : (getExpect k >>= f) ⟨t :: ts, s⟩ = .ok x q) :
    ∃ u us, ts = u :: us ∧ u.kind = k ∧ f () ⟨u :: us, s⟩ = .ok x q := by
  rw [getExpect, bind_assoc] at h
  replace h := next_inv h
  obtain ⟨u, us, rfl, h⟩ := h
  exact ⟨u, us, rfl, expect_inv h⟩

theorem lift_inv {a : Act σ α} {f : α → Act (PS σ) β} {ts : List Tk} {s : σ} {x : β} {q : PS σ}
    (h : (lift a >>= f) ⟨ts, s⟩ = .ok x q) : ∃ y s', a s = .ok y s' ∧ f y ⟨ts, s'⟩ = .ok x q := by
  rw [Act.bind_apply, lift] at h
  dsimp only at h
  cases ha : a s with
  | ok y s' => rw [ha] at h; exact ⟨y, s', rfl, h⟩
  | _ => rw [ha] at h; cases h

theorem pure_inv {a x : α} {p q : PS σ} (h : (pure a : Act (PS σ) α) p = .ok x q) : x = a ∧ q = p := by
  cases h; exact ⟨rfl, rfl⟩

theorem type_sound (o : Ops σ V S T F) {ts : List Tk} {s : σ} {x : T} {q : PS σ}
    (h : parseType o ⟨ts, s⟩ = .ok x q) :
    ∃ ty us nx rest s', ts = us ++ nx :: rest ∧ q = ⟨nx :: rest, s'⟩ ∧ TypeIs ty us nx ∧ nameType o ty s = .ok x s' := by
  rw [parseType] at h
  cases ts with
  | nil => cases h
  | cons t ts =>
    replace h := expect_inv h
    obtain ⟨hk, h⟩ := h
    rw [cur_bind] at h
    replace h := lift_inv h
    obtain ⟨y, s', hy, h⟩ := h
    replace h := next_inv h
    obtain ⟨u, us, rfl, h⟩ := h
    rw [cur_bind] at h
    by_cases hq : u.kind = .question
    · rw [if_pos hq] at h
      replace h := lift_inv h
      obtain ⟨z, s2, hz, h⟩ := h
      replace h := next_inv h
      obtain ⟨v, vs, rfl, h⟩ := h
      cases h
      exact ⟨_, [t, u], v, vs, s2, rfl, rfl, .opt hk hq, by rw [nameType, Act.bind_apply, hy]; exact hz⟩
    · rw [if_neg hq] at h
      cases h
      exact ⟨_, [t], u, us, s', rfl, rfl, .plain hk hq, by rw [nameType, Act.bind_apply, hy]; rfl⟩

variable (o : Ops σ V S T F)

def FacS (n : Nat) : Prop := ∀ {ts s x q}, parseFactor o n ⟨ts, s⟩ = .ok x q →
  ∃ e us nx rest s', ts = us ++ nx :: rest ∧ q = ⟨nx :: rest, s'⟩ ∧ FacIs e x.2 us nx ∧ isSuffix nx.kind = false ∧
    nameExpr o e s = .ok x.1 s'

def ExprS (n : Nat) : Prop := ∀ {ts s x q}, parseExpr o n ⟨ts, s⟩ = .ok x q →
  ∃ e us nx rest s', ts = us ++ nx :: rest ∧ q = ⟨nx :: rest, s'⟩ ∧ ExprIs e us nx ∧ level nx.kind = none ∧
    nameExpr o e s = .ok x s'

def ValS (n : Nat) : Prop := ∀ {ts s x q}, parseValue o n ⟨ts, s⟩ = .ok x q →
  ∃ e us nx rest s', ts = us ++ nx :: rest ∧ q = ⟨nx :: rest, s'⟩ ∧ FacIs e x.2 us nx ∧ nameExpr o e s = .ok x.1 s'

def SufS (n : Nat) : Prop := ∀ {ts s x y q}, parseSuffix o n x ⟨ts, s⟩ = .ok y q →
  ∀ {e0 us0 s0}, (∀ t ts', ts = t :: ts' → FacIs e0 x.2 us0 t) → nameExpr o e0 s0 = .ok x.1 s →
  ∃ e us nx rest s', ts = us ++ nx :: rest ∧ q = ⟨nx :: rest, s'⟩ ∧ FacIs e y.2 (us0 ++ us) nx ∧
    isSuffix nx.kind = false ∧ nameExpr o e s0 = .ok y.1 s'

def DotS (n : Nat) : Prop := ∀ {ts s x y q}, parseDots o n x ⟨ts, s⟩ = .ok y q →
  ∀ {e0 us0 s0}, (∀ t ts', ts = t :: ts' → FacIs e0 x.2 us0 t) → nameExpr o e0 s0 = .ok x.1 s →
  ∃ e us nx rest s', ts = us ++ nx :: rest ∧ q = ⟨nx :: rest, s'⟩ ∧ FacIs e y.2 (us0 ++ us) nx ∧
    nameExpr o e s0 = .ok y.1 s'

def BinS (n : Nat) : Prop := ∀ {ts s p x y q}, parseBinRhs o n p x ⟨ts, s⟩ = .ok y q → 0 ≤ p →
  ∀ {e0 us0 s0}, (∀ t ts', ts = t :: ts' → ExprIs e0 us0 t ∧ ∀ op, topOp e0 = some op → tokenPrec t.kind ≤ tokenPrec op) →
  nameExpr o e0 s0 = .ok x s →
  ∃ e us nx rest s', ts = us ++ nx :: rest ∧ q = ⟨nx :: rest, s'⟩ ∧ ExprIs e (us0 ++ us) nx ∧
    tokenPrec nx.kind < p ∧ (∀ op, topOp e = some op → e = e0 ∨ p ≤ tokenPrec op) ∧ nameExpr o e s0 = .ok y s'

def ArgsS (n : Nat) : Prop := ∀ {ts s x q}, parseArgs o n ⟨ts, s⟩ = .ok x q →
  ∃ es us rp rest s', ts = us ++ rp :: rest ∧ q = ⟨rp :: rest, s'⟩ ∧ ArgsIs es (us ++ [rp]) ∧
    nameExprs o es s = .ok x s'

def CallS (n : Nat) : Prop := ∀ {t ts s x q}, parseCall o n ⟨t :: ts, s⟩ = .ok x q →
  ∃ es us nx rest s', ts = us ++ nx :: rest ∧ q = ⟨nx :: rest, s'⟩ ∧ ArgsIs es us ∧ x.2 = t.line ∧
    nameExprs o es s = .ok x.1 s'

def InitS (n : Nat) : Prop := ∀ {ts s x q}, parseCtorArgs o n ⟨ts, s⟩ = .ok x q →
  ∃ es us rc rest s', ts = us ++ rc :: rest ∧ q = ⟨rc :: rest, s'⟩ ∧ InitsAre x.1 es (us ++ [rc]) ∧
    nameExprs o es s = .ok x.2 s'

structure SoundE (n : Nat) : Prop where
  fac : FacS o n
  expr : ExprS o n
  val : ValS o n
  suf : SufS o n
  dot : DotS o n
  bin : BinS o n
  args : ArgsS o n
  call : CallS o n
  init : InitS o n

variable {o}

theorem expr_step {n : Nat} (ih : SoundE o n) : ExprS o (n + 1) := by
  intro ts s x q h
  rw [parseExpr] at h
  replace h := bind_inv h
  obtain ⟨f, r, hf, h⟩ := h
  obtain ⟨e, us, nx, rest, s', rfl, rfl, he, hn, hs⟩ := ih.fac hf
  obtain ⟨e', us', nx', rest', s2, h1, h2, h3, h4, -, h6⟩ := ih.bin h (Int.le_refl 0) (e0 := e) (us0 := us) (s0 := s)
    (fun t ts' ht => by
      cases ht
      exact ⟨.fac he hn, fun op ho => by rw [topOp_fac he] at ho; cases ho⟩) hs
  exact ⟨e', us ++ us', nx', rest', s2, by rw [h1, List.append_assoc], h2, h3, level_none_of h4, h6⟩

theorem fac_step {n : Nat} (ih : SoundE o n) : FacS o (n + 1) := by
  intro ts s x q h
  rw [parseFactor] at h
  replace h := bind_inv h
  obtain ⟨f, r, hf, h⟩ := h
  obtain ⟨e, us, nx, rest, s', rfl, rfl, he, hs⟩ := ih.val hf
  obtain ⟨e', us', nx', rest', s2, h1, h2, h3, h4, h6⟩ := ih.suf h (e0 := e) (us0 := us) (s0 := s)
    (fun t ts' ht => by cases ht; exact he) hs
  exact ⟨e', us ++ us', nx', rest', s2, by rw [h1, List.append_assoc], h2, h3, h4, h6⟩

theorem at_least {e : SExpr} {k : Nat} (h : ∀ op, topOp e = some op → (k : Int) ≤ tokenPrec op) : AtLeast k e := by
  cases e with
  | bin op l r =>
    have := h op rfl
    obtain ⟨j, hj, hj'⟩ := level_of_prec (t := op) (by omega)
    exact ⟨j, hj, by omega⟩
  | _ => trivial

theorem bin_step {n : Nat} (ih : SoundE o n) : BinS o (n + 1) := by
  intro ts s p x y q h hp e0 us0 s0 h0 hs0
  rw [parseBinRhs] at h
  replace h := cur_inv h
  obtain ⟨t, ts, rfl, h⟩ := h
  obtain ⟨hE, hT⟩ := h0 _ _ rfl
  by_cases hlt : tokenPrec t.kind < p
  · rw [if_pos hlt] at h
    cases h
    exact ⟨e0, [], t, ts, s, rfl, rfl, by rw [List.append_nil]; exact hE, hlt, fun _ _ => .inl rfl, hs0⟩
  · rw [if_neg hlt] at h
    replace h := next_inv h
    obtain ⟨u, us, rfl, h⟩ := h
    replace h := bind_inv h
    obtain ⟨f, r, hf, h⟩ := h
    obtain ⟨e1, us1, nx1, rest1, s1, hu, rfl, he1, hn1, hs1⟩ := ih.fac hf
    rw [hu] at *
    rw [cur_bind] at h
    dsimp only at h
    obtain ⟨k, hk, hk'⟩ := level_of_prec (t := t.kind) (by omega)
    -- the right side
    have key : ∃ x2 e2 us2 nx2 rest2 s2, nx1 :: rest1 = us2 ++ nx2 :: rest2 ∧ ExprIs e2 (us1 ++ us2) nx2 ∧
        tokenPrec nx2.kind ≤ tokenPrec t.kind ∧ AtLeast (k + 1) e2 ∧ nameExpr o e2 s = .ok x2 s2 ∧
        parseBinRhs o n p (.bin t.kind x x2) ⟨nx2 :: rest2, s2⟩ = .ok y q := by
      by_cases hb : tokenPrec t.kind < tokenPrec nx1.kind
      · rw [if_pos hb] at h
        replace h := bind_inv h
        obtain ⟨x2, r, hx2, h⟩ := h
        obtain ⟨e2, us2, nx2, rest2, s2, h1, rfl, h3, h4, h5, h6⟩ := ih.bin hx2 (by omega) (e0 := e1) (us0 := us1)
          (s0 := s) (fun t ts' ht => by
            cases ht
            exact ⟨.fac he1 hn1, fun op ho => by rw [topOp_fac he1] at ho; cases ho⟩) hs1
        refine ⟨x2, e2, us2, nx2, rest2, s2, h1, h3, by omega, ?_, h6, h⟩
        refine at_least fun op ho => ?_
        rcases h5 op ho with rfl | h5
        · rw [topOp_fac he1] at ho; cases ho
        · omega
      · rw [if_neg hb, pure_bind] at h
        exact ⟨f.1, e1, [], nx1, rest1, s1, rfl, by rw [List.append_nil]; exact .fac he1 hn1, by omega,
          at_least fun op ho => (by rw [topOp_fac he1] at ho; cases ho), hs1, h⟩
    obtain ⟨x2, e2, us2, nx2, rest2, s2, h1, h3, h4, h5, h6, h⟩ := key
    have hbin : ExprIs (.bin t.kind e0 e2) (us0 ++ t :: (us1 ++ us2)) nx2 :=
      .bin hk hE h3 (at_least fun op ho => by have := hT op ho; omega) h5
    obtain ⟨e', us', nx', rest', s3, g1, g2, g3, g4, g5, g6⟩ := ih.bin h hp
      (e0 := .bin t.kind e0 e2) (us0 := us0 ++ t :: (us1 ++ us2)) (s0 := s0)
      (fun t' ts' ht => by
        cases ht
        exact ⟨hbin, fun op ho => by cases ho; exact h4⟩)
      (by simp only [nameExpr, Act.bind_apply, hs0, h6]; rfl)
    refine ⟨e', t :: (us1 ++ us2) ++ us', nx', rest', s3, ?_, g2, ?_, g4, ?_, g6⟩
    · rw [h1, g1]; simp
    · rw [← List.append_assoc]; exact g3
    · intro op ho
      rcases g5 op ho with rfl | g5
      · cases ho; exact .inr (by omega)
      · exact .inr g5

theorem dot_step {n : Nat} (ih : SoundE o n) : DotS o (n + 1) := by
  intro ts s x y q h e0 us0 s0 h0 hs0
  rw [parseDots] at h
  replace h := cur_inv h
  obtain ⟨t, ts, rfl, h⟩ := h
  have hE := h0 _ _ rfl
  by_cases hd : t.kind = .dot
  · rw [if_pos hd] at h
    replace h := getExpect_inv h
    obtain ⟨f, ts, rfl, hf, h⟩ := h
    rw [cur_bind] at h
    replace h := next_inv h
    obtain ⟨u, ts, rfl, h⟩ := h
    obtain ⟨e', us', nx', rest', s3, g1, g2, g3, g4⟩ := ih.dot h (e0 := .dot e0 f.lexeme) (us0 := us0 ++ [t, f]) (s0 := s0)
      (fun t' ts' ht => .dot hE hd hf) (by simp only [nameExpr, Act.bind_apply, hs0]; rfl)
    exact ⟨e', t :: f :: us', nx', rest', s3, by rw [g1]; rfl, g2, by simpa using g3, g4⟩
  · rw [if_neg hd] at h
    cases h
    exact ⟨e0, [], t, ts, s, rfl, rfl, by rw [List.append_nil]; exact hE, hs0⟩

theorem suf_step {n : Nat} (ih : SoundE o n) : SufS o (n + 1) := by
  intro ts s x y q h e0 us0 s0 h0 hs0
  rw [parseSuffix] at h
  replace h := cur_inv h
  obtain ⟨t, ts, rfl, h⟩ := h
  have hE := h0 _ _ rfl
  by_cases hb : t.kind = .openSquare
  · rw [if_pos hb] at h
    replace h := next_inv h
    obtain ⟨u, us, rfl, h⟩ := h
    rw [cur_bind] at h
    replace h := bind_inv h
    obtain ⟨i, r, hi, h⟩ := h
    obtain ⟨e1, us1, nx1, rest1, s1, hu, rfl, he1, hn1, hs1⟩ := ih.expr hi
    replace h := expect_inv h
    obtain ⟨hk, h⟩ := h
    replace h := next_inv h
    obtain ⟨v, vs, rfl, h⟩ := h
    obtain ⟨w, ws, rfl, -⟩ := starts_expr he1
    cases hu
    obtain ⟨e', us', nx', rest', s3, g1, g2, g3, g4, g5⟩ := ih.suf h (e0 := .index e0 e1)
      (us0 := us0 ++ t :: (u :: ws) ++ [nx1]) (s0 := s0)
      (fun t' ts' ht => .index hE hb he1 hk) (by simp only [nameExpr, Act.bind_apply, hs0, hs1]; rfl)
    exact ⟨e', t :: u :: ws ++ nx1 :: us', nx', rest', s3, by rw [g1]; simp, g2, by simpa using g3, g4, g5⟩
  rw [if_neg hb] at h
  by_cases ha : t.kind = .arrow
  · rw [if_pos ha] at h
    replace h := getExpect_inv h
    obtain ⟨f, ts, rfl, hf, h⟩ := h
    rw [cur_bind] at h
    replace h := getExpect_inv h
    obtain ⟨lp, ts, rfl, hlp, h⟩ := h
    replace h := bind_inv h
    obtain ⟨c, r, hc, h⟩ := h
    obtain ⟨es, us, nx, rest, s1, rfl, rfl, g1, -, g3⟩ := ih.call hc
    obtain ⟨e', us', nx', rest', s3, k1, k2, k3, k4, k5⟩ := ih.suf h (e0 := .call f.lexeme (e0 :: es))
      (us0 := us0 ++ t :: f :: lp :: us) (s0 := s0)
      (fun t' ts' ht => .arrow hE ha hf hlp g1) (by simp only [nameExpr, nameExprs, Act.bind_apply, hs0, g3]; rfl)
    exact ⟨e', t :: f :: lp :: us ++ us', nx', rest', s3, by rw [k1]; simp, k2, by simpa using k3, k4, k5⟩
  rw [if_neg ha] at h
  by_cases hd : t.kind = .dot
  · rw [if_pos hd] at h
    replace h := getExpect_inv h
    obtain ⟨f, ts, rfl, hf, h⟩ := h
    rw [cur_bind] at h
    replace h := next_inv h
    obtain ⟨u, ts, rfl, h⟩ := h
    obtain ⟨e', us', nx', rest', s3, g1, g2, g3, g4⟩ := ih.suf h (e0 := .dot e0 f.lexeme) (us0 := us0 ++ [t, f]) (s0 := s0)
      (fun t' ts' ht => .dot hE hd hf) (by simp only [nameExpr, Act.bind_apply, hs0]; rfl)
    exact ⟨e', t :: f :: us', nx', rest', s3, by rw [g1]; rfl, g2, by simpa using g3, g4⟩
  · rw [if_neg hd] at h
    cases h
    refine ⟨e0, [], t, ts, s, rfl, rfl, by rw [List.append_nil]; exact hE, ?_, hs0⟩
    cases hk : t.kind <;> first | rfl | contradiction

theorem call_step {n : Nat} (ih : SoundE o n) : CallS o (n + 1) := by
  intro t ts s x q h
  rw [parseCall, cur_bind] at h
  replace h := next_inv h
  obtain ⟨u, us, rfl, h⟩ := h
  replace h := bind_inv h
  obtain ⟨a, r, ha, h⟩ := h
  obtain ⟨es, us1, rp, rest1, s1, hu, rfl, he1, hs1⟩ := ih.args ha
  replace h := next_inv h
  obtain ⟨v, vs, rfl, h⟩ := h
  cases h
  exact ⟨es, us1 ++ [rp], v, vs, s1, by rw [hu]; simp, rfl, he1, rfl, hs1⟩

theorem args_step {n : Nat} (ih : SoundE o n) : ArgsS o (n + 1) := by
  intro ts s x q h
  rw [parseArgs] at h
  replace h := cur_inv h
  obtain ⟨t, ts, rfl, h⟩ := h
  by_cases hc : t.kind = .closeParen
  · rw [if_pos hc] at h
    cases h
    exact ⟨[], [], t, ts, s, rfl, rfl, .nil hc, rfl⟩
  rw [if_neg hc] at h
  replace h := bind_inv h
  obtain ⟨i, r, hi, h⟩ := h
  obtain ⟨e1, us1, nx1, rest1, s1, hu, rfl, he1, hn1, hs1⟩ := ih.expr hi
  rw [hu]
  rw [cur_bind] at h
  by_cases hm : nx1.kind = .comma
  · rw [if_pos hm] at h
    replace h := next_inv h
    obtain ⟨v, vs, rfl, h⟩ := h
    replace h := bind_inv h
    obtain ⟨a, r, ha, h⟩ := h
    obtain ⟨es, us2, rp, rest2, s2, hv, rfl, he2, hs2⟩ := ih.args ha
    cases h
    refine ⟨e1 :: es, us1 ++ nx1 :: us2, rp, rest2, s2, by rw [hv]; simp, rfl, ?_, ?_⟩
    · rw [List.append_assoc]; exact .cons he1 hm he2
    · simp only [nameExprs, Act.bind_apply, hs1, hs2]; rfl
  rw [if_neg hm] at h
  by_cases hc' : nx1.kind = .closeParen
  · rw [if_pos hc'] at h
    replace h := bind_inv h
    obtain ⟨a, r, ha, h⟩ := h
    obtain ⟨m, rfl⟩ : ∃ m, n = m + 1 := by
      cases n with
      | zero => cases ha
      | succ m => exact ⟨m, rfl⟩
    rw [parseArgs, cur_bind, if_pos hc'] at ha
    cases ha
    cases h
    exact ⟨[e1], us1, nx1, rest1, s1, rfl, rfl, .last he1 hc', by simp only [nameExprs, Act.bind_apply, hs1]; rfl⟩
  · rw [if_neg hc'] at h
    cases h

theorem init_step {n : Nat} (ih : SoundE o n) : InitS o (n + 1) := by
  intro ts s x q h
  rw [parseCtorArgs] at h
  replace h := cur_inv h
  obtain ⟨t, ts, rfl, h⟩ := h
  by_cases hc : t.kind = .closeCurly
  · rw [if_pos hc] at h
    cases h
    exact ⟨[], [], t, ts, s, rfl, rfl, .nil hc, rfl⟩
  rw [if_neg hc] at h
  dsimp only at h
  -- the optional name
  have key : ∃ ns ds ts', t :: ts = ds ++ ts' ∧ Desig ns ds ∧ (do
      let e ← parseExpr o n
      let t ← cur
      if t.kind ≠ .closeCurly ∧ t.kind ≠ .comma then reject
      else do
        if t.kind = .comma then next else pure ()
        let r ← parseCtorArgs o n
        pure (ns ++ r.1, e :: r.2) : Act (PS σ) _) ⟨ts', s⟩ = .ok x q := by
    by_cases hd : t.kind = .dot
    · rw [if_pos hd] at h
      replace h := getExpect_inv h
      obtain ⟨f, ts, rfl, hf, h⟩ := h
      rw [cur_bind] at h
      replace h := getExpect_inv h
      obtain ⟨e, ts, rfl, he, h⟩ := h
      replace h := next_inv h
      obtain ⟨u, us, rfl, h⟩ := h
      exact ⟨[f.lexeme], [t, f, e], u :: us, rfl, .yes hd hf he, h⟩
    · rw [if_neg hd] at h
      exact ⟨[], [], t :: ts, rfl, .no, h⟩
  obtain ⟨ns, ds, ts', h0, hD, h⟩ := key
  rw [h0]
  replace h := bind_inv h
  obtain ⟨i, r, hi, h⟩ := h
  obtain ⟨e1, us1, nx1, rest1, s1, rfl, rfl, he1, hn1, hs1⟩ := ih.expr hi
  rw [cur_bind] at h
  by_cases hm : nx1.kind = .comma
  · rw [if_neg (by rw [hm]; decide)] at h
    dsimp only at h
    rw [if_pos hm] at h
    replace h := next_inv h
    obtain ⟨v, vs, rfl, h⟩ := h
    replace h := bind_inv h
    obtain ⟨a, r, ha, h⟩ := h
    obtain ⟨es, us2, rp, rest2, s2, hv, rfl, he2, hs2⟩ := ih.init ha
    cases h
    refine ⟨e1 :: es, ds ++ us1 ++ nx1 :: us2, rp, rest2, s2, by rw [hv]; simp, rfl, ?_, ?_⟩
    · have := InitsAre.cons hD he1 hm he2
      simpa using this
    · simp only [nameExprs, Act.bind_apply, hs1, hs2]; rfl
  by_cases hc' : nx1.kind = .closeCurly
  · rw [if_neg (by rw [hc']; decide)] at h
    dsimp only at h
    rw [if_neg hm] at h
    replace h := bind_inv h
    obtain ⟨a, r, ha, h⟩ := h
    obtain ⟨m, rfl⟩ : ∃ m, n = m + 1 := by
      cases n with
      | zero => cases ha
      | succ m => exact ⟨m, rfl⟩
    rw [parseCtorArgs, cur_bind, if_pos hc'] at ha
    cases ha
    cases h
    refine ⟨[e1], ds ++ us1, nx1, rest1, s1, by simp, rfl, ?_, by simp only [nameExprs, Act.bind_apply, hs1]; rfl⟩
    have := InitsAre.last hD he1 hc'
    simpa using this
  · rw [if_pos ⟨hc', hm⟩] at h
    cases h

theorem val_step {n : Nat} (ih : SoundE o n) : ValS o (n + 1) := by
  intro ts s x q h
  rw [parseValue] at h
  replace h := cur_inv h
  obtain ⟨t, ts, rfl, h⟩ := h
  cases hk : t.kind <;> simp only [hk] at h
  all_goals try (cases h; done)
  case null =>
    replace h := next_inv h
    obtain ⟨u, us, rfl, h⟩ := h
    cases h
    exact ⟨_, [t], u, us, s, rfl, rfl, .val (.null hk), rfl⟩
  case bool =>
    replace h := next_inv h
    obtain ⟨u, us, rfl, h⟩ := h
    cases h
    exact ⟨_, [t], u, us, s, rfl, rfl, .val (.bool hk), rfl⟩
  case char =>
    replace h := next_inv h
    obtain ⟨u, us, rfl, h⟩ := h
    cases h
    exact ⟨_, [t], u, us, s, rfl, rfl, .val (.char hk), rfl⟩
  case int =>
    replace h := next_inv h
    obtain ⟨u, us, rfl, h⟩ := h
    cases h
    exact ⟨_, [t], u, us, s, rfl, rfl, .val (.int hk), rfl⟩
  case float =>
    replace h := next_inv h
    obtain ⟨u, us, rfl, h⟩ := h
    cases h
    exact ⟨_, [t], u, us, s, rfl, rfl, .val (.float hk), rfl⟩
  case string =>
    replace h := lift_inv h
    obtain ⟨i, s1, hi, h⟩ := h
    replace h := next_inv h
    obtain ⟨u, us, rfl, h⟩ := h
    cases h
    exact ⟨_, [t], u, us, s1, rfl, rfl, .val (.str hk), by simp only [nameExpr, Act.bind_apply, hi]; rfl⟩
  case ident =>
    replace h := next_inv h
    obtain ⟨u, us, rfl, h⟩ := h
    rw [cur_bind] at h
    by_cases hp : u.kind = .openParen
    · rw [if_pos hp] at h
      replace h := bind_inv h
      obtain ⟨c, r, hc, h⟩ := h
      obtain ⟨es, us, nx, rest, s1, rfl, rfl, g1, g2, g3⟩ := ih.call hc
      cases h
      refine ⟨.call t.lexeme es, t :: u :: us, nx, rest, s1, rfl, rfl, .val ?_, by simp only [nameExpr, Act.bind_apply, g3]; rfl⟩
      dsimp only
      rw [g2]
      exact .call hk hp g1
    · rw [if_neg hp] at h
      replace h := lift_inv h
      obtain ⟨v, s1, hv, h⟩ := h
      cases h
      exact ⟨_, [t], u, us, s1, rfl, rfl, .val (.id hk hp), by simp only [nameExpr, Act.bind_apply, hv]; rfl⟩
  case minus =>
    replace h := next_inv h
    obtain ⟨u, us, rfl, h⟩ := h
    rw [cur_bind] at h
    replace h := bind_inv h
    obtain ⟨f, r, hf, h⟩ := h
    obtain ⟨e1, us1, nx1, rest1, s1, hu, rfl, he1, hn1, hs1⟩ := ih.fac hf
    cases h
    obtain ⟨w, ws, rfl, -⟩ := starts_fac he1
    cases hu
    refine ⟨_, t :: u :: ws, nx1, rest1, s1, rfl, rfl, .val (.un (.inl hk) he1 hn1), ?_⟩
    simp only [nameExpr, Act.bind_apply, hs1, hk]; rfl
  case bang =>
    replace h := next_inv h
    obtain ⟨u, us, rfl, h⟩ := h
    rw [cur_bind] at h
    replace h := bind_inv h
    obtain ⟨f, r, hf, h⟩ := h
    obtain ⟨e1, us1, nx1, rest1, s1, hu, rfl, he1, hn1, hs1⟩ := ih.fac hf
    cases h
    obtain ⟨w, ws, rfl, -⟩ := starts_fac he1
    cases hu
    refine ⟨_, t :: u :: ws, nx1, rest1, s1, rfl, rfl, .val (.un (.inr hk) he1 hn1), ?_⟩
    simp only [nameExpr, Act.bind_apply, hs1, hk]; rfl
  case openParen =>
    replace h := next_inv h
    obtain ⟨u, us, rfl, h⟩ := h
    replace h := bind_inv h
    obtain ⟨f, r, hf, h⟩ := h
    obtain ⟨e1, us1, nx1, rest1, s1, hu, rfl, he1, hn1, hs1⟩ := ih.expr hf
    replace h := expect_inv h
    obtain ⟨hc, h⟩ := h
    replace h := next_inv h
    obtain ⟨v, vs, rfl, h⟩ := h
    cases h
    refine ⟨_, t :: us1 ++ [nx1], v, vs, s1, by rw [hu]; simp, rfl, .val (.paren hk he1 hc), ?_⟩
    simp only [nameExpr, Act.bind_apply, hs1]; rfl
  case newTok =>
    replace h := next_inv h
    obtain ⟨m, us, rfl, h⟩ := h
    rw [cur_bind] at h
    replace h := lift_inv h
    obtain ⟨_, s0, hs0, h⟩ := h
    replace h := getExpect_inv h
    obtain ⟨lc, us, rfl, hlc, h⟩ := h
    replace h := next_inv h
    obtain ⟨u, us, rfl, h⟩ := h
    replace h := bind_inv h
    obtain ⟨f, r, hf, h⟩ := h
    obtain ⟨es, us1, rc, rest1, s1, hu, rfl, he1, hs1⟩ := ih.init hf
    replace h := next_inv h
    obtain ⟨v, vs, rfl, h⟩ := h
    cases h
    refine ⟨_, t :: m :: lc :: (us1 ++ [rc]), v, vs, s1, by rw [hu]; simp, rfl, .val (.ctor hk hlc he1), ?_⟩
    simp only [nameExpr, Act.bind_apply, hs0, hs1]; rfl
  case castTok =>
    replace h := getExpect_inv h
    obtain ⟨lp, us, rfl, hlp, h⟩ := h
    replace h := next_inv h
    obtain ⟨u, us, rfl, h⟩ := h
    replace h := bind_inv h
    obtain ⟨f, r, hf, h⟩ := h
    obtain ⟨e1, us1, nx1, rest1, s1, hu, rfl, he1, hn1, hs1⟩ := ih.expr hf
    replace h := expect_inv h
    obtain ⟨hc, h⟩ := h
    replace h := next_inv h
    obtain ⟨v, vs, rfl, h⟩ := h
    replace h := bind_inv h
    obtain ⟨ty, r, hty, h⟩ := h
    obtain ⟨ty', us2, nx2, rest2, s2, hv, rfl, ht, hs2⟩ := type_sound o hty
    replace h := expect_inv h
    obtain ⟨hrp, h⟩ := h
    replace h := next_inv h
    obtain ⟨w, ws, rfl, h⟩ := h
    obtain ⟨e', us', nx', rest', s3, g1, g2, g3, g4⟩ := ih.dot h (e0 := .cast e1 ty')
      (us0 := t :: lp :: us1 ++ nx1 :: us2 ++ [nx2]) (s0 := s)
      (fun t' ts' ht' => .val (.cast hk hlp he1 hc ht hrp)) (by simp only [nameExpr, Act.bind_apply, hs1, hs2]; rfl)
    refine ⟨e', _, nx', rest', s3, ?_, g2, g3, g4⟩
    rw [hu, hv, g1]; simp
  case ifTok =>
    replace h := next_inv h
    obtain ⟨u, us, rfl, h⟩ := h
    replace h := bind_inv h
    obtain ⟨c, r, hc, h⟩ := h
    obtain ⟨e1, us1, nx1, rest1, s1, hu, rfl, he1, hn1, hs1⟩ := ih.expr hc
    replace h := bind_inv h
    obtain ⟨a, r, ha, h⟩ := h
    obtain ⟨e2, us2, nx2, rest2, s2, hv, rfl, he2, hn2, hs2⟩ := ih.expr ha
    replace h := expect_inv h
    obtain ⟨hel, h⟩ := h
    replace h := next_inv h
    obtain ⟨w, ws, rfl, h⟩ := h
    replace h := bind_inv h
    obtain ⟨b, r, hb, h⟩ := h
    obtain ⟨e3, us3, nx3, rest3, s3, hw, rfl, he3, hn3, hs3⟩ := ih.expr hb
    cases h
    obtain ⟨y, ys, rfl, -⟩ := starts_expr he2
    cases hv
    refine ⟨_, t :: us1 ++ (nx1 :: ys) ++ nx2 :: us3, nx3, rest3, s3, ?_, rfl,
      .val (.ite hk he1 hn1 he2 hel he3 hn3), ?_⟩
    · rw [hu, hw]; simp
    · simp only [nameExpr, Act.bind_apply, hs1, hs2, hs3]; rfl

theorem soundE (n : Nat) : SoundE o n := by
  induction n with
  | zero =>
    constructor
    all_goals (intro _ _ _ _; intros; contradiction)
  | succ n ih =>
    exact ⟨fac_step ih, expr_step ih, val_step ih, suf_step ih, dot_step ih, bin_step ih, args_step ih, call_step ih,
      init_step ih⟩

end

end Tiny
