import Verif.Proofs.ParseSound

/-!
# Whatever the parser accepts as statement or program is one
-/

namespace Tiny
open Spec

section
variable {σ V S T F α β : Type} {o : Ops σ V S T F}

theorem params_sound (n : Nat) : ∀ {ts s x q}, parseParams o n ⟨ts, s⟩ = .ok x q →
    ∃ ps us rp rest s', ts = us ++ rp :: rest ∧ q = ⟨rp :: rest, s'⟩ ∧ ParamsAre ps (us ++ [rp]) ∧
      nameParams o ps s = .ok x s' := by
  induction n with
  | zero => intros; contradiction
  | succ n ih =>
    intro ts s x q h
    rw [parseParams] at h
    replace h := cur_inv h
    obtain ⟨t, ts, rfl, h⟩ := h
    by_cases hc : t.kind = .closeParen
    · rw [if_pos hc] at h
      cases h
      exact ⟨[], [], t, ts, s, rfl, rfl, .nil hc, rfl⟩
    rw [if_neg hc] at h
    replace h := expect_inv h
    obtain ⟨hi, h⟩ := h
    rw [cur_bind] at h
    replace h := getExpect_inv h
    obtain ⟨c, ts, rfl, hcl, h⟩ := h
    replace h := next_inv h
    obtain ⟨u, ts, rfl, h⟩ := h
    replace h := bind_inv h
    obtain ⟨ty, r, hty, h⟩ := h
    obtain ⟨ty', us, nx, rest, s1, hu, rfl, ht, hs1⟩ := type_sound o hty
    rw [hu]
    rw [cur_bind] at h
    by_cases hm : nx.kind = .comma
    · rw [if_neg (by rw [hm]; decide)] at h
      dsimp only at h
      rw [if_pos hm] at h
      replace h := next_inv h
      obtain ⟨v, vs, rfl, h⟩ := h
      replace h := bind_inv h
      obtain ⟨a, r, ha, h⟩ := h
      obtain ⟨ps, us2, rp, rest2, s2, hv, rfl, he2, hs2⟩ := ih ha
      cases h
      refine ⟨(t.lexeme, ty') :: ps, t :: c :: us ++ nx :: us2, rp, rest2, s2, by rw [hv]; simp, rfl, ?_, ?_⟩
      · have := ParamsAre.cons hi hcl ht hm he2
        simpa using this
      · simp only [nameParams, Act.bind_apply, hs1, hs2]; rfl
    by_cases hc' : nx.kind = .closeParen
    · rw [if_neg (by rw [hc']; decide)] at h
      dsimp only at h
      rw [if_neg hm] at h
      replace h := bind_inv h
      obtain ⟨a, r, ha, h⟩ := h
      obtain ⟨m, rfl⟩ : ∃ m, n = m + 1 := by
        cases n with
        | zero => cases ha
        | succ m => exact ⟨m, rfl⟩
      rw [parseParams, cur_bind, if_pos hc'] at ha
      cases ha
      cases h
      refine ⟨[(t.lexeme, ty')], t :: c :: us, nx, rest, s1, by simp, rfl, ?_,
        by simp only [nameParams, Act.bind_apply, hs1]; rfl⟩
      exact .last hi hcl ht hc'
    · rw [if_pos ⟨hc', hm⟩] at h
      cases h

theorem ret_sound {ts s x q} (h : parseRet o ⟨ts, s⟩ = .ok x q) :
    ∃ r us nx rest s', ts = us ++ nx :: rest ∧ q = ⟨nx :: rest, s'⟩ ∧ RetIs r us nx ∧ nameRet o r s = .ok x s' := by
  rw [parseRet] at h
  replace h := cur_inv h
  obtain ⟨t, ts, rfl, h⟩ := h
  by_cases hc : t.kind = .colon
  · rw [if_neg (by simp [hc])] at h
    replace h := next_inv h
    obtain ⟨u, us, rfl, h⟩ := h
    replace h := bind_inv h
    obtain ⟨ty, r, hty, h⟩ := h
    obtain ⟨ty', us, nx, rest, s1, hu, rfl, ht, hs1⟩ := type_sound o hty
    cases h
    exact ⟨some ty', t :: us, nx, rest, s1, by rw [hu]; rfl, rfl, .yes hc ht,
      by simp only [nameRet, Act.bind_apply, hs1]; rfl⟩
  · rw [if_pos hc] at h
    cases h
    exact ⟨none, [], t, ts, s, rfl, rfl, .no hc, rfl⟩

theorem use_sound (n : Nat) : ∀ {ts : List Tk} {s : σ} {x q}, parseUseArgs n ⟨ts, s⟩ = .ok x q →
    ∃ us rp rest, ts = us ++ rp :: rest ∧ q = ⟨rp :: rest, s⟩ ∧ UseArgs x (us ++ [rp]) := by
  induction n with
  | zero => intros; contradiction
  | succ n ih =>
    intro ts s x q h
    rw [parseUseArgs] at h
    replace h := cur_inv h
    obtain ⟨t, ts, rfl, h⟩ := h
    by_cases hc : t.kind = .closeParen
    · rw [if_pos hc] at h
      cases h
      exact ⟨[], t, ts, rfl, rfl, .nil hc⟩
    rw [if_neg hc] at h
    replace h := expect_inv h
    obtain ⟨hi, h⟩ := h
    replace h := next_inv h
    obtain ⟨u, ts, rfl, h⟩ := h
    rw [cur_bind] at h
    dsimp only at h
    by_cases hm : u.kind = .comma
    · rw [if_pos hm] at h
      replace h := next_inv h
      obtain ⟨v, vs, rfl, h⟩ := h
      replace h := bind_inv h
      obtain ⟨a, r, ha, h⟩ := h
      obtain ⟨us2, rp, rest2, hv, rfl, he2⟩ := ih ha
      cases h
      exact ⟨t :: u :: us2, rp, rest2, by rw [hv]; rfl, rfl, .comma hi hm he2⟩
    · rw [if_neg hm] at h
      replace h := bind_inv h
      obtain ⟨a, r, ha, h⟩ := h
      obtain ⟨us2, rp, rest2, hv, rfl, he2⟩ := ih ha
      cases h
      exact ⟨t :: us2, rp, rest2, by rw [hv]; rfl, rfl, .cons hi he2⟩

theorem useAs_sound {ts : List Tk} {s : σ} {x q} (h : parseUseAs ⟨ts, s⟩ = .ok x q) :
    ∃ us nx rest, ts = us ++ nx :: rest ∧ q = ⟨nx :: rest, s⟩ ∧ UseAs x us nx := by
  rw [parseUseAs] at h
  replace h := cur_inv h
  obtain ⟨t, ts, rfl, h⟩ := h
  by_cases hc : t.kind = .ident ∧ t.lexeme = nameOf "as"
  · rw [if_pos hc] at h
    replace h := getExpect_inv h
    obtain ⟨u, ts, rfl, hu, h⟩ := h
    rw [cur_bind] at h
    replace h := next_inv h
    obtain ⟨v, ts, rfl, h⟩ := h
    cases h
    exact ⟨[t, u], v, ts, rfl, rfl, .yes hc.1 hc.2 hu⟩
  · rw [if_neg hc] at h
    cases h
    exact ⟨[], t, ts, rfl, rfl, .no hc⟩

def StmtS (o : Ops σ V S T F) (n : Nat) : Prop := ∀ {ts s x q}, parseStmt o n ⟨ts, s⟩ = .ok x q →
  ∃ b us nx rest s', ts = us ++ nx :: rest ∧ q = ⟨nx :: rest, s'⟩ ∧ StmtIs b us nx ∧ nameStmt o b s = .ok x s'

def BlockS (o : Ops σ V S T F) (n : Nat) : Prop := ∀ {ts s x q}, parseBlock o n ⟨ts, s⟩ = .ok x q →
  ∃ ss us nx rest s', ts = us ++ nx :: rest ∧ q = ⟨nx :: rest, s'⟩ ∧ StmtsAre ss us nx ∧ nx.kind = .closeCurly ∧
    nameStmts o ss s = .ok x s'

/-- A name on the left comes from a name. -/
theorem name_id {e : SExpr} {n : Name} {v : V} {s s' : σ} (h : nameExpr o e s = .ok (.id n v) s') :
    e = .id n () ∧ o.ref n s = .ok v s' := by
  cases e with
  | id m u =>
    rw [nameExpr] at h
    obtain ⟨w, r, hw, h⟩ := bind_inv h
    cases h
    exact ⟨rfl, hw⟩
  | null => cases h
  | bool => cases h
  | int => cases h
  | char => cases h
  | float => cases h
  | _ =>
    rw [nameExpr] at h
    repeat (replace h := bind_inv h; obtain ⟨_, _, _, h⟩ := h)
    cases h

theorem name_call {e : SExpr} {f : Name} {as : List (PExpr V S T)} {s s' : σ}
    (h : nameExpr o e s = .ok (.call f as) s') :
    ∃ es, e = .call f es ∧ nameExprs o es s = .ok as s' := by
  cases e with
  | call m u =>
    rw [nameExpr] at h
    obtain ⟨w, r, hw, h⟩ := bind_inv h
    cases h
    exact ⟨_, rfl, hw⟩
  | null => cases h
  | bool => cases h
  | int => cases h
  | char => cases h
  | float => cases h
  | _ =>
    rw [nameExpr] at h
    repeat (replace h := bind_inv h; obtain ⟨_, _, _, h⟩ := h)
    cases h

theorem name_not_call {f : Name} {es : List SExpr} {x : PExpr V S T} {s s' : σ}
    (h : nameExpr o (.call f es) s = .ok x s') : ∃ as, x = .call f as := by
  rw [nameExpr] at h
  obtain ⟨w, r, hw, h⟩ := bind_inv h
  cases h
  exact ⟨_, rfl⟩

theorem name_lit {e : SExpr} {x : PExpr V S T} {l : Lit S} {s s' : σ} (h : nameExpr o e s = .ok x s')
    (hl : x.lit = some l) : e.lit.isSome := by
  cases e with
  | null => cases h; exact absurd hl (by simp [PExpr.lit])
  | bool => rfl
  | int => rfl
  | char => rfl
  | float => rfl
  | str => rfl
  | _ =>
    rw [nameExpr] at h
    repeat (replace h := bind_inv h; obtain ⟨_, _, _, h⟩ := h)
    cases h
    exact absurd hl (by simp [PExpr.lit])

/-- An assignment, with its left side. -/
theorem assign_sound {n : Nat} {ts : List Tk} {s s0 : σ} {l : PExpr V S T} {x q}
    (h : parseAssign o n l ⟨ts, s⟩ = .ok x q) {lhs : SExpr} {us0 : List Tk} {ln : Nat}
    (h0 : ∀ t ts', ts = t :: ts' → FacIs lhs ln us0 t ∧ isSuffix t.kind = false)
    (hs0 : nameExpr o lhs s0 = .ok l s) (hl : IsLeft lhs) :
    ∃ b us nx rest s', ts = us ++ nx :: rest ∧ q = ⟨nx :: rest, s'⟩ ∧ StmtIs b (us0 ++ us) nx ∧
      nameStmt o b s0 = .ok x s' := by
  rw [parseAssign] at h
  replace h := cur_inv h
  obtain ⟨t, ts, rfl, h⟩ := h
  obtain ⟨hF, hn⟩ := h0 _ _ rfl
  dsimp only at h
  by_cases hd : t.kind = .declare ∨ t.kind = .colon
  · rw [if_pos hd] at h
    cases l with
    | id nm v =>
      obtain ⟨rfl, hv⟩ := name_id hs0
      obtain ⟨t0, rfl, hk0, hl0⟩ : ∃ t0, us0 = [t0] ∧ t0.kind = .ident ∧ t0.lexeme = nm := by
        cases hF with
        | val h => cases h with | id h1 h2 => exact ⟨_, rfl, h1, rfl⟩
      subst hl0
      rw [parseDeclare] at h
      simp only [bind_assoc] at h
      replace h := lift_inv h
      obtain ⟨w, s1, hw, h⟩ := h
      by_cases hc : t.kind = .colon
      · rw [if_pos hc] at h
        simp only [bind_assoc] at h
        replace h := next_inv h
        obtain ⟨u, ts, rfl, h⟩ := h
        replace h := bind_inv h
        obtain ⟨ty, r, hty, h⟩ := h
        obtain ⟨ty', us, nx, rest, s2, hu, rfl, ht, hs2⟩ := type_sound o hty
        replace h := lift_inv h
        obtain ⟨_, s3, hs3, h⟩ := h
        replace h := expect_inv h
        obtain ⟨he, h⟩ := h
        rw [pure_bind] at h
        dsimp only at h
        rw [if_neg (by decide)] at h
        replace h := next_inv h
        obtain ⟨u2, ts2, rfl, h⟩ := h
        replace h := bind_inv h
        obtain ⟨r', q', hr', h⟩ := h
        obtain ⟨e1, us1, nx1, rest1, s4, hu1, rfl, he1, hn1, hs4⟩ := (soundE n).expr hr'
        rw [parseConst_other o (by decide), pure_bind] at h
        cases h
        refine ⟨_, t :: us ++ nx :: us1, nx1, rest1, s4, ?_, rfl, StmtIs.typed (t := t0) hk0 hc ht he he1 hn1, ?_⟩
        · rw [hu, hu1]; simp
        · simp only [nameStmt, nameDecl, Act.bind_apply, hv, hw, hs2, hs3, hs4]; rfl
      · rw [if_neg hc, pure_bind] at h
        dsimp only at h
        have hdc := hd.resolve_right hc
        rw [hdc, if_neg (by decide)] at h
        replace h := next_inv h
        obtain ⟨u2, ts2, rfl, h⟩ := h
        replace h := bind_inv h
        obtain ⟨r', q', hr', h⟩ := h
        obtain ⟨e1, us1, nx1, rest1, s4, hu1, rfl, he1, hn1, hs4⟩ := (soundE n).expr hr'
        rw [parseConst_other o (by decide), pure_bind] at h
        cases h
        refine ⟨_, t :: us1, nx1, rest1, s4, ?_, rfl, StmtIs.declare (t := t0) hk0 hdc he1 hn1, ?_⟩
        · rw [hu1]; simp
        · simp only [nameStmt, nameDecl, Act.bind_apply, hv, hw, hs4]; rfl
    | _ => cases h
  · rw [if_neg hd, pure_bind] at h
    dsimp only at h
    by_cases hp : 0 ≤ tokenPrec t.kind
    · rw [if_pos hp] at h; cases h
    rw [if_neg hp] at h
    replace h := next_inv h
    obtain ⟨u2, ts2, rfl, h⟩ := h
    replace h := bind_inv h
    obtain ⟨r', q', hr', h⟩ := h
    obtain ⟨e1, us1, nx1, rest1, s4, hu1, rfl, he1, hn1, hs4⟩ := (soundE n).expr hr'
    have hd1 : t.kind ≠ .declare := fun h => hd (.inl h)
    have hd2 : t.kind ≠ .colon := fun h => hd (.inr h)
    have hs : nameStmt o (.node t.line (.assign t.kind none lhs e1)) =
        nameAssign o t.kind lhs e1 >>= fun s => pure (.node t.line s) := by
      rw [nameStmt]
      congr 1
      cases hk : t.kind <;> first | exact absurd hk hd1 | (cases lhs <;> rfl)
    by_cases hc : t.kind = .declareConst
    · unfold parseConst at h
      rw [if_pos hc] at h
      cases l with
      | id nm v =>
        obtain ⟨rfl, hv⟩ := name_id hs0
        cases hlit : r'.lit with
        | none => rw [hlit] at h; cases h
        | some c =>
          rw [hlit] at h
          dsimp only at h
          replace h := lift_inv h
          obtain ⟨_, s5, hs5, h⟩ := h
          cases h
          refine ⟨_, t :: us1, nx1, rest1, s5, by rw [hu1]; rfl, rfl,
            .assign hF hn hl (level_none_of (by omega)) hd1 hd2 (fun _ => name_lit hs4 hlit) he1 hn1, ?_⟩
          rw [hs]
          simp only [nameAssign, Act.bind_apply, hs0, hs4, hc, hlit, hs5]
          rfl
      | _ => cases h
    · rw [parseConst_other o hc, pure_bind] at h
      cases h
      refine ⟨_, t :: us1, nx1, rest1, s4, by rw [hu1]; rfl, rfl,
        .assign hF hn hl (level_none_of (by omega)) hd1 hd2 (fun h => absurd h hc) he1 hn1, ?_⟩
      rw [hs]
      simp only [nameAssign, Act.bind_apply, hs0, hs4]
      cases hk : t.kind <;> first | exact absurd hk hc | rfl

theorem simple_sound {n : Nat} {t : Tk} {ts : List Tk} {s : σ} {x q} (h : parseSimple o n ⟨t :: ts, s⟩ = .ok x q)
    (hi : t.kind ≠ .ifTok) :
    ∃ b us nx rest s', t :: ts = us ++ nx :: rest ∧ q = ⟨nx :: rest, s'⟩ ∧ StmtIs b us nx ∧
      nameStmt o b s = .ok x s' := by
  rw [parseSimple] at h
  replace h := bind_inv h
  obtain ⟨l, r, hf, h⟩ := h
  obtain ⟨e, us, nx, rest, s1, hu, rfl, he, hn, hs1⟩ := (soundE n).fac hf
  obtain ⟨l, ln⟩ := l
  by_cases hcall : ∃ f as, l = .call f as
  · obtain ⟨f, as, rfl⟩ := hcall
    obtain ⟨es, rfl, has⟩ := name_call hs1
    cases h
    exact ⟨_, us, nx, rest, s1, hu, rfl, .call he hn, by simp only [nameStmt, Act.bind_apply, has]; rfl⟩
  · have h' : parseAssign o n l ⟨nx :: rest, s1⟩ = .ok x q := by
      cases l <;> first | exact h | exact absurd ⟨_, _, rfl⟩ hcall
    have hl : IsLeft e := by
      cases e with
      | call f es =>
        obtain ⟨as, rfl⟩ := name_not_call hs1
        exact absurd ⟨_, _, rfl⟩ hcall
      | ite c a b =>
        have : ∀ {e : SExpr} {l us nx}, FacIs e l us nx → ∀ c a b, e = .ite c a b → ∃ t ts, us = t :: ts ∧ t.kind = .ifTok := by
          intro e l us nx h c a b he
          cases h with
          | val h => cases h <;> cases he; exact ⟨_, _, rfl, by assumption⟩
          | _ => cases he
        obtain ⟨t', ts', rfl, ht⟩ := this he _ _ _ rfl
        cases hu
        exact absurd ht hi
      | _ => trivial
    obtain ⟨b, us1, nx1, rest1, s2, g1, g2, g3, g4⟩ := assign_sound h' (lhs := e) (us0 := us) (ln := ln) (s0 := s)
      (fun t ts' ht => by cases ht; exact ⟨he, hn⟩) hs1 hl
    exact ⟨b, us ++ us1, nx1, rest1, s2, by rw [hu, g1, List.append_assoc], g2, g3, g4⟩

theorem headD_of {us : List Tk} {nx t : Tk} {rest ts : List Tk} (h : t :: ts = us ++ nx :: rest) : us.headD nx = t := by
  cases us <;> cases h <;> rfl

theorem stmt_step {n : Nat} (ihs : StmtS o n) (ihb : BlockS o n) : StmtS o (n + 1) := by
  intro ts s x q h
  rw [parseStmt] at h
  replace h := cur_inv h
  obtain ⟨t, ts, rfl, h⟩ := h
  cases hk : t.kind <;> simp only [hk] at h
  case ifTok =>
    replace h := next_inv h
    obtain ⟨u, ts, rfl, h⟩ := h
    replace h := bind_inv h
    obtain ⟨c, r, hc, h⟩ := h
    obtain ⟨e1, us1, nx1, rest1, s1, hu, rfl, he1, hn1, hs1⟩ := (soundE n).expr hc
    replace h := bind_inv h
    obtain ⟨b, r, hb, h⟩ := h
    obtain ⟨b1, us2, nx2, rest2, s2, hv, rfl, he2, hs2⟩ := ihs hb
    have hh := headD_of hv
    rw [cur_bind] at h
    by_cases hel : nx2.kind = .elseTok
    · rw [if_pos hel] at h
      replace h := next_inv h
      obtain ⟨w, ws, rfl, h⟩ := h
      replace h := bind_inv h
      obtain ⟨a, r, ha, h⟩ := h
      obtain ⟨b2, us3, nx3, rest3, s3, hw, rfl, he3, hs3⟩ := ihs ha
      cases h
      refine ⟨_, t :: us1 ++ us2 ++ nx2 :: us3, nx3, rest3, s3, ?_, rfl,
        .ifElse hk (by rw [hh]; exact he1) (by rw [hh]; exact hn1) he2 hel he3, ?_⟩
      · rw [hu, hv, hw]; simp
      · simp only [nameStmt, Act.bind_apply, hs1, hs2, hs3]; rfl
    · rw [if_neg hel] at h
      cases h
      refine ⟨_, t :: us1 ++ us2, nx2, rest2, s2, ?_, rfl,
        .ifThen hk (by rw [hh]; exact he1) (by rw [hh]; exact hn1) he2 hel, ?_⟩
      · rw [hu, hv]; simp
      · simp only [nameStmt, Act.bind_apply, hs1, hs2]; rfl
  case openCurly =>
    replace h := next_inv h
    obtain ⟨u, ts, rfl, h⟩ := h
    replace h := lift_inv h
    obtain ⟨_, s0, hs0, h⟩ := h
    replace h := bind_inv h
    obtain ⟨b, r, hb, h⟩ := h
    obtain ⟨ss, us1, nx1, rest1, s1, hu, rfl, he1, hn1, hs1⟩ := ihb hb
    replace h := next_inv h
    obtain ⟨v, vs, rfl, h⟩ := h
    replace h := lift_inv h
    obtain ⟨_, s2, hs2, h⟩ := h
    cases h
    refine ⟨_, t :: us1 ++ [nx1], v, vs, s2, by rw [hu]; simp, rfl, .block hk he1 hn1, ?_⟩
    simp only [nameStmt, Act.bind_apply, hs0, hs1, hs2]; rfl
  case funcTok =>
    replace h := lift_inv h
    obtain ⟨_, s0, hs0, h⟩ := h
    replace h := getExpect_inv h
    obtain ⟨m, ts, rfl, hm, h⟩ := h
    rw [cur_bind] at h
    replace h := lift_inv h
    obtain ⟨f, s1, hs1, h⟩ := h
    replace h := getExpect_inv h
    obtain ⟨lp, ts, rfl, hlp, h⟩ := h
    replace h := next_inv h
    obtain ⟨u, ts, rfl, h⟩ := h
    replace h := bind_inv h
    obtain ⟨ps, r, hps, h⟩ := h
    obtain ⟨ps', us1, nx1, rest1, s2, hu, rfl, he1, hs2⟩ := params_sound n hps
    replace h := lift_inv h
    obtain ⟨_, s3, hs3, h⟩ := h
    replace h := next_inv h
    obtain ⟨v, vs, rfl, h⟩ := h
    replace h := bind_inv h
    obtain ⟨rt, r, hrt, h⟩ := h
    obtain ⟨rt', us2, nx2, rest2, s4, hv, rfl, he2, hs4⟩ := ret_sound hrt
    replace h := lift_inv h
    obtain ⟨_, s5, hs5, h⟩ := h
    replace h := lift_inv h
    obtain ⟨_, s6, hs6, h⟩ := h
    replace h := bind_inv h
    obtain ⟨b, r, hb, h⟩ := h
    obtain ⟨b1, us3, nx3, rest3, s7, hw, rfl, he3, hs7⟩ := ihs hb
    replace h := lift_inv h
    obtain ⟨_, s8, hs8, h⟩ := h
    replace h := lift_inv h
    obtain ⟨_, s9, hs9, h⟩ := h
    cases h
    have hh := headD_of hw
    refine ⟨_, t :: m :: lp :: (us1 ++ [nx1]) ++ us2 ++ us3, nx3, rest3, s9, ?_, rfl,
      .func hk hm hlp he1 (by rw [hh]; exact he2) he3, ?_⟩
    · rw [hu, hv, hw]; simp
    · simp only [nameStmt, Act.bind_apply, hs0, hs1, hs2, hs3, hs4, hs5, hs6, hs7, hs8, hs9]; rfl
  case whileTok =>
    replace h := next_inv h
    obtain ⟨u, ts, rfl, h⟩ := h
    rw [cur_bind] at h
    replace h := bind_inv h
    obtain ⟨c, r, hc, h⟩ := h
    obtain ⟨e1, us1, nx1, rest1, s1, hu, rfl, he1, hn1, hs1⟩ := (soundE n).expr hc
    replace h := lift_inv h
    obtain ⟨_, s2, hs2, h⟩ := h
    replace h := bind_inv h
    obtain ⟨b, r, hb, h⟩ := h
    obtain ⟨b1, us2, nx2, rest2, s3, hv, rfl, he2, hs3⟩ := ihs hb
    replace h := lift_inv h
    obtain ⟨_, s4, hs4, h⟩ := h
    cases h
    have hh := headD_of hv
    obtain ⟨w, ws, rfl, -⟩ := starts_expr he1
    cases hu
    refine ⟨_, t :: (u :: ws) ++ us2, nx2, rest2, s4, ?_, rfl,
      .while (us := u :: ws) hk (by rw [hh]; exact he1) (by rw [hh]; exact hn1) he2, ?_⟩
    · rw [hv]; simp
    · simp only [nameStmt, Act.bind_apply, hs1, hs2, hs3, hs4]; rfl
  case forTok =>
    replace h := next_inv h
    obtain ⟨u, ts, rfl, h⟩ := h
    rw [cur_bind] at h
    replace h := lift_inv h
    obtain ⟨_, s0, hs0, h⟩ := h
    replace h := bind_inv h
    obtain ⟨i, r, hi, h⟩ := h
    obtain ⟨i1, us1, nx1, rest1, s1, hu, rfl, he1, hs1⟩ := ihs hi
    replace h := expect_inv h
    obtain ⟨hn1, h⟩ := h
    replace h := next_inv h
    obtain ⟨v, vs, rfl, h⟩ := h
    replace h := bind_inv h
    obtain ⟨c, r, hc, h⟩ := h
    obtain ⟨e2, us2, nx2, rest2, s2, hv, rfl, he2, -, hs2⟩ := (soundE n).expr hc
    replace h := expect_inv h
    obtain ⟨hn2, h⟩ := h
    replace h := next_inv h
    obtain ⟨w, ws, rfl, h⟩ := h
    replace h := bind_inv h
    obtain ⟨st, r, hst, h⟩ := h
    obtain ⟨b3, us3, nx3, rest3, s3, hw, rfl, he3, hs3⟩ := ihs hst
    replace h := bind_inv h
    obtain ⟨bd, r, hbd, h⟩ := h
    obtain ⟨b4, us4, nx4, rest4, s4, hx, rfl, he4, hs4⟩ := ihs hbd
    replace h := lift_inv h
    obtain ⟨_, s5, hs5, h⟩ := h
    cases h
    have hh := headD_of hx
    have hne : us1 ≠ [] := by
      intro hne
      obtain ⟨w, ws, rfl, -⟩ := starts_stmt he1
      cases hne
    obtain ⟨w', ws', rfl⟩ := List.exists_cons_of_ne_nil hne
    cases hu
    refine ⟨_, t :: (u :: ws') ++ nx1 :: us2 ++ nx2 :: us3 ++ us4, nx4, rest4, s5, ?_, rfl,
      .for (us := u :: ws') hk he1 hn1 he2 hn2 (by rw [hh]; exact he3) he4, ?_⟩
    · rw [hv, hw, hx]; simp
    · simp only [nameStmt, Act.bind_apply, hs0, hs1, hs2, hs3, hs4, hs5]; rfl
  case returnTok =>
    replace h := lift_inv h
    obtain ⟨_, s0, hs0, h⟩ := h
    replace h := next_inv h
    obtain ⟨u, ts, rfl, h⟩ := h
    rw [cur_bind] at h
    by_cases hs : u.kind = .semi
    · rw [if_pos hs] at h
      replace h := next_inv h
      obtain ⟨v, ts, rfl, h⟩ := h
      cases h
      refine ⟨_, [t, u], v, ts, s0, rfl, rfl, .retNone hk hs, ?_⟩
      simp only [nameStmt, Act.bind_apply, hs0]; rfl
    · rw [if_neg hs] at h
      replace h := lift_inv h
      obtain ⟨_, s1, hs1, h⟩ := h
      replace h := bind_inv h
      obtain ⟨c, r, hc, h⟩ := h
      obtain ⟨e2, us2, nx2, rest2, s2, hv, rfl, he2, hn2, hs2⟩ := (soundE n).expr hc
      cases h
      refine ⟨_, t :: us2, nx2, rest2, s2, by rw [hv]; rfl, rfl, .ret hk he2 hn2, ?_⟩
      simp only [nameStmt, Act.bind_apply, hs0, hs1, hs2]; rfl
  case breakTok =>
    replace h := next_inv h
    obtain ⟨u, ts, rfl, h⟩ := h
    rw [cur_bind] at h
    cases h
    exact ⟨_, [t], u, ts, s, rfl, rfl, .brk hk, rfl⟩
  case continueTok =>
    replace h := next_inv h
    obtain ⟨u, ts, rfl, h⟩ := h
    cases h
    exact ⟨_, [t], u, ts, s, rfl, rfl, .cont hk, rfl⟩
  case useTok =>
    replace h := lift_inv h
    obtain ⟨_, s0, hs0, h⟩ := h
    replace h := getExpect_inv h
    obtain ⟨m, ts, rfl, hm, h⟩ := h
    rw [cur_bind] at h
    replace h := getExpect_inv h
    obtain ⟨lp, ts, rfl, hlp, h⟩ := h
    replace h := next_inv h
    obtain ⟨u, ts, rfl, h⟩ := h
    replace h := bind_inv h
    obtain ⟨ps, r, hps, h⟩ := h
    obtain ⟨us1, nx1, rest1, hu, rfl, he1⟩ := use_sound n hps
    replace h := next_inv h
    obtain ⟨v, vs, rfl, h⟩ := h
    replace h := bind_inv h
    obtain ⟨a, r, ha, h⟩ := h
    obtain ⟨us2, nx2, rest2, hv, rfl, he2⟩ := useAs_sound ha
    cases h
    refine ⟨_, t :: m :: lp :: (us1 ++ [nx1]) ++ us2, nx2, rest2, s0, ?_, rfl, .use hk hm hlp he1 he2, ?_⟩
    · rw [hu, hv]; simp
    · simp only [nameStmt, Act.bind_apply, hs0]; rfl
  all_goals exact simple_sound h (by rw [hk]; decide)

theorem block_step {n : Nat} (ihs : StmtS o n) (ihb : BlockS o n) : BlockS o (n + 1) := by
  intro ts s x q h
  rw [parseBlock] at h
  replace h := cur_inv h
  obtain ⟨t, ts, rfl, h⟩ := h
  by_cases hc : t.kind = .closeCurly
  · rw [if_pos hc] at h
    cases h
    exact ⟨[], [], t, ts, s, rfl, rfl, .nil, hc, rfl⟩
  · rw [if_neg hc] at h
    replace h := bind_inv h
    obtain ⟨a, r, ha, h⟩ := h
    obtain ⟨b1, us1, nx1, rest1, s1, hu, rfl, he1, hs1⟩ := ihs ha
    replace h := bind_inv h
    obtain ⟨b, r, hb, h⟩ := h
    obtain ⟨ss, us2, nx2, rest2, s2, hv, rfl, he2, hn2, hs2⟩ := ihb hb
    cases h
    have hh := headD_of hv
    refine ⟨b1 :: ss, us1 ++ us2, nx2, rest2, s2, by rw [hu, hv]; simp, rfl, .cons (by rw [hh]; exact he1) he2, hn2, ?_⟩
    simp only [nameStmts, Act.bind_apply, hs1, hs2]; rfl

theorem soundS (n : Nat) : StmtS o n ∧ BlockS o n := by
  induction n with
  | zero => constructor <;> (intro _ _ _ _; intros; contradiction)
  | succ n ih => exact ⟨stmt_step ih.1 ih.2, block_step ih.1 ih.2⟩

theorem fields_sound {nm : Name} (n : Nat) : ∀ {ts s x q}, parseFields o nm n ⟨ts, s⟩ = .ok x q →
    ∃ fs us nx rest s', ts = us ++ nx :: rest ∧ q = ⟨nx :: rest, s'⟩ ∧ FieldsAre fs us nx ∧ nx.kind = .closeCurly ∧
      nameFields o nm fs s = .ok x s' := by
  induction n with
  | zero => intros; contradiction
  | succ n ih =>
    intro ts s x q h
    rw [parseFields] at h
    replace h := cur_inv h
    obtain ⟨t, ts, rfl, h⟩ := h
    by_cases hc : t.kind = .closeCurly
    · rw [if_pos hc] at h
      cases h
      exact ⟨[], [], t, ts, s, rfl, rfl, .nil, hc, rfl⟩
    rw [if_neg hc] at h
    replace h := expect_inv h
    obtain ⟨hi, h⟩ := h
    rw [cur_bind] at h
    replace h := lift_inv h
    obtain ⟨_, s0, hs0, h⟩ := h
    replace h := getExpect_inv h
    obtain ⟨c, ts, rfl, hcl, h⟩ := h
    replace h := next_inv h
    obtain ⟨u, ts, rfl, h⟩ := h
    replace h := bind_inv h
    obtain ⟨ty, r, hty, h⟩ := h
    obtain ⟨ty', us, nx, rest, s1, hu, rfl, ht, hs1⟩ := type_sound o hty
    replace h := lift_inv h
    obtain ⟨_, s2, hs2, h⟩ := h
    replace h := bind_inv h
    obtain ⟨fs, r, hfs, h⟩ := h
    obtain ⟨fs', us2, nx2, rest2, s3, hv, rfl, he2, hn2, hs3⟩ := ih hfs
    cases h
    have hh := headD_of hv
    refine ⟨(t.lexeme, ty') :: fs', t :: c :: us ++ us2, nx2, rest2, s3, by rw [hu, hv]; simp, rfl,
      .cons hi hcl (by rw [hh]; exact ht) he2, hn2, ?_⟩
    simp only [nameFields, Act.bind_apply, hs0, hs1, hs2, hs3]; rfl

theorem prog_sound (n : Nat) : ∀ {ts s x q}, parseItems o n ⟨ts, s⟩ = .ok x q →
    ∃ ss us nx rest s', ts = us ++ nx :: rest ∧ q = ⟨nx :: rest, s'⟩ ∧ ProgIs ss us nx ∧
      nameStmts o ss s = .ok x s' := by
  induction n with
  | zero => intros; contradiction
  | succ n ih =>
    intro ts s x q h
    rw [parseItems] at h
    replace h := cur_inv h
    obtain ⟨t, ts, rfl, h⟩ := h
    by_cases hc : t.kind = .eofTok
    · rw [if_pos hc] at h
      cases h
      exact ⟨[], [], t, ts, s, rfl, rfl, .nil hc, rfl⟩
    rw [if_neg hc] at h
    dsimp only at h
    by_cases hst : t.kind = .structTok
    · rw [if_pos hst] at h
      replace h := bind_inv h
      obtain ⟨d, r, hd, h⟩ := h
      rw [parseStruct] at hd
      replace hd := lift_inv hd
      obtain ⟨_, s0, hs0, hd⟩ := hd
      replace hd := getExpect_inv hd
      obtain ⟨m, ts, rfl, hm, hd⟩ := hd
      rw [cur_bind] at hd
      replace hd := lift_inv hd
      obtain ⟨_, s1, hs1, hd⟩ := hd
      replace hd := getExpect_inv hd
      obtain ⟨lc, ts, rfl, hlc, hd⟩ := hd
      replace hd := next_inv hd
      obtain ⟨u, ts, rfl, hd⟩ := hd
      replace hd := bind_inv hd
      obtain ⟨fs, r', hfs, hd⟩ := hd
      obtain ⟨fs', us1, nx1, rest1, s2, hu, rfl, he1, hn1, hs2⟩ := fields_sound n hfs
      replace hd := next_inv hd
      obtain ⟨v, vs, rfl, hd⟩ := hd
      replace hd := lift_inv hd
      obtain ⟨_, s3, hs3, hd⟩ := hd
      cases hd
      replace h := bind_inv h
      obtain ⟨b, r, hb, h⟩ := h
      obtain ⟨ss, us2, nx2, rest2, s4, hv, rfl, he2, hs4⟩ := ih hb
      cases h
      refine ⟨.struct m.lexeme fs' :: ss, t :: m :: lc :: us1 ++ nx1 :: us2, nx2, rest2, s4, by rw [hu, hv]; simp, rfl,
        .struct hst hm hlc he1 hn1 he2, ?_⟩
      have hd : nameStmt o (.struct m.lexeme fs') s = .ok (.struct m.lexeme fs) s3 := by
        simp only [nameStmt, Act.bind_apply, hs0, hs1, hs2, hs3]; rfl
      simp only [nameStmts, Act.bind_apply, hd, hs4]; rfl
    · rw [if_neg hst] at h
      replace h := bind_inv h
      obtain ⟨a, r, ha, h⟩ := h
      obtain ⟨b1, us1, nx1, rest1, s1, hu, rfl, he1, hs1⟩ := (soundS n).1 ha
      replace h := bind_inv h
      obtain ⟨b, r, hb, h⟩ := h
      obtain ⟨ss, us2, nx2, rest2, s2, hv, rfl, he2, hs2⟩ := ih hb
      cases h
      have hh := headD_of hv
      refine ⟨b1 :: ss, us1 ++ us2, nx2, rest2, s2, by rw [hu, hv]; simp, rfl, .stmt (by rw [hh]; exact he1) he2, ?_⟩
      simp only [nameStmts, Act.bind_apply, hs1, hs2]; rfl

end

end Tiny
