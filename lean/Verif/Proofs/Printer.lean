import Verif.Spec.Printer
import Verif.Proofs.Precedence

/-!
# Printed expressions are phrases of the grammar
-/

namespace Tiny
open Spec

theorem atLeast_iff {k : Nat} {e : SExpr} : atLeast k e = true ↔ AtLeast k e := by
  cases e with
  | bin op l r =>
    simp only [atLeast, AtLeast]
    cases level op <;> simp
  | _ => simp [atLeast, AtLeast]

/-- The first token. -/
theorem toks_head (ln : Nat) : ∀ e : SExpr, enough e = true → ∃ t ts, toks ln e = t :: ts ∧
    (level t.kind ≠ none → startsMinus e = true) ∧ (t.kind = .openParen → startsParen e = true)
  | .null, _ | .bool _, _ | .int _, _ | .char _, _ | .float _, _ | .str _, _ | .id _ _, _ => by
    all_goals
      rw [toks]
      exact ⟨_, _, rfl, fun h => absurd rfl h, fun h => by cases h⟩
  | .call _ _, _ => by rw [toks]; exact ⟨_, _, rfl, fun h => absurd rfl h, fun h => by cases h⟩
  | .paren e, _ => by rw [toks]; exact ⟨_, _, rfl, fun h => absurd rfl h, fun _ => rfl⟩
  | .bin k l r, h => by
    have hl : enough l = true := by
      rw [enough] at h
      cases hk : level k <;> rw [hk] at h <;> simp_all
    obtain ⟨t, ts, h1, h2, h3⟩ := toks_head ln l hl
    rw [toks, h1]
    exact ⟨t, _, rfl, fun h => by rw [startsMinus, h2 h], fun h => by rw [startsParen, h3 h]⟩
  | .un k e, h => by
    rw [enough] at h
    rw [toks]
    refine ⟨_, _, rfl, fun h' => ?_, fun h' => ?_⟩
    · simp at h
      obtain ⟨⟨h | h, -⟩, -⟩ := h
      · simp [startsMinus, h]
      · subst h; exact absurd rfl h'
    · simp at h
      have h' : k = .openParen := h'
      subst h'
      simp at h
  | .dot l f, h => by
    rw [enough] at h
    simp at h
    obtain ⟨t, ts, h1, h2, h3⟩ := toks_head ln l h.2
    rw [toks, h1]
    exact ⟨t, _, rfl, fun h => by rw [startsMinus, h2 h], fun h => by rw [startsParen, h3 h]⟩
  | .index l i, h => by
    rw [enough] at h
    simp at h
    obtain ⟨t, ts, h1, h2, h3⟩ := toks_head ln l h.1.2
    rw [toks, h1]
    exact ⟨t, _, rfl, fun h => by rw [startsMinus, h2 h], fun h => by rw [startsParen, h3 h]⟩
  | .ctor _ _ _, _ => by rw [toks]; exact ⟨_, _, rfl, fun h => absurd rfl h, fun h => by cases h⟩
  | .cast _ _, _ => by rw [toks]; exact ⟨_, _, rfl, fun h => absurd rfl h, fun h => by cases h⟩
  | .ite _ _ _, _ => by rw [toks]; exact ⟨_, _, rfl, fun h => absurd rfl h, fun h => by cases h⟩

theorem type_toks (ln : Nat) (t : SType) {nx : Tk} (h : nx.kind ≠ .question) : TypeIs t (typeToks ln t) nx := by
  obtain ⟨n, b⟩ := t
  cases b
  · exact .plain (t := word ln n) rfl h
  · exact .opt (t := word ln n) (q := tok ln .question) rfl rfl

/-- What may follow. -/
structure Follows (e : SExpr) (nx : Tk) : Prop where
  suffix : isBase e = false → isSuffix nx.kind = false
  name : endsName e = true → nx.kind ≠ .openParen
  op : openRight e = true → level nx.kind = none

/-- What is proved of printed expressions. -/
def Printed (ln : Nat) (e : SExpr) : Prop := ∀ nx, Follows e nx →
  (isOperand e = true → ∃ l, FacIs e l (toks ln e) nx) ∧ (isSuffix nx.kind = false → ExprIs e (toks ln e) nx)

theorem Printed.of_fac {ln : Nat} {e : SExpr} (h : ∀ nx, Follows e nx → ∃ l, FacIs e l (toks ln e) nx) : Printed ln e :=
  fun nx hn => ⟨fun _ => h nx hn, fun hs => (h nx hn).elim fun _ hl => .fac hl hs⟩

theorem Printed.of_val {ln : Nat} {e : SExpr} {l : Nat} (h : ∀ nx, Follows e nx → ValIs e l (toks ln e) nx) : Printed ln e :=
  .of_fac fun nx hn => ⟨l, .val (h nx hn)⟩

theorem Follows.stop {e : SExpr} {nx : Tk} (h1 : isSuffix nx.kind = false) (h2 : nx.kind ≠ .openParen)
    (h3 : level nx.kind = none) : Follows e nx := ⟨fun _ => h1, fun _ => h2, fun _ => h3⟩

/-- Before a token which ends every expression. -/
theorem Printed.expr {ln : Nat} {e : SExpr} (h : Printed ln e) (k : Tok) (h1 : isSuffix k = false := by rfl)
    (h2 : k ≠ .openParen := by decide) (h3 : level k = none := by rfl) : ExprIs e (toks ln e) (tok ln k) :=
  (h _ (.stop h1 h2 h3)).2 h1

theorem base {l : SExpr} (h : isBase l = true) {nx : Tk} (_ : isSuffix nx.kind = true) (hp : nx.kind ≠ .openParen) :
    Follows l nx :=
  ⟨fun h' => absurd h' (by rw [h]; simp), fun _ => hp, fun h' => by cases l <;> first | (simp [openRight] at h'; done) | (simp [isBase] at h)⟩

theorem base_operand {l : SExpr} (h : isBase l = true) : isOperand l = true := by
  cases l <;> first | rfl | (simp [isBase] at h)

mutual
theorem printed (ln : Nat) : ∀ e : SExpr, enough e = true → Printed ln e
  | .null, _ => .of_val (l := ln) fun nx _ => by rw [toks]; exact .null (t := tok ln .null) rfl
  | .bool b, _ => .of_val (l := ln) fun nx _ => by rw [toks]; exact .bool (t := ⟨.bool, [], .bool b, ln⟩) rfl
  | .int i, _ => .of_val (l := ln) fun nx _ => by rw [toks]; exact .int (t := ⟨.int, [], .int i, ln⟩) rfl
  | .char i, _ => .of_val (l := ln) fun nx _ => by rw [toks]; exact .char (t := ⟨.char, [], .int i, ln⟩) rfl
  | .float f, _ => .of_val (l := ln) fun nx _ => by rw [toks]; exact .float (t := ⟨.float, [], .float f, ln⟩) rfl
  | .str s, _ => .of_val (l := ln) fun nx _ => by rw [toks]; exact .str (t := ⟨.string, s, .none, ln⟩) rfl
  | .id n _, _ => .of_val (l := ln) fun nx h => by rw [toks]; exact .id (t := word ln n) rfl (h.name rfl)
  | .call f args, h => .of_val (l := ln) fun nx _ => by
    rw [enough] at h
    rw [toks]
    exact .call (t := word ln f) (lp := tok ln .openParen) rfl rfl (printed_args ln args h)
  | .paren e, h => .of_fac fun nx _ => by
    rw [enough] at h
    rw [toks]
    exact ⟨_, .val (.paren (lp := tok ln .openParen) (rp := tok ln .closeParen) rfl
      ((printed ln e h).expr .closeParen) rfl)⟩
  | .bin k l r, h => by
    rw [enough] at h
    cases hk : level k with
    | none => rw [hk] at h; cases h
    | some j =>
      rw [hk] at h
      simp at h
      obtain ⟨⟨⟨⟨h1, h2⟩, h3⟩, h4⟩, h5⟩ := h
      intro nx hn
      refine ⟨fun h => by simp [isOperand] at h, fun hs => ?_⟩
      rw [toks]
      have hp : k ≠ .openParen := by rintro rfl; cases hk
      refine .bin (op := tok ln k) hk
        ((printed ln l h4 (tok ln k) ⟨fun _ => level_suffix hk, fun _ => hp, fun h => ?_⟩).2 (level_suffix hk))
        ((printed ln r h5 nx ⟨fun _ => hs, fun h => hn.name (by rw [endsName, h]), fun h => hn.op (by rw [openRight, h])⟩).2 hs)
        (atLeast_iff.1 h1) (atLeast_iff.1 h2)
      rw [h3] at h; cases h
  | .un k e, h => .of_fac fun nx hn => by
    rw [enough] at h
    simp at h
    obtain ⟨⟨hk, h1⟩, h2⟩ := h
    rw [toks]
    obtain ⟨l, hl⟩ := (printed ln e h2 nx ⟨fun _ => hn.suffix rfl, fun h => hn.name (by rw [endsName, h]),
      fun h => hn.op (by rw [openRight, h])⟩).1 h1
    exact ⟨_, .val (.un (t := tok ln k) hk hl (hn.suffix rfl))⟩
  | .dot l f, h => .of_fac fun nx hn => by
    rw [enough] at h
    simp at h
    rw [toks]
    obtain ⟨n, hl⟩ := (printed ln l h.2 (tok ln .dot) (base h.1 rfl (by simp [tok]))).1 (base_operand h.1)
    exact ⟨_, .dot (d := tok ln .dot) (f := word ln f) hl rfl rfl⟩
  | .index l i, h => .of_fac fun nx hn => by
    rw [enough] at h
    simp at h
    rw [toks]
    obtain ⟨n, hl⟩ := (printed ln l h.1.2 (tok ln .openSquare) (base h.1.1 rfl (by simp [tok]))).1 (base_operand h.1.1)
    exact ⟨_, .index (b := tok ln .openSquare) (rb := tok ln .closeSquare) hl rfl
      ((printed ln i h.2).expr .closeSquare) rfl⟩
  | .ctor n ns args, h => .of_val (l := ln) fun nx _ => by
    rw [enough] at h
    simp at h
    rw [toks]
    exact .ctor (t := tok ln .newTok) (m := word ln n) (lc := tok ln .openCurly) rfl rfl (printed_inits ln ns args h.1 h.2)
  | .cast e ty, h => .of_val (l := ln) fun nx _ => by
    rw [enough] at h
    rw [toks]
    exact .cast (t := tok ln .castTok) (lp := tok ln .openParen) (c := tok ln .comma) (rp := tok ln .closeParen) rfl rfl
      ((printed ln e h).expr .comma) rfl (type_toks ln ty (by simp [tok])) rfl
  | .ite c a b, h => .of_val (l := ln) fun nx hn => by
    rw [enough] at h
    simp at h
    obtain ⟨⟨⟨⟨h1, h2⟩, h3⟩, h4⟩, h5⟩ := h
    rw [toks]
    have hs := hn.suffix rfl
    have ho := hn.op rfl
    obtain ⟨t, ts, ht, hl, hp⟩ := toks_head ln a h4
    have hA := (printed ln a h4).expr .elseTok
    have hlev : level t.kind = none := by
      cases hh : level t.kind with
      | none => rfl
      | some j => rw [hl (by rw [hh]; simp)] at h1; cases h1
    have hsuf : isSuffix t.kind = false := by
      obtain ⟨t', ts', ht', hst⟩ := starts_expr hA
      rw [ht] at ht'
      cases ht'
      revert hst
      cases t.kind <;> simp [startsExpr, isSuffix]
    refine .ite (t := tok ln .ifTok) (el := tok ln .elseTok) rfl (us := toks ln c) (vs := toks ln a) (ws := toks ln b)
      ?_ ?_ hA rfl ?_ ho
    · rw [ht]
      refine (printed ln c h3 t ⟨fun _ => hsuf, fun h hk => ?_, fun _ => hlev⟩).2 hsuf
      have := hp hk
      rcases h2 with h2 | h2
      · rw [h] at h2; cases h2
      · rw [this] at h2; cases h2
    · rw [ht]; exact hlev
    · exact (printed ln b h5 nx ⟨fun _ => hs, fun h => hn.name (by rw [endsName, h]), fun _ => ho⟩).2 hs
theorem printed_args (ln : Nat) : ∀ es : List SExpr, enoughs es = true → ArgsIs es (argToks ln es)
  | [], _ => by rw [argToks]; exact .nil rfl
  | [e], h => by
    rw [enoughs] at h
    simp at h
    rw [argToks]
    exact .last ((printed ln e h.1).expr .closeParen) rfl
  | e :: e' :: es, h => by
    rw [enoughs] at h
    simp at h
    rw [argToks]
    · exact .cons ((printed ln e h.1).expr .comma) rfl (printed_args ln (e' :: es) h.2)
    · simp
theorem printed_inits (ln : Nat) : ∀ (ns : List Name) (es : List SExpr), ns.length ≤ es.length → enoughs es = true →
    InitsAre ns es (initToks ln ns es)
  | [], [], _, _ => by rw [initToks]; exact .nil rfl
  | [], e :: es, hn, h => by
    rw [enoughs] at h
    simp at h
    rw [initToks]
    exact .cons (ns := []) .no ((printed ln e h.1).expr .comma) rfl (printed_inits ln [] es (by simp) h.2)
  | n :: ns, [], hn, h => by simp at hn
  | n :: ns, e :: es, hn, h => by
    rw [enoughs] at h
    simp at h hn
    rw [initToks]
    exact .cons (ns := [n]) (ds := [tok ln .dot, word ln n, tok ln .equal])
      (.yes (d := tok ln .dot) (f := word ln n) (q := tok ln .equal) rfl rfl rfl)
      ((printed ln e h.1).expr .comma) rfl (printed_inits ln ns es hn h.2)
end

/-!
Every tree the parser returns has enough parentheses.
-/

theorem expr_next {e : SExpr} {us : List Tk} {nx : Tk} (h : ExprIs e us nx) : isSuffix nx.kind = false := by
  refine ExprIs.rec (motive_1 := fun _ _ _ _ _ => True) (motive_2 := fun _ _ _ _ _ => True)
    (motive_3 := fun _ _ nx _ => isSuffix nx.kind = false)
    (motive_4 := fun _ _ _ => True) (motive_5 := fun _ _ _ _ => True)
    ?_ ?_ ?_ ?_ ?_ ?_ ?_ ?_ ?_ ?_ ?_ ?_ ?_ ?_ ?_ ?_ ?_ ?_ ?_ ?_ ?_ ?_ ?_ ?_ ?_ h
  all_goals try (intros; trivial)

/-- What is proved of phrases. -/
structure Says (e : SExpr) (us : List Tk) (nx : Tk) : Prop where
  ok : enough e = true
  minus : startsMinus e = true → ∃ t ts, us = t :: ts ∧ t.kind = .minus
  paren : startsParen e = true → ∃ t ts, us = t :: ts ∧ t.kind = .openParen
  name : endsName e = true → nx.kind ≠ .openParen
  op : openRight e = true → level nx.kind = none
  base : isSuffix nx.kind = true → isBase e = true

theorem enough_of {e : SExpr} {us : List Tk} {nx : Tk} (h : ExprIs e us nx) : enough e = true := by
  suffices h : Says e us nx from h.ok
  refine ExprIs.rec (motive_1 := fun e _ us nx _ => Says e us nx) (motive_2 := fun e _ us nx _ => Says e us nx)
    (motive_3 := fun e us nx _ => Says e us nx)
    (motive_4 := fun es _ _ => enoughs es = true) (motive_5 := fun ns es _ _ => ns.length ≤ es.length ∧ enoughs es = true)
    ?_ ?_ ?_ ?_ ?_ ?_ ?_ ?_ ?_ ?_ ?_ ?_ ?_ ?_ ?_ ?_ ?_ ?_ ?_ ?_ ?_ ?_ ?_ ?_ ?_ h
  -- null bool char int float str
  iterate 6
    intro t nx h
    exact ⟨by rw [enough] <;> simp, by simp [startsMinus], by simp [startsParen], by simp [endsName],
      by simp [openRight], fun _ => rfl⟩
  -- id
  · intro t nx h hn
    exact ⟨by rw [enough] <;> simp, by simp [startsMinus], by simp [startsParen], fun _ => hn,
      by simp [openRight], fun _ => rfl⟩
  -- call
  · intro t lp nx args us _ _ _ h
    exact ⟨by rw [enough]; exact h, by simp [startsMinus], by simp [startsParen], by simp [endsName],
      by simp [openRight], fun _ => rfl⟩
  -- un
  · intro t nx e l us ht hf hn h
    refine ⟨?_, fun h => ?_, by simp [startsParen], fun h' => h.name h', fun h' => h.op h', fun h' => ?_⟩
    · rw [enough]
      have := topOp_fac hf
      have : isOperand e = true := by cases e <;> first | rfl | cases this
      simp [ht, h.ok, this]
    · refine ⟨t, us, rfl, ?_⟩
      simpa [startsMinus] using h
    · rw [hn] at h'; cases h'
  -- paren
  · intro lp rp nx e us hl _ _ h
    exact ⟨by rw [enough]; exact h.ok, by simp [startsMinus], fun _ => ⟨_, _, rfl, hl⟩, by simp [endsName],
      by simp [openRight], fun _ => rfl⟩
  -- ctor
  · intro t m lc nx ns args us _ _ _ h
    exact ⟨by rw [enough]; simp [h.1, h.2], by simp [startsMinus], by simp [startsParen], by simp [endsName],
      by simp [openRight], fun _ => rfl⟩
  -- cast
  · intro t lp c rp nx e ty us vs _ _ _ _ _ _ h
    exact ⟨by rw [enough]; exact h.ok, by simp [startsMinus], by simp [startsParen], by simp [endsName],
      by simp [openRight], fun _ => rfl⟩
  -- ite
  · intro t el nx c a b us vs ws _ hc hl ha _ hb hn h1 h2 h3
    refine ⟨?_, by simp [startsMinus], by simp [startsParen], fun h => h3.name h, fun _ => hn, fun h => ?_⟩
    · rw [enough]
      simp only [Bool.and_eq_true, Bool.not_eq_true', h1.ok, h2.ok, h3.ok, and_true]
      constructor
      · cases hm : startsMinus a with
        | false => rfl
        | true =>
          obtain ⟨t, ts, rfl, hk⟩ := h2.minus hm
          simp [hk, level] at hl
      · cases hm : startsParen a with
        | false => simp
        | true =>
          obtain ⟨t, ts, rfl, hk⟩ := h2.paren hm
          cases he : endsName c with
          | false => rfl
          | true => exact absurd hk (h1.name he)
    · rw [expr_next hb] at h; cases h
  -- val
  · intro e l us nx _ h; exact h
  -- dot
  · intro e l us d f nx _ hd _ h
    have hb := h.base (by rw [hd]; rfl)
    refine ⟨by rw [enough]; simp [hb, h.ok], fun h' => ?_, fun h' => ?_, by simp [endsName], by simp [openRight], fun _ => rfl⟩
    · obtain ⟨t, ts, rfl, hk⟩ := h.minus h'
      exact ⟨_, _, rfl, hk⟩
    · obtain ⟨t, ts, rfl, hk⟩ := h.paren h'
      exact ⟨_, _, rfl, hk⟩
  -- index
  · intro e i l us vs b rb nx _ hd _ _ h hi
    have hb := h.base (by rw [hd]; rfl)
    refine ⟨by rw [enough]; simp [hb, h.ok, hi.ok], fun h' => ?_, fun h' => ?_, by simp [endsName], by simp [openRight],
      fun _ => rfl⟩
    · obtain ⟨t, ts, rfl, hk⟩ := h.minus h'
      exact ⟨_, _, rfl, hk⟩
    · obtain ⟨t, ts, rfl, hk⟩ := h.paren h'
      exact ⟨_, _, rfl, hk⟩
  -- arrow
  · intro e l us vs a f lp nx args _ _ _ _ _ h ha
    exact ⟨by rw [enough, enoughs]; simp [h.ok, ha], by simp [startsMinus], by simp [startsParen], by simp [endsName],
      by simp [openRight], fun _ => rfl⟩
  -- fac
  · intro _ _ _ _ _ _ h; exact h
  -- bin
  · intro l r us vs op nx k hk _ hr h1 h2 hl hr'
    refine ⟨?_, fun h' => ?_, fun h' => ?_, fun h => hr'.name h, fun h => hr'.op h, fun h => ?_⟩
    · rw [enough, hk]
      have : openRight l = false := by
        cases ho : openRight l with
        | false => rfl
        | true => rw [hl.op ho] at hk; cases hk
      simp [atLeast_iff.2 h1, atLeast_iff.2 h2, this, hl.ok, hr'.ok]
    · obtain ⟨t, ts, rfl, hk⟩ := hl.minus h'
      exact ⟨_, _, rfl, hk⟩
    · obtain ⟨t, ts, rfl, hk⟩ := hl.paren h'
      exact ⟨_, _, rfl, hk⟩
    · rw [expr_next hr] at h; cases h
  -- args
  · intro rp _; rw [enoughs]
  · intro e us rp _ _ h; simp [enoughs, h.ok]
  · intro e es us vs c _ _ _ h h'; simp [enoughs, h.ok, h']
  -- inits
  · intro rc _; simp [enoughs]
  · intro ns e ds us rc hd _ _ h
    cases hd <;> simp [enoughs, h.ok]
  · intro ns ns' e es ds us vs c hd _ _ _ h h'
    cases hd <;> simp [enoughs, h.ok, h'.1, h'.2] <;> have := h'.1 <;> omega

/-!
Parentheses put where they are needed.
-/

theorem wrap_enough {b : Bool} {e : SExpr} (h : enough e = true) : enough (wrap b e) = true := by
  cases b
  · exact h
  · simp only [wrap, if_true]; rw [enough]; exact h

theorem wrap_strip {b : Bool} {e : SExpr} : strip (wrap b e) = strip e := by
  cases b
  · rfl
  · simp only [wrap, if_true]; rw [strip]

mutual
theorem deco_enough : ∀ e : SExpr, writable e = true → enough (deco e) = true
  | .null, _ | .bool _, _ | .int _, _ | .char _, _ | .float _, _ | .str _, _ | .id _ _, _ => by
    all_goals simp [deco, enough]
  | .call f args, h => by
    rw [writable] at h
    rw [deco, enough, decos_enough args h]
  | .paren e, h => by
    rw [writable] at h
    rw [deco, enough, deco_enough e h]
  | .bin k l r, h => by
    rw [writable] at h
    simp at h
    obtain ⟨⟨h1, h2⟩, h3⟩ := h
    have hl := deco_enough l h2
    have hr := deco_enough r h3
    rw [deco, enough]
    cases hk : level k with
    | none => rw [hk] at h1; cases h1
    | some j =>
      simp only [Option.getD_some, wrap_enough hl, wrap_enough hr, Bool.and_true, Bool.and_eq_true, Bool.not_eq_true']
      refine ⟨⟨?_, ?_⟩, ?_⟩
      · cases h : (atLeast j (deco l) && !openRight (deco l)) with
        | true => simp at h; simp [wrap, h.1]
        | false => simp [wrap, atLeast]
      · cases h : atLeast (j + 1) (deco r) <;> first | (simp [wrap, h]; done) | simp [wrap, atLeast]
      · cases h : (atLeast j (deco l) && !openRight (deco l)) with
        | true => simp at h; simp [wrap, h.2]
        | false => simp [wrap, openRight]
  | .un k e, h => by
    rw [writable] at h
    simp at h
    have he := deco_enough e h.2
    rw [deco, enough]
    simp only [wrap_enough he, Bool.and_true, Bool.and_eq_true]
    refine ⟨by simpa using h.1, ?_⟩
    cases h : isOperand (deco e) <;> first | (simp [wrap, h]; done) | simp [wrap, isOperand]
  | .dot l f, h => by
    rw [writable] at h
    have he := deco_enough l h
    rw [deco, enough]
    simp only [wrap_enough he, Bool.and_true]
    cases h : isBase (deco l) <;> first | (simp [wrap, h]; done) | simp [wrap, isBase]
  | .index l i, h => by
    rw [writable] at h
    simp at h
    have he := deco_enough l h.1
    rw [deco, enough]
    simp only [wrap_enough he, deco_enough i h.2, Bool.and_true]
    cases h : isBase (deco l) <;> first | (simp [wrap, h]; done) | simp [wrap, isBase]
  | .ctor n ns args, h => by
    rw [writable] at h
    simp at h
    rw [deco, enough, decos_enough args h.2]
    simp [decos_length, h.1]
  | .cast e ty, h => by
    rw [writable] at h
    rw [deco, enough, deco_enough e h]
  | .ite c a b, h => by
    rw [writable] at h
    simp at h
    have hc := deco_enough c h.1.1
    have ha := deco_enough a h.1.2
    rw [deco, enough]
    simp only [wrap_enough hc, wrap_enough ha, deco_enough b h.2, Bool.and_true, Bool.and_eq_true, Bool.not_eq_true']
    refine ⟨?_, ?_⟩
    · cases h : startsMinus (deco a) <;> first | (simp [wrap, h]; done) | simp [wrap, startsMinus]
    · generalize wrap (startsMinus (deco a)) (deco a) = a'
      cases h1 : endsName (deco c) <;> cases h2 : startsParen a' <;> simp [wrap, h1, endsName]
theorem decos_enough : ∀ es : List SExpr, writables es = true → enoughs (decos es) = true
  | [], _ => by simp [decos, enoughs]
  | e :: es, h => by
    rw [writables] at h
    simp at h
    rw [decos, enoughs, deco_enough e h.1, decos_enough es h.2]
    rfl
theorem decos_length : ∀ es : List SExpr, (decos es).length = es.length
  | [] => by simp [decos]
  | e :: es => by rw [decos]; simp [decos_length es]
end

mutual
theorem deco_strip : ∀ e : SExpr, strip (deco e) = strip e
  | .null | .bool _ | .int _ | .char _ | .float _ | .str _ | .id _ _ => by
    all_goals simp [deco]
  | .call f args => by rw [deco, strip, strip, decos_strip]
  | .paren e => by rw [deco, strip, strip, deco_strip]
  | .bin k l r => by rw [deco, strip, strip, wrap_strip, wrap_strip, deco_strip, deco_strip]
  | .un k e => by rw [deco, strip, strip, wrap_strip, deco_strip]
  | .dot l f => by rw [deco, strip, strip, wrap_strip, deco_strip]
  | .index l i => by rw [deco, strip, strip, wrap_strip, deco_strip, deco_strip]
  | .ctor n ns args => by rw [deco, strip, strip, decos_strip]
  | .cast e ty => by rw [deco, strip, strip, deco_strip]
  | .ite c a b => by rw [deco, strip, strip, wrap_strip, wrap_strip, deco_strip, deco_strip, deco_strip]
theorem decos_strip : ∀ es : List SExpr, strips (decos es) = strips es
  | [] => by simp [decos]
  | e :: es => by rw [decos, strips, strips, deco_strip, decos_strip]
end

mutual
theorem deco_same : ∀ e : SExpr, enough e = true → deco e = e
  | .null, _ | .bool _, _ | .int _, _ | .char _, _ | .float _, _ | .str _, _ | .id _ _, _ => by
    all_goals simp [deco]
  | .call f args, h => by
    rw [enough] at h
    rw [deco, decos_same args h]
  | .paren e, h => by
    rw [enough] at h
    rw [deco, deco_same e h]
  | .bin k l r, h => by
    rw [enough] at h
    cases hk : level k with
    | none => rw [hk] at h; cases h
    | some j =>
      rw [hk] at h
      simp at h
      obtain ⟨⟨⟨⟨h1, h2⟩, h3⟩, h4⟩, h5⟩ := h
      rw [deco, deco_same l h4, deco_same r h5, hk]
      simp [wrap, h1, h2, h3]
  | .un k e, h => by
    rw [enough] at h
    simp at h
    rw [deco, deco_same e h.2]
    simp [wrap, h.1.2]
  | .dot l f, h => by
    rw [enough] at h
    simp at h
    rw [deco, deco_same l h.2]
    simp [wrap, h.1]
  | .index l i, h => by
    rw [enough] at h
    simp at h
    rw [deco, deco_same l h.1.2, deco_same i h.2]
    simp [wrap, h.1.1]
  | .ctor n ns args, h => by
    rw [enough] at h
    simp at h
    rw [deco, decos_same args h.2]
  | .cast e ty, h => by
    rw [enough] at h
    rw [deco, deco_same e h]
  | .ite c a b, h => by
    rw [enough] at h
    simp at h
    obtain ⟨⟨⟨⟨h1, h2⟩, h3⟩, h4⟩, h5⟩ := h
    rw [deco, deco_same c h3, deco_same a h4, deco_same b h5]
    simp only [wrap, h1]
    rcases h2 with h2 | h2 <;> simp [h2]
theorem decos_same : ∀ es : List SExpr, enoughs es = true → decos es = es
  | [], _ => by simp [decos]
  | e :: es, h => by
    rw [enoughs] at h
    simp at h
    rw [decos, deco_same e h.1, decos_same es h.2]
end

mutual
/-- Trees with enough parentheses have a written form. -/
theorem enough_writable : ∀ e : SExpr, enough e = true → writable e = true
  | .null, _ | .bool _, _ | .int _, _ | .char _, _ | .float _, _ | .str _, _ | .id _ _, _ => by
    all_goals simp [writable]
  | .call f args, h => by rw [enough] at h; rw [writable, enoughs_writable args h]
  | .paren e, h => by rw [enough] at h; rw [writable, enough_writable e h]
  | .bin k l r, h => by
    rw [enough] at h
    cases hk : level k with
    | none => rw [hk] at h; cases h
    | some j =>
      rw [hk] at h
      simp at h
      rw [writable, enough_writable l h.1.2, enough_writable r h.2, hk]
      rfl
  | .un k e, h => by rw [enough] at h; simp at h; rw [writable, enough_writable e h.2]; simpa using h.1.1
  | .dot l f, h => by rw [enough] at h; simp at h; rw [writable, enough_writable l h.2]
  | .index l i, h => by rw [enough] at h; simp at h; rw [writable, enough_writable l h.1.2, enough_writable i h.2]; rfl
  | .ctor n ns args, h => by rw [enough] at h; simp at h; rw [writable, enoughs_writable args h.2]; simpa using h.1
  | .cast e ty, h => by rw [enough] at h; rw [writable, enough_writable e h]
  | .ite c a b, h => by
    rw [enough] at h
    simp at h
    rw [writable, enough_writable c h.1.1.2, enough_writable a h.1.2, enough_writable b h.2]
    rfl
theorem enoughs_writable : ∀ es : List SExpr, enoughs es = true → writables es = true
  | [], _ => by simp [writables]
  | e :: es, h => by
    rw [enoughs] at h
    simp at h
    rw [writables, enough_writable e h.1, enoughs_writable es h.2]
    rfl
end

end Tiny
