import Verif.Spec.Precedence
import Verif.Proofs.ParseSoundS

/-!
# Grouping of operators
-/

namespace Tiny
open Spec

/-- Symbol table operations which do nothing: the parser then returns the tree as written. -/
def synOps : Ops Unit Unit (List UInt8) SType Unit where
  ref _ := pure ()
  str s := pure s
  struct _ := pure ()
  named n := pure (n, false)
  nullable t := pure (t.1, true)
  openScope := pure ()
  closeScope := pure ()
  noFunc := pure ()
  inFunc := pure ()
  valueFunc := pure ()
  topLevel := pure ()
  beginFunc _ := pure ()
  params _ := pure ()
  setRet _ := pure ()
  endFunc := pure ()
  declare _ := pure ()
  setTag _ _ := pure ()
  const _ _ := pure ()
  beginStruct _ := pure ()
  checkField _ _ := pure ()
  addField _ _ _ := pure ()
  endStruct _ := pure ()

theorem syn_type (t : SType) : nameType synOps t = pure t := by
  obtain ⟨n, b⟩ := t
  cases b <;> rfl

theorem Act.pure_bind' {τ α β : Type} (a : α) (f : α → Act τ β) : (pure a >>= f) = f a := rfl

mutual
theorem syn_expr : ∀ e : SExpr, nameExpr synOps e = pure e
  | .null | .bool _ | .int _ | .char _ | .float _ => by rw [nameExpr]
  | .str _ => by rw [nameExpr]; rfl
  | .id _ _ => by simp only [nameExpr]; rfl
  | .call f args => by rw [nameExpr, syn_exprs args]; rfl
  | .paren e => by rw [nameExpr, syn_expr e]; rfl
  | .bin k l r => by rw [nameExpr, syn_expr l, syn_expr r]; rfl
  | .un k e => by rw [nameExpr, syn_expr e]; rfl
  | .dot l f => by rw [nameExpr, syn_expr l]; rfl
  | .index l i => by rw [nameExpr, syn_expr l, syn_expr i]; rfl
  | .ctor n ns args => by rw [nameExpr, syn_exprs args]; rfl
  | .cast e ty => by rw [nameExpr, syn_expr e, syn_type]; rfl
  | .ite c a b => by rw [nameExpr, syn_expr c, syn_expr a, syn_expr b]; rfl
theorem syn_exprs : ∀ es : List SExpr, nameExprs synOps es = pure es
  | [] => by rw [nameExprs]
  | e :: es => by rw [nameExprs, syn_expr e, syn_exprs es]; rfl
end

/-- A phrase which is an expression in two ways is so in one way. -/
theorem expr_unique {e e' : SExpr} {us : List Tk} {nx : Tk} (h : ExprIs e us nx) (h' : ExprIs e' us nx)
    (hn : level nx.kind = none) : e = e' := by
  have h1 := (expr_complete (o := synOps) h).read hn [] ()
  have h2 := (expr_complete (o := synOps) h').read hn [] ()
  rw [syn_expr] at h1 h2
  rw [h1] at h2
  cases h2
  rfl

theorem level_suffix {k : Tok} {j : Nat} (h : level k = some j) : isSuffix k = false := by
  cases k <;> simp [level, isSuffix] at h ⊢

theorem flat_fac {e : SExpr} {l : Nat} {us : List Tk} {nx : Tk} (h : FacIs e l us nx) : flat e = [.operand e] := by
  have := topOp_fac h
  cases e <;> first | rfl | cases this

theorem flat_ne {e : SExpr} : flat e ≠ [] := by
  cases e <;> simp [flat]

/-- A chain with an operator in it, cut there. -/
theorem ChainIs.cut {k : Tok} {b : List Piece} {nx : Tk} : ∀ {a : List Piece} {us : List Tk},
    a ≠ [] → ChainIs (a ++ .op k :: b) us nx →
    ∃ vs op ws j, us = vs ++ op :: ws ∧ op.kind = k ∧ level k = some j ∧ ChainIs a vs op ∧ ChainIs b ws nx
  | [], us, ha, h => absurd rfl ha
  | [x], us, ha, h => by
    cases h with
    | cons h1 h2 h3 => exact ⟨_, _, _, _, rfl, rfl, h2, .one h1 (level_suffix h2), h3⟩
  | x :: y :: a, us, ha, h => by
    cases a with
    | nil =>
      generalize hl : [x, y] ++ .op k :: b = l at h
      cases h with
      | one => simp at hl
      | cons h1 h2 h3 =>
        simp at hl
        obtain ⟨-, -, rfl⟩ := hl
        cases h3
    | cons z a =>
      generalize hl : (x :: y :: z :: a) ++ .op k :: b = l at h
      cases h with
      | one => simp at hl
      | cons h1 h2 h3 =>
        simp at hl
        obtain ⟨rfl, rfl, rfl⟩ := hl
        obtain ⟨vs, op, ws, j, rfl, h5, h6, h7, h8⟩ := ChainIs.cut (a := z :: a) (by simp) h3
        exact ⟨_ ++ _ :: vs, op, ws, j, by simp, h5, h6, .cons h1 h2 h7, h8⟩

/-- A grouped tree over a chain is an expression. -/
theorem grouped_expr : ∀ {e : SExpr} {us : List Tk} {nx : Tk}, Grouped e → ChainIs (flat e) us nx → ExprIs e us nx
  | .bin k l r, us, nx, hg, h => by
    obtain ⟨⟨j, hj, h1, h2⟩, hl, hr⟩ := hg
    obtain ⟨vs, op, ws, j', rfl, rfl, h4, h5, h6⟩ := ChainIs.cut flat_ne h
    exact .bin hj (grouped_expr hl h5) (grouped_expr hr h6) h1 h2
  | .null, us, nx, _, .one h hn => .fac h hn
  | .bool _, us, nx, _, .one h hn => .fac h hn
  | .int _, us, nx, _, .one h hn => .fac h hn
  | .char _, us, nx, _, .one h hn => .fac h hn
  | .float _, us, nx, _, .one h hn => .fac h hn
  | .str _, us, nx, _, .one h hn => .fac h hn
  | .id _ _, us, nx, _, .one h hn => .fac h hn
  | .call _ _, us, nx, _, .one h hn => .fac h hn
  | .paren _, us, nx, _, .one h hn => .fac h hn
  | .un _ _, us, nx, _, .one h hn => .fac h hn
  | .dot _ _, us, nx, _, .one h hn => .fac h hn
  | .index _ _, us, nx, _, .one h hn => .fac h hn
  | .ctor _ _ _, us, nx, _, .one h hn => .fac h hn
  | .cast _ _, us, nx, _, .one h hn => .fac h hn
  | .ite _ _ _, us, nx, _, .one h hn => .fac h hn

theorem ChainIs.append {k : Tk} {b : List Piece} {ws : List Tk} {nx : Tk} {j : Nat} (hj : level k.kind = some j)
    (hb : ChainIs b ws nx) : ∀ {a : List Piece} {vs : List Tk}, ChainIs a vs k → ChainIs (a ++ .op k.kind :: b) (vs ++ k :: ws) nx := by
  intro a vs h
  generalize hk : k = k' at h
  induction h with
  | one h hn => subst hk; exact .cons h hj hb
  | cons h1 h2 h3 ih => simpa using ChainIs.cons h1 h2 (ih hk)

/-- An expression is a grouped tree over a chain. -/
theorem expr_grouped {e : SExpr} {us : List Tk} {nx : Tk} (h : ExprIs e us nx) :
    Grouped e ∧ ChainIs (flat e) us nx := by
  refine ExprIs.rec (motive_1 := fun _ _ _ _ _ => True) (motive_2 := fun _ _ _ _ _ => True)
    (motive_3 := fun e us nx _ => Grouped e ∧ ChainIs (flat e) us nx)
    (motive_4 := fun _ _ _ => True) (motive_5 := fun _ _ _ _ => True)
    ?_ ?_ ?_ ?_ ?_ ?_ ?_ ?_ ?_ ?_ ?_ ?_ ?_ ?_ ?_ ?_ ?_ ?_ ?_ ?_ ?_ ?_ ?_ ?_ ?_ h
  all_goals try (intros; trivial)
  · intro e l us nx h hn _
    refine ⟨?_, by rw [flat_fac h]; exact .one h hn⟩
    have := topOp_fac h
    cases e <;> first | trivial | cases this
  · intro l r us vs op nx k hk _ _ h1 h2 hl hr
    exact ⟨⟨⟨k, hk, h1, h2⟩, hl.1, hr.1⟩, ChainIs.append hk hr.2 hl.2⟩

/-- One more operator and operand on the right. -/
def addRight (k : Tok) (x : SExpr) : SExpr → SExpr
  | .bin k' l r => if tokenPrec k' < tokenPrec k then .bin k' l (addRight k x r) else .bin k (.bin k' l r) x
  | e => .bin k e x

theorem add_flat (k : Tok) (x : SExpr) (hx : flat x = [.operand x]) : ∀ e, flat (addRight k x e) = flat e ++ [.op k, .operand x]
  | .bin k' l r => by
    rw [addRight]
    split
    · rw [flat, add_flat k x hx r]; simp [flat]
    · rw [flat, hx]
  | .null | .bool _ | .int _ | .char _ | .float _ | .str _ | .id _ _ | .call _ _ | .paren _ | .un _ _ | .dot _ _
  | .index _ _ | .ctor _ _ _ | .cast _ _ | .ite _ _ _ => by
    all_goals
      rw [addRight, flat, hx] <;> first | rfl | (intros; simp_all; done) | (intros; intro h; cases h)

theorem atLeast_of {x : SExpr} (hx : flat x = [.operand x]) (j : Nat) : AtLeast j x := by
  cases x with
  | bin k l r => rw [flat] at hx; have := congrArg List.length hx; simp at this
                 have h1 : 0 < (flat l).length := List.length_pos_iff.2 flat_ne
                 omega
  | _ => trivial

theorem grouped_of {x : SExpr} (hx : flat x = [.operand x]) : Grouped x := by
  cases x with
  | bin k l r => rw [flat] at hx; have := congrArg List.length hx; simp at this
                 have h1 : 0 < (flat l).length := List.length_pos_iff.2 flat_ne
                 omega
  | _ => trivial

theorem add_least {k : Tok} {x : SExpr} {i j : Nat} (hk : level k = some j) (hi : i ≤ j) :
    ∀ {e : SExpr}, AtLeast i e → AtLeast i (addRight k x e)
  | .bin k' l r, h => by
    rw [addRight]
    split
    · exact h
    · exact ⟨j, hk, hi⟩
  | .null, _ | .bool _, _ | .int _, _ | .char _, _ | .float _, _ | .str _, _ | .id _ _, _ | .call _ _, _ | .paren _, _
  | .un _ _, _ | .dot _ _, _ | .index _ _, _ | .ctor _ _ _, _ | .cast _ _, _ | .ite _ _ _, _ => ⟨j, hk, hi⟩

theorem add_grouped {k : Tok} {x : SExpr} {j : Nat} (hk : level k = some j) (hx : flat x = [.operand x]) :
    ∀ {e : SExpr}, Grouped e → Grouped (addRight k x e)
  | .bin k' l r, h => by
    obtain ⟨⟨i, hi, h1, h2⟩, hl, hr⟩ := h
    rw [addRight]
    by_cases hlt : tokenPrec k' < tokenPrec k
    · rw [if_pos hlt]
      rw [prec_of_level hi, prec_of_level hk] at hlt
      have hlt : i < j := by omega
      exact ⟨⟨i, hi, h1, add_least hk hlt h2⟩, hl, add_grouped hk hx hr⟩
    · rw [if_neg hlt]
      rw [prec_of_level hi, prec_of_level hk] at hlt
      have hlt : ¬ i < j := by omega
      exact ⟨⟨j, hk, ⟨i, hi, by omega⟩, atLeast_of hx _⟩, ⟨⟨i, hi, h1, h2⟩, hl, hr⟩, grouped_of hx⟩
  | .null, _ | .bool _, _ | .int _, _ | .char _, _ | .float _, _ | .str _, _ | .id _ _, _ | .call _ _, _ | .paren _, _
  | .un _ _, _ | .dot _ _, _ | .index _ _, _ | .ctor _ _ _, _ | .cast _ _, _ | .ite _ _ _, _ =>
    ⟨⟨j, hk, trivial, atLeast_of hx _⟩, trivial, grouped_of hx⟩

/-- Every chain can be grouped, starting from what is already grouped on the left. -/
theorem chain_tree {items : List Piece} {us : List Tk} {nx : Tk} (h : ChainIs items us nx) :
    (∃ e, Grouped e ∧ flat e = items) ∧
    ∀ (acc : SExpr) (k : Tok) (j : Nat), Grouped acc → level k = some j →
      ∃ e, Grouped e ∧ flat e = flat acc ++ .op k :: items := by
  induction h with
  | one h hn =>
    have hf := flat_fac h
    exact ⟨⟨_, grouped_of hf, hf⟩, fun acc k j ha hk => ⟨_, add_grouped hk hf ha, by rw [add_flat _ _ hf]⟩⟩
  | cons h1 h2 h3 ih =>
    have hf := flat_fac h1
    refine ⟨?_, fun acc k j ha hk => ?_⟩
    · obtain ⟨e, he, hfe⟩ := ih.2 _ _ _ (grouped_of hf) h2
      exact ⟨e, he, by rw [hfe, hf]; rfl⟩
    · obtain ⟨e, he, hfe⟩ := ih.2 _ _ _ (add_grouped hk hf ha) h2
      exact ⟨e, he, by rw [hfe, add_flat _ _ hf]; simp⟩

end Tiny
