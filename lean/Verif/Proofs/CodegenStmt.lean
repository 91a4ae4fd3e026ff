import Verif.Proofs.CodegenExpr
import Verif.Spec.Lang

/-!
# The code generator puts the code of each statement where it says
-/

namespace Tiny
open Spec

/-! ## `PatchBreakContinue` -/

/-- Only bytes in `[a, b)` changed. -/
structure Within (a b : Nat) (s s' : CS) : Prop where
  len : s'.program.length = s.program.length
  agree : ∀ k, (k < a ∨ b ≤ k) → s'.program[k]? = s.program[k]?
  fpcs : s'.functionPcs = s.functionPcs
  lines : s'.log = s.log

theorem Within.refl (a b : Nat) (s : CS) : Within a b s s := ⟨rfl, fun _ _ => rfl, rfl, rfl⟩

theorem Within.trans {a b c d lo hi : Nat} {s s1 s2 : CS} (h1 : Within a b s s1) (h2 : Within c d s1 s2)
    (ha : lo ≤ a) (hb : b ≤ hi) (hc : lo ≤ c) (hd : d ≤ hi) : Within lo hi s s2 :=
  ⟨h2.len.trans h1.len, fun k hk => (h2.agree k (by omega)).trans (h1.agree k (by omega)),
   h2.fpcs.trans h1.fpcs, h2.lines.trans h1.lines⟩

theorem Within.mono {a b lo hi : Nat} {s s1 : CS} (h1 : Within a b s s1) (ha : lo ≤ a) (hb : b ≤ hi) :
    Within lo hi s s1 := ⟨h1.len, fun k hk => h1.agree k (by omega), h1.fpcs, h1.lines⟩

theorem Within.at {g fp it} {a b x y : Nat} {s s' : CS} (h : Within a b s s') (hd : y ≤ a ∨ b ≤ x)
    (q : At g fp s.program x it y) : At g fp s'.program x it y :=
  q.agree fun k _ _ => h.agree k (by omega)

theorem Within.ati {i} {a b x y : Nat} {s s' : CS} (h : Within a b s s') (hd : y ≤ a ∨ b ≤ x)
    (q : AtI s.program x i y) : AtI s'.program x i y :=
  q.agree fun k _ _ => h.agree k (by omega)

/-- What patching the breaks and continues of an item does. -/
def PatchGoal (g : Globals) (fp : Nat → Option Nat) (P : List UInt8) (pos : Nat) (it : Item) (fin : Nat) : Prop :=
  match it with
  | .s _ _ st a => ∀ (b c : Nat) (S S' : CS), S.program = P → b < 2 ^ 32 → c < 2 ^ 32 →
      patchBC b c a S = .ok () S' → Within pos fin S S' ∧ At g fp S'.program pos (.s b c st a) fin
  | .ss _ _ st a => ∀ (b c : Nat) (S S' : CS), S.program = P → b < 2 ^ 32 → c < 2 ^ 32 →
      patchBCs b c a S = .ok () S' → Within pos fin S S' ∧ At g fp S'.program pos (.ss b c st a) fin
  | _ => True

theorem patch_jump_at {P : List UInt8} {pos fin p v old : Nat} {S S' : CS} {o : Op} (hS : S.program = P) (hv : v < 2 ^ 32)
    (hp : p = alignUp (pos + 1) 4) (h : AtI P pos (.opV o 4 old) fin) (hj : patchJump p v S = .ok () S') :
    Within pos fin S S' ∧ AtI S'.program pos (.opV o 4 v) fin := by
  have q := patchJump_ok hj
  have hn := readValueAt_next h.2.2
  have hle := le_alignUp (pos + 1) 4 (by omega)
  refine ⟨⟨q.len, fun k hk => q.agree k (by omega), q.fpcs, q.lines⟩, ?_⟩
  rw [hn, ← hp]
  refine ati_jump ?_ hp ?_
  · rw [q.agree pos (by omega), hS]; exact h.1
  · rw [q.val, Nat.mod_eq_of_lt hv]

/-- Statements `PatchBreakContinue` does not look into. -/
def Stmt.noPatch : Stmt → Bool
  | .call _ _ | .assign _ _ _ | .proc _ _ _ _ | .while _ _ | .for _ _ _ _ | .ret _ | .use | .expr _ => true
  | _ => false

theorem patchBC_nop {b c : Nat} {a : Stmt} (h : a.noPatch = true) : patchBC b c a = pure () := by
  cases a <;> first | (simp [Stmt.noPatch] at h; done) | simp only [patchBC]

theorem patch_goal {g : Globals} {fp : Nat → Option Nat} {P : List UInt8} {pos fin : Nat} {it : Item}
    (h : At g fp P pos it fin) (P' : List UInt8) (hP : P' = P) : PatchGoal g fp P' pos it fin := by
  subst hP
  -- Induct with the program generalised: patching one part changes the program seen by the next.
  suffices H : ∀ Q, Agree P' Q pos fin → PatchGoal g fp Q pos it fin from H P' (Agree.refl _ _ _)
  induction h with
  | node h ih =>
    intro Q hQ b c S S' hS hb hc e
    rw [patchBC] at e
    obtain ⟨w, x⟩ := ih Q hQ b c S S' hS hb hc e
    exact ⟨w, .node x⟩
  | block h ih =>
    intro Q hQ b c S S' hS hb hc e
    rw [patchBC] at e
    obtain ⟨w, x⟩ := ih Q hQ b c S S' hS hb hc e
    exact ⟨w, .block x⟩
  | callS h1 h2 h3 h4 _ =>
    intro Q hQ b c S S' hS hb hc e
    rw [patchBC_nop rfl] at e
    · obtain ⟨_, rfl⟩ := CG.pure_ok.1 e
      have := h1.le; have := h4.lt
      refine ⟨.refl _ _ _, ?_⟩
      rw [hS]
      exact .callS (h1.agree (hQ.mono (by omega) (by omega))) h2 h3 (h4.agree (hQ.mono (by omega) (by omega)))
  | assignConst =>
    intro Q hQ b c S S' hS hb hc e
    rw [patchBC_nop rfl] at e
    · obtain ⟨_, rfl⟩ := CG.pure_ok.1 e
      exact ⟨.refl _ _ _, .assignConst⟩
  | assign h1 h2 h3 h4 =>
    intro Q hQ b c S S' hS hb hc e
    rw [patchBC_nop rfl] at e
    · obtain ⟨_, rfl⟩ := CG.pure_ok.1 e
      have := h2.le; have := h3.le; have := h4.le
      refine ⟨.refl _ _ _, ?_⟩
      rw [hS]
      exact .assign h1 (h2.agree (hQ.mono (by omega) (by omega))) (h3.agree (hQ.mono (by omega) (by omega)))
        (h4.agree (hQ.mono (by omega) (by omega)))
  | @proc _ _ _ _ _ b0 c0 _ na _ _ _ h1 h2 h3 h4 h5 h6 =>
    intro Q hQ b c S S' hS hb hc e
    rw [patchBC_nop rfl] at e
    · obtain ⟨_, rfl⟩ := CG.pure_ok.1 e
      have hfull := At.agree (At.proc (nargs := na) (b := b) (c := c) h1 h2 h3 h4 h5 h6) hQ
      exact ⟨.refl _ _ _, by rw [hS]; exact hfull⟩
  | «while» h1 h2 h3 h4 =>
    intro Q hQ b c S S' hS hb hc e
    rw [patchBC_nop rfl] at e
    · obtain ⟨_, rfl⟩ := CG.pure_ok.1 e
      have hfull := At.agree (At.while (b := b) (c := c) h1 h2 h3 h4) hQ
      exact ⟨.refl _ _ _, by rw [hS]; exact hfull⟩
  | «for» h1 h2 h3 h4 h5 h6 =>
    intro Q hQ b c S S' hS hb hc e
    rw [patchBC_nop rfl] at e
    · obtain ⟨_, rfl⟩ := CG.pure_ok.1 e
      have hfull := At.agree (At.for (b := b) (c := c) h1 h2 h3 h4 h5 h6) hQ
      exact ⟨.refl _ _ _, by rw [hS]; exact hfull⟩
  | ret h1 =>
    intro Q hQ b c S S' hS hb hc e
    rw [patchBC_nop rfl] at e
    · obtain ⟨_, rfl⟩ := CG.pure_ok.1 e
      exact ⟨.refl _ _ _, by rw [hS]; exact .ret (h1.agree hQ)⟩
  | retValue h1 h2 =>
    intro Q hQ b c S S' hS hb hc e
    rw [patchBC_nop rfl] at e
    · obtain ⟨_, rfl⟩ := CG.pure_ok.1 e
      have hfull := At.agree (At.retValue (b := b) (c := c) h1 h2) hQ
      exact ⟨.refl _ _ _, by rw [hS]; exact hfull⟩
  | use =>
    intro Q hQ b c S S' hS hb hc e
    rw [patchBC_nop rfl] at e
    · obtain ⟨_, rfl⟩ := CG.pure_ok.1 e
      exact ⟨.refl _ _ _, .use⟩
  | brk hp h1 =>
    intro Q hQ b c S S' hS hb hc e
    rw [patchBC] at e
    obtain ⟨w, x⟩ := patch_jump_at hS hb hp (h1.agree hQ) e
    exact ⟨w, .brk hp x⟩
  | cont hp h1 =>
    intro Q hQ b c S S' hS hb hc e
    rw [patchBC] at e
    obtain ⟨w, x⟩ := patch_jump_at hS hc hp (h1.agree hQ) e
    exact ⟨w, .cont hp x⟩
  | ifThen h1 h2 h3 _ ih =>
    intro Q hQ b c S S' hS hb hc e
    rw [patchBC] at e
    have := h1.le; have := h2.lt; have := h3.le
    obtain ⟨w, x⟩ := ih Q (hQ.mono (by omega) (by omega)) b c S S' hS hb hc e
    subst hS
    have a1 := h1.agree (hQ.mono (by omega) (by omega))
    have a2 := h2.agree (hQ.mono (by omega) (by omega))
    exact ⟨w.mono (by omega) (by omega), .ifThen (w.at (by omega) a1) (w.ati (by omega) a2) x⟩
  | @ifElse _ _ _ p3 _ fin _ _ _ _ _ _ _ h1 h2 h3 h4 h5 _ ih1 ih2 =>
    intro Q hQ b c S S' hS hb hc e
    rw [patchBC] at e
    obtain ⟨_, S1, e1, e2⟩ := CG.bind_ok.1 e
    have := h1.le; have := h2.lt; have := h3.le; have := h4.lt; have := h5.le
    obtain ⟨w, x⟩ := ih1 Q (hQ.mono (by omega) (by omega)) b c S S1 hS hb hc e1
    have hQ1 : Agree Q S1.program p3 fin := fun k hk1 hk2 => by
      rw [← hS]; exact w.agree k (Or.inr hk1)
    obtain ⟨w2, x2⟩ := ih2 S1.program
      ((hQ.mono (by omega) (by omega)).trans (hQ1.mono (by omega) (Nat.le_refl _))) b c S1 S' rfl hb hc e2
    subst hS
    have a1 := h1.agree (hQ.mono (by omega) (by omega))
    have a2 := h2.agree (hQ.mono (by omega) (by omega))
    have a4 := h4.agree (hQ.mono (by omega) (by omega))
    exact ⟨w.trans w2 (by omega) (by omega) (by omega) (by omega),
      .ifElse (w2.at (by omega) (w.at (by omega) a1)) (w2.ati (by omega) (w.ati (by omega) a2))
        (w2.at (by omega) x) (w2.ati (by omega) (w.ati (by omega) a4)) x2⟩
  | ssNil =>
    intro Q hQ b c S S' hS hb hc e
    rw [patchBCs] at e
    obtain ⟨_, rfl⟩ := CG.pure_ok.1 e
    exact ⟨.refl _ _ _, .ssNil⟩
  | @ssCons _ p3 fin _ _ _ _ _ _ h1 h2 ih1 ih2 =>
    intro Q hQ b c S S' hS hb hc e
    rw [patchBCs] at e
    obtain ⟨_, S1, e1, e2⟩ := CG.bind_ok.1 e
    have := h1.le; have := h2.le
    obtain ⟨w, x⟩ := ih1 Q (hQ.mono (by omega) (by omega)) b c S S1 hS hb hc e1
    have hQ1 : Agree Q S1.program p3 fin := fun k hk1 hk2 => by
      rw [← hS]; exact w.agree k (Or.inr hk1)
    obtain ⟨w2, x2⟩ := ih2 S1.program
      ((hQ.mono (by omega) (by omega)).trans (hQ1.mono (by omega) (Nat.le_refl _))) b c S1 S' rfl hb hc e2
    exact ⟨w.trans w2 (by omega) (by omega) (by omega) (by omega), .ssCons (w2.at (by omega) x) x2⟩
  | _ => intros; trivial


mutual
/-- The places `PatchBreakContinue` writes to are in `[lo, hi)`. -/
def PatchIn (lo hi : Nat) : Stmt → Prop
  | .node _ s => PatchIn lo hi s
  | .ifThen _ body => PatchIn lo hi body
  | .ifElse _ body alt => PatchIn lo hi body ∧ PatchIn lo hi alt
  | .block ss => PatchInL lo hi ss
  | .brk p => lo ≤ p ∧ p + 4 ≤ hi
  | .cont p => lo ≤ p ∧ p + 4 ≤ hi
  | _ => True
/-- The same for the statements of a block. -/
def PatchInL (lo hi : Nat) : List Stmt → Prop
  | [] => True
  | s :: ss => PatchIn lo hi s ∧ PatchInL lo hi ss
end

mutual
theorem PatchIn.mono {lo hi lo' hi' : Nat} (hlo : lo' ≤ lo) (hhi : hi ≤ hi') : ∀ {a : Stmt}, PatchIn lo hi a →
    PatchIn lo' hi' a
  | .node _ s, h => by unfold PatchIn at h ⊢; exact PatchIn.mono hlo hhi h
  | .ifThen _ s, h => by unfold PatchIn at h ⊢; exact PatchIn.mono hlo hhi h
  | .ifElse _ s t, h => by unfold PatchIn at h ⊢; exact ⟨PatchIn.mono hlo hhi h.1, PatchIn.mono hlo hhi h.2⟩
  | .block ss, h => by unfold PatchIn at h ⊢; exact PatchInL.mono hlo hhi h
  | .brk p, h => by unfold PatchIn at h ⊢; omega
  | .cont p, h => by unfold PatchIn at h ⊢; omega
  | .call _ _, _ | .assign _ _ _, _ | .proc _ _ _ _, _ | .while _ _, _ | .for _ _ _ _, _ | .ret _, _ | .use, _
  | .expr _, _ => by unfold PatchIn; trivial
theorem PatchInL.mono {lo hi lo' hi' : Nat} (hlo : lo' ≤ lo) (hhi : hi ≤ hi') : ∀ {a : List Stmt}, PatchInL lo hi a →
    PatchInL lo' hi' a
  | [], _ => by unfold PatchInL; trivial
  | s :: ss, h => by unfold PatchInL at h ⊢; exact ⟨PatchIn.mono hlo hhi h.1, PatchInL.mono hlo hhi h.2⟩
end

theorem patchJump_within {lo hi p v : Nat} {S S' : CS} (hj : patchJump p v S = .ok () S') (h : lo ≤ p ∧ p + 4 ≤ hi) :
    Within lo hi S S' := by
  have q := patchJump_ok hj
  exact ⟨q.len, fun k hk => q.agree k (by omega), q.fpcs, q.lines⟩

mutual
theorem patchBC_within {lo hi b c : Nat} : ∀ {a : Stmt} {S S' : CS}, PatchIn lo hi a → patchBC b c a S = .ok () S' →
    Within lo hi S S'
  | .node _ s, S, S', h, e => by unfold PatchIn at h; rw [patchBC] at e; exact patchBC_within h e
  | .ifThen _ s, S, S', h, e => by unfold PatchIn at h; rw [patchBC] at e; exact patchBC_within h e
  | .ifElse _ s t, S, S', h, e => by
    unfold PatchIn at h; rw [patchBC] at e
    obtain ⟨_, S1, e1, e2⟩ := CG.bind_ok.1 e
    exact (patchBC_within h.1 e1).trans (patchBC_within h.2 e2) (Nat.le_refl _) (Nat.le_refl _) (Nat.le_refl _)
      (Nat.le_refl _)
  | .block ss, S, S', h, e => by unfold PatchIn at h; rw [patchBC] at e; exact patchBCs_within h e
  | .brk p, S, S', h, e => by unfold PatchIn at h; rw [patchBC] at e; exact patchJump_within e h
  | .cont p, S, S', h, e => by unfold PatchIn at h; rw [patchBC] at e; exact patchJump_within e h
  | .call _ _, S, S', _, e | .assign _ _ _, S, S', _, e | .proc _ _ _ _, S, S', _, e | .while _ _, S, S', _, e
  | .for _ _ _ _, S, S', _, e | .ret _, S, S', _, e | .use, S, S', _, e | .expr _, S, S', _, e => by
    rw [patchBC_nop rfl] at e
    obtain ⟨_, rfl⟩ := CG.pure_ok.1 e
    exact .refl _ _ _
theorem patchBCs_within {lo hi b c : Nat} : ∀ {a : List Stmt} {S S' : CS}, PatchInL lo hi a →
    patchBCs b c a S = .ok () S' → Within lo hi S S'
  | [], S, S', _, e => by
    rw [patchBCs] at e
    obtain ⟨_, rfl⟩ := CG.pure_ok.1 e
    exact .refl _ _ _
  | s :: ss, S, S', h, e => by
    unfold PatchInL at h; rw [patchBCs] at e
    obtain ⟨_, S1, e1, e2⟩ := CG.bind_ok.1 e
    exact (patchBC_within h.1 e1).trans (patchBCs_within h.2 e2) (Nat.le_refl _) (Nat.le_refl _) (Nat.le_refl _)
      (Nat.le_refl _)
end

/-- Where the places to patch of an item are. -/
def Item.patchIn (lo hi : Nat) : Item → Prop
  | .s _ _ _ a => PatchIn lo hi a
  | .ss _ _ _ a => PatchInL lo hi a
  | _ => True


/-! ## `CompileStatement` -/

/-- What is said of the code of a statement: program extended, function entries set only for the functions
`ids` defined in it, and the code where it belongs (given the final function entries `fp`). -/
def SMade (g : Globals) (s s' : CS) (ids : List Nat) (it : Item) : Prop :=
  Ext s s' ∧ (∀ i, i ∉ ids → s'.functionPcs[i]? = s.functionPcs[i]?) ∧
  it.patchIn s.program.length s'.program.length ∧
  (s'.program.length < 2 ^ 32 → ids.Nodup → ∀ fp : Nat → Option Nat, (∀ i ∈ ids, fp i = s'.functionPcs[i]?) →
    At g fp s'.program s.program.length it s'.program.length)

/-- The indices of the functions defined in a statement. -/
abbrev ids (s : Stmt) : List Nat := (procs s).map Prod.fst
/-- The indices of the functions defined in a list of statements. -/
abbrev idsL (s : List Stmt) : List Nat := (procsL s).map Prod.fst

theorem Made.s {g : Globals} {s s' : CS} {it : Item} (h : Made g s s' it)
    (hp : it.patchIn s.program.length s'.program.length) : SMade g s s' [] it :=
  ⟨h.1.toExt, fun _ _ => by rw [h.1.fpcs], hp, fun hl _ fp _ => h.2 hl fp⟩

theorem compileRhs_made {g : Globals} {op : Tok} {lhs rhs : Expr} {s s' : CS}
    (h : compileRhs g op lhs rhs s = .ok () s') : Made g s s' (.rhs op lhs rhs) := by
  unfold compileRhs at h
  cases hc : compoundOp op with
  | none =>
    rw [hc] at h
    have m := compileE_made g rhs s s' h
    exact ⟨m.1, fun hl fp => .rhsPlain hc (m.2 hl fp)⟩
  | some o =>
    rw [hc] at h
    simp only at h
    obtain ⟨_, s1, h1, h⟩ := CG.bind_ok.1 h
    have m1 := compileE_made g lhs s s1 h1
    by_cases c : (op = .plusEqual ∨ op = .minusEqual) ∧ rhs.isOne = true
    · rw [if_pos c] at h
      have m2 := genOp_ok h
      refine ⟨m1.1.trans m2.1, fun hl fp => ?_⟩
      have q := m1.then m2 hl fp
      rcases c with ⟨rfl | rfl, c⟩
      · exact .rhsAdd1 c q m2.2
      · exact .rhsSub1 c q m2.2
    · rw [if_neg c] at h
      obtain ⟨_, s2, h2, h3⟩ := CG.bind_ok.1 h
      have m2 := compileE_made g rhs s1 s2 h2
      have m3 := genOp_ok h3
      refine ⟨m1.1.trans (m2.1.trans m3.1), fun hl fp => ?_⟩
      have l3 := m3.1.le
      have q := m1.seq m2 (by omega) fp
      have := m2.1.le
      refine .rhsOp hc ?_ (m3.1.at (by omega) q.1) (m3.1.at (by omega) q.2) m3.2
      intro ho
      cases hr : rhs.isOne with
      | false => rfl
      | true => exact absurd ⟨ho, hr⟩ c

theorem compileStore_made {g : Globals} {lhs : Expr} {s s' : CS}
    (h : compileStore g lhs s = .ok () s') : Made g s s' (.store lhs) := by
  cases lhs
  case id n sym =>
    cases sym with
    | none => exact absurd h CG.err_ok
    | some v =>
      cases v with
      | glob i =>
        have m := genOp4_ok (indexBits_lt _) h
        exact ⟨m.1, fun _ _ => .storeGlob m.2⟩
      | loc i =>
        have m := genOp4_ok (indexBits_lt _) h
        exact ⟨m.1, fun _ _ => .storeLoc m.2⟩
      | const c => exact absurd h CG.err_ok
  case index arr elem getF setF =>
    cases setF with
    | none => exact absurd h CG.err_ok
    | some f =>
      have m := genCall_ok h
      exact ⟨m.1, fun _ _ => .storeIndex m.2⟩
  case dot l field tag =>
    rw [compileStore] at h
    obtain ⟨i, s0, h0, h'⟩ := CG.bind_ok.1 h
    obtain ⟨hi, e0⟩ := fieldIndex_ok h0
    rw [e0] at h'
    obtain ⟨_, s1, h1, h''⟩ := CG.bind_ok.1 h'
    obtain ⟨_, s2, h2, h3⟩ := CG.bind_ok.1 h''
    have m1 := compileE_made g l s s1 h1
    have m2 := genOpB_ok h2 h3
    exact ⟨m1.1.trans m2.1, fun hl fp => .storeDot hi (m1.then m2 hl fp) m2.2⟩
  all_goals exact absurd h (CG.abort_ok (s := s))

theorem compileAssign_made {g : Globals} {op : Tok} {lhs rhs : Expr} {s s' : CS}
    (h : compileAssign g op lhs rhs s = .ok () s') :
    Made g s s' (.s 0 0 (.assign op lhs rhs) (.assign op lhs rhs)) := by
  unfold compileAssign at h
  by_cases c : op = .declareConst
  · rw [if_pos c] at h
    obtain ⟨_, rfl⟩ := CG.pure_ok.1 h
    subst c
    exact ⟨.refl _, fun _ _ => .assignConst⟩
  rw [if_neg c] at h
  by_cases c2 : op = .equal ∨ op = .declare ∨ (compoundOp op).isSome = true
  case neg => rw [if_neg c2] at h; exact absurd h CG.err_ok
  rw [if_pos c2] at h
  have fin : ∀ {s1 : CS}, Made g s s1 (.pre lhs) →
      (do compileRhs g op lhs rhs; compileStore g lhs : CG Unit) s1 = .ok () s' →
      Made g s s' (.s 0 0 (.assign op lhs rhs) (.assign op lhs rhs)) := by
    intro s1 m1 h
    obtain ⟨_, s2, h2, h3⟩ := CG.bind_ok.1 h
    have m2 := compileRhs_made h2
    have m3 := compileStore_made h3
    refine ⟨m1.1.trans (m2.1.trans m3.1), fun hl fp => ?_⟩
    have l3 := m3.1.le; have := m2.1.le
    have q := m1.seq m2 (by omega) fp
    exact .assign c2 (m3.1.at (by omega) q.1) (m3.1.at (by omega) q.2) (m3.2 hl fp)
  cases lhs
  case id n sym =>
    simp only [Expr.isLhs] at h
    exact fin ⟨.refl _, fun _ _ => .preId⟩ h
  case dot l field tag =>
    simp only [Expr.isLhs] at h
    exact fin ⟨.refl _, fun _ _ => .preDot⟩ h
  case index arr elem getF setF =>
    simp only [Expr.isLhs] at h
    obtain ⟨_, sa, ha, h⟩ := CG.bind_ok.1 h
    obtain ⟨_, s1, hb, h⟩ := CG.bind_ok.1 h
    have m1 := compileE_made g arr s sa ha
    have m2 := compileE_made g elem sa s1 hb
    refine fin ⟨m1.1.trans m2.1, fun hl fp => ?_⟩ h
    have q := m1.seq m2 hl fp
    exact .preIndex q.1 q.2
  all_goals
    simp only [Expr.isLhs] at h
    exact absurd h CG.err_ok


theorem addLine_ok {n : Nat} {s s' : CS} (h : addLine n s = .ok () s') :
    s'.program = s.program ∧ s'.functionPcs = s.functionPcs := by
  unfold addLine at h
  cases h; exact ⟨rfl, rfl⟩

theorem setFunctionPc_ok {i p : Nat} {s s' : CS} (h : setFunctionPc i p s = .ok () s') :
    s'.program = s.program ∧ s'.functionPcs = s.functionPcs.set i p ∧ i < s.functionPcs.length := by
  unfold setFunctionPc at h
  split at h
  · cases h; exact ⟨rfl, rfl, by assumption⟩
  · cases h

/-- The functions of an earlier part keep their entries. -/
theorem fp_earlier {ids1 ids2 : List Nat} {a b : List Nat} {fp : Nat → Option Nat} (hnd : (ids1 ++ ids2).Nodup)
    (keep : ∀ i, i ∉ ids2 → b[i]? = a[i]?) (h : ∀ i ∈ ids1, fp i = b[i]?) : ∀ i ∈ ids1, fp i = a[i]? := by
  intro i hi
  rw [h i hi, keep i]
  intro hi2
  exact (List.nodup_append.1 hnd).2.2 i hi i hi2 rfl

theorem SMade.of_program {g : Globals} {s s0 s' : CS} {l : List Nat} {it : Item} (h : SMade g s0 s' l it)
    (hp : s0.program = s.program) (hf : s0.functionPcs = s.functionPcs) : SMade g s s' l it := by
  obtain ⟨⟨a, a'⟩, b, d, c⟩ := h
  rw [hp] at a a' c d
  rw [hf] at b
  exact ⟨⟨a, a'⟩, b, d, c⟩

set_option maxHeartbeats 1000000 in
mutual
theorem compileS_made (g : Globals) (st : Stmt) (s s' : CS) (a : Stmt) (h : compileS g st s = .ok a s') :
    SMade g s s' (ids st) (.s 0 0 st a) := by
  match st with
  | .node line st =>
    rw [compileS] at h
    obtain ⟨_, s0, h0, h⟩ := CG.bind_ok.1 h
    obtain ⟨a', s1, h1, h⟩ := CG.bind_ok.1 h
    obtain ⟨rfl, rfl⟩ := CG.pure_ok.1 h
    have l0 := addLine_ok h0
    have m := (compileS_made g st s0 s' a' h1).of_program l0.1 l0.2
    refine ⟨m.1, ?_, ?_, ?_⟩
    · simpa [ids, procs] using m.2.1
    · have := m.2.2.1
      unfold Item.patchIn PatchIn; exact this
    · intro hl hn fp hfp
      exact .node (m.2.2.2 hl (by simpa [ids, procs] using hn) fp (by simpa [ids, procs] using hfp))
  | .call callee args =>
    rw [compileS] at h
    obtain ⟨_, s1, h1, h⟩ := CG.bind_ok.1 h
    obtain ⟨rfl, rfl⟩ := CG.pure_ok.1 h
    unfold compileCall at h1
    obtain ⟨n, s2, h2, h3⟩ := CG.bind_ok.1 h1
    cases hf : g.funcs callee with
    | none => rw [hf] at h3; exact absurd h3 CG.err_ok
    | some f =>
      rw [hf] at h3
      obtain ⟨m1, hn, hn'⟩ := compileArgs_made g 0 args s s2 n h2
      simp only [Nat.zero_add] at hn
      subst hn
      have m2 := genCall_ok h3
      have h255 : args.length ≤ 255 := by
        by_cases he : args = []
        · subst he; simp
        · exact hn' he
      have : Made g s s' (.s 0 0 (.call callee args) (.call callee args)) :=
        ⟨m1.1.trans m2.1, fun hl fp => .callS (m1.then m2 hl fp) hf h255 m2.2⟩
      exact this.s (by unfold Item.patchIn PatchIn; trivial)
  | .block ss =>
    rw [compileS] at h
    obtain ⟨a', s1, h1, h⟩ := CG.bind_ok.1 h
    obtain ⟨rfl, rfl⟩ := CG.pure_ok.1 h
    have m := compileSs_made g ss s s' a' h1
    refine ⟨m.1, ?_, ?_, ?_⟩
    · simpa [ids, procs] using m.2.1
    · have := m.2.2.1
      unfold Item.patchIn PatchIn; exact this
    · intro hl hn fp hfp
      exact .block (m.2.2.2 hl (by simpa [ids, procs] using hn) fp (by simpa [ids, procs] using hfp))
  | .assign op lhs rhs =>
    rw [compileS] at h
    obtain ⟨_, s1, h1, h⟩ := CG.bind_ok.1 h
    obtain ⟨rfl, rfl⟩ := CG.pure_ok.1 h
    exact (compileAssign_made h1).s (by unfold Item.patchIn PatchIn; trivial)
  | .proc i nargs nlocals body =>
    rw [compileS] at h
    obtain ⟨j, s1, h1, h⟩ := CG.bind_ok.1 h
    obtain ⟨n1, _, hn1, h⟩ := CG.bind_ok.1 h
    obtain ⟨rfl, eq⟩ := programCount_ok hn1
    rw [eq] at h; clear eq
    obtain ⟨_, s2, h2, h⟩ := CG.bind_ok.1 h
    obtain ⟨f1, f2, f3⟩ := setFunctionPc_ok h2
    obtain ⟨e1, p1, l1, b1, _, lt1⟩ := genJump_ok h1
    by_cases c : 0xff < nlocals
    · rw [if_pos c] at h; exact absurd (CG.bind_ok.1 h).choose_spec.choose_spec.1 CG.err_ok
    rw [if_neg c] at h
    -- the part which makes room for the locals
    have room : ∃ s3, QExt s2 s3 ∧
        (if nlocals = 0 then s3.program.length = s2.program.length
          else AtI s3.program s2.program.length (.opB .pushNullN (UInt8.ofNat nlocals)) s3.program.length) ∧
        (do let body ← compileS g body
            genOp .ret
            patchJump j (← programCount)
            pure (.proc i nargs nlocals body) : CG Stmt) s3 = .ok a s' := by
      by_cases c0 : 0 < nlocals
      · rw [if_pos c0] at h
        obtain ⟨_, s3a, h3, h⟩ := CG.bind_ok.1 h
        obtain ⟨_, s3, h4, h⟩ := CG.bind_ok.1 h
        have m := genOpB_ok h3 h4
        exact ⟨s3, m.1, by rw [if_neg (by omega)]; exact m.2, h⟩
      · rw [if_neg c0] at h
        exact ⟨s2, .refl _, by rw [if_pos (by omega)], h⟩
    obtain ⟨s3, e3, r3, h⟩ := room
    obtain ⟨a', s4, h4, h⟩ := CG.bind_ok.1 h
    obtain ⟨_, s5, h5, h⟩ := CG.bind_ok.1 h
    obtain ⟨n1, _, hn1, h⟩ := CG.bind_ok.1 h
    obtain ⟨rfl, eq⟩ := programCount_ok hn1
    rw [eq] at h; clear eq
    obtain ⟨_, s6, h6, h⟩ := CG.bind_ok.1 h
    obtain ⟨rfl, rfl⟩ := CG.pure_ok.1 h
    have m4 := compileS_made g body s3 s4 a' h4
    have m5 := genOp_ok h5
    have p6 := patchJump_ok h6
    have x1 := e1.le; have x2 : s2.program.length = s1.program.length := by rw [f1]
    have x3 := e3.le; have x4 := m4.1.le; have x5 := m5.1.le; have x6 := p6.len
    have a26 : ∀ k, k < s2.program.length → (k < j ∨ j + 4 ≤ k) → s'.program[k]? = s2.program[k]? := by
      intro k hk hk2
      rw [p6.agree k hk2, m5.1.agree k (by omega), m4.1.agree k (by omega), e3.agree k (by omega)]
    refine ⟨⟨by omega, ?_⟩, ?_, by unfold Item.patchIn PatchIn; trivial, ?_⟩
    · intro k hk
      rw [a26 k (by omega) (by omega), f1, e1.agree k hk]
    · intro k hk
      simp only [ids, procs, List.map_cons, List.mem_cons, not_or] at hk
      rw [p6.fpcs, m5.1.fpcs, m4.2.1 k hk.2, e3.fpcs, f2, List.getElem?_set_ne (fun h => hk.1 h.symm), e1.fpcs]
    · intro hl hnd fp hfp
      simp only [ids, procs, List.map_cons, List.nodup_cons] at hnd
      have hfi : fp i = some s2.program.length := by
        rw [hfp i (by simp [ids, procs]), p6.fpcs, m5.1.fpcs, m4.2.1 i hnd.1, e3.fpcs, f2, f1]
        simp [f3]
      have hj : AtI s'.program s.program.length (.goto s'.program.length) s2.program.length := by
        rw [x2, l1]
        refine ati_jump ?_ p1 ?_
        · rw [a26 _ (by omega) (by omega), f1]; exact b1
        · have := p6.val
          rw [Nat.mod_eq_of_lt (by omega)] at this
          rw [this, x6]
      have hbody := m4.2.2.2 (by omega) hnd.2 fp (by
        intro k hk
        rw [hfp k (by simp only [ids, procs, List.map_cons, List.mem_cons]; exact Or.inr hk), p6.fpcs, m5.1.fpcs])
      have hroom : if nlocals = 0 then s3.program.length = s2.program.length
          else AtI s'.program s2.program.length (.opB .pushNullN (UInt8.ofNat nlocals)) s3.program.length := by
        by_cases c0 : nlocals = 0
        · rw [if_pos c0] at r3 ⊢; omega
        · rw [if_neg c0] at r3 ⊢
          refine r3.agree fun k hk1 hk2 => ?_
          rw [p6.agree k (by omega), m5.1.agree k (by omega), m4.1.agree k (by omega)]
      have hb' : At g fp s'.program s3.program.length (.s 0 0 body a') s4.program.length :=
        hbody.agree fun k hk1 hk2 => by rw [p6.agree k (by omega), m5.1.agree k (by omega)]
      have hr : AtI s'.program s4.program.length (.op .ret) s'.program.length := by
        rw [x6]
        exact m5.2.agree fun k hk1 hk2 => p6.agree k (by omega)
      exact .proc hj hfi (by omega) hroom hb' hr
  | .ifThen cond body =>
    rw [compileS] at h
    obtain ⟨_, s1, h1, h⟩ := CG.bind_ok.1 h
    obtain ⟨j, s2, h2, h⟩ := CG.bind_ok.1 h
    obtain ⟨a', s3, h3, h⟩ := CG.bind_ok.1 h
    obtain ⟨n1, _, hn1, h⟩ := CG.bind_ok.1 h
    obtain ⟨rfl, eq⟩ := programCount_ok hn1
    rw [eq] at h; clear eq
    obtain ⟨_, s4, h4, h⟩ := CG.bind_ok.1 h
    obtain ⟨rfl, rfl⟩ := CG.pure_ok.1 h
    have m1 := compileE_made g cond s s1 h1
    obtain ⟨e2, p2, l2, b2, _, lt2⟩ := genJump_ok h2
    have m3 := compileS_made g body s2 _ a' h3
    have p4 := patchJump_ok h4
    have x1 := m1.1.le; have x2 := e2.le; have x3 := m3.1.le; have x4 := p4.len
    have a24 : ∀ k, k < s2.program.length → (k < j ∨ j + 4 ≤ k) → s'.program[k]? = s2.program[k]? := by
      intro k hk hk2
      rw [p4.agree k hk2, m3.1.agree k (by omega)]
    refine ⟨⟨by omega, ?_⟩, ?_, ?_, ?_⟩
    · intro k hk
      rw [a24 k (by omega) (by omega), e2.agree k (by omega), m1.1.agree k hk]
    · intro k hk
      rw [p4.fpcs, m3.2.1 k (by simpa [ids, procs] using hk), e2.fpcs, m1.1.fpcs]
    · have := m3.2.2.1
      unfold Item.patchIn PatchIn; exact PatchIn.mono (by omega) (by omega) this
    · intro hl hnd fp hfp
      have hb := m3.2.2.2 (by omega) (by simpa [ids, procs] using hnd) fp (by
        intro k hk; rw [hfp k (by simpa [ids, procs] using hk), p4.fpcs])
      have hj : AtI s'.program s1.program.length (.gotoz s'.program.length) s2.program.length := by
        rw [l2]
        refine ati_jump ?_ p2 ?_
        · rw [a24 _ (by omega) (by omega)]; exact b2
        · have := p4.val
          rw [Nat.mod_eq_of_lt (by omega)] at this
          rw [this, x4]
      rw [← x4] at hb
      refine .ifThen ((m1.2 (by omega) fp).agree fun k hk1 hk2 => ?_) hj (hb.agree fun k hk1 hk2 => ?_)
      · rw [a24 k (by omega) (by omega), e2.agree k (by omega)]
      · rw [p4.agree k (by omega)]
  | .ifElse cond body alt =>
    rw [compileS] at h
    obtain ⟨_, s1, h1, h⟩ := CG.bind_ok.1 h
    obtain ⟨j1, s2, h2, h⟩ := CG.bind_ok.1 h
    obtain ⟨a1, s3, h3, h⟩ := CG.bind_ok.1 h
    obtain ⟨j2, s4, h4, h⟩ := CG.bind_ok.1 h
    obtain ⟨n1, _, hn1, h⟩ := CG.bind_ok.1 h
    obtain ⟨rfl, eq⟩ := programCount_ok hn1
    rw [eq] at h; clear eq
    obtain ⟨_, s5, h5, h⟩ := CG.bind_ok.1 h
    obtain ⟨a2, s6, h6, h⟩ := CG.bind_ok.1 h
    obtain ⟨n2, _, hn2, h⟩ := CG.bind_ok.1 h
    obtain ⟨rfl, eq⟩ := programCount_ok hn2
    rw [eq] at h; clear eq
    obtain ⟨_, s7, h7, h⟩ := CG.bind_ok.1 h
    obtain ⟨rfl, rfl⟩ := CG.pure_ok.1 h
    have m1 := compileE_made g cond s s1 h1
    have j12 := genJump_ok h2
    have m3 := compileS_made g body s2 s3 a1 h3
    have j34 := genJump_ok h4
    have p5 := patchJump_ok h5
    have m6 := compileS_made g alt s5 _ a2 h6
    have p7 := patchJump_ok h7
    have x1 := m1.1.le; have x2 := j12.1.le; have x3 := m3.1.le; have x4 := j34.1.le
    have x5 := p5.len; have x6 := m6.1.le; have x7 := p7.len
    have lt1 := j12.2.2.2.2.2; have lt2 := j34.2.2.2.2.2
    refine ⟨⟨by omega, ?_⟩, ?_, ?_, ?_⟩
    · intro k hk
      rw [p7.agree k (by omega), m6.1.agree k (by omega), p5.agree k (by omega), j34.1.agree k (by omega),
        m3.1.agree k (by omega), j12.1.agree k (by omega), m1.1.agree k hk]
    · intro k hk
      simp only [ids, procs, List.map_append, List.mem_append, not_or] at hk
      rw [p7.fpcs, m6.2.1 k hk.2, p5.fpcs, j34.1.fpcs, m3.2.1 k hk.1, j12.1.fpcs, m1.1.fpcs]
    · have q3 := m3.2.2.1
      have q6 := m6.2.2.1
      unfold Item.patchIn PatchIn
      exact ⟨PatchIn.mono (by omega) (by omega) q3, PatchIn.mono (by omega) (by omega) q6⟩
    · intro hl hnd fp hfp
      obtain ⟨ex, l7, q1, q3, l5, k3, k6, _, _⟩ := branch_made (g := g) (fp := fp) h2 m3.1 h4 p5 m6.1 p7 hl
      simp only [ids, procs, List.map_append] at hnd
      have hfp' : ∀ i ∈ ids body ++ ids alt, fp i = s'.functionPcs[i]? := by
        intro i hi; exact hfp i (by simpa [ids, procs] using hi)
      rw [p7.fpcs] at hfp'
      have hb := m3.2.2.2 (by omega) (List.nodup_append.1 hnd).1 fp (by
        intro i hi
        have hni : i ∉ ids alt := fun h2 => (List.nodup_append.1 hnd).2.2 i hi i h2 rfl
        rw [hfp' i (List.mem_append_left _ hi), m6.2.1 i hni, p5.fpcs, j34.1.fpcs])
      have ha := m6.2.2.2 (by omega) (List.nodup_append.1 hnd).2.1 fp
        (fun i hi => hfp' i (List.mem_append_right _ hi))
      rw [x5] at ha
      exact .ifElse (ex.at (Nat.le_refl _) (m1.2 (by omega) fp)) q1 (k3 hb) q3 (k6 ha)
  | .while cond body =>
    rw [compileS] at h
    obtain ⟨n0, _, hn0, h⟩ := CG.bind_ok.1 h
    obtain ⟨rfl, eq⟩ := programCount_ok hn0
    rw [eq] at h; clear eq
    obtain ⟨_, s1, h1, h⟩ := CG.bind_ok.1 h
    obtain ⟨j1, s2, h2, h⟩ := CG.bind_ok.1 h
    obtain ⟨a1, s3, h3, h⟩ := CG.bind_ok.1 h
    obtain ⟨j2, s4, h4, h⟩ := CG.bind_ok.1 h
    obtain ⟨n1, _, hn1, h⟩ := CG.bind_ok.1 h
    obtain ⟨rfl, eq⟩ := programCount_ok hn1
    rw [eq] at h; clear eq
    obtain ⟨_, s5, h5, h⟩ := CG.bind_ok.1 h
    obtain ⟨n2, _, hn2, h⟩ := CG.bind_ok.1 h
    obtain ⟨rfl, eq⟩ := programCount_ok hn2
    rw [eq] at h; clear eq
    obtain ⟨_, s6, h6, h⟩ := CG.bind_ok.1 h
    obtain ⟨rfl, rfl⟩ := CG.pure_ok.1 h
    have m1 := compileE_made g cond _ s1 h1
    obtain ⟨e2, p2, l2, b2, _, lt2⟩ := genJump_ok h2
    have m3 := compileS_made g body s2 s3 a1 h3
    obtain ⟨e4, p4, l4, b4, r4, lt4⟩ := genJump_ok h4
    have p5 := patchJump_ok h5
    have x1 := m1.1.le; have x2 := e2.le; have x3 := m3.1.le; have x4 := e4.le
    have x5 := p5.len
    have w6 := patchBC_within (lo := s2.program.length) (hi := s3.program.length) m3.2.2.1 h6
    have x6 := w6.len
    refine ⟨⟨by omega, ?_⟩, ?_, by unfold Item.patchIn PatchIn; trivial, ?_⟩
    · intro k hk
      rw [w6.agree k (by omega), p5.agree k (by omega), e4.agree k (by omega), m3.1.agree k (by omega),
        e2.agree k (by omega), m1.1.agree k hk]
    · intro k hk
      rw [w6.fpcs, p5.fpcs, e4.fpcs, m3.2.1 k (by simpa [ids, procs] using hk), e2.fpcs, m1.1.fpcs]
    · intro hl hnd fp hfp
      have hb := m3.2.2.2 (by omega) (by simpa [ids, procs] using hnd) fp (by
        intro k hk; rw [hfp k (by simpa [ids, procs] using hk), w6.fpcs, p5.fpcs, e4.fpcs])
      have hb5 : At g fp _ s2.program.length (.s 0 0 body a1) s3.program.length :=
        hb.agree (Q := s5.program) fun k hk1 hk2 => by rw [p5.agree k (by omega), e4.agree k (by omega)]
      have hb6 := (patch_goal hb5 _ rfl _ _ _ _ rfl (by omega) (by omega) h6).2
      have hj : AtI s'.program s1.program.length (.gotoz s'.program.length) s2.program.length := by
        rw [l2]
        refine ati_jump ?_ p2 ?_
        · rw [w6.agree _ (by omega), p5.agree _ (by omega), e4.agree _ (by omega), m3.1.agree _ (by omega)]; exact b2
        · have := p5.val
          rw [Nat.mod_eq_of_lt (by omega)] at this
          rw [x6, x5]
          exact readLE_keep this fun k hk1 hk2 => w6.agree k (by omega)
      have hj2 : AtI s'.program s3.program.length (.goto s.program.length) s'.program.length := by
        rw [x6, x5, l4]
        refine ati_jump ?_ p4 ?_
        · rw [w6.agree _ (by omega), p5.agree _ (by omega)]; exact b4
        · rw [Nat.mod_eq_of_lt (by omega)] at r4
          exact readLE_keep r4 fun k hk1 hk2 => by rw [w6.agree k (by omega), p5.agree k (by omega)]
      have hc : At g fp s'.program s.program.length (.e cond) s1.program.length :=
        (m1.2 (by omega) fp).agree fun k hk1 hk2 => by
          rw [w6.agree k (by omega), p5.agree k (by omega), e4.agree k (by omega), m3.1.agree k (by omega),
            e2.agree k (by omega)]
      rw [← x6] at hb6
      exact .while hc hj hb6 hj2
  | .for init cond step body =>
    rw [compileS] at h
    obtain ⟨ai, s0, h0, h⟩ := CG.bind_ok.1 h
    obtain ⟨n0, _, hn0, h⟩ := CG.bind_ok.1 h
    obtain ⟨rfl, eq⟩ := programCount_ok hn0
    rw [eq] at h; clear eq
    obtain ⟨_, s1, h1, h⟩ := CG.bind_ok.1 h
    obtain ⟨j1, s2, h2, h⟩ := CG.bind_ok.1 h
    obtain ⟨a1, s3, h3, h⟩ := CG.bind_ok.1 h
    obtain ⟨n3, _, hn3, h⟩ := CG.bind_ok.1 h
    obtain ⟨rfl, eq⟩ := programCount_ok hn3
    rw [eq] at h; clear eq
    obtain ⟨as, s3', h3', h⟩ := CG.bind_ok.1 h
    obtain ⟨j2, s4, h4, h⟩ := CG.bind_ok.1 h
    obtain ⟨n1, _, hn1, h⟩ := CG.bind_ok.1 h
    obtain ⟨rfl, eq⟩ := programCount_ok hn1
    rw [eq] at h; clear eq
    obtain ⟨_, s5, h5, h⟩ := CG.bind_ok.1 h
    obtain ⟨n2, _, hn2, h⟩ := CG.bind_ok.1 h
    obtain ⟨rfl, eq⟩ := programCount_ok hn2
    rw [eq] at h; clear eq
    obtain ⟨_, s6, h6, h⟩ := CG.bind_ok.1 h
    obtain ⟨rfl, rfl⟩ := CG.pure_ok.1 h
    have m0 := compileS_made g init _ _ ai h0
    have m1 := compileE_made g cond _ s1 h1
    obtain ⟨e2, p2, l2, b2, _, lt2⟩ := genJump_ok h2
    have m3 := compileS_made g body s2 _ a1 h3
    have m3' := compileS_made g step _ s3' as h3'
    obtain ⟨e4, p4, l4, b4, r4, lt4⟩ := genJump_ok h4
    have p5 := patchJump_ok h5
    have x0 := m0.1.le
    have x1 := m1.1.le; have x2 := e2.le; have x3 := m3.1.le; have x3' := m3'.1.le; have x4 := e4.le
    have x5 := p5.len
    have w6 := patchBC_within (lo := s2.program.length) (hi := s3.program.length) m3.2.2.1 h6
    have x6 := w6.len
    -- bytes before the body's code
    have pre : ∀ k, k < s2.program.length → (k < j1 ∨ j1 + 4 ≤ k) → s'.program[k]? = s2.program[k]? := by
      intro k hk hk2
      rw [w6.agree k (by omega), p5.agree k hk2, e4.agree k (by omega), m3'.1.agree k (by omega),
        m3.1.agree k (by omega)]
    refine ⟨⟨by omega, ?_⟩, ?_, by unfold Item.patchIn PatchIn; trivial, ?_⟩
    · intro k hk
      rw [pre k (by omega) (by omega), e2.agree k (by omega), m1.1.agree k (by omega), m0.1.agree k hk]
    · intro k hk
      simp only [ids, procs, List.map_append, List.mem_append, not_or] at hk
      rw [w6.fpcs, p5.fpcs, e4.fpcs, m3'.2.1 k hk.2, m3.2.1 k hk.1.2, e2.fpcs, m1.1.fpcs, m0.2.1 k hk.1.1]
    · intro hl hnd fp hfp
      simp only [ids, procs, List.map_append] at hnd hfp
      rw [w6.fpcs, p5.fpcs, e4.fpcs] at hfp
      have nd := List.nodup_append.1 hnd
      have nd1 := List.nodup_append.1 nd.1
      have hfp1 := fp_earlier hnd m3'.2.1 (fun i hi => hfp i (List.mem_append_left _ hi))
      have hfp0 := fp_earlier nd.1 (b := s3.functionPcs) m3.2.1 (fun i hi => hfp1 i (List.mem_append_left _ hi))
      rw [e2.fpcs, m1.1.fpcs] at hfp0
      have hb := m3.2.2.2 (by omega) nd1.2.1 fp (fun i hi => hfp1 i (List.mem_append_right _ hi))
      have hs := m3'.2.2.2 (by omega) nd.2.1 fp (fun i hi => hfp i (List.mem_append_right _ hi))
      have hi := m0.2.2.2 (by omega) nd1.1 fp hfp0
      have hb5 : At g fp _ s2.program.length (.s 0 0 body a1) s3.program.length :=
        hb.agree (Q := s5.program) fun k hk1 hk2 => by
          rw [p5.agree k (by omega), e4.agree k (by omega), m3'.1.agree k (by omega)]
      have hb6 := (patch_goal hb5 _ rfl _ _ _ _ rfl (by omega) (by omega) h6).2
      have hj : AtI s'.program s1.program.length (.gotoz s'.program.length) s2.program.length := by
        rw [l2]
        refine ati_jump ?_ p2 ?_
        · rw [pre _ (by omega) (by omega)]; exact b2
        · have := p5.val
          rw [Nat.mod_eq_of_lt (by omega)] at this
          rw [x6, x5]
          exact readLE_keep this fun k hk1 hk2 => w6.agree k (by omega)
      have hj2 : AtI s'.program s3'.program.length (.goto s0.program.length) s'.program.length := by
        rw [x6, x5, l4]
        refine ati_jump ?_ p4 ?_
        · rw [w6.agree _ (by omega), p5.agree _ (by omega)]; exact b4
        · rw [Nat.mod_eq_of_lt (by omega)] at r4
          exact readLE_keep r4 fun k hk1 hk2 => by rw [w6.agree k (by omega), p5.agree k (by omega)]
      have hc : At g fp s'.program s0.program.length (.e cond) s1.program.length :=
        (m1.2 (by omega) fp).agree fun k hk1 hk2 => by
          rw [pre k (by omega) (by omega), e2.agree k (by omega)]
      have hi' : At g fp s'.program s.program.length (.s 0 0 init ai) s0.program.length :=
        hi.agree fun k hk1 hk2 => by
          rw [pre k (by omega) (by omega), e2.agree k (by omega), m1.1.agree k (by omega)]
      have hs' : At g fp s'.program s3.program.length (.s 0 0 step as) s3'.program.length :=
        hs.agree fun k hk1 hk2 => by
          rw [w6.agree k (by omega), p5.agree k (by omega), e4.agree k (by omega)]
      rw [← x6] at hb6
      exact .for hi' hc hj hb6 hs' hj2
  | .ret none =>
    rw [compileS] at h
    obtain ⟨_, s1, h1, h⟩ := CG.bind_ok.1 h
    obtain ⟨rfl, rfl⟩ := CG.pure_ok.1 h
    have m := genOp_ok h1
    have : Made g s s' (.s 0 0 (.ret none) (.ret none)) := ⟨m.1, fun _ _ => .ret m.2⟩
    exact this.s (by unfold Item.patchIn PatchIn; trivial)
  | .ret (some e) =>
    rw [compileS] at h
    obtain ⟨_, s1, h1, h⟩ := CG.bind_ok.1 h
    obtain ⟨_, s2, h2, h⟩ := CG.bind_ok.1 h
    obtain ⟨rfl, rfl⟩ := CG.pure_ok.1 h
    have m1 := compileE_made g e s s1 h1
    have m := genOp_ok h2
    have : Made g s s' (.s 0 0 (.ret (some e)) (.ret (some e))) :=
      ⟨m1.1.trans m.1, fun hl fp => .retValue (m1.then m hl fp) m.2⟩
    exact this.s (by unfold Item.patchIn PatchIn; trivial)
  | .brk q =>
    rw [compileS] at h
    obtain ⟨p, s1, h1, h⟩ := CG.bind_ok.1 h
    obtain ⟨rfl, rfl⟩ := CG.pure_ok.1 h
    obtain ⟨e2, p2, l2, b2, r2, lt2⟩ := genJump_ok h1
    have : Made g s s' (.s 0 0 (.brk q) (.brk p)) :=
      ⟨e2, fun _ _ => .brk p2 (by rw [l2]; exact ati_jump b2 p2 r2)⟩
    exact this.s (by unfold Item.patchIn PatchIn; omega)
  | .cont q =>
    rw [compileS] at h
    obtain ⟨p, s1, h1, h⟩ := CG.bind_ok.1 h
    obtain ⟨rfl, rfl⟩ := CG.pure_ok.1 h
    obtain ⟨e2, p2, l2, b2, r2, lt2⟩ := genJump_ok h1
    have : Made g s s' (.s 0 0 (.cont q) (.cont p)) :=
      ⟨e2, fun _ _ => .cont p2 (by rw [l2]; exact ati_jump b2 p2 r2)⟩
    exact this.s (by unfold Item.patchIn PatchIn; omega)
  | .use =>
    rw [compileS] at h
    obtain ⟨rfl, rfl⟩ := CG.pure_ok.1 h
    have : Made g s' s' (.s 0 0 .use .use) := ⟨.refl _, fun _ _ => .use⟩
    exact this.s (by unfold Item.patchIn PatchIn; trivial)
  | .expr e =>
    rw [compileS] at h
    exact absurd h CG.err_ok
termination_by sizeOf st

theorem compileSs_made (g : Globals) (st : List Stmt) (s s' : CS) (a : List Stmt) (h : compileSs g st s = .ok a s') :
    SMade g s s' (idsL st) (.ss 0 0 st a) := by
  match st with
  | [] =>
    rw [compileSs] at h
    obtain ⟨rfl, rfl⟩ := CG.pure_ok.1 h
    have : Made g s' s' (.ss 0 0 [] []) := ⟨.refl _, fun _ _ => .ssNil⟩
    exact this.s (by unfold Item.patchIn PatchInL; trivial)
  | st :: ss =>
    rw [compileSs] at h
    obtain ⟨a1, s1, h1, h⟩ := CG.bind_ok.1 h
    obtain ⟨a2, s2, h2, h⟩ := CG.bind_ok.1 h
    obtain ⟨rfl, rfl⟩ := CG.pure_ok.1 h
    have m1 := compileS_made g st s s1 a1 h1
    have m2 := compileSs_made g ss s1 s' a2 h2
    have x1 := m1.1.le; have x2 := m2.1.le
    refine ⟨m1.1.trans m2.1, ?_, ?_, ?_⟩
    · intro k hk
      simp only [idsL, procsL, List.map_append, List.mem_append, not_or] at hk
      rw [m2.2.1 k hk.2, m1.2.1 k hk.1]
    · have q1 := m1.2.2.1
      have q2 := m2.2.2.1
      unfold Item.patchIn PatchInL
      exact ⟨PatchIn.mono (by omega) (by omega) q1, PatchInL.mono (by omega) (by omega) q2⟩
    · intro hl hnd fp hfp
      simp only [idsL, procsL, List.map_append] at hnd hfp
      have nd := List.nodup_append.1 hnd
      have q1 := m1.2.2.2 (by omega) nd.1 fp
        (fp_earlier hnd m2.2.1 (fun i hi => hfp i (List.mem_append_left _ hi)))
      have q2 := m2.2.2.2 hl nd.2.1 fp (fun i hi => hfp i (List.mem_append_right _ hi))
      exact .ssCons (m2.1.at (Nat.le_refl _) q1) q2
termination_by sizeOf st
end

end Tiny
