import Verif.Proofs.CodegenAt

/-!
# The code generator puts the code of each expression where it says
-/

namespace Tiny

theorem Made.seq {g : Globals} {s s1 s2 : CS} {a b : Item} (h1 : Made g s s1 a) (h2 : Made g s1 s2 b)
    (hlt : s2.program.length < 2 ^ 32) (fp : Nat → Option Nat) :
    At g fp s2.program s.program.length a s1.program.length ∧
    At g fp s2.program s1.program.length b s2.program.length :=
  ⟨h2.1.at (Nat.le_refl _) (h1.2 (Nat.lt_of_le_of_lt h2.1.le hlt) fp), h2.2 hlt fp⟩

/-- An item and then an instruction. -/
theorem Made.then {g : Globals} {s s1 s2 : CS} {a : Item} {i : Instr} (h1 : Made g s s1 a)
    (h2 : QExt s1 s2 ∧ AtI s2.program s1.program.length i s2.program.length)
    (hlt : s2.program.length < 2 ^ 32) (fp : Nat → Option Nat) :
    At g fp s2.program s.program.length a s1.program.length :=
  h2.1.at (Nat.le_refl _) (h1.2 (Nat.lt_of_le_of_lt h2.1.le hlt) fp)

theorem Made.leaf {g : Globals} {s s' : CS} {e : Expr} {i : Instr} (hi : leafI e = some i)
    (h : QExt s s' ∧ AtI s'.program s.program.length i s'.program.length) : Made g s s' (.e e) :=
  ⟨h.1, fun _ _ => .leaf hi h.2⟩

theorem Patched.qext {p v : Nat} {s s' : CS} (h : Patched p v s s') :
    s'.functionPcs = s.functionPcs ∧ s'.log = s.log := ⟨h.fpcs, h.lines⟩


mutual
theorem compileE_made (g : Globals) (e : Expr) (s s' : CS) (h : compileE g e s = .ok () s') :
    Made g s s' (.e e) := by
  match e with
  | .null => rw [compileE] at h; exact .leaf rfl (genOp_ok h)
  | .bool b => rw [compileE] at h; exact .leaf rfl (genOp_ok h)
  | .int i => rw [compileE] at h; exact .leaf rfl (genPushInt_ok h)
  | .char i => rw [compileE] at h; exact .leaf rfl (genPushInt_ok h)
  | .float i => rw [compileE] at h; exact .leaf rfl (genPushFloat_ok h)
  | .str i => rw [compileE] at h; exact .leaf rfl (genPushString_ok h)
  | .id n sym =>
    rw [compileE] at h
    obtain ⟨v, rfl, h'⟩ := genGetVar_ok h
    exact .leaf rfl h'
  | .paren e =>
    rw [compileE] at h
    have := compileE_made g e s s' h
    exact ⟨this.1, fun hl fp => .paren (this.2 hl fp)⟩
  | .cast e tag =>
    rw [compileE] at h
    have := compileE_made g e s s' h
    exact ⟨this.1, fun hl fp => .cast (this.2 hl fp)⟩
  | .index arr elem getF setF =>
    cases getF with
    | none => rw [compileE] at h; exact absurd h CG.abort_ok
    | some f =>
      rw [compileE] at h
      obtain ⟨_, s1, h1, h⟩ := CG.bind_ok.1 h
      obtain ⟨_, s2, h2, h⟩ := CG.bind_ok.1 h
      obtain ⟨_, s3, h3, h4⟩ := CG.bind_ok.1 h
      have m1 := compileE_made g arr s s1 h1
      have m2 := compileE_made g elem s1 s2 h2
      have m3 := genCall_ok h3
      have m4 := genOp_ok h4
      refine ⟨m1.1.trans (m2.1.trans (m3.1.trans m4.1)), fun hl fp => ?_⟩
      have l3 := m3.1.le; have l4 := m4.1.le; have l2 := m2.1.le
      have q := m1.seq m2 (by omega) fp
      have e24 := m3.1.trans m4.1
      exact .index (e24.at (by omega) q.1) (e24.at (by omega) q.2) (m4.1.ati (by omega) m3.2) m4.2
  | .dot l field tag =>
    rw [compileE] at h
    obtain ⟨i, s0, h0, h'⟩ := CG.bind_ok.1 h
    obtain ⟨hi, e0⟩ := fieldIndex_ok h0
    rw [e0] at h'
    obtain ⟨_, s1, h1, h''⟩ := CG.bind_ok.1 h'
    obtain ⟨_, s2, h2, h3⟩ := CG.bind_ok.1 h''
    have m1 := compileE_made g l s s1 h1
    have m2 := genOpB_ok h2 h3
    exact ⟨m1.1.trans m2.1, fun hl fp => .dot hi (m1.then m2 hl fp) m2.2⟩
  | .call callee args =>
    rw [compileE] at h
    obtain ⟨n, s1, h1, h⟩ := CG.bind_ok.1 h
    cases hf : g.funcs callee with
    | none => rw [hf] at h; exact absurd h CG.err_ok
    | some f =>
      rw [hf] at h
      simp only at h
      obtain ⟨_, s2, h2, h3⟩ := CG.bind_ok.1 h
      obtain ⟨m1, hn, hn'⟩ := compileArgs_made g 0 args s s1 n h1
      simp only [Nat.zero_add] at hn
      subst hn
      have m2 := genCall_ok h2
      have m3 := genOp_ok h3
      refine ⟨m1.1.trans (m2.1.trans m3.1), fun hl fp => ?_⟩
      have l2 := m2.1.le; have l3 := m3.1.le
      have e13 := m2.1.trans m3.1
      have h255 : args.length ≤ 255 := by
        by_cases he : args = []
        · subst he; simp
        · exact hn' he
      refine .call (e13.at (Nat.le_refl _) (m1.2 (by omega) fp)) hf h255 (m3.1.ati (Nat.le_refl _) m2.2) m3.2
  | .ctor name names args =>
    rw [compileE] at h
    cases hf : g.structs name with
    | none => rw [hf] at h; exact absurd h CG.abort_ok
    | some fields =>
      rw [hf] at h
      simp only at h
      cases names with
      | none =>
        simp only at h
        obtain ⟨_, s1, h1, h⟩ := CG.bind_ok.1 h
        obtain ⟨_, s2, h2, h3⟩ := CG.bind_ok.1 h
        have m1 := compileList_made g args s s1 h1
        have m2 := genOpB_ok h2 h3
        exact ⟨m1.1.trans m2.1, fun hl fp => .ctor hf (m1.then m2 hl fp) m2.2⟩
      | some names =>
        simp only at h
        obtain ⟨_, s1, h1, h⟩ := CG.bind_ok.1 h
        obtain ⟨_, s2, h2, h3⟩ := CG.bind_ok.1 h
        have m1 := compileFields_made g names args (fields.map Prod.fst) s s1 h1
        have m2 := genOpB_ok h2 h3
        exact ⟨m1.1.trans m2.1, fun hl fp => .ctorNamed hf (m1.then m2 hl fp) m2.2⟩
  | .bin op l r =>
    by_cases c1 : op = .plus
    · subst c1
      rw [compileE] at h
      obtain ⟨_, s1, h1, h⟩ := CG.bind_ok.1 h
      have m1 := compileE_made g l s s1 h1
      cases hr : r.isOne with
      | true =>
        rw [hr, if_pos rfl] at h
        have m2 := genOp_ok h
        exact ⟨m1.1.trans m2.1, fun hl fp => .add1 hr (m1.then m2 hl fp) m2.2⟩
      | false =>
        rw [hr, if_neg (by simp)] at h
        obtain ⟨_, s2, h2, h3⟩ := CG.bind_ok.1 h
        have m2 := compileE_made g r s1 s2 h2
        have m3 := genOp_ok h3
        refine ⟨m1.1.trans (m2.1.trans m3.1), fun hl fp => ?_⟩
        have l3 := m3.1.le
        have q := m1.seq m2 (by omega) fp
        have := m2.1.le
        exact .bin rfl (fun _ => hr) (m3.1.at (by omega) q.1) (m3.1.at (by omega) q.2) m3.2
    by_cases c2 : op = .minus
    · subst c2
      rw [compileE] at h
      obtain ⟨_, s1, h1, h⟩ := CG.bind_ok.1 h
      have m1 := compileE_made g l s s1 h1
      cases hr : r.isOne with
      | true =>
        rw [hr, if_pos rfl] at h
        have m2 := genOp_ok h
        exact ⟨m1.1.trans m2.1, fun hl fp => .sub1 hr (m1.then m2 hl fp) m2.2⟩
      | false =>
        rw [hr, if_neg (by simp)] at h
        obtain ⟨_, s2, h2, h3⟩ := CG.bind_ok.1 h
        have m2 := compileE_made g r s1 s2 h2
        have m3 := genOp_ok h3
        refine ⟨m1.1.trans (m2.1.trans m3.1), fun hl fp => ?_⟩
        have l3 := m3.1.le
        have q := m1.seq m2 (by omega) fp
        have := m2.1.le
        exact .bin rfl (fun _ => hr) (m3.1.at (by omega) q.1) (m3.1.at (by omega) q.2) m3.2
    by_cases c3 : op = .notEquals
    · subst c3
      rw [compileE] at h
      obtain ⟨_, s1, h1, h⟩ := CG.bind_ok.1 h
      obtain ⟨_, s2, h2, h⟩ := CG.bind_ok.1 h
      obtain ⟨_, s3, h3, h4⟩ := CG.bind_ok.1 h
      have m1 := compileE_made g l s s1 h1
      have m2 := compileE_made g r s1 s2 h2
      have m3 := genOp_ok h3
      have m4 := genOp_ok h4
      refine ⟨m1.1.trans (m2.1.trans (m3.1.trans m4.1)), fun hl fp => ?_⟩
      have l3 := m3.1.le; have l4 := m4.1.le; have := m2.1.le
      have q := m1.seq m2 (by omega) fp
      have e := m3.1.trans m4.1
      exact .ne (e.at (by omega) q.1) (e.at (by omega) q.2) (m4.1.ati (by omega) m3.2) m4.2
    by_cases c4 : op = .logAnd
    · subst c4
      rw [compileE] at h
      obtain ⟨_, s1, h1, h⟩ := CG.bind_ok.1 h
      obtain ⟨j1, s2, h2, h⟩ := CG.bind_ok.1 h
      obtain ⟨_, s3, h3, h⟩ := CG.bind_ok.1 h
      obtain ⟨j2, s4, h4, h⟩ := CG.bind_ok.1 h
      obtain ⟨n1, _, hn1, h⟩ := CG.bind_ok.1 h
      obtain ⟨rfl, rfl⟩ := programCount_ok hn1
      obtain ⟨_, s5, h5, h⟩ := CG.bind_ok.1 h
      obtain ⟨_, s6, h6, h⟩ := CG.bind_ok.1 h
      obtain ⟨n2, _, hn2, h7⟩ := CG.bind_ok.1 h
      obtain ⟨rfl, rfl⟩ := programCount_ok hn2
      have m1 := compileE_made g l s s1 h1
      have m3 := compileE_made g r s2 s3 h3
      have m6 := genOp_ok h6
      have p5 := patchJump_ok h5
      have p7 := patchJump_ok h7
      have j12 := genJump_ok h2
      have j34 := genJump_ok h4
      have q : QExt s s' := by
        refine ⟨?_, ?_, ?_⟩
        · refine m1.1.toExt.trans ⟨?_, ?_⟩
          · have := j12.1.le; have := m3.1.le; have := j34.1.le; have := p5.len; have := m6.1.le; have := p7.len
            omega
          · intro k hk
            have := j12.1.le; have := m3.1.le; have := j34.1.le; have := p5.len; have := m6.1.le; have := p7.len
            have := j12.2.2.2.2.2; have := j34.2.2.2.2.2
            rw [p7.agree k (by omega), m6.1.agree k (by omega), p5.agree k (by omega), j34.1.agree k (by omega),
              m3.1.agree k (by omega), j12.1.agree k (by omega)]
        · rw [p7.fpcs, m6.1.fpcs, p5.fpcs, j34.1.fpcs, m3.1.fpcs, j12.1.fpcs, m1.1.fpcs]
        · rw [p7.lines, m6.1.lines, p5.lines, j34.1.lines, m3.1.lines, j12.1.lines, m1.1.lines]
      refine ⟨q, fun hl fp => ?_⟩
      obtain ⟨ex, l7, a1, a3, l5, k3, _, _, k6⟩ := branch_made (g := g) (fp := fp) h2 m3.1.toExt h4 p5 m6.1.toExt p7 hl
      have := j12.1.le; have := m3.1.le; have := j34.1.le; have := p5.len; have := m6.1.le; have := p7.len
      refine .and (ex.at (Nat.le_refl _) (m1.2 (by omega) fp)) a1 (k3 (m3.2 (by omega) fp)) a3 (k6 ?_)
      rw [← l5]; exact m6.2
    by_cases c5 : op = .logOr
    · subst c5
      rw [compileE] at h
      obtain ⟨_, s1, h1, h⟩ := CG.bind_ok.1 h
      obtain ⟨j1, s2, h2, h⟩ := CG.bind_ok.1 h
      obtain ⟨_, s3, h3, h⟩ := CG.bind_ok.1 h
      obtain ⟨j2, s4, h4, h⟩ := CG.bind_ok.1 h
      obtain ⟨n1, _, hn1, h⟩ := CG.bind_ok.1 h
      obtain ⟨rfl, rfl⟩ := programCount_ok hn1
      obtain ⟨_, s5, h5, h⟩ := CG.bind_ok.1 h
      obtain ⟨_, s6, h6, h⟩ := CG.bind_ok.1 h
      obtain ⟨n2, _, hn2, h7⟩ := CG.bind_ok.1 h
      obtain ⟨rfl, rfl⟩ := programCount_ok hn2
      have m1 := compileE_made g l s s1 h1
      have m3 := genOp_ok h3
      have m6 := compileE_made g r s5 _ h6
      have p5 := patchJump_ok h5
      have p7 := patchJump_ok h7
      have j12 := genJump_ok h2
      have j34 := genJump_ok h4
      have q : QExt s s' := by
        refine ⟨?_, ?_, ?_⟩
        · refine m1.1.toExt.trans ⟨?_, ?_⟩
          · have := j12.1.le; have := m3.1.le; have := j34.1.le; have := p5.len; have := m6.1.le; have := p7.len
            omega
          · intro k hk
            have := j12.1.le; have := m3.1.le; have := j34.1.le; have := p5.len; have := m6.1.le; have := p7.len
            have := j12.2.2.2.2.2; have := j34.2.2.2.2.2
            rw [p7.agree k (by omega), m6.1.agree k (by omega), p5.agree k (by omega), j34.1.agree k (by omega),
              m3.1.agree k (by omega), j12.1.agree k (by omega)]
        · rw [p7.fpcs, m6.1.fpcs, p5.fpcs, j34.1.fpcs, m3.1.fpcs, j12.1.fpcs, m1.1.fpcs]
        · rw [p7.lines, m6.1.lines, p5.lines, j34.1.lines, m3.1.lines, j12.1.lines, m1.1.lines]
      refine ⟨q, fun hl fp => ?_⟩
      obtain ⟨ex, l7, a1, a3, l5, _, k6, k3, _⟩ := branch_made (g := g) (fp := fp) h2 m3.1.toExt h4 p5 m6.1.toExt p7 hl
      have := j12.1.le; have := m3.1.le; have := j34.1.le; have := p5.len; have := m6.1.le; have := p7.len
      refine .or (ex.at (Nat.le_refl _) (m1.2 (by omega) fp)) a1 (k3 m3.2) a3 (k6 ?_)
      rw [← l5]; exact m6.2 (by omega) fp
    · rw [compileE] at h
      · cases ho : binOpcode op with
        | none => rw [ho] at h; exact absurd h CG.err_ok
        | some o =>
          rw [ho] at h
          simp only at h
          obtain ⟨_, s1, h1, h⟩ := CG.bind_ok.1 h
          obtain ⟨_, s2, h2, h3⟩ := CG.bind_ok.1 h
          have m1 := compileE_made g l s s1 h1
          have m2 := compileE_made g r s1 s2 h2
          have m3 := genOp_ok h3
          refine ⟨m1.1.trans (m2.1.trans m3.1), fun hl fp => ?_⟩
          have l3 := m3.1.le
          have q := m1.seq m2 (by omega) fp
          have := m2.1.le
          exact .bin ho (fun hh => by rcases hh with hh | hh <;> contradiction) (m3.1.at (by omega) q.1)
            (m3.1.at (by omega) q.2) m3.2
      all_goals (intro hh; contradiction)
  | .un op e =>
    by_cases c1 : op = .minus
    · subst c1
      cases hi : e.isInt with
      | true =>
        cases e <;> try (simp [Expr.isInt] at hi; done)
        next i =>
        rw [compileE] at h
        obtain ⟨_, s1, h1, h⟩ := CG.bind_ok.1 h
        by_cases c : i = BitVec.intMin 32
        · rw [if_pos c] at h
          obtain ⟨_, _, h2, _⟩ := CG.bind_ok.1 h
          exact absurd h2 CG.ub_ok
        · rw [if_neg c] at h
          obtain ⟨_, s2, h2, h⟩ := CG.bind_ok.1 h
          obtain ⟨_, rfl⟩ := CG.pure_ok.1 h
          have m := genOpV_ok (by omega) h1 h2
          refine ⟨m.1, fun hl fp => .negInt c ?_⟩
          have := m.2.1
          rwa [Nat.mod_eq_of_lt (by have := ((-i).signExtend 64).isLt; simpa using this)] at this
      | false =>
        have hh : compileE g (.un .minus e) = (do
            compileE g e
            genOp .pushInt
            let _ ← genValue 8 (-1#64).toNat
            genOp .mul) := by
          cases e <;> first | (simp [Expr.isInt] at hi; done) | (simp only [compileE]; done)
        rw [hh] at h
        obtain ⟨_, s1, h1, h⟩ := CG.bind_ok.1 h
        obtain ⟨_, s2, h2, h⟩ := CG.bind_ok.1 h
        obtain ⟨_, s3, h3, h4⟩ := CG.bind_ok.1 h
        have m1 := compileE_made g e s s1 h1
        have m3 := genOpV_ok (by omega) h2 h3
        have m4 := genOp_ok h4
        refine ⟨m1.1.trans (m3.1.trans m4.1), fun hl fp => ?_⟩
        have := m3.1.le; have := m4.1.le
        exact .neg hi ((m3.1.trans m4.1).at (by omega) (m1.2 (by omega) fp)) (m4.1.ati (by omega) m3.2.1) m4.2
    by_cases c2 : op = .bang
    · subst c2
      rw [compileE] at h
      obtain ⟨_, s1, h1, h2⟩ := CG.bind_ok.1 h
      have m1 := compileE_made g e s s1 h1
      have m2 := genOp_ok h2
      exact ⟨m1.1.trans m2.1, fun hl fp => .bang (m1.then m2 hl fp) m2.2⟩
    · rw [compileE] at h
      · exact absurd h CG.err_ok
      all_goals (intros; contradiction)
  | .ite c a b =>
    rw [compileE] at h
    obtain ⟨_, s1, h1, h⟩ := CG.bind_ok.1 h
    obtain ⟨j1, s2, h2, h⟩ := CG.bind_ok.1 h
    obtain ⟨_, s3, h3, h⟩ := CG.bind_ok.1 h
    obtain ⟨j2, s4, h4, h⟩ := CG.bind_ok.1 h
    obtain ⟨n1, _, hn1, h⟩ := CG.bind_ok.1 h
    obtain ⟨rfl, rfl⟩ := programCount_ok hn1
    obtain ⟨_, s5, h5, h⟩ := CG.bind_ok.1 h
    obtain ⟨_, s6, h6, h⟩ := CG.bind_ok.1 h
    obtain ⟨n2, _, hn2, h7⟩ := CG.bind_ok.1 h
    obtain ⟨rfl, rfl⟩ := programCount_ok hn2
    have m1 := compileE_made g c s s1 h1
    have m3 := compileE_made g a s2 s3 h3
    have m6 := compileE_made g b s5 _ h6
    have p5 := patchJump_ok h5
    have p7 := patchJump_ok h7
    have j12 := genJump_ok h2
    have j34 := genJump_ok h4
    have q : QExt s s' := by
      refine ⟨?_, ?_, ?_⟩
      · refine m1.1.toExt.trans ⟨?_, ?_⟩
        · have := j12.1.le; have := m3.1.le; have := j34.1.le; have := p5.len; have := m6.1.le; have := p7.len
          omega
        · intro k hk
          have := j12.1.le; have := m3.1.le; have := j34.1.le; have := p5.len; have := m6.1.le; have := p7.len
          have := j12.2.2.2.2.2; have := j34.2.2.2.2.2
          rw [p7.agree k (by omega), m6.1.agree k (by omega), p5.agree k (by omega), j34.1.agree k (by omega),
            m3.1.agree k (by omega), j12.1.agree k (by omega)]
      · rw [p7.fpcs, m6.1.fpcs, p5.fpcs, j34.1.fpcs, m3.1.fpcs, j12.1.fpcs, m1.1.fpcs]
      · rw [p7.lines, m6.1.lines, p5.lines, j34.1.lines, m3.1.lines, j12.1.lines, m1.1.lines]
    refine ⟨q, fun hl fp => ?_⟩
    obtain ⟨ex, l7, a1, a3, l5, k3, k6, _, _⟩ := branch_made (g := g) (fp := fp) h2 m3.1.toExt h4 p5 m6.1.toExt p7 hl
    have := j12.1.le; have := m3.1.le; have := j34.1.le; have := p5.len; have := m6.1.le; have := p7.len
    refine .ite (ex.at (Nat.le_refl _) (m1.2 (by omega) fp)) a1 (k3 (m3.2 (by omega) fp)) a3 (k6 ?_)
    rw [← l5]; exact m6.2 (by omega) fp
termination_by (sizeOf e, 0)

theorem compileArgs_made (g : Globals) (n : Nat) (es : List Expr) (s s' : CS) (m : Nat)
    (h : compileArgs g n es s = .ok m s') : Made g s s' (.es es) ∧ m = n + es.length ∧ (es ≠ [] → m ≤ 255) := by
  match es with
  | [] =>
    rw [compileArgs] at h
    obtain ⟨rfl, rfl⟩ := CG.pure_ok.1 h
    exact ⟨⟨.refl _, fun _ _ => .esNil⟩, rfl, fun h => absurd rfl h⟩
  | e :: es =>
    rw [compileArgs] at h
    by_cases c : 255 ≤ n
    · rw [if_pos c] at h
      obtain ⟨_, _, h2, _⟩ := CG.bind_ok.1 h
      exact absurd h2 CG.err_ok
    · rw [if_neg c] at h
      obtain ⟨_, s1, h1, h2⟩ := CG.bind_ok.1 h
      have m1 := compileE_made g e s s1 h1
      obtain ⟨m2, hm, hm'⟩ := compileArgs_made g (n + 1) es s1 s' m h2
      refine ⟨⟨m1.1.trans m2.1, fun hl fp => ?_⟩, by simp only [List.length_cons]; omega, fun _ => ?_⟩
      · have q := m1.seq m2 hl fp
        exact .esCons q.1 q.2
      · by_cases he : es = []
        · subst he; simp at hm; omega
        · exact hm' he
termination_by (sizeOf es, 0)

theorem compileList_made (g : Globals) (es : List Expr) (s s' : CS)
    (h : compileList g es s = .ok () s') : Made g s s' (.es es) := by
  match es with
  | [] =>
    rw [compileList] at h
    obtain ⟨_, rfl⟩ := CG.pure_ok.1 h
    exact ⟨.refl _, fun _ _ => .esNil⟩
  | e :: es =>
    rw [compileList] at h
    obtain ⟨_, s1, h1, h2⟩ := CG.bind_ok.1 h
    have m1 := compileE_made g e s s1 h1
    have m2 := compileList_made g es s1 s' h2
    refine ⟨m1.1.trans m2.1, fun hl fp => ?_⟩
    have q := m1.seq m2 hl fp
    exact .esCons q.1 q.2
termination_by (sizeOf es, 0)

theorem compileNamed_made (g : Globals) (f : Name) (names : List Name) (es : List Expr) (s s' : CS)
    (h : compileNamed g f names es s = .ok () s') :
    (s' = s ∧ (names.zip es).find? (·.1 = f) = none) ∨
    ∃ n e, (names.zip es).find? (·.1 = f) = some (n, e) ∧ Made g s s' (.e e) := by
  match names, es with
  | names, [] =>
    rw [compileNamed] at h
    obtain ⟨_, rfl⟩ := CG.pure_ok.1 h
    left; simp
  | [], _ :: _ => rw [compileNamed] at h; exact absurd h CG.abort_ok
  | n :: ns, e :: es =>
    rw [compileNamed] at h
    by_cases c : n = f
    · rw [if_pos c] at h
      right
      exact ⟨n, e, by simp [c], compileE_made g e s s' h⟩
    · rw [if_neg c] at h
      have := compileNamed_made g f ns es s s' h
      simpa [c] using this
termination_by (sizeOf es, 0)

theorem compileFields_made (g : Globals) (names : List Name) (es : List Expr) (fs : List Name) (s s' : CS)
    (h : compileFields g names es fs s = .ok () s') : Made g s s' (.fields (names.zip es) fs) := by
  match fs with
  | [] =>
    rw [compileFields] at h
    obtain ⟨_, rfl⟩ := CG.pure_ok.1 h
    exact ⟨.refl _, fun _ _ => .fieldsNil⟩
  | f :: fs =>
    rw [compileFields] at h
    obtain ⟨_, s1, h1, h2⟩ := CG.bind_ok.1 h
    have m2 := compileFields_made g names es fs s1 s' h2
    rcases compileNamed_made g f names es s s1 h1 with ⟨rfl, hn⟩ | ⟨n, e, hn, m1⟩
    · exact ⟨m2.1, fun hl fp => .fieldsMissing hn (m2.2 hl fp)⟩
    · refine ⟨m1.1.trans m2.1, fun hl fp => ?_⟩
      have q := m1.seq m2 hl fp
      exact .fieldsCons hn q.1 q.2
termination_by (sizeOf es, fs.length + 1)
end

end Tiny
