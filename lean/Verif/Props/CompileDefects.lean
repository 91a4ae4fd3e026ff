import Verif.Props.Compile

/-!
# C20, C22: where compiled code does not do what the language says

Exactly what it does instead.
-/

namespace Tiny
open Spec

/-- **C20, a defect.** `e + 1` with a literal `1`, when `e` is a float: the code pushes the float whose *bit
pattern* is that of `e` plus one, whatever the floating point addition is. -/
theorem c20_defect_float_plus_one {c : Ctx} {env : Env} (L : Loaded c env) {e : Expr} {s s' : CS}
    (hc : compileE c.globals (.bin .plus e (.int 1#32)) s = .ok () s') (hp : Placed s s' env)
    (B args locs T : List Value) (F : List Frame) (rv : Value) (w : World)
    (hst : (B ++ args ++ locs ++ T).length ≤ env.stackSize) {n : Nat} {f : BitVec 64} {w' : World}
    (he : evalE c n e ⟨args, locs⟩ w = .ok (.float f, w')) (hf : f.toInt < 2 ^ 63 - 1) :
    Reaches env (inFunction s.program.length B args locs T F rv w)
      fun u => ∃ rv', u = inFunction s'.program.length B args locs (T ++ [.float (f + 1#64)]) F rv' w' := by
  obtain ⟨D, hD⟩ := L.linked.bound
  have hat := placed_expr hc hp L.size (fun i => env.functionPcs[i]?)
  have hfin : s'.program.length < 2 ^ 31 := by have := hp.fits; have := L.size; omega
  have go : ∀ {p1}, At c.globals (fun i => env.functionPcs[i]?) env.program s.program.length (.e e) p1 →
      AtI env.program p1 (.op .add1) s'.program.length → Reaches env (inFunction s.program.length B args locs T F rv w)
        fun u => ∃ rv', u = inFunction s'.program.length B args locs (T ++ [.float (f + 1#64)]) F rv' w' := by
    intro p1 h1 h2
    have k := (simAll L.linked hD n).e (d := 0) (m := 0) (ρ := ⟨args, locs⟩) (B := B) (T := T) (F := F)
      (w := w) (rv := rv) (Nat.zero_le _) h1 (by have := h2.lt; omega) (.inl rfl) hst
    rw [he] at k
    refine goes_reaches (Goes.trans (Goes.len k hst) id ?_)
    rintro u ⟨⟨rv1, rfl⟩, hlen⟩
    have ex := exec_un (B := B) (ρ := ⟨args, locs⟩) (T := T) (F := F) (w := w') (rv := rv1) (a := .float f) (incr .add) h2
      rfl
    have hov : BitVec.saddOverflow f 1#64 = false := by
      unfold BitVec.saddOverflow
      have : (1#64 : BitVec 64).toInt = 1 := rfl
      have := BitVec.le_toInt f
      simp only [Bool.or_eq_false_iff, decide_eq_false_iff_not]
      omega
    simp only [incr, intArith, hov, Bool.false_eq_true, if_false, Res.bind_ok] at ex
    rcases push_conf (env := env) (B := B) (ρ := ⟨args, locs⟩) (T := T) (F := F) (w := w') (pc := s'.program.length) (rv := rv1)
      (.float (f + 1#64)) with h | h
    · exact .limit (conf_pc (Nat.zero_le _)) (ex.trans h)
    · exact .step (conf_pc (Nat.zero_le _)) (ex.trans h) (.done ⟨rv1, rfl⟩)
  cases hat with
  | leaf h _ => simp [leafI] at h
  | add1 _ h1 h2 => exact go h1 h2
  | bin _ h _ _ _ => have := h (.inl rfl); simp [Expr.isOne] at this

/-- **C20, a defect.** A string constant whose index does not fit a byte: the index is written with 4 bytes
but read with 8, so that execution goes on at least 4 bytes after the end of the generated code, i.e. not at
the next instruction. -/
theorem c20_defect_long_string {g : Globals} {env : Env} {i : Nat} {s s' : CS} {t u : Thread}
    (hc : compileE g (.str i) s = .ok () s') (hi : 255 < i) (hp : Placed s s' env) (hsz : env.program.length < 2 ^ 31)
    (hpc : t.pc = (s.program.length : Nat)) (he : exec env t = .ok u) :
    (s'.program.length : Int) + 4 ≤ u.pc := by
  have hat := placed_expr hc hp hsz (fun _ => none)
  cases hat with
  | leaf h hA =>
    simp only [leafI, Option.some.injEq] at h
    subst h
    rw [pushStrI, if_neg (by omega)] at hA
    rw [exec_opV hA hpc, execOp] at he
    obtain ⟨⟨v, pc'⟩, h1, he⟩ := Res.bind_eq_ok.1 he
    have e4 := readValueAt_next hA.2.2
    have e8 := readValueAt_next h1
    dsimp only at he
    split at he
    · have := push_pc he
      rw [this]
      simp only [e4, e8, alignUp]
      omega
    · cases he

/-- **C20, a defect.** A constant bound by the host to an integer which does not fit 32 bits: its low 32 bits,
sign-extended, are pushed instead. -/
theorem c20_defect_wide_constant {g : Globals} {env : Env} {name : Name} {i : BitVec 64} {s s' : CS} {t : Thread}
    (hc : compileE g (.id name (some (.const (.int i)))) s = .ok () s') (hp : Placed s s' env)
    (hsz : env.program.length < 2 ^ 31) (hpc : t.pc = (s.program.length : Nat)) (hroom : t.stack.length < env.stackSize) :
    exec env t = .ok { t with pc := (s'.program.length : Nat), stack := t.stack ++ [.int ((i.truncate 32).signExtend 64)] } := by
  have hat := placed_expr hc hp hsz (fun _ => none)
  cases hat with
  | leaf h hA =>
    simp only [leafI, Option.some.injEq] at h
    subst h
    simp only [getVarI, pushIntI] at hA
    split at hA
    · next h0 =>
      subst h0
      rw [exec_op hA hpc, execOp, push, if_pos hroom, hA.2]; rfl
    · split at hA
      · next h1 =>
        subst h1
        rw [exec_op hA hpc, execOp, push, if_pos hroom, hA.2]; rfl
      · rw [exec_opV hA hpc, execOp, hA.2.2]
        simp only [Res.bind_ok]
        rw [push, if_pos hroom]
        simp [narrow]

/-- Two to the power 32 becomes 0. -/
example : ((4294967296#64).truncate 32).signExtend 64 = 0#64 := rfl

/-- **C22, a defect.** `break` (or `continue`) outside any loop is accepted and jumps to the start of the
program. -/
theorem c22_defect_break_outside_loop {g : Globals} {env : Env} {st a : Stmt} {s s' : CS} {t : Thread}
    (hst : (∃ p, st = .brk p) ∨ ∃ p, st = .cont p)
    (hc : compileS g st s = .ok a s') (hp : Placed s s' env) (hsz : env.program.length < 2 ^ 31)
    (hpc : t.pc = (s.program.length : Nat)) : exec env t = .ok { t with pc := 0 } := by
  have hat := placed_stmt hc hp ⟨by rcases hst with ⟨p, rfl⟩ | ⟨p, rfl⟩ <;> simp [procsL, procs],
    by rcases hst with ⟨p, rfl⟩ | ⟨p, rfl⟩ <;> simp [procsL, procs]⟩ hsz
  have go : AtI env.program s.program.length (.goto 0) s'.program.length → exec env t = .ok { t with pc := 0 } := by
    intro h
    rw [exec_opV h hpc, execOp, h.2.2]
    rfl
  rcases hst with ⟨p, rfl⟩ | ⟨p, rfl⟩
  · cases hat with
    | brk _ h => exact go h
  · cases hat with
    | cont _ h => exact go h

end Tiny
