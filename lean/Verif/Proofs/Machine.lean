import Verif.Proofs.CodegenStmt
import Verif.Props.VM

/-!
# Running compiled code: machine configurations and single instructions
-/

namespace Tiny
open Spec

/-! ## Runs -/

/-- A thread which can go on, at least `d` calls deep. -/
structure Ready (d : Nat) (t : Thread) : Prop where
  pc : 0 ≤ t.pc
  depth : d ≤ t.frames.length

/-- Running (without collections) from a thread leads to one satisfying `Q`, or to the limits of the
machine, or (if `A`) to a failed run-time check; it never executes an instruction less than `d`
calls deep. -/
inductive Goes (env : Env) (d : Nat) (A : Prop) (Q : Thread → Prop) : Thread → Prop
  | done {t} : Q t → Goes env d A Q t
  | step {t t'} : Ready d t → exec env t = .ok t' → Goes env d A Q t' → Goes env d A Q t
  | limit {t} : Ready d t → exec env t = .limit → Goes env d A Q t
  | abort {t} : Ready d t → exec env t = .abort → A → Goes env d A Q t

theorem Goes.trans {env : Env} {d : Nat} {A B : Prop} {Q R : Thread → Prop} {t : Thread} (h : Goes env d A Q t)
    (hA : A → B) (hQ : ∀ u, Q u → Goes env d B R u) : Goes env d B R t := by
  induction h with
  | done q => exact hQ _ q
  | step h e _ ih => exact .step h e ih
  | limit h e => exact .limit h e
  | abort h e a => exact .abort h e (hA a)

theorem push_len {env : Env} {t t' : Thread} {v : Value} (h : push env t v = .ok t') : t'.stack.length ≤ env.stackSize := by
  unfold push at h
  split at h
  · cases h; simp; omega
  · cases h

theorem pop_len {t t' : Thread} {v : Value} (h : pop t = .ok (v, t')) : t'.stack.length ≤ t.stack.length := by
  unfold pop at h
  split at h
  · cases h; simp
  · cases h

theorem popIndir_len {t t' : Thread} (h : popIndir t = .ok t') : t'.stack.length ≤ t.stack.length := by
  unfold popIndir at h
  split at h
  · cases h
  · split at h
    · cases h; simp [List.length_take]
    · cases h

/-- The stack never outgrows its array. -/
theorem exec_len {env : Env} {t t' : Thread} (h : exec env t = .ok t') (hl : t.stack.length ≤ env.stackSize) :
    t'.stack.length ≤ env.stackSize := by
  unfold exec at h
  obtain ⟨b, _, h⟩ := Res.bind_eq_ok.1 h
  cases hop : Op.ofByte b with
  | none => rw [hop] at h; cases h
  | some op =>
    rw [hop] at h
    simp only at h
    generalize t.pc.toNat = pc at h
    cases op <;> simp only [execOp, Res.bind_eq_ok, Prod.exists] at h
    case pushNull | pushTrue | pushFalse | push0 | push1 | getRetVal => exact push_len h
    case pushNullN =>
      obtain ⟨n, _, h⟩ := h
      split at h
      · next hh => cases h; simp; exact hh
      · cases h
    case pushInt | pushFloat => obtain ⟨_, _, _, h⟩ := h; exact push_len h
    case pushChar => obtain ⟨_, _, h⟩ := h; exact push_len h
    case pushString => obtain ⟨_, _, _, h⟩ := h; split at h; exact push_len h; cases h
    case pushStringFF => obtain ⟨_, _, h⟩ := h; split at h; exact push_len h; cases h
    case pushStruct => obtain ⟨_, _, _, _, h⟩ := h; split at h; exact push_len h; cases h
    case structGet =>
      obtain ⟨_, _, _, _, _, _, _, _, h⟩ := h
      split at h
      · cases h
      · exact push_len h
    case structSet =>
      obtain ⟨_, _, _, u, h1, _, u2, h2, _, _, _, h⟩ := h
      have := pop_len h1; have := pop_len h2
      split at h
      · cases h; simp only; omega
      · cases h
    case add | sub | mul | div | mod | or | and | shl | shr | lt | lte | gt | gte | equ =>
      obtain ⟨_, _, _, _, _, _, _, _, h⟩ := h
      exact push_len h
    case add1 | sub1 | logNot => obtain ⟨_, _, _, _, _, h⟩ := h; exact push_len h
    case set =>
      obtain ⟨_, _, _, _, u, h1, h⟩ := h
      have := pop_len h1
      split at h
      · cases h; simp only; omega
      · cases h
    case get =>
      obtain ⟨_, _, _, h⟩ := h
      split at h
      · exact push_len h
      · cases h
    case goto => obtain ⟨_, _, _, h⟩ := h; cases h; exact hl
    case gotoz =>
      obtain ⟨_, _, _, _, u, h1, _, _, h⟩ := h
      have := pop_len h1
      cases h; simp only; omega
    case call =>
      obtain ⟨_, _, _, _, _, u, h1, h⟩ := h
      unfold pushIndir at h1
      split at h1
      · cases h1
        split at h
        · cases h; exact hl
        · cases h
      · cases h1
    case ret => have := popIndir_len h; simp only at this; omega
    case retValue =>
      obtain ⟨_, _, h1, h⟩ := h
      have := popIndir_len h
      have := pop_len h1
      simp only at *; omega
    case callf =>
      obtain ⟨_, _, _, _, _, h⟩ := h
      split at h
      · simp only [Res.bind_eq_ok, Prod.exists] at h
        obtain ⟨_, _, _, h⟩ := h
        cases h; simp [List.length_take]; omega
      · cases h
    case getLocal => obtain ⟨_, _, _, _, _, h⟩ := h; exact push_len h
    case getLocalW => obtain ⟨_, _, _, _, h⟩ := h; exact push_len h
    case setLocal =>
      obtain ⟨_, _, _, _, u, h1, h⟩ := h
      have := pop_len h1
      split at h
      · cases h; simp only [List.length_set]; omega
      · cases h
    case halt => cases h; exact hl
    case misaligned => cases h

theorem Goes.len {env : Env} {d : Nat} {A : Prop} {Q : Thread → Prop} {t : Thread} (h : Goes env d A Q t)
    (hl : t.stack.length ≤ env.stackSize) : Goes env d A (fun u => Q u ∧ u.stack.length ≤ env.stackSize) t := by
  induction h with
  | done q => exact .done ⟨q, hl⟩
  | step h e _ ih => exact .step h e (ih (exec_len e hl))
  | limit h e => exact .limit h e
  | abort h e a => exact .abort h e a

/-- The machine goes on for at least `k` instructions (or hits its limits, or a foreign function hangs). -/
inductive Runs (env : Env) (d : Nat) : Nat → Thread → Prop
  | zero {t} : Runs env d 0 t
  | step {k t t'} : Ready d t → exec env t = .ok t' → Runs env d k t' → Runs env d (k + 1) t
  | limit {k t} : Ready d t → exec env t = .limit → Runs env d k t
  | hang {k t} : Ready d t → exec env t = .timeout → Runs env d k t

theorem Runs.pred {env : Env} {d k : Nat} {t : Thread} (h : Runs env d (k + 1) t) : Runs env d k t := by
  generalize hj : k + 1 = j at h
  induction h generalizing k with
  | zero => omega
  | @step j t t' hpc e r ih =>
    cases k with
    | zero => exact .zero
    | succ k => exact .step hpc e (ih (by omega))
  | limit hpc e => exact .limit hpc e
  | hang hpc e => exact .hang hpc e

theorem Runs.mono {env : Env} {d k j : Nat} {t : Thread} (h : Runs env d k t) (hj : j ≤ k) : Runs env d j t := by
  obtain ⟨d, rfl⟩ := Nat.exists_eq_add_of_le hj
  induction d with
  | zero => exact h
  | succ d ih => exact ih (Runs.pred h) (by omega)

theorem Goes.runs {env : Env} {d : Nat} {A : Prop} {Q : Thread → Prop} {t : Thread} {k : Nat} (h : Goes env d A Q t) (hA : ¬ A)
    (hQ : ∀ u, Q u → Runs env d k u) : Runs env d k t := by
  induction h with
  | done q => exact hQ _ q
  | step h e _ ih => exact .pred (.step h e ih)
  | limit h e => exact .limit h e
  | abort _ _ a => exact absurd a hA

/-- The machine, started in `t`, does what the specification's result `r` says. If the specification ran
out of fuel, the machine goes on for at least `m` instructions. -/
def Sim {α : Type} (env : Env) (d m : Nat) (r : Res α) (post : α → Thread → Prop) (t : Thread) : Prop :=
  t.stack.length ≤ env.stackSize →
  match r with
  | .ok a => Goes env d False (post a) t
  | .abort => Goes env d True (fun _ => False) t
  | .timeout => Runs env d m t
  | _ => True

/-- The language says what happens. -/
def Claims {α : Type} (x : Res α) : Prop := x ≠ .ub ∧ x ≠ .limit

section Sim
variable {α β : Type} {env : Env} {d m : Nat} {t : Thread}

theorem Sim.bind {x : Res α} {f : α → Res β} {post : α → Thread → Prop}
    {post' : β → Thread → Prop} (h : Sim env d m x post t)
    (hf : ∀ a u, post a u → Sim env d m (f a) post' u) : Sim env d m (x >>= f) post' t := by
  intro hl
  have h := h hl
  cases x with
  | ok a =>
    simp only [Res.bind_ok]
    have h := Goes.len h hl
    cases hfa : f a with
    | ok b =>
      refine h.trans id fun u hu => ?_
      have := hf a u hu.1 hu.2
      rw [hfa] at this
      exact this
    | abort =>
      refine h.trans False.elim fun u hu => ?_
      have := hf a u hu.1 hu.2
      rw [hfa] at this
      exact this
    | timeout =>
      refine h.runs id fun u hu => ?_
      have := hf a u hu.1 hu.2
      rw [hfa] at this
      exact this
    | _ => trivial
  | abort => exact h
  | timeout => exact h
  | _ => trivial

theorem Sim.ok {a : α} {post : α → Thread → Prop} (h : post a t) :
    Sim env d m (.ok a) post t := fun _ => .done h

theorem Sim.conseq {x : Res α} {post post' : α → Thread → Prop}
    (h : Sim env d m x post t) (hp : ∀ a u, post a u → post' a u) : Sim env d m x post' t := by
  intro hl
  have h := h hl
  cases x with
  | ok a => exact h.trans id fun u hu => .done (hp a u hu)
  | abort => exact h
  | timeout => exact h
  | _ => trivial

theorem Sim.step {x : Res α} {post : α → Thread → Prop} {t' : Thread} (hpc : Ready d t)
    (e : exec env t = .ok t') (h : Sim env d (m - 1) x post t') : Sim env d m x post t := by
  intro hl
  have h := h (exec_len e hl)
  cases x with
  | ok a => exact .step hpc e h
  | abort => exact .step hpc e h
  | timeout =>
    cases m with
    | zero => exact .zero
    | succ m => exact .step hpc e h
  | _ => trivial

theorem Sim.less {x : Res α} {post : α → Thread → Prop} {j : Nat} (h : Sim env d m x post t) (hj : j ≤ m) :
    Sim env d j x post t := by
  intro hl
  have h := h hl
  cases x with
  | timeout => exact Runs.mono h hj
  | _ => exact h

theorem Sim.step0 {x : Res α} {post : α → Thread → Prop} {t' : Thread} (hpc : Ready d t)
    (e : exec env t = .ok t') (h : Sim env d m x post t') : Sim env d m x post t :=
  .step hpc e (h.less (Nat.sub_le m 1))

theorem Sim.limit {x : Res α} {post : α → Thread → Prop} (hpc : Ready d t)
    (e : exec env t = .limit) : Sim env d m x post t := by
  intro hl
  cases x with
  | ok a => exact .limit hpc e
  | abort => exact .limit hpc e
  | timeout => exact .limit hpc e
  | _ => trivial

theorem Sim.ub {post : α → Thread → Prop} : Sim env d m .ub post t :=
  fun _ => trivial
theorem Sim.confused {post : α → Thread → Prop} : Sim env d m confused post t :=
  fun _ => trivial
theorem Sim.timeout {post : α → Thread → Prop} (h : m = 0) : Sim env d m .timeout post t :=
  fun _ => by subst h; exact .zero

/-- One instruction which computes `x` and goes on with `k`. -/
theorem Sim.instr {x : Res α} {k : α → Res Thread} {post : α → Thread → Prop}
    (hpc : Ready d t) (e : exec env t = x >>= k)
    (hk : ∀ a, k a = .limit ∨ ∃ t', k a = .ok t' ∧ post a t') : Sim env d m x post t := by
  cases x with
  | ok a =>
    simp only [Res.bind_ok] at e
    rcases hk a with h | ⟨t', h, hp⟩
    · exact .limit hpc (e.trans h)
    · exact .step hpc (e.trans h) (.ok hp)
  | abort => exact fun _ => .abort hpc e trivial
  | timeout => exact fun _ => .hang hpc e
  | _ => exact fun _ => trivial

end Sim

/-! ## Configurations -/

/-- A thread in the middle of a function activation: `B` is the stack below the arguments, `T` the values
above the locals, `F` the frames. -/
def conf (B : List Value) (ρ : Vars) (T : List Value) (F : List Frame) (w : World) (pc : Nat) (rv : Value) : Thread :=
  ⟨(pc : Nat), B.length + ρ.args.length, B ++ ρ.args ++ ρ.locals ++ T, F, rv, w⟩

theorem conf_pc {d B ρ T F w pc rv} (h : d ≤ F.length := by assumption) : Ready d (conf B ρ T F w pc rv) :=
  ⟨Int.natCast_nonneg _, h⟩

theorem push_conf {env : Env} {B ρ T F w pc rv} (v : Value) :
    push env (conf B ρ T F w pc rv) v = .limit ∨
    push env (conf B ρ T F w pc rv) v = .ok (conf B ρ (T ++ [v]) F w pc rv) := by
  unfold push
  split
  · right; simp [conf]
  · left; rfl

theorem pop_conf {B ρ T F w pc rv} {v : Value} :
    pop (conf B ρ (T ++ [v]) F w pc rv) = .ok (v, conf B ρ T F w pc rv) :=
  pop_append _ (B ++ ρ.args ++ ρ.locals ++ T) v (by simp [conf])

section Instr
variable {env : Env} {pos next : Nat} {t : Thread}

theorem exec_op {o : Op} (h : AtI env.program pos (.op o) next) (hpc : t.pc = pos) :
    exec env t = execOp env t pos o := exec_at hpc h.1
theorem exec_opB {o : Op} {b : UInt8} (h : AtI env.program pos (.opB o b) next) (hpc : t.pc = pos) :
    exec env t = execOp env t pos o := exec_at hpc h.1
theorem exec_opV {o : Op} {n v : Nat} (h : AtI env.program pos (.opV o n v) next) (hpc : t.pc = pos) :
    exec env t = execOp env t pos o := exec_at hpc h.1
theorem exec_opBV {o : Op} {b : UInt8} {v : Nat} (h : AtI env.program pos (.opBV o b v) next) (hpc : t.pc = pos) :
    exec env t = execOp env t pos o := exec_at hpc h.1
end Instr

/-- What running an expression does: one more value on the stack. -/
def EPost (B : List Value) (ρ : Vars) (T : List Value) (F : List Frame) (fin : Nat) (a : Value × World) (u : Thread) : Prop :=
  ∃ rv, u = conf B ρ (T ++ [a.1]) F a.2 fin rv

/-- An instruction whose whole effect is to push a value. -/
theorem Sim.push {env : Env} {d m : Nat} {x : Res Value} {t : Thread} {B ρ T F w fin rv} (hpc : Ready d t)
    (e : exec env t = x >>= fun v => push env (conf B ρ T F w fin rv) v) :
    Sim env d m (x >>= fun v => .ok (v, w)) (EPost B ρ T F fin) t := by
  have : Sim env d m x (fun v u => u = conf B ρ (T ++ [v]) F w fin rv) t :=
    .instr hpc e fun a => (push_conf a).imp id fun h => ⟨_, h, rfl⟩
  exact this.bind fun a u hu => .ok ⟨rv, hu⟩

/-! ## Pushing constants and variables -/

theorem narrow_fits {i : BitVec 64} (h : -2 ^ 31 ≤ i.toInt ∧ i.toInt < 2 ^ 31) : narrow i = i := by
  rw [narrow_eq, show wrap32 i.toInt = i.toInt from (c34_narrowing _).1.2 h, BitVec.ofInt_toInt]

theorem narrow_signExtend (i : BitVec 32) : narrow (i.signExtend 64) = i.signExtend 64 := by
  apply narrow_fits
  rw [BitVec.toInt_signExtend_of_le (by omega)]
  have h1 := BitVec.le_toInt i
  have h2 := BitVec.toInt_lt (x := i)
  constructor
  · simpa using h1
  · simpa using h2

section Leaf
variable {env : Env} {pos fin : Nat} {B : List Value} {ρ : Vars} {T : List Value} {F : List Frame} {w : World} {rv : Value}

theorem exec_pushInt {i : BitVec 64} (h : AtI env.program pos (pushIntI i) fin) (hn : narrow i = i) :
    exec env (conf B ρ T F w pos rv) = push env (conf B ρ T F w fin rv) (.int i) := by
  unfold pushIntI at h
  split at h
  · next h0 => rw [exec_op h rfl, h.2]; subst h0; rfl
  · split at h
    · next h1 => rw [exec_op h rfl, h.2]; subst h1; rfl
    · rw [exec_opV h rfl, execOp, h.2.2]
      simp only [Res.bind_ok, BitVec.ofNat_toNat, BitVec.setWidth_eq, hn]
      rfl

theorem exec_pushFloat {f : BitVec 64} (h : AtI env.program pos (.opV .pushFloat 8 f.toNat) fin) :
    exec env (conf B ρ T F w pos rv) = push env (conf B ρ T F w fin rv) (.float f) := by
  rw [exec_opV h rfl, execOp, h.2.2]
  simp only [Res.bind_ok, BitVec.ofNat_toNat, BitVec.setWidth_eq]
  rfl

theorem exec_bool {b : Bool} (h : AtI env.program pos (boolI b) fin) :
    exec env (conf B ρ T F w pos rv) = push env (conf B ρ T F w fin rv) (.bool b) := by
  unfold boolI at h
  rw [exec_op h rfl, h.2]
  cases b <;> rfl

theorem exec_null (h : AtI env.program pos (.op .pushNull) fin) :
    exec env (conf B ρ T F w pos rv) = push env (conf B ρ T F w fin rv) .null := by
  rw [exec_op h rfl, h.2]; rfl

theorem toNat_ofNat8 {n : Nat} (h : n ≤ 255) : (UInt8.ofNat n).toNat = n := by
  rw [UInt8.toNat_ofNat']; omega

theorem exec_pushStr {c : Ctx} {i : Nat} (hs : env.numStrings = c.numStrings)
    (h : AtI env.program pos (pushStrI i) fin) (hr : strConst c i ≠ .ub) :
    exec env (conf B ρ T F w pos rv) = strConst c i >>= fun v => push env (conf B ρ T F w fin rv) v := by
  unfold strConst at hr ⊢
  by_cases hc : i < c.numStrings ∧ i ≤ 255
  case neg => rw [if_neg hc] at hr; exact absurd rfl hr
  rw [if_pos hc]
  unfold pushStrI at h
  rw [if_pos (by omega)] at h
  rw [exec_opB h rfl, execOp, readByte_some h.2.1, h.2.2]
  simp only [Res.bind_ok, toNat_ofNat8 hc.2, hs, hc.1, if_true]
  rfl

theorem indexBits_nat {i : Nat} (h : i < 2 ^ 31) : indexBits (i : Int) = i := by
  unfold indexBits
  rw [BitVec.ofInt_natCast, BitVec.toNat_ofNat]
  omega

theorem indexBits_neg {i : Int} (h : i < 0) (h' : -2 ^ 31 ≤ i) : (indexBits i : Int) = 2 ^ 32 + i := by
  unfold indexBits
  have := BitVec.toInt_ofInt (n := 32) (i := i)
  rw [Int.bmod_eq_of_le (by omega) (by omega), BitVec.toInt_eq_toNat_cond] at this
  split at this <;> omega

/-- The slot of a variable. -/
theorem slot_of_get {i : Int} {v : Value} (hsmall : env.stackSize ≤ 2 ^ 31)
    (hl : (conf B ρ T F w pos rv).stack.length ≤ env.stackSize) (hg : ρ.get i = some v) :
    localSlot (conf B ρ T F w pos rv) (indexBits i) = (B.length + ρ.args.length + i).toNat ∧
    (conf B ρ T F w pos rv).stack[(B.length + ρ.args.length + i).toNat]? = some v ∧
    (0 ≤ i → i.toNat < ρ.locals.length) ∧ 0 ≤ B.length + ρ.args.length + i := by
  simp only [conf, List.length_append] at hl
  unfold Vars.get at hg
  unfold localSlot
  by_cases h0 : 0 ≤ i
  · rw [if_pos h0] at hg
    have hlt := (List.getElem?_eq_some_iff.1 hg).1
    obtain ⟨n, rfl⟩ := Int.eq_ofNat_of_zero_le h0
    simp only [Int.toNat_natCast] at hg hlt ⊢
    rw [indexBits_nat (by omega)]
    simp only [conf]
    refine ⟨by omega, ?_, fun _ => hlt, by omega⟩
    rw [show ((B.length : Int) + ρ.args.length + n).toNat = (B ++ ρ.args).length + n by simp; omega,
      List.append_assoc, List.getElem?_append_right (by omega), List.getElem?_append_left (by omega)]
    rw [show (B ++ ρ.args).length + n - (B ++ ρ.args).length = n by omega]
    exact hg
  · rw [if_neg h0] at hg
    by_cases h1 : 0 ≤ (ρ.args.length : Int) + i
    case neg => rw [if_neg h1] at hg; cases hg
    rw [if_pos h1] at hg
    have hlt := (List.getElem?_eq_some_iff.1 hg).1
    have hb := indexBits_neg (i := i) (by omega) (by omega)
    simp only [conf]
    refine ⟨by omega, ?_, fun h => absurd h h0, by omega⟩
    rw [show ((B.length : Int) + ρ.args.length + i).toNat = B.length + ((ρ.args.length : Int) + i).toNat by omega,
      List.append_assoc, List.append_assoc, List.getElem?_append_right (by omega), List.getElem?_append_left (by omega)]
    rw [show B.length + ((ρ.args.length : Int) + i).toNat - B.length = ((ρ.args.length : Int) + i).toNat by omega]
    exact hg

theorem exec_getVar {c : Ctx} {v : VarSym} (hs : env.numStrings = c.numStrings) (hsmall : env.stackSize ≤ 2 ^ 31)
    (hl : (conf B ρ T F w pos rv).stack.length ≤ env.stackSize)
    (h : AtI env.program pos (getVarI v) fin) (hr : Claims (readVar c ρ w v)) :
    exec env (conf B ρ T F w pos rv) = readVar c ρ w v >>= fun v => push env (conf B ρ T F w fin rv) v := by
  cases v with
  | glob i =>
    simp only [readVar] at hr ⊢
    by_cases hi : i < 2 ^ 31
    case neg => rw [if_neg hi] at hr; exact absurd rfl hr.1
    rw [if_pos hi] at hr ⊢
    cases hg : w.globals[i]? with
    | none => rw [hg] at hr; exact absurd rfl hr.2
    | some x =>
      unfold getVarI at h
      rw [exec_opV h rfl, execOp, h.2.2]
      simp only [Res.bind_ok, indexBits_nat hi, conf, hg, known]
  | loc i =>
    simp only [readVar] at hr ⊢
    cases hg : ρ.get i with
    | none => rw [hg] at hr; exact absurd rfl hr.2
    | some x =>
      obtain ⟨h1, h2, h3, h4⟩ := slot_of_get hsmall hl hg
      unfold getVarI at h
      simp only at h
      by_cases c0 : i < 0 ∨ 0xff < i
      · rw [if_pos c0] at h
        rw [exec_opV h rfl, execOp, h.2.2]
        simp only [Res.bind_ok, h1, getSlot, h2, known]
        rfl
      · rw [if_neg c0] at h
        rw [exec_opB h rfl, execOp, readByte_some h.2.1, h.2.2]
        simp only [Res.bind_ok, getSlot, known]
        have : (conf B ρ T F w pos rv).fp + (UInt8.ofNat i.toNat).toNat = ((B.length : Int) + ρ.args.length + i).toNat := by
          rw [toNat_ofNat8 (by omega)]; simp only [conf]; omega
        rw [this, h2]
        rfl
  | const k =>
    cases k with
    | bool b => exact exec_bool h
    | float f => exact exec_pushFloat h
    | int i =>
      simp only [readVar] at hr ⊢
      by_cases hi : -2 ^ 31 ≤ i.toInt ∧ i.toInt < 2 ^ 31
      case neg => rw [if_neg hi] at hr; exact absurd rfl hr.1
      rw [if_pos hi]
      exact exec_pushInt h (narrow_fits hi)
    | str i => exact exec_pushStr hs h hr.1

end Leaf

/-! ## Operators -/

section Binary
variable {env : Env} {pos fin : Nat} {B : List Value} {ρ : Vars} {T : List Value} {F : List Frame} {w : World} {rv : Value}

theorem arith_add {fl : FloatOps} {a b : Value} (h : Claims (arith fl .add fl.add a b)) :
    arith fl .add fl.add a b = binOp fl .add a b := by
  cases a <;> cases b <;> first
    | exact absurd rfl h.2
    | simp only [arith, binOp, floatArith, Res.bind_ok, intArith_spec .add _ _ (by simp)]
  cases intOp .add _ _ <;> rfl
theorem arith_sub {fl : FloatOps} {a b : Value} (h : Claims (arith fl .sub fl.sub a b)) :
    arith fl .sub fl.sub a b = binOp fl .sub a b := by
  cases a <;> cases b <;> first
    | exact absurd rfl h.2
    | simp only [arith, binOp, floatArith, Res.bind_ok, intArith_spec .sub _ _ (by simp)]
  cases intOp .sub _ _ <;> rfl
theorem arith_mul {fl : FloatOps} {a b : Value} (h : Claims (arith fl .mul fl.mul a b)) :
    arith fl .mul fl.mul a b = binOp fl .mul a b := by
  cases a <;> cases b <;> first
    | exact absurd rfl h.2
    | simp only [arith, binOp, floatArith, Res.bind_ok, intArith_spec .mul _ _ (by simp)]
  cases intOp .mul _ _ <;> rfl
theorem arith_div {fl : FloatOps} {a b : Value} (h : Claims (arith fl .div fl.div a b)) :
    arith fl .div fl.div a b = binOp fl .div a b := by
  cases a <;> cases b <;> first
    | exact absurd rfl h.2
    | simp only [arith, binOp, floatArith, Res.bind_ok, intArith_spec .div _ _ (by simp)]
  cases intOp .div _ _ <;> rfl

theorem bits_eq (op : Op) (h : op = .mod ∨ op = .or ∨ op = .and ∨ op = .shl ∨ op = .shr) {a b : Value}
    (hc : Claims (bits op a b)) : bits op a b = binOpInt op a b := by
  cases a <;> cases b <;> try exact absurd rfl hc.2
  rw [intOnly_spec op _ _ h]
  simp only [bits]
  cases intOp op _ _ <;> rfl

theorem compareNums_eq (fl : FloatOps) (op : Op) (iop fop) (hi : ∀ a b : BitVec 64, iop a.toInt b.toInt = intRel op a b)
    (hf : ∀ a b, fop a b = floatRel fl op a b) {a b : Value} (h : Claims (compareNums fl iop fop a b)) :
    compareNums fl iop fop a b = relOp fl op a b := by
  cases a <;> cases b <;> first | exact absurd rfl h.2 | simp only [compareNums, relOp, hi, hf]

theorem live_eq (h : Heap) (v : Value) : live h v = derefable h v := by cases v <;> rfl

theorem equal_eq {c : Ctx} (hm : env.cmem = c.cmem) {a b : Value} (h : Claims (equal c w a b)) :
    (equal c w a b >>= fun r => .ok (.bool r)) = equOp env w.heap a b := by
  unfold equal at h ⊢
  unfold equOp
  simp only [live_eq, hm] at h ⊢
  split
  · rfl
  · rename_i hn
    rw [if_neg hn] at h
    exact absurd rfl h.2

/-- A binary operator of the machine. -/
theorem exec_bin {a b : Value} {o : Op} (f : Value → Value → Res Value) (h : AtI env.program pos (.op o) fin)
    (ho : execOp env (conf B ρ (T ++ [a] ++ [b]) F w pos rv) pos o = do
        let (b, t) ← pop (conf B ρ (T ++ [a] ++ [b]) F w pos rv)
        let (a, t) ← pop t
        Tiny.push env { t with pc := (pos + 1 : Nat) } (← f a b)) :
    exec env (conf B ρ (T ++ [a] ++ [b]) F w pos rv) = f a b >>= fun v => Tiny.push env (conf B ρ T F w fin rv) v := by
  rw [exec_op h rfl, ho, pop_conf, h.2]
  simp only [Res.bind_ok, pop_conf]
  rfl

theorem exec_binary {c : Ctx} {op : Tok} {o : Op} {a b : Value} (hfl : env.fl = c.fl) (hm : env.cmem = c.cmem)
    (hop : binOpcode op = some o) (h : AtI env.program pos (.op o) fin) (hc : Claims (binary c w op a b)) :
    exec env (conf B ρ (T ++ [a] ++ [b]) F w pos rv) =
      binary c w op a b >>= fun v => Tiny.push env (conf B ρ T F w fin rv) v := by
  cases op <;> cases hop
  case plus => rw [exec_bin (binOp env.fl .add) h rfl, binary, arith_add hc, hfl]
  case minus => rw [exec_bin (binOp env.fl .sub) h rfl, binary, arith_sub hc, hfl]
  case star => rw [exec_bin (binOp env.fl .mul) h rfl, binary, arith_mul hc, hfl]
  case slash => rw [exec_bin (binOp env.fl .div) h rfl, binary, arith_div hc, hfl]
  case percent => rw [exec_bin (binOpInt .mod) h rfl, binary, bits_eq _ (by simp) hc]
  case or => rw [exec_bin (binOpInt .or) h rfl, binary, bits_eq _ (by simp) hc]
  case and => rw [exec_bin (binOpInt .and) h rfl, binary, bits_eq _ (by simp) hc]
  case shiftLeft => rw [exec_bin (binOpInt .shl) h rfl, binary, bits_eq _ (by simp) hc]
  case shiftRight => rw [exec_bin (binOpInt .shr) h rfl, binary, bits_eq _ (by simp) hc]
  case lt =>
    unfold binary at hc ⊢
    rw [exec_bin (relOp env.fl .lt) h rfl,
      compareNums_eq c.fl .lt _ _ (fun a b => by simp [intRel, BitVec.slt]) (fun a b => by simp [floatRel]) hc, hfl]
  case lte =>
    unfold binary at hc ⊢
    rw [exec_bin (relOp env.fl .lte) h rfl,
      compareNums_eq c.fl .lte _ _ (fun a b => by simp [intRel, BitVec.sle]) (fun a b => by simp [floatRel]) hc, hfl]
  case gt =>
    unfold binary at hc ⊢
    rw [exec_bin (relOp env.fl .gt) h rfl,
      compareNums_eq c.fl .gt _ _ (fun a b => by simp [intRel, BitVec.slt]) (fun a b => by simp [floatRel]) hc, hfl]
  case gte =>
    unfold binary at hc ⊢
    rw [exec_bin (relOp env.fl .gte) h rfl,
      compareNums_eq c.fl .gte _ _ (fun a b => by simp [intRel, BitVec.sle]) (fun a b => by simp [floatRel]) hc, hfl]
  case equals =>
    have hc' : Claims (equal c w a b) := by
      unfold binary at hc
      cases he : equal c w a b with
      | ub => rw [he] at hc; exact absurd rfl hc.1
      | limit => rw [he] at hc; exact absurd rfl hc.2
      | _ => exact ⟨by simp, by simp⟩
    rw [exec_bin (equOp env w.heap) h, binary, ← equal_eq hm hc']
    rw [execOp]
    simp only [pop_conf, Res.bind_ok]
    rfl

/-- A unary operator of the machine. -/
theorem exec_un {a : Value} {o : Op} (f : Value → Res Value) (h : AtI env.program pos (.op o) fin)
    (ho : execOp env (conf B ρ (T ++ [a]) F w pos rv) pos o = do
        let (a, t) ← pop (conf B ρ (T ++ [a]) F w pos rv)
        Tiny.push env { t with pc := (pos + 1 : Nat) } (← f a)) :
    exec env (conf B ρ (T ++ [a]) F w pos rv) = f a >>= fun v => Tiny.push env (conf B ρ T F w fin rv) v := by
  rw [exec_op h rfl, ho, pop_conf, h.2]
  simp only [Res.bind_ok]
  rfl

theorem exec_add1 {c : Ctx} {a : Value} {r : Expr} (hr : r.isOne = true)
    (h : AtI env.program pos (.op .add1) fin) (hp : plusOneOnFloat .plus a r = false) 
    (hb : Claims (binary c w .plus a (.int 1#64))) :
    exec env (conf B ρ (T ++ [a]) F w pos rv) =
      binary c w .plus a (.int 1#64) >>= fun v => Tiny.push env (conf B ρ T F w fin rv) v := by
  rw [exec_un (incr .add) h rfl]
  simp only [binary] at hb ⊢
  rw [arith_add hb]
  cases a with
  | int a => rfl
  | float a =>
    cases r <;> simp [Expr.isOne] at hr
    subst hr
    simp [plusOneOnFloat] at hp
  | _ => exact absurd rfl hb.2

theorem exec_sub1 {c : Ctx} {a : Value} {r : Expr} (hr : r.isOne = true)
    (h : AtI env.program pos (.op .sub1) fin) (hp : plusOneOnFloat .minus a r = false) 
    (hb : Claims (binary c w .minus a (.int 1#64))) :
    exec env (conf B ρ (T ++ [a]) F w pos rv) =
      binary c w .minus a (.int 1#64) >>= fun v => Tiny.push env (conf B ρ T F w fin rv) v := by
  rw [exec_un (incr .sub) h rfl]
  simp only [binary] at hb ⊢
  rw [arith_sub hb]
  cases a with
  | int a => rfl
  | float a =>
    cases r <;> simp [Expr.isOne] at hr
    subst hr
    simp [plusOneOnFloat] at hp
  | _ => exact absurd rfl hb.2

theorem truth_eq (v : Value) : truth v = expectBool v := by cases v <;> rfl

theorem exec_not {a : Value} (h : AtI env.program pos (.op .logNot) fin) :
    exec env (conf B ρ (T ++ [a]) F w pos rv) =
      (truth a >>= fun b => .ok (.bool (!b))) >>= fun v => Tiny.push env (conf B ρ T F w fin rv) v := by
  rw [exec_un (fun a => expectBool a >>= fun b => .ok (.bool (!b))) h]
  · simp only [truth_eq]
  · rw [execOp]
    simp only [pop_conf, Res.bind_ok]
    cases expectBool a <;> rfl

theorem toPc_small {n : Nat} (h : n < 2 ^ 31) : toPc n = n := by
  unfold toPc
  rw [BitVec.toInt_eq_toNat_of_lt (by rw [BitVec.toNat_ofNat]; omega), BitVec.toNat_ofNat]
  omega

theorem exec_goto {v : Nat} (h : AtI env.program pos (.goto v) fin) (hv : v < 2 ^ 31) :
    exec env (conf B ρ T F w pos rv) = .ok (conf B ρ T F w v rv) := by
  rw [exec_opV h rfl, execOp, h.2.2]
  simp only [Res.bind_ok, toPc_small hv]
  rfl

theorem exec_gotoz {v : Nat} {a : Value} (h : AtI env.program pos (.gotoz v) fin) (hv : v < 2 ^ 31) :
    exec env (conf B ρ (T ++ [a]) F w pos rv) =
      truth a >>= fun b => .ok (conf B ρ T F w (if b then fin else v) rv) := by
  rw [exec_opV h rfl, execOp, h.2.2]
  simp only [Res.bind_ok, toPc_small hv, pop_conf, truth_eq]
  cases expectBool a with
  | ok b => cases b <;> rfl
  | _ => rfl

/-- Branching on a condition. -/
theorem Sim.gotoz {d m v : Nat} {a : Value} (hF : d ≤ F.length) (h : AtI env.program pos (.gotoz v) fin) (hv : v < 2 ^ 31) :
    Sim env d m (truth a) (fun b u => u = conf B ρ T F w (if b then fin else v) rv) (conf B ρ (T ++ [a]) F w pos rv) :=
  .instr conf_pc (exec_gotoz h hv) fun _ => .inr ⟨_, rfl, rfl⟩

theorem Sim.goto {α : Type} {d m : Nat} {x : Res α} {post : α → Thread → Prop} {v : Nat} (hF : d ≤ F.length) (h : AtI env.program pos (.goto v) fin)
    (hv : v < 2 ^ 31) (k : Sim env d m x post (conf B ρ T F w v rv)) : Sim env d m x post (conf B ρ T F w pos rv) :=
  .step0 conf_pc (exec_goto h hv) k

/-- Branching on a condition, counting the instruction. -/
theorem Sim.gotoz1 {α : Type} {f : Bool → Res α} {post : α → Thread → Prop} {d m v : Nat} {a : Value} (hF : d ≤ F.length)
    (h : AtI env.program pos (.gotoz v) fin) (hv : v < 2 ^ 31)
    (hf : ∀ b, Sim env d (m - 1) (f b) post (conf B ρ T F w (if b then fin else v) rv)) :
    Sim env d m (truth a >>= f) post (conf B ρ (T ++ [a]) F w pos rv) := by
  have e := exec_gotoz (B := B) (ρ := ρ) (T := T) (F := F) (w := w) (rv := rv) (a := a) h hv
  cases ht : truth a with
  | ok b => rw [ht] at e; exact .step conf_pc e (hf b)
  | abort => rw [ht] at e; exact fun _ => .abort conf_pc e trivial
  | timeout => rw [ht] at e; exact fun _ => .hang conf_pc e
  | _ => exact fun _ => trivial

end Binary
end Tiny
