import Verif.Proofs.Machine

/-!
# Running compiled code: the simulation
-/

namespace Tiny
open Spec

/-- The code of a function is at its entry. -/
def FnAt (g : Globals) (env : Env) (fp : Nat → Option Nat) (i : Nat) (fn : Fn) : Prop :=
  ∃ entry p2 p3 fin a, env.functionPcs[i]? = some entry ∧ fn.nlocals ≤ 255 ∧
    (if fn.nlocals = 0 then p2 = entry
      else AtI env.program entry (.opB .pushNullN (UInt8.ofNat fn.nlocals)) p2) ∧
    At g fp env.program p2 (.s 0 0 fn.body a) p3 ∧ AtI env.program p3 (.op .ret) fin ∧ fin ≤ env.program.length

/-- The machine is set up for the program: same functions, foreign functions, strings; code in place. -/
structure Linked (c : Ctx) (env : Env) (fp : Nat → Option Nat) : Prop where
  fl : env.fl = c.fl
  numForeign : env.numForeign = c.numForeign
  foreign : env.foreign = c.foreign
  numStrings : env.numStrings = c.numStrings
  cmem : env.cmem = c.cmem
  stack : env.stackSize ≤ 2 ^ 31
  fewForeign : c.numForeign ≤ 2 ^ 32
  size : env.program.length < 2 ^ 31
  fns : ∀ i fn, c.fns i = some fn → i < 2 ^ 32 ∧ FnAt c.globals env fp i fn

section Struct
variable {env : Env} {pos fin : Nat} {B : List Value} {ρ : Vars} {T : List Value} {F : List Frame} {w : World} {rv : Value}

theorem fieldsOf_eq (w : World) (v : Value) : fieldsOf w v = confused ∨ fieldsOf w v = structFields w.heap v := by
  cases v <;> try exact .inr rfl
  simp only [fieldsOf, structFields, Heap.deref]
  split
  · simp only [Res.bind_ok]
    cases w.heap.obj _ <;> first | exact .inl rfl | exact .inr rfl
  · exact .inl rfl

theorem fieldPos_eq {c : Ctx} {tag : Option Tag} {field : Name} {i : Nat} (h : fieldIdx c.globals tag field = some i) :
    fieldPos c tag field = some i ∧ i ≤ 255 := by
  unfold fieldIdx at h
  unfold fieldPos
  split at h
  · next hn =>
    split at h
    · cases h
    · next n _ fields hs =>
      simp only [Option.ite_none_right_eq_some, Option.some.injEq] at h
      obtain ⟨⟨h1, h2⟩, rfl⟩ := h
      refine ⟨?_, h2⟩
      simp only [hn, hs]
      rw [List.idxOf?_eq_some_iff]
      have := List.findIdx_getElem (w := h1)
      simp only [decide_eq_true_eq] at this
      refine ⟨by simpa using h1, by simpa using this, fun j hj => ?_⟩
      have := List.not_of_lt_findIdx hj
      simpa using this
  · cases h

theorem exec_structGet {c : Ctx} {tag : Option Tag} {field : Name} {i : Nat} {v : Value}
    (hi : fieldIdx c.globals tag field = some i) (h : AtI env.program pos (.opB .structGet (UInt8.ofNat i)) fin)
    (hc : Claims (getField c w tag field v)) :
    exec env (conf B ρ (T ++ [v]) F w pos rv) =
      getField c w tag field v >>= fun v => Tiny.push env (conf B ρ T F w fin rv) v := by
  obtain ⟨h1, h2⟩ := fieldPos_eq hi
  rw [exec_opB h rfl, execOp, readByte_some h.2.1, h.2.2]
  unfold getField at hc ⊢
  simp only [Res.bind_ok, toNat_ofNat8 h2, pop_conf, h1, known] at hc ⊢
  rcases fieldsOf_eq w v with e | e
  · rw [e] at hc; exact absurd rfl hc.2
  rw [e]
  simp only [conf]
  cases structFields w.heap v with
  | ok x =>
    obtain ⟨o, fs⟩ := x
    simp only [Res.bind_ok]
    cases fs[i]? <;> rfl
  | _ => rfl

theorem exec_structSet {c : Ctx} {tag : Option Tag} {field : Name} {i : Nat} {v x : Value}
    (hi : fieldIdx c.globals tag field = some i) (h : AtI env.program pos (.opB .structSet (UInt8.ofNat i)) fin)
    (hc : Claims (setField c w tag field v x)) :
    exec env (conf B ρ (T ++ [x] ++ [v]) F w pos rv) =
      setField c w tag field v x >>= fun w => .ok (conf B ρ T F w fin rv) := by
  obtain ⟨h1, h2⟩ := fieldPos_eq hi
  rw [exec_opB h rfl, execOp, readByte_some h.2.1, h.2.2]
  unfold setField at hc ⊢
  simp only [Res.bind_ok, toNat_ofNat8 h2, pop_conf, h1, known] at hc ⊢
  rcases fieldsOf_eq w v with e | e
  · rw [e] at hc; exact absurd rfl hc.2
  rw [e]
  simp only [conf]
  cases structFields w.heap v with
  | ok y =>
    obtain ⟨o, fs⟩ := y
    simp only [Res.bind_ok]
    split <;> rfl
  | _ => rfl

theorem sim_construct {d m n : Nat} {vs : List Value} (h : AtI env.program pos (.opB .pushStruct (UInt8.ofNat n)) fin)
    (hn255 : n ≤ 255) (hF : d ≤ F.length) :
    Sim env d m (construct w n vs) (EPost B ρ T F fin) (conf B ρ (T ++ vs) F w pos rv) := by
  unfold construct
  by_cases hn : vs.length ≠ n
  · rw [if_pos hn]; exact .confused
  rw [if_neg hn]
  have hl : vs.length = n := by omega
  have ex := exec_opB (t := conf B ρ (T ++ vs) F w pos rv) h rfl
  rw [execOp, readByte_some h.2.1] at ex
  simp only [Res.bind_ok, toNat_ofNat8 (show n ≤ 255 by omega)] at ex
  by_cases h0 : n = 0
  · rw [if_pos h0]
    intro _
    refine .abort conf_pc ?_ trivial
    rw [ex, h0]; rfl
  · rw [if_neg h0]
    have hst : (conf B ρ (T ++ vs) F w pos rv).stack = (B ++ ρ.args ++ ρ.locals ++ T) ++ vs := by simp [conf]
    have hle : n ≤ (conf B ρ (T ++ vs) F w pos rv).stack.length := by rw [hst]; simp; omega
    have hlen : (conf B ρ (T ++ vs) F w pos rv).stack.length - n = (B ++ ρ.args ++ ρ.locals ++ T).length := by
      rw [hst]; simp; omega
    rw [if_pos hle, hlen, hst, List.drop_left, List.take_left] at ex
    have hp : decide (0 < n) = true := by simp; omega
    rw [hp] at ex
    simp only [Res.assert, if_true, Res.bind_ok] at ex
    rw [← h.2.2] at ex
    rcases push_conf (env := env) (B := B) (ρ := ρ) (T := T) (F := F) (w := { w with heap := (w.heap.alloc (.struct vs)).2 })
      (pc := fin) (rv := rv) (.struct (w.heap.alloc (.struct vs)).1) with hh | hh
    · exact .limit conf_pc (ex.trans hh)
    · exact .step conf_pc (ex.trans hh) (.ok ⟨rv, rfl⟩)

end Struct

/-! ## Assignment to variables -/

section Set
variable {env : Env} {pos fin : Nat} {B : List Value} {ρ : Vars} {T : List Value} {F : List Frame} {w : World} {rv : Value}

theorem Vars.set_args {ρ ρ' : Vars} {i : Int} {v : Value} (h : ρ.set i v = some ρ') : ρ'.args.length = ρ.args.length := by
  unfold Vars.set at h
  split at h
  · split at h
    · cases h; rfl
    · cases h
  · split at h
    · cases h; simp
    · cases h

theorem exec_setLocal {i : Int} {v : Value} {ρ' : Vars} (hsmall : env.stackSize ≤ 2 ^ 31)
    (hl : (conf B ρ [v] F w pos rv).stack.length ≤ env.stackSize) (hs : ρ.set i v = some ρ')
    (h : AtI env.program pos (.opV .setLocal 4 (indexBits i)) fin) :
    exec env (conf B ρ [v] F w pos rv) = .ok (conf B ρ' [] F w fin rv) := by
  rw [exec_opV h rfl, execOp, h.2.2]
  have hp := pop_conf (B := B) (ρ := ρ) (T := []) (F := F) (w := w) (pc := pos) (rv := rv) (v := v)
  simp only [List.nil_append] at hp
  simp only [Res.bind_ok, hp]
  simp only [conf, List.length_append, List.append_nil] at hl ⊢
  unfold localSlot
  unfold Vars.set at hs
  by_cases h0 : 0 ≤ i
  · rw [if_pos h0] at hs
    by_cases h1 : i.toNat < ρ.locals.length
    case neg => rw [if_neg h1] at hs; cases hs
    rw [if_pos h1] at hs
    cases hs
    obtain ⟨n, rfl⟩ := Int.eq_ofNat_of_zero_le h0
    simp only [Int.toNat_natCast] at h1 ⊢
    rw [indexBits_nat (by omega)]
    have : (B.length + ρ.args.length + n) % 2 ^ 32 = (B ++ ρ.args).length + n := by simp; omega
    simp only [this]
    rw [if_pos (by simp; omega), List.set_append_right _ _ (by omega)]
    simp
  · rw [if_neg h0] at hs
    by_cases h1 : 0 ≤ (ρ.args.length : Int) + i
    case neg => rw [if_neg h1] at hs; cases hs
    rw [if_pos h1] at hs
    cases hs
    have hb := indexBits_neg (i := i) (by omega) (by omega)
    have : (B.length + ρ.args.length + indexBits i) % 2 ^ 32 = B.length + ((ρ.args.length : Int) + i).toNat := by omega
    simp only [this]
    rw [if_pos (by omega), List.append_assoc, List.set_append_right _ _ (by omega), List.set_append_left _ _ (by omega)]
    simp

theorem exec_setGlobal {i : Nat} {v : Value} (hi : i < w.globals.length) (hi' : i < 2 ^ 31)
    (h : AtI env.program pos (.opV .set 4 (indexBits i)) fin) :
    exec env (conf B ρ [v] F w pos rv) = .ok (conf B ρ [] F { w with globals := w.globals.set i v } fin rv) := by
  rw [exec_opV h rfl, execOp, h.2.2]
  have hp := pop_conf (B := B) (ρ := ρ) (T := []) (F := F) (w := w) (pc := pos) (rv := rv) (v := v)
  simp only [List.nil_append] at hp
  simp only [Res.bind_ok, hp, indexBits_nat hi']
  simp only [conf, hi, if_true]

end Set

/-! ## The simulation, by induction on the fuel -/

/-- What a statement does. -/
def SPost (B : List Value) (na : Nat) (F : List Frame) (b c fin : Nat) (a : Outcome × Vars × World) (u : Thread) : Prop :=
  match a.1 with
  | .normal => a.2.1.args.length = na ∧ ∃ rv, u = conf B a.2.1 [] F a.2.2 fin rv
  | .brk => a.2.1.args.length = na ∧ ∃ rv, u = conf B a.2.1 [] F a.2.2 b rv
  | .cont => a.2.1.args.length = na ∧ ∃ rv, u = conf B a.2.1 [] F a.2.2 c rv
  | .ret v => ∀ F0 f, F = F0 ++ [f] → f.nargs = na → u = ⟨f.pc, f.fp, B, F0, v, a.2.2⟩

/-- Everything the simulation says, for a given fuel. -/
structure SimAll (c : Ctx) (env : Env) (fp : Nat → Option Nat) (D : Nat) (n : Nat) : Prop where
  e : ∀ {d m e pos fin B ρ T F w rv}, d ≤ F.length → At c.globals fp env.program pos (.e e) fin → fin < 2 ^ 31 →
    (m = 0 ∨ 300 * sizeOf e + m * (D + 1) < n) →
    Sim env d m (evalE c n e ρ w) (EPost B ρ T F fin) (conf B ρ T F w pos rv)
  es : ∀ {d m es pos fin B ρ T F w rv}, d ≤ F.length → At c.globals fp env.program pos (.es es) fin → fin < 2 ^ 31 →
    (m = 0 ∨ 300 * sizeOf es + m * (D + 1) < n) →
    Sim env d m (evalList c n es ρ w)
      (fun a u => a.1.length = es.length ∧ ∃ rv, u = conf B ρ (T ++ a.1) F a.2 fin rv) (conf B ρ T F w pos rv)
  fields : ∀ {d m args fs pos fin B ρ T F w rv}, d ≤ F.length → At c.globals fp env.program pos (.fields args fs) fin → fin < 2 ^ 31 →
    (m = 0 ∨ 300 * sizeOf args + fs.length + m * (D + 1) < n) →
    Sim env d m (evalNamed c n args fs ρ w)
      (fun a u => ∃ rv, u = conf B ρ (T ++ a.1) F a.2 fin rv) (conf B ρ T F w pos rv)
  call : ∀ {d m f vs pos fin B ρ T F w rv}, d ≤ F.length → AtI env.program pos (callI vs.length f) fin → vs.length ≤ 255 →
    (m = 0 ∨ m * (D + 1) < n) →
    Sim env d m (call c n f vs w) (fun a u => u = conf B ρ T F a.2 fin a.1) (conf B ρ (T ++ vs) F w pos rv)
  rhs : ∀ {d m op lhs rhs pos fin B ρ T F w rv}, d ≤ F.length → At c.globals fp env.program pos (.rhs op lhs rhs) fin → fin < 2 ^ 31 →
    (m = 0 ∨ 300 * (sizeOf lhs + sizeOf rhs) + 1 + m * (D + 1) < n) →
    Sim env d m (evalRhs c n op lhs rhs ρ w) (EPost B ρ T F fin) (conf B ρ T F w pos rv)
  assign : ∀ {d m op lhs rhs pos b c' fin B ρ F w rv}, d ≤ F.length →
    At c.globals fp env.program pos (.s b c' (.assign op lhs rhs) (.assign op lhs rhs)) fin → fin < 2 ^ 31 →
    (m = 0 ∨ 300 * (sizeOf lhs + sizeOf rhs) + 2 + m * (D + 1) < n) →
    Sim env d m (execAssign c n op lhs rhs ρ w)
      (fun a u => a.1.args.length = ρ.args.length ∧ ∃ rv, u = conf B a.1 [] F a.2 fin rv) (conf B ρ [] F w pos rv)
  s : ∀ {d m s a pos b c' fin B ρ F w rv}, d ≤ F.length → At c.globals fp env.program pos (.s b c' s a) fin → fin < 2 ^ 31 →
    b < 2 ^ 31 → c' < 2 ^ 31 →
    (m = 0 ∨ 300 * sizeOf s + m * (D + 1) < n) →
    Sim env d m (execS c n s ρ w) (SPost B ρ.args.length F b c' fin) (conf B ρ [] F w pos rv)
  ss : ∀ {d m s a pos b c' fin B ρ F w rv}, d ≤ F.length → At c.globals fp env.program pos (.ss b c' s a) fin → fin < 2 ^ 31 →
    b < 2 ^ 31 → c' < 2 ^ 31 →
    (m = 0 ∨ 300 * sizeOf s + m * (D + 1) < n) →
    Sim env d m (execSs c n s ρ w) (SPost B ρ.args.length F b c' fin) (conf B ρ [] F w pos rv)
  loopW : ∀ {d m cond body a pos b c' fin B ρ F w rv}, d ≤ F.length →
    At c.globals fp env.program pos (.s b c' (.while cond body) a) fin → fin < 2 ^ 31 →
    (m = 0 ∨ 300 * (sizeOf cond + sizeOf body) + 1 + m * (D + 1) < n) →
    Sim env d m (execLoop c n cond none body ρ w) (SPost B ρ.args.length F b c' fin) (conf B ρ [] F w pos rv)
  loopF : ∀ {d m cond step body as a p0 p1 p2 p3 p4 b c' fin B ρ F w rv}, d ≤ F.length →
    At c.globals fp env.program p0 (.e cond) p1 → AtI env.program p1 (.gotoz fin) p2 →
    At c.globals fp env.program p2 (.s fin p3 body a) p3 → At c.globals fp env.program p3 (.s 0 0 step as) p4 →
    AtI env.program p4 (.goto p0) fin → fin < 2 ^ 31 →
    (m = 0 ∨ 300 * (sizeOf cond + sizeOf step + sizeOf body) + 1 + m * (D + 1) < n) →
    Sim env d m (execLoop c n cond (some step) body ρ w) (SPost B ρ.args.length F b c' fin) (conf B ρ [] F w p0 rv)

theorem simAll_zero (c : Ctx) (env : Env) (fp : Nat → Option Nat) (D : Nat) : SimAll c env fp D 0 where
  e := fun _ _ _ h => by unfold evalE; exact .timeout (by omega)
  es := fun _ _ _ h => by unfold evalList; exact .timeout (by omega)
  fields := fun _ _ _ h => by unfold evalNamed; exact .timeout (by omega)
  call := fun _ _ _ h => by unfold Spec.call; exact .timeout (by omega)
  rhs := fun _ _ _ h => by unfold evalRhs; exact .timeout (by omega)
  assign := fun _ _ _ h => by unfold execAssign; exact .timeout (by omega)
  s := fun _ _ _ _ _ h => by unfold execS; exact .timeout (by omega)
  ss := fun _ _ _ _ _ h => by unfold execSs; exact .timeout (by omega)
  loopW := fun _ _ _ h => by unfold execLoop; exact .timeout (by omega)
  loopF := fun _ _ _ _ _ _ _ h => by unfold execLoop; exact .timeout (by omega)

/-- Unfold the sizes of syntax trees. -/
macro "sz " h:ident : tactic => `(tactic| simp only [Expr.paren.sizeOf_spec, Expr.cast.sizeOf_spec, Expr.index.sizeOf_spec,
  Expr.dot.sizeOf_spec, Expr.call.sizeOf_spec, Expr.ctor.sizeOf_spec, Expr.bin.sizeOf_spec, Expr.un.sizeOf_spec,
  Expr.ite.sizeOf_spec, List.cons.sizeOf_spec, Option.some.sizeOf_spec, Stmt.node.sizeOf_spec, Stmt.call.sizeOf_spec,
  Stmt.block.sizeOf_spec, Stmt.assign.sizeOf_spec, Stmt.ifThen.sizeOf_spec, Stmt.ifElse.sizeOf_spec,
  Stmt.while.sizeOf_spec, Stmt.for.sizeOf_spec, Stmt.ret.sizeOf_spec, List.length_cons] at $h:ident)

theorem zip_size : ∀ (a : List Name) (b : List Expr), sizeOf (a.zip b) ≤ sizeOf a + sizeOf b
  | [], b => by simp
  | a :: as, [] => by simp
  | a :: as, b :: bs => by
    have := zip_size as bs
    simp only [List.zip_cons_cons, List.cons.sizeOf_spec, Prod.mk.sizeOf_spec]
    omega

theorem find_size {args : List (Name × Expr)} {p : Name × Expr → Bool} {n : Name} {e : Expr}
    (h : args.find? p = some (n, e)) : sizeOf e < sizeOf args := by
  have := List.sizeOf_lt_of_mem (List.mem_of_find?_eq_some h)
  simp only [Prod.mk.sizeOf_spec] at this
  omega

/-- One step fewer. -/
theorem less_fuel {m D X n : Nat} (h : m = 0 ∨ X + m * (D + 1) < n + 1) : m - 1 = 0 ∨ X + (m - 1) * (D + 1) + D < n := by
  cases m with
  | zero => left; rfl
  | succ m =>
    rw [Nat.succ_mul] at h
    simp only [Nat.add_sub_cancel]
    omega

section Steps
variable {c : Ctx} {env : Env} {fp : Nat → Option Nat} {D d m n : Nat}

/-- Conditions on a result being `ub` are free. -/
theorem Sim.unless_ub {α : Type} {x : Res α} {post : α → Thread → Prop} {t : Thread} (h : Claims x → Sim env d m x post t) :
    Sim env d m x post t := by
  cases x with
  | ub => exact .ub
  | limit => exact .confused
  | _ => exact h ⟨by simp, by simp⟩

theorem Sim.andThen {α : Type} {x : Res α} {post post' : α → Thread → Prop} {t : Thread} (h : Sim env d m x post t)
    (hf : ∀ a u, post a u → Sim env d m (.ok a) post' u) : Sim env d m x post' t := by
  have := h.bind (f := fun a => .ok a) hf
  exact cast (by cases x <;> rfl) this

theorem Sim.push' {x : Res Value} {t : Thread} {B ρ T F w fin rv} (hpc : Ready d t)
    (e : Claims x → t.stack.length ≤ env.stackSize →
      exec env t = x >>= fun v => Tiny.push env (conf B ρ T F w fin rv) v) :
    Sim env d m (x >>= fun v => .ok (v, w)) (EPost B ρ T F fin) t := by
  intro hl
  cases x with
  | ub => exact trivial
  | limit => exact trivial
  | _ => exact Sim.push (m := m) hpc (e ⟨by simp, by simp⟩ hl) hl

theorem Sim.pushOk {v : Value} {t : Thread} {B ρ T F w fin rv} (hpc : Ready d t)
    (e : exec env t = Tiny.push env (conf B ρ T F w fin rv) v) :
    Sim env d m (.ok (v, w)) (EPost B ρ T F fin) t := Sim.push (x := .ok v) hpc e

theorem evalE_bin {op : Tok} {l r : Expr} {ρ : Vars} {w : World} (h1 : op ≠ .logAnd) (h2 : op ≠ .logOr) :
    evalE c (n + 1) (.bin op l r) ρ w = (do
      let (a, w) ← evalE c n l ρ w
      let (b, w) ← evalE c n r ρ w
      if plusOneOnFloat op a r then .ub
      else .ok (← binary c w op a b, w)) := by
  cases op <;> first | rfl | exact absurd rfl h1 | exact absurd rfl h2

theorem evalE_one {r : Expr} {ρ : Vars} {w : World} (h : r.isOne = true) :
    (evalE c n r ρ w = .timeout ∧ n = 0) ∨ evalE c n r ρ w = .ok (.int 1#64, w) := by
  cases r <;> simp [Expr.isOne] at h
  subst h
  cases n with
  | zero => left; exact ⟨rfl, rfl⟩
  | succ n => right; rfl

theorem simE (ih : SimAll c env fp D n) (L : Linked c env fp) {e pos fin B ρ T F w rv}
    (hF : d ≤ F.length) (h : At c.globals fp env.program pos (.e e) fin) (hf : fin < 2 ^ 31)
    (hm : m = 0 ∨ 300 * sizeOf e + m * (D + 1) < n + 1) :
    Sim env d m (evalE c (n + 1) e ρ w) (EPost B ρ T F fin) (conf B ρ T F w pos rv) := by
  cases h with
  | leaf h1 h2 =>
    try sz hm
    cases e <;> simp only [leafI, reduceCtorEq, Option.some.injEq] at h1
    case null => subst h1; exact .pushOk conf_pc (exec_null h2)
    case bool => subst h1; exact .pushOk conf_pc (exec_bool h2)
    case int => subst h1; exact .pushOk conf_pc (exec_pushInt h2 (narrow_signExtend _))
    case char => subst h1; exact .pushOk conf_pc (exec_pushInt h2 (narrow_signExtend _))
    case float => subst h1; exact .pushOk conf_pc (exec_pushFloat h2)
    case str =>
      subst h1
      exact .push' (x := strConst c _) conf_pc fun hu _ => exec_pushStr L.numStrings h2 hu.1
    case id sym =>
      cases sym with
      | none => simp at h1
      | some v =>
        simp only [Option.some.injEq] at h1
        subst h1
        exact .push' (x := readVar c ρ w v) conf_pc fun hu hl => exec_getVar L.numStrings L.stack hl h2 hu
  | paren h =>
    try sz hm
    exact ih.e hF h hf (by omega)
  | cast h =>
    try sz hm
    exact ih.e hF h hf (by omega)
  | index h1 h2 h3 h4 =>
    try sz hm
    have := h1.le; have := h2.le; have := h3.lt; have := h4.lt
    refine Sim.bind (ih.e hF h1 (by omega) (by omega)) ?_
    rintro ⟨a, w1⟩ _ ⟨rv1, rfl⟩
    refine Sim.bind (ih.e hF h2 (by omega) (by omega)) ?_
    rintro ⟨i, w2⟩ _ ⟨rv2, rfl⟩
    simp only
    have q := ih.call hF (m := m) (vs := [a, i]) (T := T) (w := w2) (rv := rv2) (B := B) (ρ := ρ) (F := F) h3 (by simp) (by omega)
    rw [show T ++ [a, i] = T ++ [a] ++ [i] by simp] at q
    refine q.andThen ?_
    · rintro ⟨v, w3⟩ _ rfl
      exact .pushOk conf_pc (by rw [exec_op h4 rfl, h4.2]; rfl)
  | dot h1 h2 h3 =>
    try sz hm
    have := h2.le; have := h3.lt
    refine Sim.bind (ih.e hF h2 (by omega) (by omega)) ?_
    rintro ⟨v, w1⟩ _ ⟨rv1, rfl⟩
    exact .push' (x := getField c w1 _ _ v) conf_pc fun hu _ => exec_structGet h1 h3 hu
  | call h1 h2 h3 h4 h5 =>
    try sz hm
    have := h1.le; have := h4.lt; have := h5.lt
    refine Sim.bind (ih.es hF h1 (by omega) (by omega)) ?_
    rintro ⟨vs, w1⟩ _ ⟨hl, rv1, rfl⟩
    simp only at hl
    simp only [h2]
    rw [← hl] at h4
    have q := ih.call hF (m := m) (vs := vs) (T := T) (w := w1) (rv := rv1) (B := B) (ρ := ρ) (F := F) h4 (by omega) (by omega)
    refine q.andThen ?_
    · rintro ⟨v, w3⟩ _ rfl
      exact .pushOk conf_pc (by rw [exec_op h5 rfl, h5.2]; rfl)
  | ctor h1 h2 h3 =>
    try sz hm
    have := h2.le; have := h3.lt
    simp only [evalE, h1]
    split
    · exact .ub
    refine Sim.bind (ih.es hF h2 (by omega) (by omega)) ?_
    rintro ⟨vs, w1⟩ _ ⟨hl, rv1, rfl⟩
    exact sim_construct h3 (by omega) hF
  | ctorNamed h1 h2 h3 =>
    try sz hm
    have := h2.le; have := h3.lt
    simp only [evalE, h1]
    split
    · exact .ub
    next h255 =>
    refine Sim.bind (ih.fields hF h2 (by omega) (by rw [List.length_map]; exact hm.imp id fun h => by have := zip_size ‹_› ‹_›; omega)) ?_
    rintro ⟨vs, w1⟩ _ ⟨rv1, rfl⟩
    exact sim_construct h3 (by omega) hF
  | @add1 _ _ _ l r hr h1 h2 =>
    try sz hm
    have := h1.le; have := h2.lt
    refine Sim.bind (ih.e hF h1 (by omega) (by omega)) ?_
    rintro ⟨a, w1⟩ _ ⟨rv1, rfl⟩
    simp only
    rcases evalE_one (c := c) (n := n) (ρ := ρ) (w := w1) hr with ⟨e, e0⟩ | e
    · rw [e]; exact .timeout (by omega)
    · rw [e]
      simp only [Res.bind_ok]
      by_cases hp : plusOneOnFloat .plus a r = true
      · rw [if_pos hp]; exact .ub
      · rw [if_neg hp]
        exact .push' (x := binary c w1 .plus a (.int 1#64)) conf_pc
          fun hu _ => exec_add1 hr h2 (by simpa using hp) hu
  | @sub1 _ _ _ l r hr h1 h2 =>
    try sz hm
    have := h1.le; have := h2.lt
    refine Sim.bind (ih.e hF h1 (by omega) (by omega)) ?_
    rintro ⟨a, w1⟩ _ ⟨rv1, rfl⟩
    simp only
    rcases evalE_one (c := c) (n := n) (ρ := ρ) (w := w1) hr with ⟨e, e0⟩ | e
    · rw [e]; exact .timeout (by omega)
    · rw [e]
      simp only [Res.bind_ok]
      by_cases hp : plusOneOnFloat .minus a r = true
      · rw [if_pos hp]; exact .ub
      · rw [if_neg hp]
        exact .push' (x := binary c w1 .minus a (.int 1#64)) conf_pc
          fun hu _ => exec_sub1 hr h2 (by simpa using hp) hu
  | @bin _ _ _ _ op l r o hop hn h1 h2 h3 =>
    try sz hm
    have := h1.le; have := h2.le; have := h3.lt
    rw [evalE_bin (by rintro rfl; cases hop) (by rintro rfl; cases hop)]
    refine Sim.bind (ih.e hF h1 (by omega) (by omega)) ?_
    rintro ⟨a, w1⟩ _ ⟨rv1, rfl⟩
    refine Sim.bind (ih.e hF h2 (by omega) (by omega)) ?_
    rintro ⟨b, w2⟩ _ ⟨rv2, rfl⟩
    simp only
    split
    · exact .ub
    · exact .push' (x := binary c w2 op a b) conf_pc fun hu _ => exec_binary L.fl L.cmem hop h3 hu
  | @ne _ _ _ _ _ l r h1 h2 h3 h4 =>
    try sz hm
    have := h1.le; have := h2.le; have := h3.lt; have := h4.lt
    rw [evalE_bin (by simp) (by simp)]
    refine Sim.bind (ih.e hF h1 (by omega) (by omega)) ?_
    rintro ⟨a, w1⟩ _ ⟨rv1, rfl⟩
    refine Sim.bind (ih.e hF h2 (by omega) (by omega)) ?_
    rintro ⟨b, w2⟩ _ ⟨rv2, rfl⟩
    simp only
    rw [if_neg (by simp [plusOneOnFloat])]
    have e3 := exec_bin (env := env) (B := B) (ρ := ρ) (T := T) (F := F) (w := w2) (rv := rv2) (a := a) (b := b)
      (equOp env w2.heap) h3 (by rw [execOp]; simp only [pop_conf, Res.bind_ok]; rfl)
    simp only [binary]
    have q : Sim env d m (equal c w2 a b) (fun r u => u = conf B ρ (T ++ [.bool r]) F w2 _ rv2) _ :=
      .unless_ub fun hu => .instr conf_pc (k := fun r => Tiny.push env (conf B ρ T F w2 _ rv2) (.bool r))
        (by rw [e3, ← equal_eq L.cmem hu]; cases equal c w2 a b <;> rfl) (fun r => (push_conf _).imp id fun h => ⟨_, h, rfl⟩)
    have := q.bind (f := fun r => .ok (Value.bool (!r), w2)) (post' := EPost B ρ T F fin) ?_
    · exact cast (by cases equal c w2 a b <;> rfl) this
    · rintro r _ rfl
      refine .pushOk conf_pc (B := B) (ρ := ρ) (T := T) (F := F) (rv := rv2) ?_
      rw [exec_not h4]; rfl
  | and h1 h2 h3 h4 h5 =>
    try sz hm
    have := h1.le; have := h2.lt; have := h3.le; have := h4.lt; have := h5.lt
    simp only [evalE]
    refine Sim.bind (ih.e hF h1 (by omega) (by omega)) ?_
    rintro ⟨a, w1⟩ _ ⟨rv1, rfl⟩
    refine Sim.bind (Sim.gotoz hF h2 (by omega)) ?_
    rintro b _ rfl
    cases b with
    | true =>
      simp only [if_true]
      refine (ih.e hF (T := T) (B := B) (ρ := ρ) (F := F) (w := w1) (rv := rv1) h3 (by omega) (by omega)).andThen ?_
      · rintro ⟨v, w2⟩ _ ⟨rv2, rfl⟩
        exact .goto hF h4 (by omega) (.ok ⟨rv2, rfl⟩)
    | false =>
      simp only [Bool.false_eq_true, if_false]
      exact .pushOk conf_pc (exec_bool (b := false) h5)
  | or h1 h2 h3 h4 h5 =>
    try sz hm
    have := h1.le; have := h2.lt; have := h3.lt; have := h4.lt; have := h5.le
    simp only [evalE]
    refine Sim.bind (ih.e hF h1 (by omega) (by omega)) ?_
    rintro ⟨a, w1⟩ _ ⟨rv1, rfl⟩
    refine Sim.bind (Sim.gotoz hF h2 (by omega)) ?_
    rintro b _ rfl
    cases b with
    | true =>
      simp only [if_true]
      have q := (Sim.pushOk (m := m) (T := T) (B := B) (ρ := ρ) (F := F) (w := w1) (rv := rv1) conf_pc
        (exec_bool (b := true) h3)).bind (f := fun x => .ok x) (post' := EPost B ρ T F fin) ?_
      · exact q
      · rintro ⟨v, w2⟩ _ ⟨rv2, rfl⟩
        exact .goto hF h4 (by omega) (.ok ⟨rv2, rfl⟩)
    | false =>
      simp only [Bool.false_eq_true, if_false]
      exact ih.e hF h5 hf (by omega)
  | @negInt _ _ i hi h1 =>
    try sz hm
    cases n with
    | zero => exact .timeout (by omega)
    | succ n =>
      have e : evalE c (n + 1 + 1) (.un .minus (.int i)) ρ w = .ok (.int ((-i).signExtend 64), w) := by
        simp only [evalE, Res.bind_ok, negate, arith, intOp]
        have hb : (-i).toInt = - i.toInt := BitVec.toInt_neg_of_ne_intMin hi
        have h1 := BitVec.le_toInt i
        have h2 := BitVec.toInt_lt (x := i)
        rw [BitVec.toInt_signExtend_of_le (by omega)]
        have : i.toInt * (-1#64).toInt = - i.toInt := by
          rw [show (-1#64).toInt = -1 by decide]; omega
        rw [this, if_pos (by unfold Fits64; simp at h1 h2; omega)]
        simp only [ofOption, Res.bind_ok]
        congr 3
        rw [← hb]
        symm
        exact eq_ofInt (BitVec.toInt_signExtend_of_le (by omega))
      rw [e]
      refine .pushOk (B := B) (ρ := ρ) (T := T) (F := F) (rv := rv) conf_pc ?_
      rw [exec_opV h1 rfl, execOp, h1.2.2]
      simp only [Res.bind_ok, BitVec.ofNat_toNat, BitVec.setWidth_eq, narrow_signExtend]
      rfl
  | @neg _ p1 p2 _ _ he h1 h2 h3 =>
    try sz hm
    have := h1.le; have := h2.lt; have := h3.lt
    simp only [evalE]
    refine Sim.bind (ih.e hF h1 (by omega) (by omega)) ?_
    rintro ⟨a, w1⟩ _ ⟨rv1, rfl⟩
    have e2 : exec env (conf B ρ (T ++ [a]) F w1 p1 rv1) = Tiny.push env (conf B ρ (T ++ [a]) F w1 p2 rv1) (.int (-1#64)) := by
      rw [exec_opV h2 rfl, execOp, h2.2.2]
      simp only [Res.bind_ok, BitVec.ofNat_toNat, BitVec.setWidth_eq]
      rfl
    rcases push_conf (env := env) (B := B) (ρ := ρ) (T := T ++ [a]) (F := F) (w := w1) (pc := p2) (rv := rv1)
      (.int (-1#64)) with hh | hh
    · exact .limit conf_pc (e2.trans hh)
    · refine .step conf_pc (e2.trans hh) (.push' (x := negate c a) (rv := rv1) conf_pc fun hu _ => ?_)
      exact exec_binary (op := .star) L.fl L.cmem rfl h3 hu
  | bang h1 h2 =>
    try sz hm
    have := h1.le; have := h2.lt
    simp only [evalE]
    refine Sim.bind (ih.e hF h1 (by omega) (by omega)) ?_
    rintro ⟨a, w1⟩ _ ⟨rv1, rfl⟩
    have := Sim.push (env := env) (m := m) (B := B) (ρ := ρ) (T := T) (F := F) (w := w1) (rv := rv1) conf_pc (exec_not (a := a) h2)
    exact cast (by cases truth a <;> rfl) this
  | ite h1 h2 h3 h4 h5 =>
    try sz hm
    have := h1.le; have := h2.lt; have := h3.le; have := h4.lt; have := h5.le
    simp only [evalE]
    refine Sim.bind (ih.e hF h1 (by omega) (by omega)) ?_
    rintro ⟨a, w1⟩ _ ⟨rv1, rfl⟩
    refine Sim.bind (Sim.gotoz hF h2 (by omega)) ?_
    rintro b _ rfl
    cases b with
    | true =>
      simp only [if_true]
      refine (ih.e hF (T := T) (B := B) (ρ := ρ) (F := F) (w := w1) (rv := rv1) h3 (by omega) (by omega)).andThen ?_
      · rintro ⟨v, w2⟩ _ ⟨rv2, rfl⟩
        exact .goto hF h4 (by omega) (.ok ⟨rv2, rfl⟩)
    | false =>
      simp only [Bool.false_eq_true, if_false]
      exact ih.e hF h5 hf (by omega)

theorem simEs (ih : SimAll c env fp D n) {es pos fin B ρ T F w rv}
    (hF : d ≤ F.length) (h : At c.globals fp env.program pos (.es es) fin) (hf : fin < 2 ^ 31)
    (hm : m = 0 ∨ 300 * sizeOf es + m * (D + 1) < n + 1) :
    Sim env d m (evalList c (n + 1) es ρ w)
      (fun a u => a.1.length = es.length ∧ ∃ rv, u = conf B ρ (T ++ a.1) F a.2 fin rv) (conf B ρ T F w pos rv) := by
  cases h with
  | esNil =>
    try sz hm
    exact .ok ⟨rfl, rv, by simp⟩
  | esCons h1 h2 =>
    try sz hm
    have := h1.le; have := h2.le
    simp only [evalList]
    refine Sim.bind (ih.e hF h1 (by omega) (by omega)) ?_
    rintro ⟨v, w1⟩ _ ⟨rv1, rfl⟩
    refine Sim.bind (ih.es hF h2 hf (by omega)) ?_
    rintro ⟨vs, w2⟩ _ ⟨hl, rv2, rfl⟩
    simp only at hl
    exact .ok ⟨by simp [hl], rv2, by simp⟩

theorem simFields (ih : SimAll c env fp D n) {args fs pos fin B ρ T F w rv}
    (hF : d ≤ F.length) (h : At c.globals fp env.program pos (.fields args fs) fin) (hf : fin < 2 ^ 31)
    (hm : m = 0 ∨ 300 * sizeOf args + fs.length + m * (D + 1) < n + 1) :
    Sim env d m (evalNamed c (n + 1) args fs ρ w)
      (fun a u => ∃ rv, u = conf B ρ (T ++ a.1) F a.2 fin rv) (conf B ρ T F w pos rv) := by
  cases h with
  | fieldsNil =>
    try sz hm
    exact .ok ⟨rv, by simp⟩
  | fieldsMissing h1 h2 =>
    try sz hm
    simp only [evalNamed, h1]; exact .confused
  | fieldsCons h1 h2 h3 =>
    try sz hm
    have := h2.le; have := h3.le
    simp only [evalNamed, h1]
    have := find_size h1
    refine Sim.bind (ih.e hF h2 (by omega) (by omega)) ?_
    rintro ⟨v, w1⟩ _ ⟨rv1, rfl⟩
    refine Sim.bind (ih.fields hF h3 hf (by omega)) ?_
    rintro ⟨vs, w2⟩ _ ⟨rv2, rfl⟩
    exact .ok ⟨rv2, by simp⟩

theorem pushIndir_conf {nargs : Nat} {t : Thread} :
    pushIndir env t nargs = .limit ∨
    pushIndir env t nargs = .ok { t with frames := t.frames ++ [⟨t.pc, t.fp, nargs⟩], fp := t.stack.length } := by
  unfold pushIndir
  split
  · right; rfl
  · left; rfl

theorem sim_entry {α : Type} {x : Res α} {post : α → Thread → Prop} {nl entry p2 : Nat} {B vs F w rv}
    (h1 : nl ≤ 255) (hF : d ≤ F.length)
    (h2 : if nl = 0 then p2 = entry else AtI env.program entry (.opB .pushNullN (UInt8.ofNat nl)) p2)
    (h3 : Sim env d m x post (conf B ⟨vs, List.replicate nl .null⟩ [] F w p2 rv)) :
    Sim env d m x post (conf B ⟨vs, []⟩ [] F w entry rv) := by
  by_cases h0 : nl = 0
  · rw [if_pos h0] at h2
    subst h0 h2
    exact h3
  · rw [if_neg h0] at h2
    have ex := exec_opB (t := conf B ⟨vs, []⟩ [] F w entry rv) h2 rfl
    rw [execOp, readByte_some h2.2.1] at ex
    simp only [Res.bind_ok, toNat_ofNat8 h1, ← h2.2.2] at ex
    split at ex
    · refine .step0 conf_pc ex ?_
      simpa [conf] using h3
    · exact .limit conf_pc ex

theorem popIndir_conf {B ρ T F f w pc rv} (h : f.nargs = ρ.args.length) :
    popIndir (conf B ρ T (F ++ [f]) w pc rv) = .ok ⟨f.pc, f.fp, B, F, rv, w⟩ := by
  have e1 : (conf B ρ T (F ++ [f]) w pc rv).frames.getLast? = some f := by simp [conf]
  have e2 : (conf B ρ T (F ++ [f]) w pc rv).fp ≤ (conf B ρ T (F ++ [f]) w pc rv).stack.length ∧
    f.nargs ≤ (conf B ρ T (F ++ [f]) w pc rv).fp := by simp [conf, h]
  unfold popIndir
  rw [e1]
  simp only [if_pos e2]
  simp [conf, h, List.append_assoc]

theorem exec_ret {pos fin B ρ T F f w rv} (h : AtI env.program pos (.op .ret) fin) (hn : f.nargs = ρ.args.length) :
    exec env (conf B ρ T (F ++ [f]) w pos rv) = .ok ⟨f.pc, f.fp, B, F, .null, w⟩ := by
  rw [exec_op h rfl, execOp]
  exact popIndir_conf (pc := pos) hn

theorem exec_retValue {pos fin B ρ F f w rv v} (h : AtI env.program pos (.op .retValue) fin) (hn : f.nargs = ρ.args.length) :
    exec env (conf B ρ [v] (F ++ [f]) w pos rv) = .ok ⟨f.pc, f.fp, B, F, v, w⟩ := by
  rw [exec_op h rfl, execOp]
  have hp := pop_conf (B := B) (ρ := ρ) (T := []) (F := F ++ [f]) (w := w) (pc := pos) (rv := rv) (v := v)
  simp only [List.nil_append] at hp
  simp only [hp, Res.bind_ok]
  exact popIndir_conf (pc := pos) hn

theorem simCall (ih : SimAll c env fp D n) (L : Linked c env fp)
    (hD : ∀ i fn, c.fns i = some fn → 300 * sizeOf fn.body ≤ D) {f vs pos fin B ρ T F w rv}
    (hF : d ≤ F.length) (h : AtI env.program pos (callI vs.length f) fin) (hl : vs.length ≤ 255)
    (hm : m = 0 ∨ m * (D + 1) < n + 1) :
    Sim env d m (Spec.call c (n + 1) f vs w) (fun a u => u = conf B ρ T F a.2 fin a.1) (conf B ρ (T ++ vs) F w pos rv) := by
  have hst : (conf B ρ (T ++ vs) F w pos rv).stack = (B ++ ρ.args ++ ρ.locals ++ T) ++ vs := by simp [conf]
  cases f with
  | foreign i nargs varargs =>
    simp only [Spec.call]
    split
    case isFalse => exact .confused
    next hc =>
    have hi : i % 2 ^ 32 = i := Nat.mod_eq_of_lt (by have := L.fewForeign; omega)
    rw [callI] at h
    have ex := exec_opBV (t := conf B ρ (T ++ vs) F w pos rv) h rfl
    rw [execOp, readByte_some h.2.1, h.2.2] at ex
    simp only [Res.bind_ok, toNat_ofNat8 hl, hi] at ex
    have hlen : (conf B ρ (T ++ vs) F w pos rv).stack.length - vs.length = (B ++ ρ.args ++ ρ.locals ++ T).length := by
      rw [hst]; simp; omega
    rw [if_pos ⟨by rw [hst]; simp; omega, by rw [L.numForeign]; exact hc.2⟩, hlen, hst, List.drop_left, List.take_left, L.foreign] at ex
    refine .instr conf_pc (k := fun a => .ok (conf B ρ T F a.2 fin a.1)) ?_ fun a => .inr ⟨_, rfl, rfl⟩
    rw [ex]
    simp only [conf]
    cases c.foreign i vs w <;> rfl
  | tiny i =>
    simp only [Spec.call]
    cases hfn : c.fns i with
    | none => exact .confused
    | some fn =>
      simp only
      split
      case isFalse => exact .confused
      next hlen =>
      obtain ⟨hi, entry, p2, p3, fin', a, hpc, hnl, hp2, hbody, hret, hfin⟩ := L.fns i fn hfn
      have hsz := L.size
      have hm := less_fuel (X := 0) (by simpa using hm)
      have hi : i % 2 ^ 32 = i := Nat.mod_eq_of_lt hi
      rw [callI] at h
      have ex := exec_opBV (t := conf B ρ (T ++ vs) F w pos rv) h rfl
      rw [execOp, readByte_some h.2.1, h.2.2] at ex
      simp only [Res.bind_ok, toNat_ofNat8 hl, hi, hpc] at ex
      rcases pushIndir_conf (env := env) (nargs := vs.length)
        (t := { conf B ρ (T ++ vs) F w pos rv with pc := (fin : Nat) }) with hh | hh
      · rw [hh] at ex; exact .limit conf_pc ex
      rw [hh] at ex
      simp only [Res.bind_ok] at ex
      have hF1 : d ≤ (F ++ [(⟨((fin : Nat) : Int), B.length + ρ.args.length, vs.length⟩ : Frame)]).length := by
        simp only [List.length_append]; omega
      have e1 : ({ conf B ρ (T ++ vs) F w pos rv with
          pc := ((entry : Nat) : Int),
          frames := F ++ [⟨((fin : Nat) : Int), B.length + ρ.args.length, vs.length⟩],
          fp := (conf B ρ (T ++ vs) F w pos rv).stack.length } : Thread) =
        conf (B ++ ρ.args ++ ρ.locals ++ T) ⟨vs, []⟩ []
          (F ++ [⟨((fin : Nat) : Int), B.length + ρ.args.length, vs.length⟩]) w entry rv := by
        simp [conf]; omega
      refine .step conf_pc (ex.trans (congrArg Res.ok e1)) (sim_entry hnl hF1 hp2 ?_)
      have := hbody.le; have := hret.lt
      refine Sim.bind (ih.s hF1 hbody (by omega) (by omega) (by omega) (by have := hD i fn hfn; omega)) ?_
      rintro ⟨o, ρ', w'⟩ u hu
      cases o with
      | normal =>
        obtain ⟨hna, rv', rfl⟩ := hu
        exact .step conf_pc (exec_ret hret hna.symm) (.ok rfl)
      | ret v =>
        have := hu _ _ rfl rfl
        subst this
        exact .ok rfl
      | _ => exact .confused

theorem compound_eq {op : Tok} {o : Op} (h : compoundOp op = some o) :
    ∃ t, compound op = some t ∧ binOpcode t = some o := by
  cases op <;> simp only [compoundOp, reduceCtorEq, Option.some.injEq] at h <;> subst h <;> exact ⟨_, rfl, rfl⟩

theorem compound_none {op : Tok} (h : compoundOp op = none) : compound op = none := by
  cases op <;> first | rfl | simp [compoundOp] at h

theorem compound_isSome {op : Tok} : (compound op).isSome = (compoundOp op).isSome := by cases op <;> rfl

theorem simRhs (ih : SimAll c env fp D n) (L : Linked c env fp) {op lhs rhs pos fin B ρ T F w rv}
    (hF : d ≤ F.length) (h : At c.globals fp env.program pos (.rhs op lhs rhs) fin) (hf : fin < 2 ^ 31)
    (hm : m = 0 ∨ 300 * (sizeOf lhs + sizeOf rhs) + 1 + m * (D + 1) < n + 1) :
    Sim env d m (evalRhs c (n + 1) op lhs rhs ρ w) (EPost B ρ T F fin) (conf B ρ T F w pos rv) := by
  cases h with
  | rhsPlain h1 h2 =>
    simp only [evalRhs, compound_none h1]
    exact ih.e hF h2 hf (by omega)
  | rhsAdd1 hr h1 h2 =>
    have := h1.le; have := h2.lt
    simp only [evalRhs, compound]
    refine Sim.bind (ih.e hF h1 (by omega) (by omega)) ?_
    rintro ⟨a, w1⟩ _ ⟨rv1, rfl⟩
    simp only
    rcases evalE_one (c := c) (n := n) (ρ := ρ) (w := w1) hr with ⟨e, e0⟩ | e
    · rw [e]; exact .timeout (by omega)
    · rw [e]
      simp only [Res.bind_ok]
      by_cases hp : plusOneOnFloat .plus a rhs = true
      · rw [if_pos hp]; exact .ub
      · rw [if_neg hp]
        exact .push' (x := binary c w1 .plus a (.int 1#64)) conf_pc
          fun hu _ => exec_add1 hr h2 (by simpa using hp) hu
  | rhsSub1 hr h1 h2 =>
    have := h1.le; have := h2.lt
    simp only [evalRhs, compound]
    refine Sim.bind (ih.e hF h1 (by omega) (by omega)) ?_
    rintro ⟨a, w1⟩ _ ⟨rv1, rfl⟩
    simp only
    rcases evalE_one (c := c) (n := n) (ρ := ρ) (w := w1) hr with ⟨e, e0⟩ | e
    · rw [e]; exact .timeout (by omega)
    · rw [e]
      simp only [Res.bind_ok]
      by_cases hp : plusOneOnFloat .minus a rhs = true
      · rw [if_pos hp]; exact .ub
      · rw [if_neg hp]
        exact .push' (x := binary c w1 .minus a (.int 1#64)) conf_pc
          fun hu _ => exec_sub1 hr h2 (by simpa using hp) hu
  | rhsOp hop hn h1 h2 h3 =>
    have := h1.le; have := h2.le; have := h3.lt
    obtain ⟨t, ht, ho⟩ := compound_eq hop
    simp only [evalRhs, ht]
    refine Sim.bind (ih.e hF h1 (by omega) (by omega)) ?_
    rintro ⟨a, w1⟩ _ ⟨rv1, rfl⟩
    refine Sim.bind (ih.e hF h2 (by omega) (by omega)) ?_
    rintro ⟨b, w2⟩ _ ⟨rv2, rfl⟩
    simp only
    split
    · exact .ub
    · exact .push' (x := binary c w2 t a b) conf_pc fun hu _ => exec_binary L.fl L.cmem ho h3 hu

theorem simAssign (ih : SimAll c env fp D n) (L : Linked c env fp) {op lhs rhs pos b c' fin B ρ F w rv}
    (hF : d ≤ F.length) (h : At c.globals fp env.program pos (.s b c' (.assign op lhs rhs) (.assign op lhs rhs)) fin) (hf : fin < 2 ^ 31)
    (hm : m = 0 ∨ 300 * (sizeOf lhs + sizeOf rhs) + 2 + m * (D + 1) < n + 1) :
    Sim env d m (execAssign c (n + 1) op lhs rhs ρ w)
      (fun a u => a.1.args.length = ρ.args.length ∧ ∃ rv, u = conf B a.1 [] F a.2 fin rv) (conf B ρ [] F w pos rv) := by
  cases h with
  | assignConst => exact .ok ⟨rfl, rv, rfl⟩
  | assign hop h1 h2 h3 =>
    have hop' : op ≠ .declareConst := by rintro rfl; simp [compoundOp] at hop
    rw [← compound_isSome] at hop
    have := h1.le; have := h2.le; have := h3.le
    cases h3 with
    | @storeGlob _ _ _ i h3 =>
      cases h1
      simp only [execAssign, if_neg hop', if_pos hop]
      refine Sim.bind (ih.rhs hF h2 (by omega) (by omega)) ?_
      rintro ⟨v, w1⟩ _ ⟨rv1, rfl⟩
      simp only
      by_cases hi : 2 ^ 31 ≤ i
      · rw [if_pos hi]; exact .ub
      rw [if_neg hi]
      split
      case isFalse => exact .confused
      next hi' => exact .step conf_pc (exec_setGlobal hi' (by omega) h3) (.ok ⟨rfl, rv1, rfl⟩)
    | @storeLoc _ _ _ i h3 =>
      cases h1
      simp only [execAssign, if_neg hop', if_pos hop]
      refine Sim.bind (ih.rhs hF h2 (by omega) (by omega)) ?_
      rintro ⟨v, w1⟩ _ ⟨rv1, rfl⟩
      simp only [List.nil_append]
      cases hs : ρ.set i v with
      | none => exact .confused
      | some ρ' =>
        intro hl
        exact (Sim.step (m := m) conf_pc (exec_setLocal L.stack hl hs h3)
          (.ok (a := (ρ', w1)) (post := fun a u => a.1.args.length = ρ.args.length ∧ ∃ rv, u = conf B a.1 [] F a.2 fin rv)
            ⟨Vars.set_args hs, rv1, rfl⟩)) hl
    | storeIndex h3 =>
      have hm' := hm
      sz hm
      cases h1 with
      | preIndex h11 h12 =>
      have := h11.le; have := h12.le
      simp only [execAssign, if_neg hop', if_pos hop]
      refine Sim.bind (ih.e hF h11 (by omega) (by omega)) ?_
      rintro ⟨a, w1⟩ _ ⟨rv1, rfl⟩
      refine Sim.bind (ih.e hF h12 (by omega) (by omega)) ?_
      rintro ⟨i, w2⟩ _ ⟨rv2, rfl⟩
      refine Sim.bind (ih.rhs hF h2 (by omega) (by omega)) ?_
      rintro ⟨x, w3⟩ _ ⟨rv3, rfl⟩
      refine Sim.bind (ih.call hF (B := B) (ρ := ρ) (F := F) (rv := rv3) (w := w3) (T := []) (vs := [a, i, x]) h3 (by simp) (by omega)) ?_
      rintro ⟨v, w4⟩ _ rfl
      exact .ok ⟨rfl, v, rfl⟩
    | storeDot hi h31 h32 =>
      have hm' := hm
      sz hm
      cases h1
      have := h31.le; have := h32.lt
      simp only [execAssign, if_neg hop', if_pos hop]
      refine Sim.bind (ih.rhs hF h2 (by omega) (by omega)) ?_
      rintro ⟨x, w1⟩ _ ⟨rv1, rfl⟩
      refine Sim.bind (ih.e hF h31 (by omega) (by omega)) ?_
      rintro ⟨v, w2⟩ _ ⟨rv2, rfl⟩
      have ex := exec_structSet (B := B) (ρ := ρ) (T := []) (F := F) (w := w2) (rv := rv2) (v := v) (x := x) hi h32
      refine Sim.bind (Sim.unless_ub fun hu => Sim.instr conf_pc (ex hu) fun a => .inr ⟨_, rfl, rfl⟩) ?_
      rintro w3 _ rfl
      exact .ok ⟨rfl, rv2, rfl⟩

theorem SPost.ofNormal {B na F b c' fin ρ w rv} (h : ρ.args.length = na) :
    SPost B na F b c' fin (.normal, ρ, w) (conf B ρ [] F w fin rv) := ⟨h, rv, rfl⟩

/-- `goto` after a statement. -/
theorem SPost.goto {α : Type} {x : Res α} {post : α → Thread → Prop} {B ρ F w rv pos fin v}
    (h : AtI env.program pos (.goto v) fin) (hv : v < 2 ^ 31) (hs : Sim env d m x post (conf B ρ [] F w v rv)) (hF : d ≤ F.length) :
    Sim env d m x post (conf B ρ [] F w pos rv) := Sim.goto hF h hv hs

theorem sim_ret {v : Value} {B ρ F w b c' fin} {t : Thread}
    (e : ∀ F0 f, F = F0 ++ [f] → f.nargs = ρ.args.length → Ready d t ∧ exec env t = .ok ⟨f.pc, f.fp, B, F0, v, w⟩) :
    Sim env d m (.ok (Outcome.ret v, ρ, w)) (SPost B ρ.args.length F b c' fin) t := by
  by_cases h : ∃ F0 f, F = F0 ++ [f] ∧ f.nargs = ρ.args.length
  · obtain ⟨F0, f, rfl, hn⟩ := h
    refine .step (e F0 f rfl hn).1 (e F0 f rfl hn).2 (.ok ?_)
    intro F1 f1 h1 _
    obtain ⟨h1, h2⟩ := List.append_inj' h1 rfl
    cases h1
    cases h2
    rfl
  · refine .ok ?_
    intro F1 f1 h1 h2
    exact absurd ⟨F1, f1, h1, h2⟩ h

theorem simS (ih : SimAll c env fp D n) {s a pos b c' fin B ρ F w rv}
    (hF : d ≤ F.length) (h : At c.globals fp env.program pos (.s b c' s a) fin) (hf : fin < 2 ^ 31) (hb : b < 2 ^ 31) (hc : c' < 2 ^ 31)
    (hm : m = 0 ∨ 300 * sizeOf s + m * (D + 1) < n + 1) :
    Sim env d m (execS c (n + 1) s ρ w) (SPost B ρ.args.length F b c' fin) (conf B ρ [] F w pos rv) := by
  cases h with
  | node h =>
    try sz hm
    exact ih.s hF h hf hb hc (by omega)
  | callS h1 h2 h3 h4 =>
    try sz hm
    have := h1.le; have := h4.lt
    simp only [execS]
    refine Sim.bind (ih.es hF h1 (by omega) (by omega)) ?_
    rintro ⟨vs, w1⟩ _ ⟨hl, rv1, rfl⟩
    simp only at hl
    simp only [h2]
    rw [← hl] at h4
    refine Sim.bind (ih.call hF (T := []) h4 (by omega) (by omega)) ?_
    rintro ⟨v, w2⟩ _ rfl
    exact .ok ⟨rfl, v, rfl⟩
  | block h =>
    try sz hm
    exact ih.ss hF h hf hb hc (by omega)
  | assignConst =>
    try sz hm
    simp only [execS]
    refine Sim.bind (ih.assign hF (.assignConst (b := b) (c := c')) hf (by omega)) ?_
    rintro ⟨ρ1, w1⟩ _ ⟨h1, rv1, rfl⟩
    exact .ok ⟨h1, rv1, rfl⟩
  | assign h1 h2 h3 h4 =>
    try sz hm
    simp only [execS]
    refine Sim.bind (ih.assign hF (.assign (b := b) (c := c') h1 h2 h3 h4) hf (by omega)) ?_
    rintro ⟨ρ1, w1⟩ _ ⟨h1, rv1, rfl⟩
    exact .ok ⟨h1, rv1, rfl⟩
  | proc h1 h2 h3 h4 h5 h6 =>
    try sz hm
    exact .goto hF h1 hf (.ok ⟨rfl, rv, rfl⟩)
  | ifThen h1 h2 h3 =>
    try sz hm
    have := h1.le; have := h2.lt; have := h3.le
    simp only [execS]
    refine Sim.bind (ih.e hF h1 (by omega) (by omega)) ?_
    rintro ⟨v, w1⟩ _ ⟨rv1, rfl⟩
    refine Sim.bind (Sim.gotoz hF h2 hf) ?_
    rintro t _ rfl
    cases t with
    | true => exact ih.s hF h3 hf hb hc (by omega)
    | false => exact .ok ⟨rfl, rv1, rfl⟩
  | ifElse h1 h2 h3 h4 h5 =>
    try sz hm
    have := h1.le; have := h2.lt; have := h3.le; have := h4.lt; have := h5.le
    simp only [execS]
    refine Sim.bind (ih.e hF h1 (by omega) (by omega)) ?_
    rintro ⟨v, w1⟩ _ ⟨rv1, rfl⟩
    refine Sim.bind (Sim.gotoz hF h2 (by omega)) ?_
    rintro t _ rfl
    cases t with
    | true =>
      refine (ih.s hF h3 (by omega) hb hc (by omega)).andThen ?_
      rintro ⟨o, ρ2, w2⟩ u hu
      cases o with
      | normal =>
        obtain ⟨hl, rv2, rfl⟩ := hu
        exact .goto hF h4 hf (.ok ⟨hl, rv2, rfl⟩)
      | brk => exact .ok hu
      | cont => exact .ok hu
      | ret v => exact .ok hu
    | false => exact ih.s hF h5 hf hb hc (by omega)
  | «while» h1 h2 h3 h4 =>
    try sz hm
    exact ih.loopW hF (.while (b := b) (c := c') h1 h2 h3 h4) hf (by omega)
  | «for» h0 h1 h2 h3 h4 h5 =>
    try sz hm
    have := h0.le; have := h1.le; have := h2.lt; have := h3.le; have := h4.le; have := h5.lt
    simp only [execS]
    refine Sim.bind (ih.s hF h0 (by omega) (by omega) (by omega) (by omega)) ?_
    rintro ⟨o, ρ1, w1⟩ u hu
    cases o with
    | normal =>
      obtain ⟨hl, rv1, rfl⟩ := hu
      simp only at hl
      rw [← hl]
      exact ih.loopF hF h1 h2 h3 h4 h5 hf (by omega)
    | ret v => exact .ok hu
    | _ => exact .confused
  | ret h1 =>
    try sz hm
    simp only [execS]
    refine sim_ret fun F0 f hF hn => ⟨conf_pc, ?_⟩
    subst hF
    exact exec_ret h1 hn
  | retValue h1 h2 =>
    try sz hm
    have := h1.le; have := h2.lt
    simp only [execS]
    refine Sim.bind (ih.e hF h1 (by omega) (by omega)) ?_
    rintro ⟨v, w1⟩ _ ⟨rv1, rfl⟩
    refine sim_ret fun F0 f hF hn => ⟨conf_pc, ?_⟩
    subst hF
    exact exec_retValue h2 hn
  | brk _ h =>
    try sz hm
    exact .goto hF h hb (.ok ⟨rfl, rv, rfl⟩)
  | cont _ h =>
    try sz hm
    exact .goto hF h hc (.ok ⟨rfl, rv, rfl⟩)
  | use =>
    try sz hm
    exact .ok ⟨rfl, rv, rfl⟩

theorem simSs (ih : SimAll c env fp D n) {s a pos b c' fin B ρ F w rv}
    (hF : d ≤ F.length) (h : At c.globals fp env.program pos (.ss b c' s a) fin) (hf : fin < 2 ^ 31) (hb : b < 2 ^ 31) (hc : c' < 2 ^ 31)
    (hm : m = 0 ∨ 300 * sizeOf s + m * (D + 1) < n + 1) :
    Sim env d m (execSs c (n + 1) s ρ w) (SPost B ρ.args.length F b c' fin) (conf B ρ [] F w pos rv) := by
  cases h with
  | ssNil =>
    try sz hm
    exact .ok ⟨rfl, rv, rfl⟩
  | ssCons h1 h2 =>
    try sz hm
    have := h1.le; have := h2.le
    simp only [execSs]
    refine Sim.bind (ih.s hF h1 (by omega) hb hc (by omega)) ?_
    rintro ⟨o, ρ1, w1⟩ u hu
    cases o with
    | normal =>
      obtain ⟨hl, rv1, rfl⟩ := hu
      simp only at hl
      rw [← hl]
      exact ih.ss hF h2 hf hb hc (by omega)
    | brk => exact .ok hu
    | cont => exact .ok hu
    | ret v => exact .ok hu

theorem simLoopW (ih : SimAll c env fp D n) {cond body a pos b c' fin B ρ F w rv}
    (hF : d ≤ F.length) (h : At c.globals fp env.program pos (.s b c' (.while cond body) a) fin) (hf : fin < 2 ^ 31)
    (hm : m = 0 ∨ 300 * (sizeOf cond + sizeOf body) + 1 + m * (D + 1) < n + 1) :
    Sim env d m (execLoop c (n + 1) cond none body ρ w) (SPost B ρ.args.length F b c' fin) (conf B ρ [] F w pos rv) := by
  have h' := h
  cases h with
  | «while» h1 h2 h3 h4 =>
    have := h1.le; have := h2.lt; have := h3.le; have := h4.lt
    simp only [execLoop]
    refine Sim.bind (ih.e hF h1 (by omega) (by omega)) ?_
    rintro ⟨v, w1⟩ _ ⟨rv1, rfl⟩
    refine Sim.gotoz1 hF h2 hf fun t => ?_
    have hm := less_fuel hm
    cases t with
    | false => exact .ok ⟨rfl, rv1, rfl⟩
    | true =>
      simp only [if_true]
      refine Sim.bind (ih.s hF h3 (by omega) hf (by omega) (by omega)) ?_
      rintro ⟨o, ρ2, w2⟩ u hu
      cases o with
      | normal =>
        obtain ⟨hl, rv2, rfl⟩ := hu
        simp only at hl
        rw [← hl]
        exact .goto hF h4 (by omega) (ih.loopW hF h' hf (by omega))
      | cont =>
        obtain ⟨hl, rv2, rfl⟩ := hu
        simp only at hl
        rw [← hl]
        exact ih.loopW hF h' hf (by omega)
      | brk => exact .ok hu
      | ret v => exact .ok hu

theorem simLoopF (ih : SimAll c env fp D n) {cond step body as a p0 p1 p2 p3 p4 b c' fin B ρ F w rv}
    (hF : d ≤ F.length) (h1 : At c.globals fp env.program p0 (.e cond) p1) (h2 : AtI env.program p1 (.gotoz fin) p2)
    (h3 : At c.globals fp env.program p2 (.s fin p3 body a) p3) (h4 : At c.globals fp env.program p3 (.s 0 0 step as) p4)
    (h5 : AtI env.program p4 (.goto p0) fin) (hf : fin < 2 ^ 31)
    (hm : m = 0 ∨ 300 * (sizeOf cond + sizeOf step + sizeOf body) + 1 + m * (D + 1) < n + 1) :
    Sim env d m (execLoop c (n + 1) cond (some step) body ρ w) (SPost B ρ.args.length F b c' fin) (conf B ρ [] F w p0 rv) := by
  have := h1.le; have := h2.lt; have := h3.le; have := h4.le; have := h5.lt
  have hm' := less_fuel hm
  have next : ∀ {ρ2 : Vars} {w2 rv2}, ρ2.args.length = ρ.args.length → Sim env d (m - 1) (do
        let (o, ρ, w) ← execS c n step ρ2 w2
        match o with
        | .normal => execLoop c n cond (some step) body ρ w
        | .ret v => .ok (.ret v, ρ, w)
        | _ => confused) (SPost B ρ.args.length F b c' fin) (conf B ρ2 [] F w2 p3 rv2) := by
    intro ρ2 w2 rv2 hl
    rw [← hl]
    refine Sim.bind (ih.s hF h4 (by omega) (by omega) (by omega) (by omega)) ?_
    rintro ⟨o, ρ3, w3⟩ u hu
    cases o with
    | normal =>
      obtain ⟨hl, rv3, rfl⟩ := hu
      simp only at hl
      rw [← hl]
      exact .goto hF h5 (by omega) (ih.loopF hF h1 h2 h3 h4 h5 hf (by omega))
    | ret v => exact .ok hu
    | _ => exact .confused
  simp only [execLoop]
  refine Sim.bind (ih.e hF h1 (by omega) (by omega)) ?_
  rintro ⟨v, w1⟩ _ ⟨rv1, rfl⟩
  refine Sim.gotoz1 hF h2 hf fun t => ?_
  cases t with
  | false => exact .ok ⟨rfl, rv1, rfl⟩
  | true =>
    simp only [if_true]
    refine Sim.bind (ih.s hF h3 (by omega) hf (by omega) (by omega)) ?_
    rintro ⟨o, ρ2, w2⟩ u hu
    cases o with
    | normal =>
      obtain ⟨hl, rv2, rfl⟩ := hu
      exact next hl
    | cont =>
      obtain ⟨hl, rv2, rfl⟩ := hu
      exact next hl
    | brk => exact .ok hu
    | ret v => exact .ok hu

/-- Compiled code does what the language says, for every fuel. -/
theorem simAll (L : Linked c env fp) (hD : ∀ i fn, c.fns i = some fn → 300 * sizeOf fn.body ≤ D) :
    ∀ n, SimAll c env fp D n
  | 0 => simAll_zero c env fp D
  | n + 1 =>
    have ih := simAll L hD n
    { e := simE ih L, es := simEs ih, fields := simFields ih, call := simCall ih L hD, rhs := simRhs ih L,
      assign := simAssign ih L, s := simS ih, ss := simSs ih, loopW := simLoopW ih, loopF := simLoopF ih }

end Steps

end Tiny
