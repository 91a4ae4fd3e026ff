import Verif.Proofs.Arith
import Verif.Proofs.VMGC
import Verif.Spec.GC

/-!
# C33, C34, C35, C41: threads, integer instructions, struct instructions, determinism
-/

namespace Tiny
open Spec

theorem readByte_some {p : List UInt8} {i : Nat} {b : UInt8} (h : p[i]? = some b) : readByte p i = .ok b := by
  unfold readByte; rw [h]

/-- What a thread does at an opcode. -/
theorem exec_at {env : Env} {t : Thread} {pc : Nat} {op : Op} (hpc : t.pc = pc)
    (h : env.program[pc]? = some op.toByte) : exec env t = execOp env t pc op := by
  unfold exec
  rw [hpc]
  simp only [Int.toNat_natCast]
  rw [readByte_some h]
  simp only [Res.bind_ok, Op.ofByte_toByte]

theorem pop_append (t : Thread) (s : List Value) (v : Value) (h : t.stack = s ++ [v]) :
    pop t = .ok (v, { t with stack := s }) := by
  unfold pop
  rw [h]
  simp

theorem push_room {env : Env} {t : Thread} (v : Value) (h : t.stack.length < env.stackSize) :
    push env t v = .ok { t with stack := t.stack ++ [v] } := by
  unfold push; rw [if_pos h]

/-! ## C34 -/

/-- The integer operators of the machine. -/
def isIntOp (op : Op) : Prop :=
  op = .add ∨ op = .sub ∨ op = .mul ∨ op = .div ∨ op = .mod ∨ op = .or ∨ op = .and ∨ op = .shl ∨ op = .shr

/-- The comparisons of the machine. -/
def isCmpOp (op : Op) : Prop := op = .lt ∨ op = .lte ∨ op = .gt ∨ op = .gte

/-- **C34.** An integer instruction replaces two integers on the stack by the integer the specification
`Spec.intOp` gives on mathematical integers (where that is defined), and does nothing else. -/
theorem c34_int_instruction {env : Env} {t : Thread} {pc : Nat} {op : Op} {s : List Value} {a b : BitVec 64}
    (hop : isIntOp op) (hpc : t.pc = pc) (hcode : env.program[pc]? = some op.toByte)
    (hs : t.stack = s ++ [.int a, .int b]) (room : s.length < env.stackSize) :
    match intOp op a.toInt b.toInt with
    | none => exec env t = .ub
    | some r => ∃ c : BitVec 64, c.toInt = r ∧
        exec env t = .ok { t with pc := (pc + 1 : Nat), stack := s ++ [.int c] } := by
  have hpop : pop t = .ok (.int b, { t with stack := s ++ [.int a] }) := pop_append t (s ++ [.int a]) _ (by simp [hs])
  have hpop2 : pop { t with stack := s ++ [.int a] } = .ok (.int a, { t with stack := s }) := pop_append _ s _ rfl
  have ex : ∀ f : Value → Value → Res Value,
      (exec env t = do
        let (b, t) ← pop t
        let (a, t) ← pop t
        push env { t with pc := (pc + 1 : Nat) } (← f a b)) →
      f (.int a) (.int b) = (match intOp op a.toInt b.toInt with
        | some r => .ok (.int (BitVec.ofInt 64 r))
        | none => .ub) →
      match intOp op a.toInt b.toInt with
      | none => exec env t = .ub
      | some r => ∃ c : BitVec 64, c.toInt = r ∧
          exec env t = .ok { t with pc := (pc + 1 : Nat), stack := s ++ [.int c] } := by
    intro f e1 e2
    rw [e1, hpop]
    simp only [Res.bind_ok, hpop2]
    rw [e2]
    cases hr : intOp op a.toInt b.toInt with
    | none => rfl
    | some r =>
      refine ⟨_, ofInt_toInt_of_fits (intOp_fits hr), ?_⟩
      simp only [Res.bind_ok]
      rw [push_room _ room]
  have ar : op = .add ∨ op = .sub ∨ op = .mul ∨ op = .div →
      binOp env.fl op (.int a) (.int b) = (match intOp op a.toInt b.toInt with
        | some r => .ok (.int (BitVec.ofInt 64 r))
        | none => .ub) := by
    intro h
    simp only [binOp, intArith_spec op a b h]
    cases intOp op a.toInt b.toInt <;> rfl
  rcases hop with rfl | rfl | rfl | rfl | rfl | rfl | rfl | rfl | rfl
  · exact ex (binOp env.fl .add) (exec_at hpc hcode) (ar (by simp))
  · exact ex (binOp env.fl .sub) (exec_at hpc hcode) (ar (by simp))
  · exact ex (binOp env.fl .mul) (exec_at hpc hcode) (ar (by simp))
  · exact ex (binOp env.fl .div) (exec_at hpc hcode) (ar (by simp))
  · exact ex (binOpInt .mod) (exec_at hpc hcode) (intOnly_spec _ _ _ (by simp))
  · exact ex (binOpInt .or) (exec_at hpc hcode) (intOnly_spec _ _ _ (by simp))
  · exact ex (binOpInt .and) (exec_at hpc hcode) (intOnly_spec _ _ _ (by simp))
  · exact ex (binOpInt .shl) (exec_at hpc hcode) (intOnly_spec _ _ _ (by simp))
  · exact ex (binOpInt .shr) (exec_at hpc hcode) (intOnly_spec _ _ _ (by simp))

/-- **C34.** Comparisons of integers are exact. -/
theorem c34_comparison {env : Env} {t : Thread} {pc : Nat} {op : Op} {s : List Value} {a b : BitVec 64}
    (hop : isCmpOp op) (hpc : t.pc = pc) (hcode : env.program[pc]? = some op.toByte)
    (hs : t.stack = s ++ [.int a, .int b]) (room : s.length < env.stackSize) :
    ∃ r, intCmp op a.toInt b.toInt = some r ∧
      exec env t = .ok { t with pc := (pc + 1 : Nat), stack := s ++ [.bool r] } := by
  have hpop : pop t = .ok (.int b, { t with stack := s ++ [.int a] }) := pop_append t (s ++ [.int a]) _ (by simp [hs])
  have hpop2 : pop { t with stack := s ++ [.int a] } = .ok (.int a, { t with stack := s }) := pop_append _ s _ rfl
  refine ⟨intRel op a b, intRel_spec op a b hop, ?_⟩
  have ex : (exec env t = do
        let (b, t) ← pop t
        let (a, t) ← pop t
        push env { t with pc := (pc + 1 : Nat) } (← relOp env.fl op a b)) →
      exec env t = .ok { t with pc := (pc + 1 : Nat), stack := s ++ [.bool (intRel op a b)] } := by
    intro e
    rw [e, hpop]
    simp only [Res.bind_ok, hpop2, relOp]
    rw [push_room _ room]
  rcases hop with rfl | rfl | rfl | rfl <;> exact ex (exec_at hpc hcode)

/-- **C34.** When keeping 32 bits loses nothing: exactly when the mathematical result fits 32 bits. -/
theorem c34_narrowing (x : Int) :
    (wrap32 x = x ↔ -2 ^ 31 ≤ x ∧ x < 2 ^ 31) ∧ (wrap32 x - x) % 2 ^ 32 = 0 ∧
    -2 ^ 31 ≤ wrap32 x ∧ wrap32 x < 2 ^ 31 := by
  unfold wrap32; omega

example : isIntOp .mul ∧ intOp .mul (-3037000499) 3037000499 = some (-9223372030926249001) ∧
    intOp .or 4294967296 1 = some 1 ∧ intOp .mod (-7) 2 = some (-1) ∧ intOp .shr (-8) 1 = some (-4) := by
  refine ⟨by simp [isIntOp], ?_, ?_, ?_, ?_⟩ <;> decide

/-! ## C35 -/

/-- **C35.** `PUSH_STRUCT n` makes a new object with exactly the top `n` values as fields, in order, and
changes no other object. -/
theorem c35_construct {env : Env} {t : Thread} {pc : Nat} {n : UInt8} {s fields : List Value}
    (hpc : t.pc = pc) (hcode : env.program[pc]? = some Op.pushStruct.toByte) (hn : env.program[pc + 1]? = some n)
    (hlen : fields.length = n.toNat) (hpos : fields ≠ []) (hs : t.stack = s ++ fields)
    (room : s.length < env.stackSize) (w : WfThread t) :
    ∃ o heap, exec env t = .ok { t with pc := (pc + 2 : Nat), stack := s ++ [.struct o],
                                        world := { t.world with heap := heap } } ∧
      heap.deref o = .ok (.struct fields) ∧ (∀ p, p ∈ t.world.heap.list → p ≠ o ∧ heap.deref p = t.world.heap.deref p) := by
  have hl : t.stack.length - n.toNat = s.length := by rw [hs]; simp; omega
  have hd : t.stack.drop (t.stack.length - n.toNat) = fields := by rw [hl, hs]; simp
  have ht : t.stack.take (t.stack.length - n.toNat) = s := by rw [hl, hs]; simp
  refine ⟨t.world.heap.next, (t.world.heap.alloc (.struct fields)).2, ?_, ?_, ?_⟩
  · rw [exec_at hpc hcode, execOp]
    rw [readByte_some hn]
    have hpos' : 0 < n.toNat := by
      rw [← hlen]; exact List.length_pos_iff.2 hpos
    have hle : n.toNat ≤ t.stack.length := by rw [hs]; simp; omega
    simp only [Res.bind_ok, Res.assert, hpos', decide_true, if_true, hle, hd, ht]
    rw [push_room _ room]
    rfl
  · simp [Heap.deref, Heap.alloc, upd]
  · intro p hp
    have : p ≠ t.world.heap.next := by have := w.fresh p hp; omega
    refine ⟨this, ?_⟩
    simp [Heap.deref, Heap.alloc, upd, hp, this]

/-- **C35.** `STRUCT_GET i` reads field `i` of the object. -/
theorem c35_read {env : Env} {t : Thread} {pc : Nat} {i : UInt8} {s fields : List Value} {o : ObjId} {v : Value}
    (hpc : t.pc = pc) (hcode : env.program[pc]? = some Op.structGet.toByte) (hi : env.program[pc + 1]? = some i)
    (hs : t.stack = s ++ [.struct o]) (ho : t.world.heap.deref o = .ok (.struct fields))
    (hv : fields[i.toNat]? = some v) (room : s.length < env.stackSize) :
    exec env t = .ok { t with pc := (pc + 2 : Nat), stack := s ++ [v] } := by
  rw [exec_at hpc hcode, execOp]
  rw [readByte_some hi, pop_append t s _ hs]
  simp only [Res.bind_ok, structFields, ho, hv]
  rw [push_room _ room]

/-- **C35.** `STRUCT_SET i` makes field `i` hold the value, keeps every other field and every other
object; an index out of range fails an assertion. -/
theorem c35_write {env : Env} {t : Thread} {pc : Nat} {i : UInt8} {s fields : List Value} {o : ObjId} {v : Value}
    (hpc : t.pc = pc) (hcode : env.program[pc]? = some Op.structSet.toByte) (hi : env.program[pc + 1]? = some i)
    (hs : t.stack = s ++ [v, .struct o]) (ho : t.world.heap.deref o = .ok (.struct fields)) :
    if i.toNat < fields.length then
      ∃ heap fields', exec env t = .ok { t with pc := (pc + 2 : Nat), stack := s, world := { t.world with heap := heap } } ∧
        heap.deref o = .ok (.struct fields') ∧ fields'.length = fields.length ∧
        fields'[i.toNat]? = some v ∧ (∀ j, j ≠ i.toNat → fields'[j]? = fields[j]?) ∧
        (∀ p, p ≠ o → heap.deref p = t.world.heap.deref p)
    else exec env t = .abort := by
  have hpop : pop t = .ok (.struct o, { t with stack := s ++ [v] }) := pop_append t (s ++ [v]) _ (by simp [hs])
  have hpop2 : pop { t with stack := s ++ [v] } = .ok (v, { t with stack := s }) := pop_append _ s _ rfl
  have hmem : o ∈ t.world.heap.list := by
    unfold Heap.deref at ho
    by_cases h : o ∈ t.world.heap.list
    · exact h
    · simp [h] at ho
  have hx : exec env t = if i.toNat < fields.length then
      .ok { t with pc := (pc + 2 : Nat), stack := s, world := { t.world with heap := { t.world.heap with
        obj := upd t.world.heap.obj o (.struct (fields.set i.toNat v)) } } }
      else .abort := by
    rw [exec_at hpc hcode, execOp]
    rw [readByte_some hi, hpop]
    simp only [Res.bind_ok, hpop2, structFields, ho]
  split
  · next h =>
    rw [hx, if_pos h]
    refine ⟨_, fields.set i.toNat v, rfl, ?_, by simp, by simp [h], ?_, ?_⟩
    · simp [Heap.deref, hmem, upd]
    · intro j hj; rw [List.getElem?_set_ne (by omega)]
    · intro p hp; simp [Heap.deref, upd, hp]
  · next h => rw [hx, if_neg h]

example : ∃ (t : Thread) (env : Env) (fields : List Value), t.stack = [.int 5#64] ++ [.null, .int 7#64] ∧ WfThread t ∧
    env.program = [Op.pushStruct.toByte, 2] ∧ fields = [.null, .int 7#64] ∧ t.pc = 0 ∧ env.stackSize = 128 := by
  refine ⟨{ startThread 0 with stack := [.int 5#64, .null, .int 7#64] },
    { program := [Op.pushStruct.toByte, 2],
      fl := ⟨fun a _ => a, fun a _ => a, fun a _ => a, fun a _ => a, id, fun _ _ => true, fun _ _ => true⟩ },
    _, rfl, ?_, rfl, rfl, rfl, rfl⟩
  refine ⟨List.nodup_nil, rfl, fun _ => rfl, by simp [startThread], List.nodup_nil, by simp [startThread],
    by simp [startThread], ?_⟩
  intro o r
  exfalso
  have h : ∀ v ∈ ({ startThread 0 with stack := [.int 5#64, .null, .int 7#64] } : Thread).roots, v.objId? = none := by
    simp [Thread.roots, startThread, Value.objId?]
  generalize ({ startThread 0 with stack := [.int 5#64, .null, .int 7#64] } : Thread).roots = roots at *
  induction r with
  | root a b => rw [h _ a] at b; cases b
  | step _ _ ih => exact ih

/-! ## C41 -/

/-- **C41.** A stopped thread stays as it is. -/
theorem c41_stopped {env : Env} {t : Thread} (h : t.pc < 0) :
    cycle env t = .ok (false, t) ∧ ∀ n, stepsGC env n t = .ok t := by
  have h1 : cycle env t = .ok (false, t) := by unfold cycle; rw [if_pos h]
  refine ⟨h1, ?_⟩
  intro n
  induction n with
  | zero => rfl
  | succ n ih => simp only [stepsGC, h1, Res.bind_ok, ih]

/-- The value of `push` keeps the pc. -/
theorem push_pc {env : Env} {t u : Thread} {v : Value} (e : push env t v = .ok u) : u.pc = t.pc := by
  rw [push_ok e]

/-- **C41.** How a running thread can stop in one cycle: by `HALT`; by returning to a frame which was
entered by a stopped thread; or by a jump whose operand is 2^31 or more (no program of less than 2 GB
has one, C42). -/
theorem c41_how_to_stop {env : Env} {t u : Thread} (h0 : 0 ≤ t.pc) (e : exec env t = .ok u) (h : u.pc < 0) :
    ∃ op : Op, env.program[t.pc.toNat]? = some op.toByte ∧
      (op = .halt ∨
       ((op = .ret ∨ op = .retValue) ∧ ∃ f, t.frames.getLast? = some f ∧ f.pc = u.pc) ∨
       ((op = .goto ∨ op = .gotoz) ∧
         ∃ v pc' : Nat, readValueAt env.program (t.pc.toNat + 1) 4 = .ok (v, pc') ∧ 2 ^ 31 ≤ v)) := by
  unfold exec at e
  obtain ⟨b, hb, e⟩ := Res.bind_eq_ok.1 e
  cases hop : Op.ofByte b with
  | none => rw [hop] at e; cases e
  | some op =>
    rw [hop] at e
    have hb' : env.program[t.pc.toNat]? = some op.toByte := by
      unfold readByte at hb
      cases hx : env.program[t.pc.toNat]? with
      | none => rw [hx] at hb; cases hb
      | some c => rw [hx] at hb; cases hb; rw [Op.toByte_ofByte hop]
    have np : ∀ {s : Thread} {v : Value} {n : Nat}, push env { s with pc := (n : Nat) } v ≠ .ok u := by
      intro s v n h1
      have := push_pc h1
      simp only at this
      omega
    have toPc_neg : ∀ {v : Nat}, toPc v < 0 → 2 ^ 31 ≤ v := by
      intro v hv
      unfold toPc at hv
      rw [BitVec.toInt_eq_toNat_cond] at hv
      simp only [BitVec.toNat_ofNat] at hv
      split at hv <;> omega
    have rt : ∀ {s : Thread}, s.frames = t.frames → popIndir s = .ok u →
        ∃ f, t.frames.getLast? = some f ∧ f.pc = u.pc := by
      intro s hs h1
      unfold popIndir at h1
      rw [hs] at h1
      cases hf : t.frames.getLast? with
      | none => rw [hf] at h1; cases h1
      | some f =>
        rw [hf] at h1
        simp only at h1
        split at h1
        · cases h1; exact ⟨f, rfl, rfl⟩
        · cases h1
    refine ⟨op, hb', ?_⟩
    simp only [execOp] at e
    cases op with
    | halt => exact .inl rfl
    | misaligned => cases e
    | ret => exact .inr (.inl ⟨.inl rfl, rt (s := { t with retVal := .null }) rfl e⟩)
    | retValue =>
      obtain ⟨⟨v, t1⟩, e1, e⟩ := Res.bind_eq_ok.1 e
      exact .inr (.inl ⟨.inr rfl, rt (by rw [(pop_ok e1).2]) e⟩)
    | goto =>
      obtain ⟨⟨v, pc'⟩, e1, e⟩ := Res.bind_eq_ok.1 e
      cases e
      exact .inr (.inr ⟨.inl rfl, v, pc', e1, toPc_neg h⟩)
    | gotoz =>
      obtain ⟨⟨v, pc'⟩, e1, e⟩ := Res.bind_eq_ok.1 e
      obtain ⟨⟨x, t1⟩, _, e⟩ := Res.bind_eq_ok.1 e
      obtain ⟨c, _, e⟩ := Res.bind_eq_ok.1 e
      cases e
      simp only at h
      split at h
      · omega
      · exact .inr (.inr ⟨.inr rfl, v, pc', e1, toPc_neg h⟩)
    | pushNull => exact absurd e np
    | pushTrue => exact absurd e np
    | pushFalse => exact absurd e np
    | push0 => exact absurd e np
    | push1 => exact absurd e np
    | getRetVal => exact absurd e np
    | pushNullN =>
      obtain ⟨n, _, e⟩ := Res.bind_eq_ok.1 e
      split at e
      · cases e; simp only at h; omega
      · cases e
    | pushInt => obtain ⟨_, _, e⟩ := Res.bind_eq_ok.1 e; exact absurd e np
    | pushFloat => obtain ⟨_, _, e⟩ := Res.bind_eq_ok.1 e; exact absurd e np
    | pushChar => obtain ⟨_, _, e⟩ := Res.bind_eq_ok.1 e; exact absurd e np
    | pushString =>
      obtain ⟨_, _, e⟩ := Res.bind_eq_ok.1 e
      split at e
      · exact absurd e np
      · cases e
    | pushStringFF =>
      obtain ⟨_, _, e⟩ := Res.bind_eq_ok.1 e
      split at e
      · exact absurd e np
      · cases e
    | pushStruct =>
      obtain ⟨_, _, e⟩ := Res.bind_eq_ok.1 e
      obtain ⟨_, _, e⟩ := Res.bind_eq_ok.1 e
      split at e
      · have := push_pc e; simp only at this; omega
      · cases e
    | structGet =>
      obtain ⟨_, _, e⟩ := Res.bind_eq_ok.1 e
      obtain ⟨_, _, e⟩ := Res.bind_eq_ok.1 e
      obtain ⟨_, _, e⟩ := Res.bind_eq_ok.1 e
      split at e
      · cases e
      · exact absurd e np
    | structSet =>
      obtain ⟨_, _, e⟩ := Res.bind_eq_ok.1 e
      obtain ⟨_, _, e⟩ := Res.bind_eq_ok.1 e
      obtain ⟨_, _, e⟩ := Res.bind_eq_ok.1 e
      obtain ⟨_, _, e⟩ := Res.bind_eq_ok.1 e
      split at e
      · cases e; simp only at h; omega
      · cases e
    | add | sub | mul | div | mod | or | and | shl | shr | lt | lte | gt | gte | equ =>
      obtain ⟨_, _, e⟩ := Res.bind_eq_ok.1 e
      obtain ⟨_, _, e⟩ := Res.bind_eq_ok.1 e
      obtain ⟨_, _, e⟩ := Res.bind_eq_ok.1 e
      exact absurd e np
    | add1 | sub1 | logNot =>
      obtain ⟨_, _, e⟩ := Res.bind_eq_ok.1 e
      obtain ⟨_, _, e⟩ := Res.bind_eq_ok.1 e
      exact absurd e np
    | set =>
      obtain ⟨_, _, e⟩ := Res.bind_eq_ok.1 e
      obtain ⟨_, _, e⟩ := Res.bind_eq_ok.1 e
      split at e
      · cases e; simp only at h; omega
      · cases e
    | get =>
      obtain ⟨_, _, e⟩ := Res.bind_eq_ok.1 e
      split at e
      · exact absurd e np
      · cases e
    | call =>
      obtain ⟨_, _, e⟩ := Res.bind_eq_ok.1 e
      obtain ⟨_, _, e⟩ := Res.bind_eq_ok.1 e
      obtain ⟨_, _, e⟩ := Res.bind_eq_ok.1 e
      split at e
      · cases e; simp only at h; omega
      · cases e
    | callf =>
      obtain ⟨_, _, e⟩ := Res.bind_eq_ok.1 e
      obtain ⟨_, _, e⟩ := Res.bind_eq_ok.1 e
      split at e
      · obtain ⟨_, _, e⟩ := Res.bind_eq_ok.1 e
        cases e; simp only at h; omega
      · cases e
    | getLocal | getLocalW =>
      obtain ⟨_, _, e⟩ := Res.bind_eq_ok.1 e
      obtain ⟨_, _, e⟩ := Res.bind_eq_ok.1 e
      exact absurd e np
    | setLocal =>
      obtain ⟨_, _, e⟩ := Res.bind_eq_ok.1 e
      obtain ⟨_, _, e⟩ := Res.bind_eq_ok.1 e
      split at e
      · cases e; simp only at h; omega
      · cases e

/-- **C41.** `Tiny_Run` gives the state after the first number of cycles at which the thread has stopped:
more fuel changes nothing, and its result is a stopped thread reached by cycles. -/
theorem c41_run {env : Env} : ∀ (n : Nat) (t u : Thread), run env n t = .ok u →
    u.pc < 0 ∧ (∃ k, k < n ∧ stepsGC env k t = .ok u) ∧ ∀ m, n ≤ m → run env m t = .ok u
  | 0, t, u, e => by cases e
  | n + 1, t, u, e => by
    obtain ⟨⟨b, t1⟩, e1, e⟩ := Res.bind_eq_ok.1 e
    cases b with
    | true =>
      obtain ⟨h1, ⟨k, hk, h2⟩, h3⟩ := c41_run n t1 u e
      refine ⟨h1, ⟨k + 1, by omega, by simp only [stepsGC, e1, Res.bind_ok]; exact h2⟩, ?_⟩
      intro m hm
      obtain ⟨m, rfl⟩ : ∃ k, m = k + 1 := ⟨m - 1, by omega⟩
      simp only [run, e1, Res.bind_ok]
      exact h3 m (by omega)
    | false =>
      cases e
      have hc := e1
      unfold cycle at hc
      split at hc
      · next hp =>
        cases hc
        refine ⟨hp, ⟨0, by omega, rfl⟩, ?_⟩
        intro m hm
        obtain ⟨m, rfl⟩ : ∃ k, m = k + 1 := ⟨m - 1, by omega⟩
        simp only [run, e1, Res.bind_ok]
      · obtain ⟨_, _, hc⟩ := Res.bind_eq_ok.1 hc
        obtain ⟨_, _, hc⟩ := Res.bind_eq_ok.1 hc
        cases hc

/-! ## C33 -/

/-- Any number of threads started on one compiled state, and the order in which the host runs their
cycles. Each has its own stack, globals and heap (`Tiny_StateThread`); the compiled state is only read. -/
def runSchedule (env : Env) : List Nat → (Nat → Thread) → Res (Nat → Thread)
  | [], ts => .ok ts
  | i :: sched, ts => do
    let (_, t) ← cycle env (ts i)
    runSchedule env sched (upd ts i t)

/-- **C33.** In any interleaving each thread gets exactly to where it would have got alone. -/
theorem c33_threads_independent {env : Env} : ∀ (sched : List Nat) (ts ts' : Nat → Thread),
    runSchedule env sched ts = .ok ts' → ∀ i, stepsGC env (sched.count i) (ts i) = .ok (ts' i)
  | [], ts, ts', e, i => by cases e; rfl
  | j :: sched, ts, ts', e, i => by
    obtain ⟨⟨b, t⟩, e1, e⟩ := Res.bind_eq_ok.1 e
    have ih := c33_threads_independent sched _ _ e i
    by_cases h : i = j
    · subst h
      rw [List.count_cons_self]
      simp only [stepsGC, e1, Res.bind_ok]
      simpa [upd] using ih
    · rw [List.count_cons_of_ne (Ne.symm h)]
      simpa [upd, h] using ih

/-- **C33.** Conversely, if each thread alone gets there, every interleaving does. -/
theorem c33_any_schedule {env : Env} : ∀ (sched : List Nat) (ts : Nat → Thread) (ts' : Nat → Thread),
    (∀ i, stepsGC env (sched.count i) (ts i) = .ok (ts' i)) →
    ∃ us, runSchedule env sched ts = .ok us ∧ ∀ i, us i = ts' i
  | [], ts, ts', h => ⟨ts, rfl, fun i => by have := h i; simpa [stepsGC] using this⟩
  | j :: sched, ts, ts', h => by
    have hj := h j
    rw [List.count_cons_self] at hj
    obtain ⟨⟨b, t⟩, e1, e⟩ := Res.bind_eq_ok.1 hj
    obtain ⟨us, h1, h2⟩ := c33_any_schedule sched (upd ts j t) ts' (by
      intro i
      by_cases hi : i = j
      · subst hi; simpa [upd] using e
      · have := h i
        rw [List.count_cons_of_ne (Ne.symm hi)] at this
        simpa [upd, hi] using this)
    refine ⟨us, ?_, h2⟩
    simp only [runSchedule, e1, Res.bind_ok]
    exact h1

end Tiny
