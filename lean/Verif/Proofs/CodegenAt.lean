import Verif.Proofs.CodeAt

/-!
# The code generator puts the code of each item where it says (expressions)
-/

namespace Tiny

theorem CG.bind_ok {α β : Type} {x : CG α} {f : α → CG β} {s s' : CS} {b : β} :
    (x >>= f) s = .ok b s' ↔ ∃ a s1, x s = .ok a s1 ∧ f a s1 = .ok b s' := by
  show (match x s with | .ok a s => f a s | .err s => .err s | .abort => .abort | .ub => .ub) = .ok b s' ↔ _
  cases x s with
  | ok a s1 => exact ⟨fun h => ⟨a, s1, rfl, h⟩, fun ⟨a', s1', h, h'⟩ => by cases h; exact h'⟩
  | _ => simp

theorem CG.pure_ok {α : Type} {a b : α} {s s' : CS} : (pure a : CG α) s = .ok b s' ↔ b = a ∧ s' = s := by
  show CR.ok a s = .ok b s' ↔ _
  simp only [CR.ok.injEq]
  constructor <;> rintro ⟨rfl, rfl⟩ <;> exact ⟨rfl, rfl⟩

theorem CG.err_ok {α : Type} {b : α} {s s' : CS} : (reportError : CG α) s ≠ .ok b s' := by
  intro h; cases h
theorem CG.abort_ok {α : Type} {b : α} {s s' : CS} : (failAssert : CG α) s ≠ .ok b s' := by
  intro h; cases h
theorem CG.ub_ok {α : Type} {b : α} {s s' : CS} : (undefined : CG α) s ≠ .ok b s' := by
  intro h; cases h

/-! ## Bytes -/

theorem leBytes_length : ∀ n v, (leBytes n v).length = n
  | 0, _ => rfl
  | n + 1, v => by simp [leBytes, leBytes_length n]

theorem readLE_leBytes : ∀ (n v : Nat) (A B : List UInt8),
    readLE (A ++ leBytes n v ++ B) A.length n = .ok (v % 256 ^ n)
  | 0, v, A, B => by simp [readLE, Nat.mod_one]
  | n + 1, v, A, B => by
    have ih := readLE_leBytes n (v / 256) (A ++ [UInt8.ofNat v]) B
    have e1 : A ++ leBytes (n + 1) v ++ B = (A ++ [UInt8.ofNat v]) ++ leBytes n (v / 256) ++ B := by simp [leBytes]
    have e2 : (A ++ [UInt8.ofNat v]).length = A.length + 1 := by simp
    rw [e1]
    rw [e2] at ih
    unfold readLE
    rw [ih]
    have : readByte (A ++ [UInt8.ofNat v] ++ leBytes n (v / 256) ++ B) A.length = .ok (UInt8.ofNat v) := by
      unfold readByte; simp
    rw [this]
    simp only [Res.bind_ok, UInt8.toNat_ofNat']
    congr 1
    have h1 := Nat.mod_mul (x := v) (a := 256) (b := 256 ^ n)
    have h2 : 256 ^ (n + 1) = 256 * 256 ^ n := by rw [Nat.pow_succ, Nat.mul_comm]
    rw [h2, h1]

theorem writeAt_length : ∀ (bs p : List UInt8) (i : Nat), (writeAt p i bs).length = p.length
  | [], _, _ => rfl
  | b :: bs, p, i => by simp [writeAt, writeAt_length bs]

theorem writeAt_other : ∀ (bs p : List UInt8) (i k : Nat), k < i ∨ i + bs.length ≤ k → (writeAt p i bs)[k]? = p[k]?
  | [], _, _, _, _ => rfl
  | b :: bs, p, i, k, h => by
    simp only [List.length_cons] at h
    rw [writeAt, writeAt_other bs _ _ _ (by omega), List.getElem?_set_ne (by omega)]

theorem writeAt_at : ∀ (bs p : List UInt8) (i k : Nat), i + bs.length ≤ p.length → k < bs.length →
    (writeAt p i bs)[i + k]? = bs[k]?
  | [], _, _, _, _, h => by simp at h
  | b :: bs, p, i, k, h, hk => by
    simp only [List.length_cons] at h hk
    rw [writeAt]
    cases k with
    | zero =>
      rw [writeAt_other _ _ _ _ (by omega)]
      have : i < p.length := by omega
      simp [this]
    | succ k =>
      have := writeAt_at bs (p.set i b) (i + 1) k (by simp; omega) (by omega)
      rw [show i + (k + 1) = i + 1 + k by omega, this]
      simp

theorem readLE_writeAt {p : List UInt8} {i n v : Nat} (h : i + n ≤ p.length) :
    readLE (writeAt p i (leBytes n v)) i n = .ok (v % 256 ^ n) := by
  have e := readLE_leBytes n v (p.take i) []
  have hl : (p.take i).length = i := by simp; omega
  rw [hl] at e
  rw [← e]
  apply readLE_agree
  intro k h1 h2
  have := writeAt_at (leBytes n v) p i (k - i) (by rw [leBytes_length]; omega) (by rw [leBytes_length]; omega)
  rw [show i + (k - i) = k by omega] at this
  rw [this]
  simp only [List.append_nil]
  rw [List.getElem?_append_right (by omega), hl]

/-! ## Steps -/

/-- `s'` extends `s` by code. -/
structure Ext (s s' : CS) : Prop where
  le : s.program.length ≤ s'.program.length
  agree : ∀ k, k < s.program.length → s'.program[k]? = s.program[k]?

/-- The line records, and the file the next ones will name. -/
def CS.log (s : CS) : List LineRec × Option Nat := (s.lines, s.file)

/-- `s'` extends `s` by code and is otherwise the same. -/
structure QExt (s s' : CS) : Prop extends Ext s s' where
  fpcs : s'.functionPcs = s.functionPcs
  lines : s'.log = s.log

theorem Ext.refl (s : CS) : Ext s s := ⟨Nat.le_refl _, fun _ _ => rfl⟩
theorem Ext.trans {a b c : CS} (h : Ext a b) (h' : Ext b c) : Ext a c :=
  ⟨Nat.le_trans h.le h'.le, fun k hk => (h'.agree k (Nat.lt_of_lt_of_le hk h.le)).trans (h.agree k hk)⟩
theorem QExt.refl (s : CS) : QExt s s := ⟨.refl s, rfl, rfl⟩
theorem QExt.trans {a b c : CS} (h : QExt a b) (h' : QExt b c) : QExt a c :=
  ⟨h.toExt.trans h'.toExt, h'.fpcs.trans h.fpcs, h'.lines.trans h.lines⟩

theorem Ext.at {g fp a it} {s s' : CS} {fin : Nat} (h : Ext s s') (hf : fin ≤ s.program.length)
    (x : At g fp s.program a it fin) : At g fp s'.program a it fin :=
  x.agree fun k _ h2 => h.agree k (by omega)

theorem Ext.ati {a i} {s s' : CS} {fin : Nat} (h : Ext s s') (hf : fin ≤ s.program.length)
    (x : AtI s.program a i fin) : AtI s'.program a i fin :=
  x.agree fun k _ h2 => h.agree k (by omega)

theorem genByte_ok {b : UInt8} {s s' : CS} (h : genByte b s = .ok () s') :
    QExt s s' ∧ s'.program.length = s.program.length + 1 ∧ s'.program[s.program.length]? = some b := by
  unfold genByte at h
  cases h
  refine ⟨⟨⟨by simp, fun k hk => ?_⟩, rfl, rfl⟩, by simp, by simp⟩
  simp only
  rw [List.getElem?_append_left hk]

theorem genOp_ok {o : Op} {s s' : CS} (h : genOp o s = .ok () s') :
    QExt s s' ∧ AtI s'.program s.program.length (.op o) s'.program.length := by
  obtain ⟨h1, h2, h3⟩ := genByte_ok h
  exact ⟨h1, h3, h2⟩

theorem genValue_ok {n v p : Nat} {s s' : CS} (hn : 0 < n) (h : genValue n v s = .ok p s') :
    QExt s s' ∧ p = alignUp s.program.length n ∧ s'.program.length = p + n ∧ readLE s'.program p n = .ok (v % 256 ^ n) := by
  unfold genValue at h
  cases h
  have hle := le_alignUp s.program.length n hn
  refine ⟨⟨⟨by simp only [List.length_append]; omega, fun k hk => ?_⟩, rfl, rfl⟩, rfl, ?_, ?_⟩
  · simp only
    rw [List.append_assoc, List.getElem?_append_left hk]
  · simp [leBytes_length]; omega
  · have e := readLE_leBytes n v (s.program ++ List.replicate (alignUp s.program.length n - s.program.length) Op.misaligned.toByte) []
    rw [List.append_nil] at e
    have hl : (s.program ++ List.replicate (alignUp s.program.length n - s.program.length) Op.misaligned.toByte).length
        = alignUp s.program.length n := by simp; omega
    rw [hl] at e
    exact e

/-- An opcode followed by a value. -/
theorem genOpV_ok {o : Op} {n v p : Nat} {s s1 s' : CS} (hn : 0 < n) (h1 : genOp o s = .ok () s1)
    (h2 : genValue n v s1 = .ok p s') :
    QExt s s' ∧ AtI s'.program s.program.length (.opV o n (v % 256 ^ n)) s'.program.length ∧
      p = alignUp (s.program.length + 1) n ∧ s'.program.length = p + n := by
  obtain ⟨e1, a1, a2⟩ := genOp_ok h1
  obtain ⟨e2, b1, b2, b3⟩ := genValue_ok hn h2
  rw [a2] at b1
  refine ⟨e1.trans e2, ⟨?_, hn, ?_⟩, b1, b2⟩
  · rw [e2.agree _ (by omega)]; exact a1
  · unfold readValueAt
    simp only [← b1, b3, b2, Res.bind_ok]

/-- An opcode followed by a byte. -/
theorem genOpB_ok {o : Op} {b : UInt8} {s s1 s' : CS} (h1 : genOp o s = .ok () s1) (h2 : genByte b s1 = .ok () s') :
    QExt s s' ∧ AtI s'.program s.program.length (.opB o b) s'.program.length := by
  obtain ⟨e1, a1, a2⟩ := genOp_ok h1
  obtain ⟨e2, b1, b2⟩ := genByte_ok h2
  refine ⟨e1.trans e2, ?_, ?_, ?_⟩
  · rw [e2.agree _ (by omega)]; exact a1
  · rw [a2] at b2; exact b2
  · omega

/-- An opcode followed by a byte and a 4-byte value. -/
theorem genOpBV_ok {o : Op} {b : UInt8} {v p : Nat} {s s1 s2 s' : CS} (h1 : genOp o s = .ok () s1)
    (h2 : genByte b s1 = .ok () s2) (h3 : genValue 4 v s2 = .ok p s') :
    QExt s s' ∧ AtI s'.program s.program.length (.opBV o b (v % 2 ^ 32)) s'.program.length := by
  obtain ⟨e1, a1, a2, a3⟩ := genOpB_ok h1 h2
  obtain ⟨e2, b1, b2, b3⟩ := genValue_ok (by omega) h3
  rw [a3] at b1
  refine ⟨e1.trans e2, ?_, ?_, ?_⟩
  · rw [e2.agree _ (by omega)]; exact a1
  · rw [e2.agree _ (by omega)]; exact a2
  · unfold readValueAt
    simp only [← b1, b3, b2, Res.bind_ok]

/-- What `PatchJumpLoc` does. -/
structure Patched (p v : Nat) (s s' : CS) : Prop where
  len : s'.program.length = s.program.length
  agree : ∀ k, (k < p ∨ p + 4 ≤ k) → s'.program[k]? = s.program[k]?
  val : readLE s'.program p 4 = .ok (v % 2 ^ 32)
  fpcs : s'.functionPcs = s.functionPcs
  lines : s'.log = s.log

theorem patchJump_ok {p v : Nat} {s s' : CS} (h : patchJump p v s = .ok () s') : Patched p v s s' := by
  unfold patchJump at h
  split at h
  · cases h
  split at h
  · next h1 =>
    cases h
    refine ⟨writeAt_length _ _ _, fun k hk => writeAt_other _ _ _ _ (by rw [leBytes_length]; exact hk),
      readLE_writeAt h1, rfl, rfl⟩
  · cases h

theorem programCount_ok {n : Nat} {s s' : CS} (h : programCount s = .ok n s') : n = s.program.length ∧ s' = s := by
  unfold programCount at h; cases h; exact ⟨rfl, rfl⟩

/-- A jump whose operand reads as `v` in the final program. -/
theorem ati_jump {P : List UInt8} {pos p v : Nat} {o : Op} (h1 : P[pos]? = some o.toByte) (hp : p = alignUp (pos + 1) 4)
    (h2 : readLE P p 4 = .ok v) : AtI P pos (.opV o 4 v) (p + 4) := by
  refine ⟨h1, by omega, ?_⟩
  unfold readValueAt
  simp only [← hp, h2, Res.bind_ok]

theorem readLE_keep {P Q : List UInt8} {i n : Nat} {r : Res Nat} (h : readLE P i n = r)
    (a : ∀ k, i ≤ k → k < i + n → Q[k]? = P[k]?) : readLE Q i n = r := by
  rw [readLE_agree n i a]; exact h

/-- What is said of the code of an item in the state after it. -/
def Made (g : Globals) (s s' : CS) (it : Item) : Prop :=
  QExt s s' ∧ (s'.program.length < 2 ^ 32 → ∀ fp, At g fp s'.program s.program.length it s'.program.length)

theorem genPushInt_ok {i : BitVec 64} {s s' : CS} (h : genPushInt i s = .ok () s') :
    QExt s s' ∧ AtI s'.program s.program.length (pushIntI i) s'.program.length := by
  unfold genPushInt at h
  unfold pushIntI
  by_cases c0 : i = 0#64
  · rw [if_pos c0] at h ⊢; exact genOp_ok h
  by_cases c1 : i = 1#64
  · rw [if_neg c0, if_pos c1] at h ⊢; exact genOp_ok h
  rw [if_neg c0, if_neg c1] at h ⊢
  obtain ⟨_, s1, h1, h2⟩ := CG.bind_ok.1 h
  obtain ⟨_, s2, h2, h3⟩ := CG.bind_ok.1 h2
  obtain ⟨_, rfl⟩ := CG.pure_ok.1 h3
  obtain ⟨a, b, -⟩ := genOpV_ok (by omega) h1 h2
  rw [Nat.mod_eq_of_lt (by have := i.isLt; simpa using this)] at b
  exact ⟨a, b⟩

theorem genPushFloat_ok {i : BitVec 64} {s s' : CS} (h : genPushFloat i s = .ok () s') :
    QExt s s' ∧ AtI s'.program s.program.length (.opV .pushFloat 8 i.toNat) s'.program.length := by
  unfold genPushFloat at h
  obtain ⟨_, s1, h1, h2⟩ := CG.bind_ok.1 h
  obtain ⟨_, s2, h2, h3⟩ := CG.bind_ok.1 h2
  obtain ⟨_, rfl⟩ := CG.pure_ok.1 h3
  obtain ⟨a, b, -⟩ := genOpV_ok (by omega) h1 h2
  rw [Nat.mod_eq_of_lt (by have := i.isLt; simpa using this)] at b
  exact ⟨a, b⟩

theorem genPushString_ok {i : Nat} {s s' : CS} (h : genPushString i s = .ok () s') :
    QExt s s' ∧ AtI s'.program s.program.length (pushStrI i) s'.program.length := by
  unfold genPushString at h
  unfold pushStrI
  by_cases c0 : i ≤ 0xff
  case' neg => rw [if_neg c0] at h ⊢
  case' pos => rw [if_pos c0] at h ⊢
  · obtain ⟨_, s1, h1, h2⟩ := CG.bind_ok.1 h
    exact genOpB_ok h1 h2
  obtain ⟨_, s1, h1, h2⟩ := CG.bind_ok.1 h
  obtain ⟨_, s2, h2, h3⟩ := CG.bind_ok.1 h2
  obtain ⟨_, rfl⟩ := CG.pure_ok.1 h3
  obtain ⟨a, b, -⟩ := genOpV_ok (by omega) h1 h2
  exact ⟨a, b⟩

theorem genCall_ok {n : Nat} {f : FnSym} {s s' : CS} (h : genCall n f s = .ok () s') :
    QExt s s' ∧ AtI s'.program s.program.length (callI n f) s'.program.length := by
  unfold genCall at h
  unfold callI
  cases f with
  | tiny i =>
    simp only at h ⊢
    obtain ⟨_, s1, h1, h⟩ := CG.bind_ok.1 h
    obtain ⟨_, s2, h2, h⟩ := CG.bind_ok.1 h
    obtain ⟨_, s3, h3, h⟩ := CG.bind_ok.1 h
    obtain ⟨_, rfl⟩ := CG.pure_ok.1 h
    exact genOpBV_ok h1 h2 h3
  | foreign i k va =>
    simp only at h ⊢
    obtain ⟨_, s1, h1, h⟩ := CG.bind_ok.1 h
    split at h
    · obtain ⟨_, _, h2, _⟩ := CG.bind_ok.1 h
      exact absurd h2 CG.err_ok
    obtain ⟨_, s2, h2, h⟩ := CG.bind_ok.1 h
    obtain ⟨_, s3, h3, h⟩ := CG.bind_ok.1 h
    obtain ⟨_, rfl⟩ := CG.pure_ok.1 h
    exact genOpBV_ok h1 h2 h3

theorem indexBits_lt (i : Int) : indexBits i < 2 ^ 32 := (BitVec.ofInt 32 i).isLt

/-- Opcode with a 4-byte operand below 2^32. -/
theorem genOp4_ok {o : Op} {v : Nat} {s s' : CS} (hv : v < 2 ^ 32)
    (h : (do genOp o; let _ ← genValue 4 v : CG Unit) s = .ok () s') :
    QExt s s' ∧ AtI s'.program s.program.length (.opV o 4 v) s'.program.length := by
  obtain ⟨_, s1, h1, h2⟩ := CG.bind_ok.1 h
  obtain ⟨_, s2, h2, h3⟩ := CG.bind_ok.1 h2
  obtain ⟨_, rfl⟩ := CG.pure_ok.1 h3
  obtain ⟨a, b, -⟩ := genOpV_ok (by omega) h1 h2
  rw [Nat.mod_eq_of_lt (by omega)] at b
  exact ⟨a, b⟩

theorem genGetVar_ok {sym : Option VarSym} {s s' : CS} (h : genGetVar sym s = .ok () s') :
    ∃ v, sym = some v ∧ QExt s s' ∧ AtI s'.program s.program.length (getVarI v) s'.program.length := by
  unfold genGetVar at h
  split at h
  · exact absurd h CG.err_ok
  · exact ⟨_, rfl, genOp4_ok (indexBits_lt _) h⟩
  · next i =>
    refine ⟨_, rfl, ?_⟩
    simp only [getVarI]
    by_cases c0 : i < 0 ∨ 0xff < i
    · rw [if_pos c0] at h ⊢; exact genOp4_ok (indexBits_lt _) h
    · rw [if_neg c0] at h ⊢
      obtain ⟨_, s1, h1, h2⟩ := CG.bind_ok.1 h
      exact genOpB_ok h1 h2
  · exact ⟨_, rfl, genPushString_ok h⟩
  · exact ⟨_, rfl, genOp_ok h⟩
  · exact ⟨_, rfl, genPushInt_ok h⟩
  · exact ⟨_, rfl, genPushFloat_ok h⟩

theorem fieldIndex_ok {g : Globals} {tag : Option Tag} {field : Name} {s s' : CS} {i : Nat}
    (h : fieldIndex g tag field s = .ok i s') : fieldIdx g tag field = some i ∧ s' = s := by
  unfold fieldIndex at h
  unfold fieldIdx
  cases ht : tag.bind Tag.structName with
  | none => rw [ht] at h; exact absurd h CG.abort_ok
  | some n =>
    rw [ht] at h
    simp only at h ⊢
    cases hs : g.structs n with
    | none => rw [hs] at h; exact absurd h CG.abort_ok
    | some fields =>
      rw [hs] at h
      simp only at h ⊢
      by_cases hc : fields.findIdx (·.1 = field) < fields.length ∧ fields.findIdx (·.1 = field) ≤ 255
      · rw [if_pos hc] at h ⊢
        obtain ⟨rfl, rfl⟩ := CG.pure_ok.1 h
        exact ⟨rfl, rfl⟩
      · rw [if_neg hc] at h
        exact absurd h CG.abort_ok

theorem genJump_ok {o : Op} {d p : Nat} {s s' : CS} (h : genJump o d s = .ok p s') :
    QExt s s' ∧ p = alignUp (s.program.length + 1) 4 ∧ s'.program.length = p + 4 ∧
      s'.program[s.program.length]? = some o.toByte ∧ readLE s'.program p 4 = .ok (d % 2 ^ 32) ∧
      s.program.length < p := by
  unfold genJump at h
  obtain ⟨_, s1, h1, h2⟩ := CG.bind_ok.1 h
  obtain ⟨a, b, c, d⟩ := genOpV_ok (by omega) h1 h2
  refine ⟨a, c, d, b.1, ?_, ?_⟩
  · have := b.2.2
    unfold readValueAt at this
    obtain ⟨v, h1, h2⟩ := Res.bind_eq_ok.1 this
    have := (Prod.mk.inj (Res.ok.inj h2)).1
    rw [c, h1, this]
  · have := le_alignUp (s.program.length + 1) 4 (by omega)
    omega

/-- The code of `cond ? x : y`-shaped expressions: jump if false, one part, jump to the end, the other. -/
theorem branch_made {g : Globals} {fp : Nat → Option Nat} {s1 s2 s3 s4 s5 s6 s7 : CS} {j1 j2 : Nat}
    (h12 : genJump .gotoz 0 s1 = .ok j1 s2) (h23 : Ext s2 s3) (h34 : genJump .goto 0 s3 = .ok j2 s4)
    (h45 : Patched j1 s4.program.length s4 s5) (h56 : Ext s5 s6) (h67 : Patched j2 s6.program.length s6 s7)
    (hlt : s7.program.length < 2 ^ 32) :
    Ext s1 s7 ∧ s7.program.length = s6.program.length ∧
    AtI s7.program s1.program.length (.gotoz s4.program.length) s2.program.length ∧
    AtI s7.program s3.program.length (.goto s7.program.length) s4.program.length ∧
    s5.program.length = s4.program.length ∧
    (∀ {it}, At g fp s3.program s2.program.length it s3.program.length →
      At g fp s7.program s2.program.length it s3.program.length) ∧
    (∀ {it}, At g fp s6.program s4.program.length it s6.program.length →
      At g fp s7.program s4.program.length it s7.program.length) ∧
    (∀ {i}, AtI s3.program s2.program.length i s3.program.length →
      AtI s7.program s2.program.length i s3.program.length) ∧
    (∀ {i}, AtI s6.program s4.program.length i s6.program.length →
      AtI s7.program s4.program.length i s7.program.length) := by
  obtain ⟨e12, p1, l2, b2, r2, lt1⟩ := genJump_ok h12
  obtain ⟨e34, p2, l4, b4, r4, lt2⟩ := genJump_ok h34
  have := h23.le
  have := h56.le
  have := h45.len
  have := h67.len
  have a47 : ∀ k, k < s4.program.length → (k < j1 ∨ j1 + 4 ≤ k) → (k < j2 ∨ j2 + 4 ≤ k) →
      s7.program[k]? = s4.program[k]? := by
    intro k h1 h2 h3
    rw [h67.agree k h3, h56.agree k (by omega), h45.agree k h2]
  have a37 : ∀ k, k < s3.program.length → (k < j1 ∨ j1 + 4 ≤ k) → s7.program[k]? = s3.program[k]? := by
    intro k h1 h2
    rw [a47 k (by omega) h2 (by omega), e34.agree k h1]
  have a27 : ∀ k, k < s2.program.length → (k < j1 ∨ j1 + 4 ≤ k) → s7.program[k]? = s2.program[k]? := by
    intro k h1 h2
    rw [a37 k (by omega) h2, h23.agree k h1]
  refine ⟨⟨by omega, ?_⟩, by omega, ?_, ?_, by omega, ?_, ?_, ?_, ?_⟩
  · intro k hk
    rw [a27 k (by omega) (by omega), e12.agree k hk]
  · rw [l2]
    refine ati_jump ?_ p1 ?_
    · rw [a27 _ (by omega) (by omega)]; exact b2
    · have := h45.val
      rw [Nat.mod_eq_of_lt (by omega)] at this
      refine readLE_keep this ?_
      intro k h1 h2
      rw [h67.agree k (by omega), h56.agree k (by omega)]
  · rw [l4]
    refine ati_jump ?_ p2 ?_
    · rw [a47 _ (by omega) (by omega) (by omega)]; exact b4
    · have := h67.val
      rw [Nat.mod_eq_of_lt (by omega)] at this
      rw [h67.len]; exact this
  · intro it h
    exact h.agree fun k h1 h2 => a37 k (by omega) (by omega)
  · intro it h
    rw [h67.len]
    exact h.agree fun k h1 h2 => h67.agree k (by omega)
  · intro it h
    exact h.agree fun k h1 h2 => a37 k (by omega) (by omega)
  · intro it h
    rw [h67.len]
    exact h.agree fun k h1 h2 => h67.agree k (by omega)

end Tiny
