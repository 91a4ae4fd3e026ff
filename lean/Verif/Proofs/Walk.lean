import Verif.Spec.Walk
import Verif.Proofs.CodeAt

/-!
# Instruction starts and jump targets of generated code
-/

namespace Tiny
open Spec

theorem alignedFrom_eq (i n : Nat) (hn : 0 < n) : alignedFrom i n = alignUp i n := by
  have h1 := alignUp_mod i n
  have h2 := le_alignUp i n hn
  have h3 := alignUp_lt i n hn
  obtain ⟨k, hk⟩ := Nat.dvd_of_mod_eq_zero h1
  have hi := Nat.div_add_mod i n
  have hm := Nat.mod_lt i hn
  unfold alignedFrom
  rw [hk] at h2 h3 ⊢
  split
  · next h =>
    have : n * (i / n) = i := by omega
    have a1 : i / n ≤ k := by
      apply Nat.le_of_mul_le_mul_left (c := n) _ hn; omega
    have a2 : k < i / n + 1 := by
      apply Nat.lt_of_mul_lt_mul_left (a := n); rw [Nat.mul_add]; omega
    have : k = i / n := by omega
    subst this; omega
  · next h =>
    have a1 : i / n < k := by
      apply Nat.lt_of_mul_lt_mul_left (a := n); omega
    have a2 : k < i / n + 2 := by
      apply Nat.lt_of_mul_lt_mul_left (a := n); rw [Nat.mul_add]; omega
    have : k = i / n + 1 := by omega
    subst this; rw [Nat.mul_add]; omega

theorem readByte_eq {P : List UInt8} {i : Nat} {b : UInt8} : readByte P i = .ok b ↔ P[i]? = some b := by
  unfold readByte
  cases P[i]? <;> simp

theorem readLE_eq {P : List UInt8} : ∀ {n i v : Nat}, readLE P i n = .ok v ↔ numberAt P i n = some v
  | 0, i, v => by simp [readLE, numberAt]
  | n + 1, i, v => by
    rw [readLE, numberAt]
    simp only [Res.bind_eq_ok, readByte_eq, readLE_eq (n := n)]
    simp only [Option.bind_eq_bind, Option.bind_eq_some_iff, Option.pure_def, Option.some.injEq, Res.ok.injEq]

theorem numberAt_len {P : List UInt8} : ∀ {n i v : Nat}, 0 < n → numberAt P i n = some v → i + n ≤ P.length
  | 1, i, v, _, h => by
    simp only [numberAt, Option.bind_eq_bind, Option.bind_eq_some_iff] at h
    obtain ⟨b, hb, _⟩ := h
    have := (List.getElem?_eq_some_iff.1 hb).1
    omega
  | n + 2, i, v, _, h => by
    rw [numberAt] at h
    simp only [Option.bind_eq_bind, Option.bind_eq_some_iff] at h
    obtain ⟨b, hb, x, hx, _⟩ := h
    have := numberAt_len (by omega) hx
    omega

/-- The operands fit the opcode. -/
def Instr.Shaped : Instr → Prop
  | .op o => operands o = .none
  | .opB o _ => operands o = .byte
  | .opV o n _ => operands o = .number n
  | .opBV o _ _ => operands o = .byteNumber

theorem AtI.nextInstr {P : List UInt8} {a b : Nat} {i : Instr} (h : AtI P a i b) (hs : i.Shaped) :
    Spec.nextInstr P a = some b := by
  unfold Spec.nextInstr instrEnd
  cases i with
  | op o =>
    obtain ⟨h1, rfl⟩ := h
    have := (List.getElem?_eq_some_iff.1 h1).1
    simp only [Instr.Shaped] at hs
    simp [h1, Op.ofByte_toByte, hs]; exact this
  | opB o x =>
    obtain ⟨h1, h2, rfl⟩ := h
    have := (List.getElem?_eq_some_iff.1 h2).1
    simp only [Instr.Shaped] at hs
    simp [h1, Op.ofByte_toByte, hs]; exact this
  | opV o n v =>
    obtain ⟨h1, h0, h2⟩ := h
    have e := readValueAt_next h2
    unfold readValueAt at h2
    obtain ⟨w, hw, h2⟩ := Res.bind_eq_ok.1 h2
    have := numberAt_len h0 (readLE_eq.1 hw)
    simp only [Instr.Shaped] at hs
    simp [h1, Op.ofByte_toByte, hs, alignedFrom_eq _ _ h0, e]; omega
  | opBV o x v =>
    obtain ⟨h1, hx, h2⟩ := h
    have e := readValueAt_next h2
    unfold readValueAt at h2
    obtain ⟨w, hw, h2⟩ := Res.bind_eq_ok.1 h2
    have := numberAt_len (by omega) (readLE_eq.1 hw)
    simp only [Instr.Shaped] at hs
    simp [h1, Op.ofByte_toByte, hs, alignedFrom_eq _ 4 (by omega), e]; omega

theorem instrEnd_lt (op : Op) (a : Nat) : a < instrEnd op a := by
  have h1 := le_alignUp (a + 1) 8 (by omega)
  have h2 := le_alignUp (a + 1) 4 (by omega)
  have h3 := le_alignUp (a + 2) 4 (by omega)
  rw [← alignedFrom_eq _ _ (by omega)] at h1 h2 h3
  cases op <;> simp only [instrEnd, operands] <;> omega

theorem nextInstr_some {P : List UInt8} {a b : Nat} (h : nextInstr P a = some b) :
    ∃ op, P[a]? = some op.toByte ∧ b = instrEnd op a ∧ b ≤ P.length := by
  unfold nextInstr at h
  cases h1 : P[a]?.bind Op.ofByte with
  | none => rw [h1] at h; cases h
  | some op =>
    rw [h1] at h
    simp only [Option.ite_none_right_eq_some, Option.some.injEq] at h
    obtain ⟨h2, rfl⟩ := h
    obtain ⟨x, hx, hop⟩ := Option.bind_eq_some_iff.1 h1
    exact ⟨op, by rw [hx, Op.toByte_ofByte hop], rfl, h2⟩

theorem nextInstr_lt {P : List UInt8} {a b : Nat} (h : nextInstr P a = some b) : a < b := by
  obtain ⟨op, _, rfl, _⟩ := nextInstr_some h
  exact instrEnd_lt op a

theorem _root_.Tiny.Spec.Visits.le {P : List UInt8} {a b : Nat} (h : Visits P a b) : a ≤ b := by
  induction h with
  | here => exact Nat.le_refl _
  | next h _ ih => have := nextInstr_lt h; omega

theorem _root_.Tiny.Spec.Visits.trans {P : List UInt8} {a b c : Nat} (h : Visits P a b) (h' : Visits P b c) : Visits P a c := by
  induction h with
  | here => exact h'
  | next h _ ih => exact .next h (ih h')

theorem _root_.Tiny.Spec.Visits.one {P : List UInt8} {a b : Nat} (h : nextInstr P a = some b) : Visits P a b := .next h .here

/-- Of two positions one comes to, from the first one comes to the second. -/
theorem _root_.Tiny.Spec.Visits.linear {P : List UInt8} {a b c : Nat} (h : Visits P a b) : Visits P a c → b ≤ c → Visits P b c := by
  induction h with
  | here => intro h _; exact h
  | next h hb ih =>
    intro h' hle
    cases h' with
    | here =>
      have := nextInstr_lt h
      have := hb.le
      omega
    | next h2 h3 => rw [h] at h2; cases h2; exact ih h3 hle

/-- The code in `[a, b)` is made of whole instructions, and its jumps go to instructions of this code, to its
end, or to `X`. -/
structure Closed (P : List UInt8) (X : Nat → Prop) (a b : Nat) : Prop where
  walk : Visits P a b
  jumps : ∀ p d, Visits P a p → p < b → jumpTarget P p = some d → (Visits P a d ∧ d ≤ b) ∨ X d
  ops : ∀ p, Visits P a p → p < b → P[p]? ≠ some Op.misaligned.toByte ∧ P[p]? ≠ some Op.halt.toByte

theorem Closed.nil {P : List UInt8} {X : Nat → Prop} {a : Nat} : Closed P X a a :=
  ⟨.here, fun p d h hl => by have := h.le; omega, fun p h hl => by have := h.le; omega⟩

theorem Closed.append {P : List UInt8} {X : Nat → Prop} {a b c : Nat} (h : Closed P X a b) (h' : Closed P X b c) :
    Closed P X a c := by
  refine ⟨h.walk.trans h'.walk, fun p d hp hl hj => ?_, fun p hp hl => ?_⟩
  case refine_2 =>
    by_cases hb : p < b
    · exact h.ops p hp hb
    · exact h'.ops p (h.walk.linear hp (by omega)) hl
  have hbc := h'.walk.le
  by_cases hb : p < b
  · rcases h.jumps p d hp hb hj with ⟨h1, h2⟩ | h1
    · exact .inl ⟨h1, by omega⟩
    · exact .inr h1
  · rcases h'.jumps p d (h.walk.linear hp (by omega)) hl hj with ⟨h1, h2⟩ | h1
    · exact .inl ⟨h.walk.trans h1, h2⟩
    · exact .inr h1

theorem Closed.mono {P : List UInt8} {X Y : Nat → Prop} {a b : Nat} (h : Closed P X a b)
    (hx : ∀ d, X d → (Visits P a d ∧ d ≤ b) ∨ Y d) : Closed P Y a b := by
  refine ⟨h.walk, fun p d hp hl hj => ?_, h.ops⟩
  rcases h.jumps p d hp hl hj with h1 | h1
  · exact .inl h1
  · exact hx d h1

theorem Closed.weaken {P : List UInt8} {X Y : Nat → Prop} {a b : Nat} (h : Closed P X a b) (hx : ∀ d, X d → Y d) :
    Closed P Y a b := h.mono fun d hd => .inr (hx d hd)

/-- An instruction which does not jump, stop or fail. -/
def Instr.straight : Instr → Bool
  | .op o => o ≠ .goto ∧ o ≠ .gotoz ∧ o ≠ .misaligned ∧ o ≠ .halt
  | .opB o _ => o ≠ .goto ∧ o ≠ .gotoz ∧ o ≠ .misaligned ∧ o ≠ .halt
  | .opV o _ _ => o ≠ .goto ∧ o ≠ .gotoz ∧ o ≠ .misaligned ∧ o ≠ .halt
  | .opBV o _ _ => o ≠ .goto ∧ o ≠ .gotoz ∧ o ≠ .misaligned ∧ o ≠ .halt

theorem AtI.opcode {P : List UInt8} {a b : Nat} {i : Instr} (h : AtI P a i b) :
    P[a]? = some (match i with | .op o => o | .opB o _ => o | .opV o _ _ => o | .opBV o _ _ => o).toByte := by
  cases i with
  | op o => exact h.1
  | opB o x => exact h.1
  | opV o n v => exact h.1
  | opBV o x v => exact h.1

theorem Op.toByte_inj {a b : Op} (h : a.toByte = b.toByte) : a = b := by
  have := Op.ofByte_toByte a
  rw [h, Op.ofByte_toByte] at this
  cases this; rfl

theorem Closed.straight {P : List UInt8} {X : Nat → Prop} {a b : Nat} {i : Instr} (h : AtI P a i b) (hs : i.Shaped)
    (hi : i.straight = true) : Closed P X a b := by
  have hn := h.nextInstr hs
  refine ⟨.one hn, fun p d hp hl hj => ?_, fun p hp hl => ?_⟩
  case refine_2 =>
    cases hp with
    | here =>
      rw [h.opcode]
      constructor <;> intro he <;> have he := Op.toByte_inj (Option.some.inj he) <;>
        cases i <;> simp only [Instr.straight, decide_eq_true_eq] at hi <;> simp_all
    | next h1 h2 =>
      rw [hn] at h1; cases h1
      have := h2.le; omega
  cases hp with
  | here =>
    exfalso
    unfold jumpTarget at hj
    rw [h.opcode] at hj
    simp only [Option.bind_some, Op.ofByte_toByte] at hj
    cases i <;> simp only [Instr.straight, decide_eq_true_eq] at hi <;> split at hj <;> simp_all
  | next h1 h2 =>
    rw [hn] at h1; cases h1
    have := h2.le; omega

theorem Closed.jump {P : List UInt8} {X : Nat → Prop} {a b v : Nat} {o : Op} (h : AtI P a (.opV o 4 v) b)
    (ho : o = .goto ∨ o = .gotoz) (hx : X v) : Closed P X a b := by
  have hn := h.nextInstr (by rcases ho with rfl | rfl <;> rfl)
  refine ⟨.one hn, fun p d hp hl hj => ?_, fun p hp hl => ?_⟩
  case refine_2 =>
    cases hp with
    | here =>
      rw [h.opcode]
      show some o.toByte ≠ _ ∧ some o.toByte ≠ _
      rcases ho with rfl | rfl <;> decide
    | next h1 h2 =>
      rw [hn] at h1; cases h1
      have := h2.le; omega
  cases hp with
  | here =>
    right
    unfold jumpTarget at hj
    obtain ⟨h1, _, h2⟩ := h
    unfold readValueAt at h2
    obtain ⟨w, hw, h2⟩ := Res.bind_eq_ok.1 h2
    cases h2
    rw [h1] at hj
    simp only [Option.bind_some, Op.ofByte_toByte] at hj
    have hw := readLE_eq.1 hw
    rw [← alignedFrom_eq _ _ (by omega)] at hw
    rcases ho with rfl | rfl <;> simp only [hw] at hj <;> cases hj <;> exact hx
  | next h1 h2 =>
    rw [hn] at h1; cases h1
    have := h2.le; omega

theorem binOpcode_plain {t : Tok} {o : Op} (h : binOpcode t = some o) : (Instr.op o).Shaped ∧ (Instr.op o).straight = true := by
  cases t <;> simp only [binOpcode] at h <;> cases h <;> exact ⟨rfl, rfl⟩

theorem compoundOp_plain {t : Tok} {o : Op} (h : compoundOp t = some o) : (Instr.op o).Shaped ∧ (Instr.op o).straight = true := by
  cases t <;> simp only [compoundOp] at h <;> cases h <;> exact ⟨rfl, rfl⟩

theorem pushIntI_plain (i : BitVec 64) : (pushIntI i).Shaped ∧ (pushIntI i).straight = true := by
  unfold pushIntI
  split
  · exact ⟨rfl, rfl⟩
  split <;> exact ⟨rfl, rfl⟩

theorem pushStrI_plain (i : Nat) : (pushStrI i).Shaped ∧ (pushStrI i).straight = true := by
  unfold pushStrI
  split <;> exact ⟨rfl, rfl⟩

theorem boolI_plain (b : Bool) : (boolI b).Shaped ∧ (boolI b).straight = true := by
  cases b <;> exact ⟨rfl, rfl⟩

theorem getVarI_plain : ∀ v, (getVarI v).Shaped ∧ (getVarI v).straight = true
  | .glob i => ⟨rfl, rfl⟩
  | .loc i => by
    show Instr.Shaped (if i < 0 ∨ 0xff < i then Instr.opV .getLocal 4 (indexBits i) else .opB .getLocalW (UInt8.ofNat i.toNat)) ∧
      Instr.straight (if i < 0 ∨ 0xff < i then Instr.opV .getLocal 4 (indexBits i) else .opB .getLocalW (UInt8.ofNat i.toNat)) = true
    split <;> exact ⟨rfl, rfl⟩
  | .const (.str i) => pushStrI_plain i
  | .const (.bool b) => boolI_plain b
  | .const (.int i) => pushIntI_plain i
  | .const (.float f) => ⟨rfl, rfl⟩

theorem leafI_plain {e : Expr} {i : Instr} (h : leafI e = some i) : i.Shaped ∧ i.straight = true := by
  cases e <;> simp only [leafI] at h <;> try cases h
  case id n s =>
    cases s with
    | none => cases h
    | some v => cases h; exact getVarI_plain v
  all_goals first
    | exact ⟨rfl, rfl⟩
    | exact pushIntI_plain _
    | exact pushStrI_plain _
    | exact boolI_plain _

theorem callI_plain (n : Nat) (f : FnSym) : (callI n f).Shaped ∧ (callI n f).straight = true := by
  cases f <;> exact ⟨rfl, rfl⟩

theorem Closed.plain {P : List UInt8} {X : Nat → Prop} {a b : Nat} {i : Instr} (h : AtI P a i b)
    (hi : i.Shaped ∧ i.straight = true) : Closed P X a b := .straight h hi.1 hi.2

theorem Closed.op {P : List UInt8} {X : Nat → Prop} {a b : Nat} {i : Instr} (h : AtI P a i b)
    (h1 : i.Shaped := by rfl) (h2 : i.straight = true := by rfl) : Closed P X a b := .straight h h1 h2

/-- Where the jumps of an item may go besides itself. -/
def Item.exits : Item → Nat → Prop
  | Item.s b c st _, d => (escapes st = true ∧ (d = b ∨ d = c)) ∨ (lost st = true ∧ d = 0)
  | .ss b c sts _, d => (escapesL sts = true ∧ (d = b ∨ d = c)) ∨ (lostL sts = true ∧ d = 0)
  | _, _ => False

theorem At.closed {g : Globals} {fp : Nat → Option Nat} {P : List UInt8} {pos fin : Nat} {it : Item}
    (h : At g fp P pos it fin) : Closed P it.exits pos fin := by
  induction h
  case leaf h a => exact .plain a (leafI_plain h)
  case paren ih => exact ih
  case cast ih => exact ih
  case index a1 a2 i1 i2 => exact ((i1.append i2).append (.plain a1 (callI_plain _ _))).append (.op a2)
  case dot a1 i1 => exact i1.append (.op a1)
  case call _ _ a1 a2 i1 => exact (i1.append (.plain a1 (callI_plain _ _))).append (.op a2)
  case ctor a1 i1 => exact i1.append (.op a1)
  case ctorNamed a1 i1 => exact i1.append (.op a1)
  case add1 a1 i1 => exact i1.append (.op a1)
  case sub1 a1 i1 => exact i1.append (.op a1)
  case bin h _ _ _ a1 i1 i2 => exact (i1.append i2).append (.plain a1 (binOpcode_plain h))
  case ne a1 a2 i1 i2 => exact ((i1.append i2).append (.op a1)).append (.op a2)
  case and p1 p2 p3 p4 fin l r _ a1 _ a2 a3 i1 i2 =>
    have k := (((i1.weaken (Y := fun d => d = p4 ∨ d = fin) (by simp [Item.exits])).append (.jump a1 (.inr rfl) (.inl rfl))).append
      (i2.weaken (by simp [Item.exits]))).append (.jump a2 (.inl rfl) (.inr rfl))
    have k2 := k.append (.op a3)
    have := a3.lt
    exact k2.mono fun d hd => .inl (by
      rcases hd with rfl | rfl
      · exact ⟨k.walk, by omega⟩
      · exact ⟨k2.walk, by omega⟩)
  case or p1 p2 p3 p4 fin l r _ a1 a2 a3 _ i1 i2 =>
    have k := (((i1.weaken (Y := fun d => d = p4 ∨ d = fin) (by simp [Item.exits])).append (.jump a1 (.inr rfl) (.inl rfl))).append
      (.op a2)).append (.jump a3 (.inl rfl) (.inr rfl))
    have k2 := k.append (i2.weaken (by simp [Item.exits]))
    have := i2.walk.le
    exact k2.mono fun d hd => .inl (by
      rcases hd with rfl | rfl
      · exact ⟨k.walk, by omega⟩
      · exact ⟨k2.walk, by omega⟩)
  case negInt a1 => exact .op a1
  case neg a1 a2 i1 => exact (i1.append (.op a1)).append (.op a2)
  case bang a1 i1 => exact i1.append (.op a1)
  case ite p1 p2 p3 p4 fin _ _ _ _ a1 _ a2 _ i1 i2 i3 =>
    have k := (((i1.weaken (Y := fun d => d = p4 ∨ d = fin) (by simp [Item.exits])).append (.jump a1 (.inr rfl) (.inl rfl))).append
      (i2.weaken (by simp [Item.exits]))).append (.jump a2 (.inl rfl) (.inr rfl))
    have k2 := k.append (i3.weaken (by simp [Item.exits]))
    have := i3.walk.le
    exact k2.mono fun d hd => .inl (by
      rcases hd with rfl | rfl
      · exact ⟨k.walk, by omega⟩
      · exact ⟨k2.walk, by omega⟩)
  case esNil => exact .nil
  case esCons i1 i2 => exact i1.append i2
  case fieldsNil => exact .nil
  case fieldsMissing i1 => exact i1
  case fieldsCons i1 i2 => exact i1.append i2
  case rhsPlain i1 => exact i1
  case rhsAdd1 a1 i1 => exact i1.append (.op a1)
  case rhsSub1 a1 i1 => exact i1.append (.op a1)
  case rhsOp h _ _ _ a1 i1 i2 => exact (i1.append i2).append (.plain a1 (compoundOp_plain h))
  case storeGlob a1 => exact .op a1
  case storeLoc a1 => exact .op a1
  case storeIndex a1 => exact .plain a1 (callI_plain _ _)
  case storeDot a1 i1 => exact i1.append (.op a1)
  case preIndex i1 i2 => exact i1.append i2
  case preId => exact .nil
  case preDot => exact .nil
  case node i1 => exact i1.weaken fun d h => by simpa [Item.exits, escapes, lost] using h
  case callS _ _ a1 i1 => exact (i1.weaken (by simp [Item.exits])).append (.plain a1 (callI_plain _ _))
  case block i1 => exact i1.weaken fun d h => by simpa [Item.exits, escapes, lost] using h
  case assignConst => exact .nil
  case assign i1 i2 i3 =>
    exact ((i1.weaken (by simp [Item.exits])).append (i2.weaken (by simp [Item.exits]))).append (i3.weaken (by simp [Item.exits]))
  case proc pos p1 p2 p3 fin b c i nargs nlocals body a a1 _ _ a2 _ a3 i1 =>
    have k0 : Closed P (fun d => d = fin ∨ Item.exits (.s 0 0 body a) d) p1 p2 := by
      split at a2
      · subst a2; exact .nil
      · exact .op a2
    have k := ((Closed.jump (X := fun d => d = fin ∨ Item.exits (.s 0 0 body a) d) a1 (.inl rfl) (.inl rfl)).append k0).append
      ((i1.weaken fun d h => .inr h).append (.op a3))
    refine k.mono fun d hd => ?_
    rcases hd with rfl | hd
    · exact .inl ⟨k.walk, by omega⟩
    · refine .inr (.inr ?_)
      simp only [Item.exits] at hd
      simp only [lost, Bool.or_eq_true]
      rcases hd with ⟨h, h' | h'⟩ | ⟨h, h'⟩ <;> simp [h, h']
  case ifThen p1 p2 fin b c cond body a _ a1 _ i1 i2 =>
    have k := ((i1.weaken (Y := fun d => d = fin ∨ Item.exits (.s b c body a) d) (by simp [Item.exits])).append
      (.jump a1 (.inr rfl) (.inl rfl))).append (i2.weaken fun d h => .inr h)
    refine k.mono fun d hd => ?_
    rcases hd with rfl | hd
    · exact .inl ⟨k.walk, by omega⟩
    · exact .inr (by simpa [Item.exits, escapes, lost] using hd)
  case ifElse p1 p2 p3 p4 fin b c cond body a alt a' _ a1 _ a2 _ i1 i2 i3 =>
    have k := ((((i1.weaken (Y := fun d => d = p4 ∨ d = fin ∨ Item.exits (.s b c body a) d ∨ Item.exits (.s b c alt a') d)
      (by simp [Item.exits])).append
      (.jump a1 (.inr rfl) (.inl rfl))).append (i2.weaken fun d h => .inr (.inr (.inl h)))).append
      (.jump a2 (.inl rfl) (.inr (.inl rfl))))
    have k2 := k.append (i3.weaken fun d h => .inr (.inr (.inr h)))
    have := i3.walk.le
    refine k2.mono fun d hd => ?_
    rcases hd with rfl | rfl | hd | hd
    · exact .inl ⟨k.walk, by omega⟩
    · exact .inl ⟨k2.walk, by omega⟩
    · refine .inr ?_
      simp only [Item.exits, escapes, lost, Bool.or_eq_true] at hd ⊢
      rcases hd with ⟨h, h'⟩ | ⟨h, h'⟩
      · exact .inl ⟨.inl h, h'⟩
      · exact .inr ⟨.inl h, h'⟩
    · refine .inr ?_
      simp only [Item.exits, escapes, lost, Bool.or_eq_true] at hd ⊢
      rcases hd with ⟨h, h'⟩ | ⟨h, h'⟩
      · exact .inl ⟨.inr h, h'⟩
      · exact .inr ⟨.inr h, h'⟩
  case «while» pos p1 p2 p3 fin b c cond body a _ a1 _ a2 i1 i2 =>
    have k := (((i1.weaken (Y := fun d => d = pos ∨ d = fin ∨ Item.exits (.s fin pos body a) d)
      (by simp [Item.exits])).append (.jump a1 (.inr rfl) (.inr (.inl rfl)))).append
      (i2.weaken fun d h => .inr (.inr h))).append (.jump a2 (.inl rfl) (.inl rfl))
    have := k.walk.le
    refine k.mono fun d hd => ?_
    rcases hd with rfl | rfl | hd
    · exact .inl ⟨.here, by omega⟩
    · exact .inl ⟨k.walk, by omega⟩
    · simp only [Item.exits] at hd
      rcases hd with ⟨h, rfl | rfl⟩ | ⟨h, h'⟩
      · exact .inl ⟨k.walk, by omega⟩
      · exact .inl ⟨.here, by omega⟩
      · exact .inr (.inr ⟨by simpa [lost] using h, h'⟩)
  case «for» pos p0 p1 p2 p3 p4 fin b c init ai cond step as body a _ _ a1 _ _ a2 i0 i1 i2 i3 =>
    have w0 := i0.walk
    have k := (((i0.weaken (Y := fun d => d = p0 ∨ d = fin ∨ Item.exits (.s 0 0 init ai) d ∨ Item.exits (.s fin p3 body a) d ∨
        Item.exits (.s 0 0 step as) d) fun d h => .inr (.inr (.inl h))).append (i1.weaken (by simp [Item.exits]))).append
      (.jump a1 (.inr rfl) (.inr (.inl rfl)))).append (i2.weaken fun d h => .inr (.inr (.inr (.inl h))))
    have k2 := (k.append (i3.weaken fun d h => .inr (.inr (.inr (.inr h))))).append (.jump a2 (.inl rfl) (.inl rfl))
    have := k2.walk.le
    have := a2.lt
    have := i3.walk.le
    have := i2.walk.le
    have := i1.walk.le
    have := a1.lt
    refine k2.mono fun d hd => ?_
    rcases hd with rfl | rfl | hd | hd | hd
    · exact .inl ⟨w0, by omega⟩
    · exact .inl ⟨k2.walk, by omega⟩
    · refine .inr (.inr ?_)
      simp only [Item.exits] at hd
      simp only [lost, Bool.or_eq_true]
      rcases hd with ⟨h, h' | h'⟩ | ⟨h, h'⟩ <;> simp [h, h']
    · simp only [Item.exits] at hd
      rcases hd with ⟨h, rfl | rfl⟩ | ⟨h, h'⟩
      · exact .inl ⟨k2.walk, by omega⟩
      · exact .inl ⟨k.walk, by omega⟩
      · exact .inr (.inr ⟨by simp [lost, h], h'⟩)
    · refine .inr (.inr ?_)
      simp only [Item.exits] at hd
      simp only [lost, Bool.or_eq_true]
      rcases hd with ⟨h, h' | h'⟩ | ⟨h, h'⟩ <;> simp [h, h']
  case ret a1 => exact .op a1
  case retValue a1 i1 => exact (i1.weaken (by simp [Item.exits])).append (.op a1)
  case brk a1 => exact .jump a1 (.inl rfl) (.inl ⟨rfl, .inl rfl⟩)
  case cont a1 => exact .jump a1 (.inl rfl) (.inl ⟨rfl, .inr rfl⟩)
  case use => exact .nil
  case ssNil => exact .nil
  case ssCons i1 i2 =>
    refine (i1.weaken fun d hd => ?_).append (i2.weaken fun d hd => ?_)
    · simp only [Item.exits, escapesL, lostL, Bool.or_eq_true] at hd ⊢
      rcases hd with ⟨h, h'⟩ | ⟨h, h'⟩
      · exact .inl ⟨.inl h, h'⟩
      · exact .inr ⟨.inl h, h'⟩
    · simp only [Item.exits, escapesL, lostL, Bool.or_eq_true] at hd ⊢
      rcases hd with ⟨h, h'⟩ | ⟨h, h'⟩
      · exact .inl ⟨.inr h, h'⟩
      · exact .inr ⟨.inr h, h'⟩

end Tiny
