import Verif.Model.Codegen
import Verif.Model.VM
import Verif.Proofs.Fwd

/-!
# Which code sits where in a program

`At … P pos it fin` says that the bytes of `P` from `pos` up to `fin` are the code of the item `it`.
This is an intermediate notion of the compiler proof: the code generator establishes it
(`Verif/Proofs/CodegenAt.lean`), execution uses it (`Verif/Proofs/Simulation.lean`).
-/

namespace Tiny

/-- An instruction with its operands: none, a byte, an aligned `n`-byte number, a byte and an aligned
4-byte number. -/
inductive Instr where
  | op (o : Op)
  | opB (o : Op) (b : UInt8)
  | opV (o : Op) (n v : Nat)
  | opBV (o : Op) (b : UInt8) (v : Nat)
deriving DecidableEq, Repr

/-- Instruction `i` is at `pos` and the next one at `next`. -/
def AtI (P : List UInt8) (pos : Nat) : Instr → Nat → Prop
  | .op o, next => P[pos]? = some o.toByte ∧ next = pos + 1
  | .opB o b, next => P[pos]? = some o.toByte ∧ P[pos + 1]? = some b ∧ next = pos + 2
  | .opV o n v, next => P[pos]? = some o.toByte ∧ 0 < n ∧ readValueAt P (pos + 1) n = .ok (v, next)
  | .opBV o b v, next =>
    P[pos]? = some o.toByte ∧ P[pos + 1]? = some b ∧ readValueAt P (pos + 2) 4 = .ok (v, next)

/-- Unconditional jump. -/
abbrev Instr.goto (v : Nat) : Instr := .opV .goto 4 v
/-- Jump on false. -/
abbrev Instr.gotoz (v : Nat) : Instr := .opV .gotoz 4 v

/-- The instruction `GeneratePushInt` emits. -/
def pushIntI (i : BitVec 64) : Instr :=
  if i = 0#64 then .op .push0 else if i = 1#64 then .op .push1 else .opV .pushInt 8 i.toNat

/-- The instruction `GeneratePushString` emits. -/
def pushStrI (i : Nat) : Instr :=
  if i ≤ 0xff then .opB .pushStringFF (UInt8.ofNat i) else .opV .pushString 4 (i % 2 ^ 32)

/-- The instruction for a bool. -/
def boolI (b : Bool) : Instr := .op (if b then .pushTrue else .pushFalse)

/-- The instruction reading a variable or constant. -/
def getVarI : VarSym → Instr
  | .glob i => .opV .get 4 (indexBits i)
  | .loc i => if i < 0 ∨ 0xff < i then .opV .getLocal 4 (indexBits i) else .opB .getLocalW (UInt8.ofNat i.toNat)
  | .const (.str i) => pushStrI i
  | .const (.bool b) => boolI b
  | .const (.int i) => pushIntI i
  | .const (.float f) => .opV .pushFloat 8 f.toNat

/-- Expressions compiled to one instruction. -/
def leafI : Expr → Option Instr
  | .null => some (.op .pushNull)
  | .bool b => some (boolI b)
  | .int i => some (pushIntI (i.signExtend 64))
  | .char i => some (pushIntI (i.signExtend 64))
  | .float f => some (.opV .pushFloat 8 f.toNat)
  | .str i => some (pushStrI i)
  | .id _ (some s) => some (getVarI s)
  | _ => none

/-- The call instruction. -/
def callI (nargs : Nat) : FnSym → Instr
  | .foreign i _ _ => .opBV .callf (UInt8.ofNat nargs) (i % 2 ^ 32)
  | .tiny i => .opBV .call (UInt8.ofNat nargs) (i % 2 ^ 32)

/-- The field number used in the code. -/
def fieldIdx (g : Globals) (tag : Option Tag) (field : Name) : Option Nat :=
  match tag.bind Tag.structName with
  | some n =>
    match g.structs n with
    | none => none
    | some fields =>
      let i := fields.findIdx (·.1 = field)
      if i < fields.length ∧ i ≤ 255 then some i else none
  | _ => none

/-- `e` is an integer literal. -/
def Expr.isInt : Expr → Bool
  | .int _ => true
  | _ => false

/-- Pieces of a program: expressions, lists of expressions, the arguments of a constructor by field, the
value of an assignment, the storing part of an assignment, statements (with break and continue targets;
as written and as annotated by the code generator). -/
inductive Item where
  | e (e : Expr)
  | es (es : List Expr)
  | fields (args : List (Name × Expr)) (fs : List Name)
  | rhs (op : Tok) (lhs rhs : Expr)
  | store (lhs : Expr)
  | pre (lhs : Expr)
  | s (b c : Nat) (s a : Stmt)
  | ss (b c : Nat) (s a : List Stmt)

/-- The code of an item occupies `[pos, fin)` of `P`; functions are entered at `fp`. -/
inductive At (g : Globals) (fp : Nat → Option Nat) (P : List UInt8) : Nat → Item → Nat → Prop
  | leaf {pos fin e i} : leafI e = some i → AtI P pos i fin → At g fp P pos (.e e) fin
  | paren {pos fin e} : At g fp P pos (.e e) fin → At g fp P pos (.e (.paren e)) fin
  | cast {pos fin e tag} : At g fp P pos (.e e) fin → At g fp P pos (.e (.cast e tag)) fin
  | index {pos p1 p2 p3 fin arr elem f setF} : At g fp P pos (.e arr) p1 → At g fp P p1 (.e elem) p2 →
      AtI P p2 (callI 2 f) p3 → AtI P p3 (.op .getRetVal) fin →
      At g fp P pos (.e (.index arr elem (some f) setF)) fin
  | dot {pos p1 fin l field tag i} : fieldIdx g tag field = some i → At g fp P pos (.e l) p1 →
      AtI P p1 (.opB .structGet (UInt8.ofNat i)) fin → At g fp P pos (.e (.dot l field tag)) fin
  | call {pos p1 p2 fin callee args f} : At g fp P pos (.es args) p1 → g.funcs callee = some f →
      args.length ≤ 255 → AtI P p1 (callI args.length f) p2 → AtI P p2 (.op .getRetVal) fin →
      At g fp P pos (.e (.call callee args)) fin
  | ctor {pos p1 fin name args fields} : g.structs name = some fields → At g fp P pos (.es args) p1 →
      AtI P p1 (.opB .pushStruct (UInt8.ofNat fields.length)) fin →
      At g fp P pos (.e (.ctor name none args)) fin
  | ctorNamed {pos p1 fin name names args fields} : g.structs name = some fields →
      At g fp P pos (.fields (names.zip args) (fields.map Prod.fst)) p1 →
      AtI P p1 (.opB .pushStruct (UInt8.ofNat fields.length)) fin →
      At g fp P pos (.e (.ctor name (some names) args)) fin
  | add1 {pos p1 fin l r} : r.isOne = true → At g fp P pos (.e l) p1 → AtI P p1 (.op .add1) fin →
      At g fp P pos (.e (.bin .plus l r)) fin
  | sub1 {pos p1 fin l r} : r.isOne = true → At g fp P pos (.e l) p1 → AtI P p1 (.op .sub1) fin →
      At g fp P pos (.e (.bin .minus l r)) fin
  | bin {pos p1 p2 fin op l r o} : binOpcode op = some o → (op = .plus ∨ op = .minus → r.isOne = false) →
      At g fp P pos (.e l) p1 → At g fp P p1 (.e r) p2 → AtI P p2 (.op o) fin →
      At g fp P pos (.e (.bin op l r)) fin
  | ne {pos p1 p2 p3 fin l r} : At g fp P pos (.e l) p1 → At g fp P p1 (.e r) p2 → AtI P p2 (.op .equ) p3 →
      AtI P p3 (.op .logNot) fin → At g fp P pos (.e (.bin .notEquals l r)) fin
  | and {pos p1 p2 p3 p4 fin l r} : At g fp P pos (.e l) p1 → AtI P p1 (.gotoz p4) p2 →
      At g fp P p2 (.e r) p3 → AtI P p3 (.goto fin) p4 → AtI P p4 (.op .pushFalse) fin →
      At g fp P pos (.e (.bin .logAnd l r)) fin
  | or {pos p1 p2 p3 p4 fin l r} : At g fp P pos (.e l) p1 → AtI P p1 (.gotoz p4) p2 →
      AtI P p2 (.op .pushTrue) p3 → AtI P p3 (.goto fin) p4 → At g fp P p4 (.e r) fin →
      At g fp P pos (.e (.bin .logOr l r)) fin
  | negInt {pos fin i} : i ≠ BitVec.intMin 32 → AtI P pos (.opV .pushInt 8 ((-i).signExtend 64).toNat) fin →
      At g fp P pos (.e (.un .minus (.int i))) fin
  | neg {pos p1 p2 fin e} : e.isInt = false → At g fp P pos (.e e) p1 →
      AtI P p1 (.opV .pushInt 8 (-1#64).toNat) p2 → AtI P p2 (.op .mul) fin →
      At g fp P pos (.e (.un .minus e)) fin
  | bang {pos p1 fin e} : At g fp P pos (.e e) p1 → AtI P p1 (.op .logNot) fin →
      At g fp P pos (.e (.un .bang e)) fin
  | ite {pos p1 p2 p3 p4 fin c a b} : At g fp P pos (.e c) p1 → AtI P p1 (.gotoz p4) p2 →
      At g fp P p2 (.e a) p3 → AtI P p3 (.goto fin) p4 → At g fp P p4 (.e b) fin →
      At g fp P pos (.e (.ite c a b)) fin
  | esNil {pos} : At g fp P pos (.es []) pos
  | esCons {pos p1 fin e es} : At g fp P pos (.e e) p1 → At g fp P p1 (.es es) fin →
      At g fp P pos (.es (e :: es)) fin
  | fieldsNil {pos args} : At g fp P pos (.fields args []) pos
  | fieldsMissing {pos fin args f fs} : args.find? (·.1 = f) = none → At g fp P pos (.fields args fs) fin →
      At g fp P pos (.fields args (f :: fs)) fin
  | fieldsCons {pos p1 fin args f fs n e} : args.find? (·.1 = f) = some (n, e) → At g fp P pos (.e e) p1 →
      At g fp P p1 (.fields args fs) fin → At g fp P pos (.fields args (f :: fs)) fin
  | rhsPlain {pos fin op lhs rhs} : compoundOp op = none → At g fp P pos (.e rhs) fin →
      At g fp P pos (.rhs op lhs rhs) fin
  | rhsAdd1 {pos p1 fin lhs rhs} : rhs.isOne = true → At g fp P pos (.e lhs) p1 → AtI P p1 (.op .add1) fin →
      At g fp P pos (.rhs .plusEqual lhs rhs) fin
  | rhsSub1 {pos p1 fin lhs rhs} : rhs.isOne = true → At g fp P pos (.e lhs) p1 → AtI P p1 (.op .sub1) fin →
      At g fp P pos (.rhs .minusEqual lhs rhs) fin
  | rhsOp {pos p1 p2 fin op lhs rhs o} : compoundOp op = some o →
      (op = .plusEqual ∨ op = .minusEqual → rhs.isOne = false) →
      At g fp P pos (.e lhs) p1 → At g fp P p1 (.e rhs) p2 → AtI P p2 (.op o) fin →
      At g fp P pos (.rhs op lhs rhs) fin
  | storeGlob {pos fin n} {i : Nat} : AtI P pos (.opV .set 4 (indexBits i)) fin →
      At g fp P pos (.store (.id n (some (.glob i)))) fin
  | storeLoc {pos fin n} {i : Int} : AtI P pos (.opV .setLocal 4 (indexBits i)) fin →
      At g fp P pos (.store (.id n (some (.loc i)))) fin
  | storeIndex {pos fin arr elem getF f} : AtI P pos (callI 3 f) fin →
      At g fp P pos (.store (.index arr elem getF (some f))) fin
  | storeDot {pos p1 fin l field tag i} : fieldIdx g tag field = some i → At g fp P pos (.e l) p1 →
      AtI P p1 (.opB .structSet (UInt8.ofNat i)) fin → At g fp P pos (.store (.dot l field tag)) fin
  | preIndex {pos p1 fin arr elem getF setF} : At g fp P pos (.e arr) p1 → At g fp P p1 (.e elem) fin →
      At g fp P pos (.pre (.index arr elem getF setF)) fin
  | preId {pos n sym} : At g fp P pos (.pre (.id n sym)) pos
  | preDot {pos l field tag} : At g fp P pos (.pre (.dot l field tag)) pos
  | node {pos fin b c s a line} : At g fp P pos (.s b c s a) fin →
      At g fp P pos (.s b c (.node line s) (.node line a)) fin
  | callS {pos p1 fin b c callee args f} : At g fp P pos (.es args) p1 → g.funcs callee = some f →
      args.length ≤ 255 → AtI P p1 (callI args.length f) fin →
      At g fp P pos (.s b c (.call callee args) (.call callee args)) fin
  | block {pos fin b c ss as} : At g fp P pos (.ss b c ss as) fin →
      At g fp P pos (.s b c (.block ss) (.block as)) fin
  | assignConst {pos b c lhs rhs} :
      At g fp P pos (.s b c (.assign .declareConst lhs rhs) (.assign .declareConst lhs rhs)) pos
  | assign {pos p1 p2 fin b c op lhs rhs} : op = .equal ∨ op = .declare ∨ (compoundOp op).isSome →
      At g fp P pos (.pre lhs) p1 → At g fp P p1 (.rhs op lhs rhs) p2 → At g fp P p2 (.store lhs) fin →
      At g fp P pos (.s b c (.assign op lhs rhs) (.assign op lhs rhs)) fin
  | proc {pos p1 p2 p3 fin b c i nargs nlocals body a} : AtI P pos (.goto fin) p1 → fp i = some p1 →
      nlocals ≤ 255 →
      (if nlocals = 0 then p2 = p1 else AtI P p1 (.opB .pushNullN (UInt8.ofNat nlocals)) p2) →
      At g fp P p2 (.s 0 0 body a) p3 → AtI P p3 (.op .ret) fin →
      At g fp P pos (.s b c (.proc i nargs nlocals body) (.proc i nargs nlocals a)) fin
  | ifThen {pos p1 p2 fin b c cond body a} : At g fp P pos (.e cond) p1 → AtI P p1 (.gotoz fin) p2 →
      At g fp P p2 (.s b c body a) fin → At g fp P pos (.s b c (.ifThen cond body) (.ifThen cond a)) fin
  | ifElse {pos p1 p2 p3 p4 fin b c cond body a alt a'} : At g fp P pos (.e cond) p1 →
      AtI P p1 (.gotoz p4) p2 → At g fp P p2 (.s b c body a) p3 → AtI P p3 (.goto fin) p4 →
      At g fp P p4 (.s b c alt a') fin →
      At g fp P pos (.s b c (.ifElse cond body alt) (.ifElse cond a a')) fin
  | while {pos p1 p2 p3 fin b c cond body a} : At g fp P pos (.e cond) p1 → AtI P p1 (.gotoz fin) p2 →
      At g fp P p2 (.s fin pos body a) p3 → AtI P p3 (.goto pos) fin →
      At g fp P pos (.s b c (.while cond body) (.while cond a)) fin
  | for {pos p0 p1 p2 p3 p4 fin b c init ai cond step as body a} : At g fp P pos (.s 0 0 init ai) p0 →
      At g fp P p0 (.e cond) p1 → AtI P p1 (.gotoz fin) p2 → At g fp P p2 (.s fin p3 body a) p3 →
      At g fp P p3 (.s 0 0 step as) p4 → AtI P p4 (.goto p0) fin →
      At g fp P pos (.s b c (.for init cond step body) (.for ai cond as a)) fin
  | ret {pos fin b c} : AtI P pos (.op .ret) fin → At g fp P pos (.s b c (.ret none) (.ret none)) fin
  | retValue {pos p1 fin b c e} : At g fp P pos (.e e) p1 → AtI P p1 (.op .retValue) fin →
      At g fp P pos (.s b c (.ret (some e)) (.ret (some e))) fin
  | brk {pos fin b c q p} : p = alignUp (pos + 1) 4 → AtI P pos (.goto b) fin →
      At g fp P pos (.s b c (.brk q) (.brk p)) fin
  | cont {pos fin b c q p} : p = alignUp (pos + 1) 4 → AtI P pos (.goto c) fin →
      At g fp P pos (.s b c (.cont q) (.cont p)) fin
  | use {pos b c} : At g fp P pos (.s b c .use .use) pos
  | ssNil {pos b c} : At g fp P pos (.ss b c [] []) pos
  | ssCons {pos p1 fin b c s a ss as} : At g fp P pos (.s b c s a) p1 → At g fp P p1 (.ss b c ss as) fin →
      At g fp P pos (.ss b c (s :: ss) (a :: as)) fin

/-! ## Locality -/

/-- `P` and `Q` have the same bytes in `[a, b)`. -/
def Agree (P Q : List UInt8) (a b : Nat) : Prop := ∀ k, a ≤ k → k < b → Q[k]? = P[k]?

theorem Agree.refl (P a b) : Agree P P a b := fun _ _ _ => rfl
theorem Agree.trans {P Q R a b} (h : Agree P Q a b) (h' : Agree Q R a b) : Agree P R a b :=
  fun k h1 h2 => (h' k h1 h2).trans (h k h1 h2)
theorem Agree.mono {P Q a b a' b'} (h : Agree P Q a b) (h1 : a ≤ a') (h2 : b' ≤ b) : Agree P Q a' b' :=
  fun k k1 k2 => h k (by omega) (by omega)

theorem le_alignUp (n a : Nat) (ha : 0 < a) : n ≤ alignUp n a := by
  unfold alignUp
  have := Nat.div_add_mod (n + (a - 1)) a
  have := Nat.mod_lt (n + (a - 1)) ha
  rw [Nat.mul_comm]
  omega

theorem alignUp_lt (n a : Nat) (ha : 0 < a) : alignUp n a < n + a := by
  unfold alignUp
  have := Nat.div_add_mod (n + (a - 1)) a
  rw [Nat.mul_comm]
  omega

theorem alignUp_mod (n a : Nat) : alignUp n a % a = 0 := by simp [alignUp]

theorem readByte_agree {P Q : List UInt8} {i : Nat} (h : Q[i]? = P[i]?) : readByte Q i = readByte P i := by
  unfold readByte; rw [h]

theorem readLE_agree {P Q : List UInt8} : ∀ (n i : Nat), Agree P Q i (i + n) → readLE Q i n = readLE P i n
  | 0, _, _ => rfl
  | n + 1, i, h => by
    have h1 := readLE_agree n (i + 1) (h.mono (by omega) (by omega))
    simp only [readLE, readByte_agree (h i (by omega) (by omega)), h1]

theorem readValueAt_next {P : List UInt8} {pc n v next : Nat} (h : readValueAt P pc n = .ok (v, next)) :
    next = alignUp pc n + n := by
  unfold readValueAt at h
  simp only [Res.bind_eq_ok] at h
  obtain ⟨_, _, h⟩ := h
  cases h; rfl

theorem readValueAt_agree {P Q : List UInt8} {pc n : Nat} (h : Agree P Q (alignUp pc n) (alignUp pc n + n)) :
    readValueAt Q pc n = readValueAt P pc n := by
  unfold readValueAt
  simp only [readLE_agree n _ h]

theorem AtI.lt {P : List UInt8} {pos next : Nat} : ∀ {i : Instr}, AtI P pos i next → pos < next
  | .op _, h => by have := h.2; omega
  | .opB _ _, h => by have := h.2.2; omega
  | .opV _ n _, h => by
    have := readValueAt_next h.2.2
    have := le_alignUp (pos + 1) n h.2.1
    omega
  | .opBV _ _ _, h => by
    have := readValueAt_next h.2.2
    have := le_alignUp (pos + 2) 4 (by omega)
    omega

theorem AtI.agree {P Q : List UInt8} {pos next : Nat} : ∀ {i : Instr}, AtI P pos i next → Agree P Q pos next →
    AtI Q pos i next
  | .op _, h, a => by
    have := h.2
    exact ⟨(a pos (by omega) (by omega)).trans h.1, h.2⟩
  | .opB _ _, h, a => by
    have := h.2.2
    exact ⟨(a pos (by omega) (by omega)).trans h.1, (a (pos + 1) (by omega) (by omega)).trans h.2.1, h.2.2⟩
  | .opV _ n _, h, a => by
    have h1 := readValueAt_next h.2.2
    have h2 := le_alignUp (pos + 1) n h.2.1
    have h3 := h.2.1
    refine ⟨(a pos (by omega) (by omega)).trans h.1, h.2.1, ?_⟩
    rw [readValueAt_agree (a.mono (by omega) (by omega))]
    exact h.2.2
  | .opBV _ _ _, h, a => by
    have h1 := readValueAt_next h.2.2
    have h2 := le_alignUp (pos + 2) 4 (by omega)
    refine ⟨(a pos (by omega) (by omega)).trans h.1, (a (pos + 1) (by omega) (by omega)).trans h.2.1, ?_⟩
    rw [readValueAt_agree (a.mono (by omega) (by omega))]
    exact h.2.2

theorem At.le {g : Globals} {fp : Nat → Option Nat} {P : List UInt8} {pos fin : Nat} {it : Item}
    (h : At g fp P pos it fin) : pos ≤ fin := by
  induction h
  case proc nl _ _ _ _ a1 _ _ a2 _ a3 ih =>
    have := a1.lt; have := a3.lt
    split at a2
    · omega
    · have := a2.lt; omega
  all_goals
    fwd AtI.lt
    omega

theorem use_agree {P Q a b x y} {C : Prop} (A : Agree P Q a b) (h : Agree P Q x y → C) (h1 : a ≤ x) (h2 : y ≤ b) :
    C := h (A.mono h1 h2)

theorem use_agree_i {P Q a b x y i} (A : Agree P Q a b) (h : AtI P x i y) (h1 : a ≤ x) (h2 : y ≤ b) :
    AtI Q x i y := h.agree (A.mono h1 h2)

theorem At.agree {g : Globals} {fp : Nat → Option Nat} {P Q : List UInt8} {pos fin : Nat} {it : Item}
    (h : At g fp P pos it fin) : Agree P Q pos fin → At g fp Q pos it fin := by
  induction h
  case proc nl _ _ _ _ a1 _ _ a2 b a3 ih =>
    intro a
    have := a1.lt; have := a3.lt; have := b.le
    split at a2
    · subst a2
      exact .proc (a1.agree (a.mono (by omega) (by omega))) (by assumption) (by assumption) (by simp [*])
        (ih (a.mono (by omega) (by omega))) (a3.agree (a.mono (by omega) (by omega)))
    · next hn =>
      have := a2.lt
      exact .proc (a1.agree (a.mono (by omega) (by omega))) (by assumption) (by assumption)
        (by rw [if_neg hn]; exact (a2.agree (a.mono (by omega) (by omega))))
        (ih (a.mono (by omega) (by omega))) (a3.agree (a.mono (by omega) (by omega)))
  all_goals
    intro a
    fwd AtI.lt
    fwd At.le
    fwdo (use_agree a)
    fwdo (use_agree_i a)
    first
    | (apply At.leaf <;> assumption)
    | (apply At.paren <;> assumption)
    | (apply At.cast <;> assumption)
    | (apply At.index <;> assumption)
    | (apply At.dot <;> assumption)
    | (apply At.call <;> assumption)
    | (apply At.ctor <;> assumption)
    | (apply At.ctorNamed <;> assumption)
    | (apply At.add1 <;> assumption)
    | (apply At.sub1 <;> assumption)
    | (apply At.bin <;> assumption)
    | (apply At.ne <;> assumption)
    | (apply At.and <;> assumption)
    | (apply At.or <;> assumption)
    | (apply At.negInt <;> assumption)
    | (apply At.neg <;> assumption)
    | (apply At.bang <;> assumption)
    | (apply At.ite <;> assumption)
    | (apply At.esNil <;> assumption)
    | (apply At.esCons <;> assumption)
    | (apply At.fieldsNil <;> assumption)
    | (apply At.fieldsMissing <;> assumption)
    | (apply At.fieldsCons <;> assumption)
    | (apply At.rhsPlain <;> assumption)
    | (apply At.rhsAdd1 <;> assumption)
    | (apply At.rhsSub1 <;> assumption)
    | (apply At.rhsOp <;> assumption)
    | (apply At.storeGlob <;> assumption)
    | (apply At.storeLoc <;> assumption)
    | (apply At.storeIndex <;> assumption)
    | (apply At.storeDot <;> assumption)
    | (apply At.preIndex <;> assumption)
    | (apply At.preId <;> assumption)
    | (apply At.preDot <;> assumption)
    | (apply At.node <;> assumption)
    | (apply At.callS <;> assumption)
    | (apply At.block <;> assumption)
    | (apply At.assignConst <;> assumption)
    | (apply At.assign <;> assumption)
    | (apply At.ifThen <;> assumption)
    | (apply At.ifElse <;> assumption)
    | (apply At.while <;> assumption)
    | (apply At.for <;> assumption)
    | (apply At.ret <;> assumption)
    | (apply At.retValue <;> assumption)
    | (apply At.brk <;> assumption)
    | (apply At.cont <;> assumption)
    | (apply At.use <;> assumption)
    | (apply At.ssNil <;> assumption)
    | (apply At.ssCons <;> assumption)

end Tiny
