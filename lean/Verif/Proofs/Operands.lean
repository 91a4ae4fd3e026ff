import Verif.Spec.Operands
import Verif.Proofs.Walk
import Verif.Spec.Spells

/-!
# The numbers in the instructions: proofs
-/

namespace Tiny
open Spec

/-- What an instruction refers to. -/
inductive Ref where
  | str (i : Nat)
  | const (i : Nat)
  | glob (i : Nat)
  | fn (f : FnSym)
  | call (n : Name)
  | loc (c : Option Nat) (i : Int)

def refsV (c : Option Nat) : VarSym → List Ref
  | .loc i => [.loc c i]
  | .glob i => [.glob i]
  | .const (.str i) => [.const i]
  | _ => []

mutual
def refsE (c : Option Nat) : Expr → List Ref
  | .str i => [.str i]
  | .id _ (some v) => refsV c v
  | .call n as => .call n :: refsL c as
  | .paren e => refsE c e
  | .bin _ l r => refsE c l ++ refsE c r
  | .un _ e => refsE c e
  | .dot l _ _ => refsE c l
  | .index a i g s => refsE c a ++ refsE c i ++ g.toList.map .fn ++ s.toList.map .fn
  | .ctor _ _ as => refsL c as
  | .cast e _ => refsE c e
  | .ite k a b => refsE c k ++ refsE c a ++ refsE c b
  | _ => []
def refsL (c : Option Nat) : List Expr → List Ref
  | [] => []
  | e :: es => refsE c e ++ refsL c es
end

mutual
def refsS (c : Option Nat) : Stmt → List Ref
  | .node _ s => refsS c s
  | .call n as => .call n :: refsL c as
  | .block ss => refsSs c ss
  | .assign op l r => if op = .declareConst then [] else refsE c l ++ refsE c r
  | .proc i _ _ b => refsS (some i) b
  | .ifThen k b => refsE c k ++ refsS c b
  | .ifElse k b a => refsE c k ++ refsS c b ++ refsS c a
  | .while k b => refsE c k ++ refsS c b
  | .for i k s b => refsS c i ++ refsE c k ++ refsS c s ++ refsS c b
  | .ret (some e) => refsE c e
  | _ => []
def refsSs (c : Option Nat) : List Stmt → List Ref
  | [] => []
  | s :: ss => refsS c s ++ refsSs c ss
end

def Item.refs (c : Option Nat) : Item → List Ref
  | .e x => refsE c x
  | .es xs => refsL c xs
  | .fields args _ => args.flatMap fun p => refsE c p.2
  | .rhs _ l r => refsE c l ++ refsE c r
  | .store l => refsE c l
  | .pre l => refsE c l
  | .s _ _ st _ => refsS c st
  | .ss _ _ st _ => refsSs c st

/-- The numbers of the instructions are as `R` says. -/
structure RefsIn (P : List UInt8) (R : Nat → Op → Nat → Prop) (a b : Nat) : Prop where
  walk : Visits P a b
  ops : ∀ p op, Visits P a p → p < b → P[p]? = some op.toByte → operands op ≠ .none → ∃ i, operandAt P op p = some i ∧ R p op i

theorem RefsIn.mono {P : List UInt8} {R R' : Nat → Op → Nat → Prop} {a b : Nat} (h : RefsIn P R a b)
    (k : ∀ p op i, a ≤ p → p < b → R p op i → R' p op i) : RefsIn P R' a b :=
  ⟨h.walk, fun p op hp hl ho hn => by
    obtain ⟨i, h1, h2⟩ := h.ops p op hp hl ho hn
    exact ⟨i, h1, k p op i hp.le hl h2⟩⟩

/-- The same, of a part of the program. -/
def RefsFrom (P : List UInt8) (R : Nat → Op → Nat → Prop) (a b : Nat) : Prop := Visits P 0 a → RefsIn P R a b

theorem RefsFrom.nil {P : List UInt8} {R : Nat → Op → Nat → Prop} {a : Nat} : RefsFrom P R a a :=
  fun _ => ⟨.here, fun p _ h hl => by have := h.le; omega⟩

theorem RefsIn.append {P : List UInt8} {R : Nat → Op → Nat → Prop} {a b c : Nat} (h : RefsIn P R a b) (h' : RefsIn P R b c) : RefsIn P R a c :=
  ⟨h.walk.trans h'.walk, fun p op hp hl => by
    by_cases hb : p < b
    · exact h.ops p op hp hb
    · exact h'.ops p op (h.walk.linear hp (by omega)) hl⟩

theorem RefsFrom.append {P : List UInt8} {R : Nat → Op → Nat → Prop} {a b c : Nat} (h : RefsFrom P R a b) (h' : RefsFrom P R b c) :
    RefsFrom P R a c :=
  fun v => (h v).append (h' (v.trans (h v).walk))

/-- The number of the instruction is as `R` says. -/
def Instr.Refs (R : Op → Nat → Prop) : Instr → Prop
  | .op _ => True
  | .opB o b => R o b.toNat
  | .opV o _ v => R o v
  | .opBV o _ v => R o v

/-- The code of the function `i`: from where it is entered to where the jump in front of it leads. -/
def InsideFn (fp : Nat → Option Nat) (P : List UInt8) (i p : Nat) : Prop :=
  ∃ g q e, Visits P 0 g ∧ nextInstr P g = some q ∧ jumpTarget P g = some e ∧ fp i = some q ∧ q ≤ p ∧ p < e

/-- As `R` says of the code outside of functions or in the function `c`, or as it says of functions inside of that. -/
def Near (fp : Nat → Option Nat) (P : List UInt8) (R : Option Nat → Op → Nat → Prop) (c : Option Nat) (p : Nat) (op : Op) (k : Nat) : Prop :=
  R c op k ∨ ∃ i, InsideFn fp P i p ∧ R (some i) op k

theorem RefsFrom.i {fp : Nat → Option Nat} {P : List UInt8} {R : Option Nat → Op → Nat → Prop} {c : Option Nat} {a b : Nat} {i : Instr}
    (h : AtI P a i b) (hs : i.Shaped) (hr : i.Refs (R c)) : RefsFrom P (Near fp P R c) a b := by
  intro _
  have hn := h.nextInstr hs
  refine ⟨.one hn, fun p op hp hl ho hne => ?_⟩
  cases hp with
  | next h1 h2 =>
    rw [hn] at h1
    cases h1
    have := h2.le
    omega
  | here =>
    have hop := h.opcode
    rw [ho] at hop
    have e := Op.toByte_inj (Option.some.inj hop)
    cases i with
    | op o =>
      subst e
      exact absurd hs hne
    | opB o x =>
      subst e
      simp only [Instr.Shaped] at hs
      exact ⟨x.toNat, by simp [operandAt, hs, h.2.1], .inl hr⟩
    | opV o n v =>
      subst e
      simp only [Instr.Shaped] at hs
      obtain ⟨_, h0, h2⟩ := h
      unfold readValueAt at h2
      obtain ⟨w, hw, h2⟩ := Res.bind_eq_ok.1 h2
      cases h2
      refine ⟨_, ?_, .inl hr⟩
      rw [operandAt, hs]
      simp only
      rw [alignedFrom_eq _ _ h0]
      exact readLE_eq.1 hw
    | opBV o x v =>
      subst e
      simp only [Instr.Shaped] at hs
      obtain ⟨_, hx, h2⟩ := h
      unfold readValueAt at h2
      obtain ⟨w, hw, h2⟩ := Res.bind_eq_ok.1 h2
      cases h2
      refine ⟨_, ?_, .inl hr⟩
      rw [operandAt, hs]
      simp only
      rw [alignedFrom_eq _ 4 (by omega)]
      exact readLE_eq.1 hw

/-- The reference leads to what `R` asks for. -/
def OkRef (R : Option Nat → Op → Nat → Prop) (g : Globals) : Ref → Prop
  | .str i | .const i => ∀ c, (pushStrI i).Refs (R c)
  | .glob i => ∀ c, R c .get (indexBits i) ∧ R c .set (indexBits i)
  | .fn f => ∀ c n, (callI n f).Refs (R c)
  | .call m => ∀ f, g.funcs m = some f → ∀ c n, (callI n f).Refs (R c)
  | .loc c i => (getVarI (.loc i)).Refs (R c) ∧ R c .setLocal (indexBits i)

/-- The instructions with a number from a table. -/
def tableOps : List Op := [.pushString, .pushStringFF, .pushStruct, .structGet, .structSet, .get, .set, .call, .callf, .getLocal, .getLocalW, .setLocal]

/-- Other instructions are all right. -/
def Free (R : Op → Nat → Prop) : Prop := ∀ op i, op ∉ tableOps → R op i

/-- The numbers of fields are what `R` asks for. -/
def OkStructs (R : Op → Nat → Prop) (g : Globals) : Prop :=
  ∀ n fields, g.structs n = some fields → R .pushStruct (fields.length % 256) ∧ ∀ i, i < fields.length → R .structGet i ∧ R .structSet i

theorem OkStructs.dot {R : Op → Nat → Prop} {g : Globals} (h : OkStructs R g) {tag : Option Tag} {field : Name} {i : Nat}
    (hi : fieldIdx g tag field = some i) : R .structGet (UInt8.ofNat i).toNat ∧ R .structSet (UInt8.ofNat i).toNat := by
  unfold fieldIdx at hi
  split at hi
  · split at hi
    · cases hi
    · next n hn fields hg =>
      simp only at hi
      split at hi
      · next hlt =>
        cases hi
        rw [show (UInt8.ofNat (fields.findIdx (·.1 = field))).toNat = fields.findIdx (·.1 = field) from by simp; omega]
        exact (h _ _ hg).2 _ hlt.1
      · cases hi
  · cases hi

theorem OkStructs.make {R : Op → Nat → Prop} {g : Globals} (h : OkStructs R g) {n : Name} {fields : List (Name × Tag)}
    (hn : g.structs n = some fields) : R .pushStruct (UInt8.ofNat fields.length).toNat := by
  rw [show (UInt8.ofNat fields.length).toNat = fields.length % 256 from by simp]
  exact (h _ _ hn).1

theorem pushIntI_refs {R : Op → Nat → Prop} (hR : Free R) (i : BitVec 64) : (pushIntI i).Refs R := by
  unfold pushIntI
  split
  · trivial
  split
  · trivial
  · exact hR _ _ (by decide)

theorem leafI_refs {R : Option Nat → Op → Nat → Prop} {g : Globals} {c : Option Nat} (hR : ∀ c, Free (R c)) {e : Expr} {i : Instr} (h : leafI e = some i) (hr : ∀ r ∈ refsE c e, OkRef R g r) :
    i.Refs (R c) := by
  cases e <;> simp only [leafI] at h <;> try cases h
  case id n s =>
    cases s with
    | none => cases h
    | some v =>
      cases h
      cases v with
      | glob i => exact (hr (.glob i) (by simp [refsE, refsV]) _).1
      | loc i => exact (hr (.loc c i) (by simp [refsE, refsV])).1
      | const v =>
        cases v with
        | str i => exact hr (.const i) (by simp [refsE, refsV]) _
        | bool b => trivial
        | int i => exact pushIntI_refs (hR _) _
        | float f => exact hR _ _ _ (by decide)
  case str i => exact hr (.str i) (by simp [refsE]) _
  all_goals first
    | trivial
    | exact pushIntI_refs (hR _) _
    | exact hR _ _ _ (by decide)

theorem refs_zip {c : Option Nat} {ns : List Name} : ∀ {as : List Expr} {r : Ref}, r ∈ ((ns.zip as).flatMap fun p => refsE c p.2) → r ∈ refsL c as := by
  induction ns with
  | nil => intro as r h; simp at h
  | cons n ns ih =>
    intro as r h
    cases as with
    | nil => simp at h
    | cons a as =>
      simp only [List.zip_cons_cons, List.flatMap_cons, List.mem_append] at h
      rw [refsL, List.mem_append]
      exact h.imp id ih

local macro "r!" h:term:max : term => `(fun r hr => $h r (by simp only [Item.refs] at hr; simp [Item.refs, refsE, refsL, refsS, refsSs, hr]))

theorem goto_target {P : List UInt8} {a b v : Nat} (h : AtI P a (.goto v) b) : jumpTarget P a = some v := by
  unfold jumpTarget
  obtain ⟨h1, _, h2⟩ := h
  unfold readValueAt at h2
  obtain ⟨w, hw, h2⟩ := Res.bind_eq_ok.1 h2
  cases h2
  have hw := readLE_eq.1 hw
  rw [← alignedFrom_eq _ _ (by omega)] at hw
  rw [h1]
  simp only [Option.bind_some, Op.ofByte_toByte]
  exact hw

theorem At.refs {g : Globals} {fp : Nat → Option Nat} {P : List UInt8} {R : Option Nat → Op → Nat → Prop} (hR : ∀ c, Free (R c))
    (hS : ∀ c, OkStructs (R c) g) {pos fin : Nat} {it : Item} (h : At g fp P pos it fin) : ∀ c, (∀ r ∈ it.refs c, OkRef R g r) → RefsFrom P (Near fp P R c) pos fin := by
  have hI : ∀ {a b : Nat} {o : Op} {c}, AtI P a (.op o) b → operands o = .none → RefsFrom P (Near fp P R c) a b := fun h hs => .i h hs trivial
  have hB : ∀ {a b : Nat} {o : Op} {x c}, AtI P a (.opB o x) b → operands o = .byte → o ∉ tableOps → RefsFrom P (Near fp P R c) a b :=
    fun h hs hn => .i h hs (hR _ _ _ hn)
  have hJ : ∀ {a b : Nat} {v c}, AtI P a (.goto v) b → RefsFrom P (Near fp P R c) a b := fun h => .i h rfl (hR _ _ _ (by decide))
  have hZ : ∀ {a b : Nat} {v c}, AtI P a (.gotoz v) b → RefsFrom P (Near fp P R c) a b := fun h => .i h rfl (hR _ _ _ (by decide))
  have hN : ∀ {a b : Nat} {v c}, AtI P a (.opV .pushInt 8 v) b → RefsFrom P (Near fp P R c) a b := fun h => .i h rfl (hR _ _ _ (by decide))
  induction h
  case leaf h a => exact fun c H => .i a (leafI_plain h).1 (leafI_refs hR h H)
  case paren ih => exact fun c H => ih c (r! H)
  case cast ih => exact fun c H => ih c (r! H)
  case index f setF _ _ a1 a2 i1 i2 =>
    exact fun c H => (((i1 c (r! H)).append (i2 c (r! H))).append (.i a1 (callI_plain _ _).1 (H (.fn f) (by simp [Item.refs, refsE]) _ _))).append (hI a2 rfl)
  case dot hi _ a1 i1 => exact fun c H => (i1 c (r! H)).append (.i a1 rfl ((hS c).dot hi).1)
  case call hf _ a1 a2 i1 =>
    exact fun c H => ((i1 c (r! H)).append (.i a1 (callI_plain _ _).1 (H (.call _) (by simp [Item.refs, refsE]) _ hf _ _))).append (hI a2 rfl)
  case ctor hn _ a1 i1 => exact fun c H => (i1 c (r! H)).append (.i a1 rfl ((hS c).make hn))
  case ctorNamed hn _ a1 i1 =>
    exact fun c H => (i1 c fun r hr => H r (by
      simp only [Item.refs] at hr ⊢
      rw [refsE]
      exact refs_zip hr)).append (.i a1 rfl ((hS c).make hn))
  case add1 a1 i1 => exact fun c H => (i1 c (r! H)).append (hI a1 rfl)
  case sub1 a1 i1 => exact fun c H => (i1 c (r! H)).append (hI a1 rfl)
  case bin h _ _ _ a1 i1 i2 => exact fun c H => ((i1 c (r! H)).append (i2 c (r! H))).append (hI a1 (binOpcode_plain h).1)
  case ne a1 a2 i1 i2 => exact fun c H => (((i1 c (r! H)).append (i2 c (r! H))).append (hI a1 rfl)).append (hI a2 rfl)
  case and a1 _ a2 a3 i1 i2 => exact fun c H => ((((i1 c (r! H)).append (hZ a1)).append (i2 c (r! H))).append (hJ a2)).append (hI a3 rfl)
  case or a1 a2 a3 _ i1 i2 => exact fun c H => ((((i1 c (r! H)).append (hZ a1)).append (hI a2 rfl)).append (hJ a3)).append (i2 c (r! H))
  case negInt a1 => exact fun c H => hN a1
  case neg a1 a2 i1 => exact fun c H => ((i1 c (r! H)).append (hN a1)).append (hI a2 rfl)
  case bang a1 i1 => exact fun c H => (i1 c (r! H)).append (hI a1 rfl)
  case ite a1 _ a2 _ i1 i2 i3 =>
    exact fun c H => ((((i1 c (r! H)).append (hZ a1)).append (i2 c (r! H))).append (hJ a2)).append (i3 c (r! H))
  case esNil => exact fun _ _ => .nil
  case esCons i1 i2 => exact fun c H => (i1 c (r! H)).append (i2 c (r! H))
  case fieldsNil => exact fun _ _ => .nil
  case fieldsMissing i1 => exact fun c H => i1 c H
  case fieldsCons hf _ _ i1 i2 =>
    exact fun c H => (i1 c fun r hr => H r (List.mem_flatMap.mpr ⟨_, List.mem_of_find?_eq_some hf, hr⟩)).append (i2 c H)
  case rhsPlain i1 => exact fun c H => i1 c (r! H)
  case rhsAdd1 a1 i1 => exact fun c H => (i1 c (r! H)).append (hI a1 rfl)
  case rhsSub1 a1 i1 => exact fun c H => (i1 c (r! H)).append (hI a1 rfl)
  case rhsOp h _ _ _ a1 i1 i2 => exact fun c H => ((i1 c (r! H)).append (i2 c (r! H))).append (hI a1 (compoundOp_plain h).1)
  case storeGlob a1 => exact fun c H => .i a1 rfl (H (.glob _) (by simp [Item.refs, refsE, refsV]) _).2
  case storeLoc a1 => exact fun c H => .i a1 rfl (H (.loc c _) (by simp [Item.refs, refsE, refsV])).2
  case storeIndex f a1 => exact fun c H => .i a1 (callI_plain _ _).1 (H (.fn f) (by simp [Item.refs, refsE]) _ _)
  case storeDot hi _ a1 i1 => exact fun c H => (i1 c (r! H)).append (.i a1 rfl ((hS c).dot hi).2)
  case preIndex i1 i2 => exact fun c H => (i1 c (r! H)).append (i2 c (r! H))
  case preId => exact fun _ _ => .nil
  case preDot => exact fun _ _ => .nil
  case node i1 => exact fun c H => i1 c (r! H)
  case callS hf _ a1 i1 =>
    exact fun c H => (i1 c (r! H)).append (.i a1 (callI_plain _ _).1 (H (.call _) (by simp [Item.refs, refsS]) _ hf _ _))
  case block i1 => exact fun c H => i1 c (r! H)
  case assignConst => exact fun _ _ => .nil
  case assign ho _ _ _ i1 i2 i3 =>
    intro c H
    simp only [Item.refs, refsS] at H
    rw [if_neg (by rintro rfl; simp [compoundOp] at ho)] at H
    exact ((i1 c (r! H)).append (i2 c (r! H))).append (i3 c (r! H))
  case proc pos p1 p2 p3 fin b c' i nargs nlocals body a a1 hq hn a2 ab a3 i1 =>
    intro c H
    have l3 := a3.lt
    have l2 := ab.le
    have l1 : p1 ≤ p2 := by
      split at a2
      · exact Nat.le_of_eq a2.symm
      · exact Nat.le_of_lt a2.lt
    simp only [Item.refs, refsS] at H
    have k0 : RefsFrom P (Near fp P R c) p1 p2 := by
      split at a2
      · exact a2 ▸ RefsFrom.nil
      · exact hB a2 rfl (by decide)
    intro v
    have kj := hJ (c := c) a1 v
    have k1 := k0 (v.trans kj.walk)
    have kb := i1 (some i) (r! H) ((v.trans kj.walk).trans k1.walk)
    have kb' : RefsIn P (Near fp P R c) p2 p3 := kb.mono fun p op k h1 h2 h3 => by
      rcases h3 with h3 | h3
      · exact .inr ⟨i, ⟨pos, p1, fin, v, a1.nextInstr rfl, goto_target a1, hq, by omega, by omega⟩, h3⟩
      · exact .inr h3
    exact ((kj.append k1).append kb').append (hI a3 rfl (((v.trans kj.walk).trans k1.walk).trans kb.walk))
  case ifThen a1 _ i1 i2 => exact fun c H => ((i1 c (r! H)).append (hZ a1)).append (i2 c (r! H))
  case ifElse a1 _ a2 _ i1 i2 i3 =>
    exact fun c H => ((((i1 c (r! H)).append (hZ a1)).append (i2 c (r! H))).append (hJ a2)).append (i3 c (r! H))
  case «while» a1 _ a2 i1 i2 => exact fun c H => (((i1 c (r! H)).append (hZ a1)).append (i2 c (r! H))).append (hJ a2)
  case «for» a1 _ _ a2 i0 i1 i2 i3 =>
    exact fun c H => (((((i0 c (r! H)).append (i1 c (r! H))).append (hZ a1)).append (i2 c (r! H))).append (i3 c (r! H))).append (hJ a2)
  case ret a1 => exact fun _ _ => hI a1 rfl
  case retValue a1 i1 => exact fun c H => (i1 c (r! H)).append (hI a1 rfl)
  case brk a1 => exact fun _ _ => hJ a1
  case cont a1 => exact fun _ _ => hJ a1
  case use => exact fun _ _ => .nil
  case ssNil => exact fun _ _ => .nil
  case ssCons i1 i2 => exact fun c H => (i1 c (r! H)).append (i2 c (r! H))

/-! ## The references of spelled programs -/

/-- The reference leads to something. -/
def RefIn (f : Front) : Ref → Prop
  | .str i => ∃ t, f.strings[i]? = some t
  | .const i => ∃ n t, Sym.const n t (.str i) ∈ f.syms
  | .glob i => ∃ v, Sym.glob v ∈ f.syms ∧ v.idx.toNat = i
  | .fn h => ∃ n, NamedFn f n h
  | .call n => ∃ h, NamedFn f n h
  | .loc c i => ∃ fi v, Sym.func fi ∈ f.syms ∧ c = some fi.index ∧ v ∈ fi.args ++ fi.locals ∧ v.idx = i

theorem stands_refs {f : Front} {c : Option Nat} {n : Name} {v : VarSym} (h : Stands f c n v) : ∀ r ∈ refsV c v, RefIn f r := by
  intro r hr
  cases v with
  | glob i =>
    simp only [refsV, List.mem_singleton] at hr
    subst hr
    obtain ⟨v, h1, -, h3⟩ := h
    exact ⟨v, h1, h3⟩
  | loc i =>
    simp only [refsV, List.mem_singleton] at hr
    subst hr
    obtain ⟨fi, v, h1, h2, h3, -, h5⟩ := h
    exact ⟨fi, v, h1, h2, h3, h5⟩
  | const k =>
    cases k <;> simp only [refsV, List.mem_singleton, List.not_mem_nil] at hr
    subst hr
    obtain ⟨t, h1⟩ := h
    exact ⟨n, t, h1⟩

theorem index_refs {f : Front} {g s : Option FnSym} (h : IndexFns f g s) : ∀ r ∈ g.toList.map Ref.fn ++ s.toList.map Ref.fn, RefIn f r := by
  obtain ⟨t, ⟨x, rfl, h2⟩, h3⟩ := h
  intro r hr
  simp only [Option.toList_some, List.map_cons, List.map_nil, List.singleton_append, List.mem_cons, List.mem_map, Option.mem_toList] at hr
  rcases hr with rfl | ⟨y, hy, rfl⟩
  · exact ⟨_, h2⟩
  · exact ⟨_, h3 y hy⟩

mutual
theorem spells_refs {f : Front} {c : Option Nat} : ∀ {e : SExpr} {e' : Expr}, Spells f c e e' → ∀ r ∈ refsE c e', RefIn f r
  | _, _, .null, r, h => by simp [refsE] at h
  | _, _, .bool, r, h => by simp [refsE] at h
  | _, _, .int, r, h => by simp [refsE] at h
  | _, _, .char, r, h => by simp [refsE] at h
  | _, _, .float, r, h => by simp [refsE] at h
  | _, _, .str a, r, h => by
    simp only [refsE, List.mem_singleton] at h
    subst h
    exact ⟨_, a⟩
  | _, _, .id a, r, h => by
    rw [refsE] at h
    exact stands_refs a r h
  | _, _, .call a i, r, h => by
    rw [refsE, List.mem_cons] at h
    rcases h with rfl | h
    · exact i
    · exact spells_refsL a r h
  | _, _, .paren a, r, h => by rw [refsE] at h; exact spells_refs a r h
  | _, _, .bin a b, r, h => by
    rw [refsE, List.mem_append] at h
    exact h.elim (spells_refs a r) (spells_refs b r)
  | _, _, .un a, r, h => by rw [refsE] at h; exact spells_refs a r h
  | _, _, .dot a, r, h => by rw [refsE] at h; exact spells_refs a r h
  | _, _, .index a b i, r, h => by
    rw [refsE, List.append_assoc, List.mem_append, List.mem_append] at h
    rcases h with (h | h) | h
    · exact spells_refs a r h
    · exact spells_refs b r h
    · exact index_refs i r h
  | _, _, .ctor a, r, h => by rw [refsE] at h; exact spells_refsL a r h
  | _, _, .ctorNamed _ a, r, h => by rw [refsE] at h; exact spells_refsL a r h
  | _, _, .cast a, r, h => by rw [refsE] at h; exact spells_refs a r h
  | _, _, .ite a b d, r, h => by
    rw [refsE, List.mem_append, List.mem_append] at h
    rcases h with (h | h) | h
    · exact spells_refs a r h
    · exact spells_refs b r h
    · exact spells_refs d r h
theorem spells_refsL {f : Front} {c : Option Nat} : ∀ {es : List SExpr} {es' : List Expr}, SpellsL f c es es' → ∀ r ∈ refsL c es', RefIn f r
  | _, _, .nil, r, h => by simp [refsL] at h
  | _, _, .cons a b, r, h => by
    rw [refsL, List.mem_append] at h
    exact h.elim (spells_refs a r) (spells_refsL b r)
end

mutual
theorem spells_refsS {f : Front} : ∀ {c : Option Nat} {s : SStmt} {s' : Stmt}, SpellsS f c s s' → ∀ r ∈ refsS c s', RefIn f r
  | _, _, _, .node a, r, h => by rw [refsS] at h; exact spells_refsS a r h
  | _, _, _, .call a i, r, h => by
    rw [refsS, List.mem_cons] at h
    rcases h with rfl | h
    · exact i
    · exact spells_refsL a r h
  | _, _, _, .block a, r, h => by rw [refsS] at h; exact spells_refsSs a r h
  | _, _, _, .assign _ a b, r, h => by
    rw [refsS] at h
    split at h
    · simp at h
    · rw [List.mem_append] at h
      exact h.elim (spells_refs a r) (spells_refs b r)
  | _, _, _, .other _ a, r, h => by
    rw [refsS] at h
    split at h
    · simp at h
    · simp only [refsE, List.nil_append] at h
      exact spells_refs a r h
  | _, _, _, .proc _ a, r, h => by rw [refsS] at h; exact spells_refsS a r h
  | _, _, _, .ifThen a b, r, h => by
    rw [refsS, List.mem_append] at h
    exact h.elim (spells_refs a r) (spells_refsS b r)
  | _, _, _, .ifElse a b d, r, h => by
    rw [refsS, List.mem_append, List.mem_append] at h
    rcases h with (h | h) | h
    · exact spells_refs a r h
    · exact spells_refsS b r h
    · exact spells_refsS d r h
  | _, _, _, .while a b, r, h => by
    rw [refsS, List.mem_append] at h
    exact h.elim (spells_refs a r) (spells_refsS b r)
  | _, _, _, .for a b d e, r, h => by
    rw [refsS, List.mem_append, List.mem_append, List.mem_append] at h
    rcases h with ((h | h) | h) | h
    · exact spells_refsS a r h
    · exact spells_refs b r h
    · exact spells_refsS d r h
    · exact spells_refsS e r h
  | _, _, _, .retNone, r, h => by simp [refsS] at h
  | _, _, _, .ret a, r, h => by rw [refsS] at h; exact spells_refs a r h
  | _, _, _, .brk, r, h => by simp [refsS] at h
  | _, _, _, .cont, r, h => by simp [refsS] at h
  | _, _, _, .use, r, h => by simp [refsS] at h
  | _, _, _, .struct, r, h => by simp [refsS, refsSs] at h
theorem spells_refsSs {f : Front} : ∀ {c : Option Nat} {ss : List SStmt} {ss' : List Stmt}, SpellsSs f c ss ss' → ∀ r ∈ refsSs c ss', RefIn f r
  | _, _, _, .nil, r, h => by simp [refsSs] at h
  | _, _, _, .cons a b, r, h => by
    rw [refsSs, List.mem_append] at h
    exact h.elim (spells_refsS a r) (spells_refsSs b r)
end

end Tiny
