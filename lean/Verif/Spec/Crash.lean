import Verif.Spec.Grammar

/-!
# Programs which make the compiler's behaviour undefined

The spec of C57, on the trees of the grammar.
-/

namespace Tiny.Spec

mutual
/-- The variable `n` is mentioned in the expression. -/
def Occurs (n : Name) : SExpr → Prop
  | .id m _ => m = n
  | .call _ as => OccursIn n as
  | .paren e => Occurs n e
  | .bin _ l r => Occurs n l ∨ Occurs n r
  | .un _ e => Occurs n e
  | .dot l _ => Occurs n l
  | .index a i => Occurs n a ∨ Occurs n i
  | .ctor _ _ as => OccursIn n as
  | .cast e _ => Occurs n e
  | .ite c a b => Occurs n c ∨ Occurs n a ∨ Occurs n b
  | _ => False
/-- The variable `n` is mentioned in one of the expressions. -/
def OccursIn (n : Name) : List SExpr → Prop
  | [] => False
  | e :: es => Occurs n e ∨ OccursIn n es
end

/-- `n := e` where `n` is mentioned in `e`: its type would have to be known to find its type. -/
def SelfDecl : Tok → SExpr → SExpr → Prop
  | .declare, .id n _, e => Occurs n e
  | _, _, _ => False

mutual
/-- The statement contains a declaration `n := e` where `n` is mentioned in `e`. -/
def SelfInit : SStmt → Prop
  | .node _ s => SelfInit s
  | .block ss => SelfInits ss
  | .assign op _ l e => SelfDecl op l e
  | .proc _ _ _ _ b => SelfInit b
  | .ifThen _ b => SelfInit b
  | .ifElse _ b a => SelfInit b ∨ SelfInit a
  | .while _ b => SelfInit b
  | .for i _ s b => SelfInit i ∨ SelfInit s ∨ SelfInit b
  | _ => False
/-- See `SelfInit`. -/
def SelfInits : List SStmt → Prop
  | [] => False
  | s :: ss => SelfInit s ∨ SelfInits ss
end

mutual
/-- The expression contains `-` in front of an integer literal whose value is the smallest `int` (such as
`2147483648`): the compiler computes the negation itself, and it overflows. -/
def NegMin {V S T : Type} : PExpr V S T → Prop
  | .un op e => (op = .minus ∧ e = .int (BitVec.intMin 32)) ∨ NegMin e
  | .call _ as => NegMins as
  | .paren e => NegMin e
  | .bin _ l r => NegMin l ∨ NegMin r
  | .dot l _ => NegMin l
  | .index a i => NegMin a ∨ NegMin i
  | .ctor _ _ as => NegMins as
  | .cast e _ => NegMin e
  | .ite c a b => NegMin c ∨ NegMin a ∨ NegMin b
  | _ => False
/-- See `NegMin`. -/
def NegMins {V S T : Type} : List (PExpr V S T) → Prop
  | [] => False
  | e :: es => NegMin e ∨ NegMins es
end

mutual
/-- The statement contains such a negation. -/
def NegatesMin {V S T F : Type} : PStmt V S T F → Prop
  | .node _ s => NegatesMin s
  | .call _ as => NegMins as
  | .block ss => NegateMin ss
  | .assign _ _ l e => NegMin l ∨ NegMin e
  | .proc _ _ _ _ b => NegatesMin b
  | .ifThen c b => NegMin c ∨ NegatesMin b
  | .ifElse c b a => NegMin c ∨ NegatesMin b ∨ NegatesMin a
  | .while c b => NegMin c ∨ NegatesMin b
  | .for i c s b => NegatesMin i ∨ NegMin c ∨ NegatesMin s ∨ NegatesMin b
  | .ret (some e) => NegMin e
  | _ => False
/-- See `NegatesMin`. -/
def NegateMin {V S T F : Type} : List (PStmt V S T F) → Prop
  | [] => False
  | s :: ss => NegatesMin s ∨ NegateMin ss
end

mutual
/-- The expression contains `new n{...}`. -/
def MakesE {V S T : Type} (n : Name) : PExpr V S T → Prop
  | .ctor m _ as => m = n ∨ MakesEs n as
  | .call _ as => MakesEs n as
  | .paren e => MakesE n e
  | .bin _ l r => MakesE n l ∨ MakesE n r
  | .un _ e => MakesE n e
  | .dot l _ => MakesE n l
  | .index a i => MakesE n a ∨ MakesE n i
  | .cast e _ => MakesE n e
  | .ite c a b => MakesE n c ∨ MakesE n a ∨ MakesE n b
  | _ => False
/-- See `MakesE`. -/
def MakesEs {V S T : Type} (n : Name) : List (PExpr V S T) → Prop
  | [] => False
  | e :: es => MakesE n e ∨ MakesEs n es
end

mutual
/-- The statement contains `new n{...}`. -/
def MakesS {V S T F : Type} (n : Name) : PStmt V S T F → Prop
  | .node _ s => MakesS n s
  | .call _ as => MakesEs n as
  | .block ss => Makes n ss
  | .assign _ _ l e => MakesE n l ∨ MakesE n e
  | .proc _ _ _ _ b => MakesS n b
  | .ifThen c b => MakesE n c ∨ MakesS n b
  | .ifElse c b a => MakesE n c ∨ MakesS n b ∨ MakesS n a
  | .while c b => MakesE n c ∨ MakesS n b
  | .for i c s b => MakesS n i ∨ MakesE n c ∨ MakesS n s ∨ MakesS n b
  | .ret (some e) => MakesE n e
  | _ => False
/-- See `MakesS`. -/
def Makes {V S T F : Type} (n : Name) : List (PStmt V S T F) → Prop
  | [] => False
  | s :: ss => MakesS n s ∨ Makes n ss
end

end Tiny.Spec
