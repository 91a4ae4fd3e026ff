import Verif.Spec.Lang

/-!
# The type system

The rules of the type checker, as a specification (C36, C47), for trees in which every name has been resolved.
-/

namespace Tiny.Spec

/-- A value of the first type may be stored where the second is declared: anything but `void` where `any` is; a type
other than `any`, `void` or `t?` where it is declared itself; and, for a type other than `any`, where `t?` is declared
if it may be stored where `t` is. -/
inductive Assignable : Tag → Tag → Prop
  | toAny {s} : s ≠ .void → Assignable s .any
  | same {s} : s ≠ .void → s ≠ .any → (∀ t, s ≠ .nullable t) → Assignable s s
  | toNullable {s t} : s ≠ .any → Assignable s t → Assignable s (.nullable t)

/-- The type of a function. -/
structure Sig where
  params : List Tag
  varargs : Bool
  ret : Tag
deriving DecidableEq, Repr

/-- What the rules refer to: the type of each variable and constant; for each function name the function and its
type; the fields of each struct; whether its name means another type, registered by the host before; the types of the
variables and of the result of each Tiny function; the names of the functions which implement `a[i]` and `a[i] = x` for
each type of `a`. -/
structure TyEnv where
  var : VarSym → Option Tag
  func : Name → Option (FnSym × Sig)
  fields : Name → Option (List (Name × Tag))
  hidden : Name → Bool := fun _ => false
  body : Nat → Option ((Int → Option Tag) × Tag)
  getIndex : Tag → Name
  setIndex : Tag → Name

/-- The type of the objects of a struct. -/
def TyEnv.structTag (Γ : TyEnv) (n : Name) : Tag := if Γ.hidden n then .shadowed n else .named n

/-- Inside a function. -/
def TyEnv.enter (Γ : TyEnv) (L : Int → Option Tag) : TyEnv :=
  { Γ with var := fun s => match s with | .loc i => L i | s => Γ.var s }

/-- The type of the first field of a name. -/
def fieldType (fs : List (Name × Tag)) (n : Name) : Option Tag := (fs.find? (·.1 = n)).map Prod.snd

/-- Number types. -/
inductive IsNum : Tag → Prop
  | int : IsNum .int
  | float : IsNum .float

/-- Binary operators: operand types and result type. -/
inductive BinTy : Tok → Tag → Tag → Tag → Prop
  | ints {op} : op ∈ [Tok.plus, .minus, .star, .slash] → BinTy op .int .int .int
  | floats {op l r} : op ∈ [Tok.plus, .minus, .star, .slash] → IsNum l → IsNum r → ¬ (l = .int ∧ r = .int) →
      BinTy op l r .float
  | bits {op} : op ∈ [Tok.and, .or, .percent, .shiftLeft, .shiftRight] → BinTy op .int .int .int
  | logic {op} : op ∈ [Tok.logAnd, .logOr] → BinTy op .bool .bool .bool
  | order {op l r} : op ∈ [Tok.lt, .lte, .gt, .gte] → IsNum l → IsNum r → BinTy op l r .bool
  | equality {op l r} : op ∈ [Tok.equals, .notEquals] → l ≠ .void → r ≠ .void → BinTy op l r .bool

/-- Unary operators. -/
inductive UnTy : Tok → Tag → Tag → Prop
  | neg {t} : IsNum t → UnTy .minus t t
  | not : UnTy .bang .bool .bool

/-- **The type of an expression.** `ts` are the types of the arguments. -/
inductive HasType (Γ : TyEnv) : Expr → Tag → Prop
  | null : HasType Γ .null .any
  | bool {b} : HasType Γ (.bool b) .bool
  | int {i} : HasType Γ (.int i) .int
  | char {i} : HasType Γ (.char i) .int
  | float {f} : HasType Γ (.float f) .float
  | str {i} : HasType Γ (.str i) .str
  | id {n s t} : Γ.var s = some t → HasType Γ (.id n (some s)) t
  | paren {e t} : HasType Γ e t → HasType Γ (.paren e) t
  | bin {op l r tl tr t} : HasType Γ l tl → HasType Γ r tr → BinTy op tl tr t → HasType Γ (.bin op l r) t
  | un {op e te t} : HasType Γ e te → UnTy op te t → HasType Γ (.un op e) t
  | call {n f sig args} {ts : List Tag} : Γ.func n = some (f, sig) →
      ts.length = args.length → (∀ (k : Nat) a t, args[k]? = some a → ts[k]? = some t → HasType Γ a t) →
      (sig.varargs = true ∨ args.length ≤ sig.params.length) →
      (∀ (k : Nat) t p, ts[k]? = some t → sig.params[k]? = some p → Assignable t p) →
      HasType Γ (.call n args) sig.ret
  | dot {l n fs field t} : HasType Γ l (Γ.structTag n) → Γ.fields n = some fs → fieldType fs field = some t →
      HasType Γ (.dot l field (some (Γ.structTag n))) t
  | index {arr elem ta te g sig setF} : HasType Γ arr ta → HasType Γ elem te →
      Γ.func (Γ.getIndex ta) = some (g, sig) → setF = (Γ.func (Γ.setIndex ta)).map Prod.fst →
      HasType Γ (.index arr elem (some g) setF) sig.ret
  | ctor {n fs args} {ts : List Tag} : Γ.fields n = some fs →
      ts.length = args.length → (∀ (k : Nat) a t, args[k]? = some a → ts[k]? = some t → HasType Γ a t) →
      args.length ≤ fs.length →
      (∀ (k : Nat) t f, ts[k]? = some t → fs[k]? = some f → Assignable t f.2) →
      HasType Γ (.ctor n none args) (Γ.structTag n)
  | ctorNamed {n fs names args} {ts : List Tag} : Γ.fields n = some fs → names ≠ [] →
      ts.length = args.length → (∀ (k : Nat) a t, args[k]? = some a → ts[k]? = some t → HasType Γ a t) →
      args.length ≤ fs.length → args.length ≤ names.length →
      (∀ (k : Nat) t f, ts[k]? = some t → names[k]? = some f → ∃ ft, fieldType fs f = some ft ∧ Assignable t ft) →
      HasType Γ (.ctor n (some names) args) (Γ.structTag n)
  | cast {e t tag} : HasType Γ e t → (t = .any ∨ tag = .any) → HasType Γ (.cast e tag) tag
  | ite {c a b t} : HasType Γ c .bool → HasType Γ a t → HasType Γ b t → HasType Γ (.ite c a b) t

/-- **Statements which follow the rules**, inside a function with result type `ret` or outside functions (`none`). -/
inductive Checked : TyEnv → Option Tag → Stmt → Prop
  | node {Γ ret line s} : Checked Γ ret s → Checked Γ ret (.node line s)
  | call {Γ ret n args t} : HasType Γ (.call n args) t → Checked Γ ret (.call n args)
  | block {Γ ret ss} : (∀ s ∈ ss, Checked Γ ret s) → Checked Γ ret (.block ss)
  | declare {Γ ret n s r t} : Γ.var s = some t → HasType Γ r t → t ≠ .void →
      Checked Γ ret (.assign .declare (.id n (some s)) r)
  | assign {Γ ret op l r tl tr} : (op = .equal ∨ (compound op).isSome = true) → HasType Γ l tl → HasType Γ r tr →
      Assignable tr tl → Checked Γ ret (.assign op l r)
  | other {Γ ret op r t} : op ≠ .declare → ¬ (op = .equal ∨ (compound op).isSome = true) → HasType Γ r t →
      Checked Γ ret (.assign op .null r)
  | proc {Γ ret i na nl b L r} : Γ.body i = some (L, r) → Checked (Γ.enter L) (some r) b →
      Checked Γ ret (.proc i na nl b)
  | ifThen {Γ ret c b} : HasType Γ c .bool → Checked Γ ret b → Checked Γ ret (.ifThen c b)
  | ifElse {Γ ret c b a} : HasType Γ c .bool → Checked Γ ret b → Checked Γ ret a → Checked Γ ret (.ifElse c b a)
  | while {Γ ret c b} : HasType Γ c .bool → Checked Γ ret b → Checked Γ ret (.while c b)
  | for {Γ ret i c s b} : Checked Γ ret i → HasType Γ c .bool → Checked Γ ret s → Checked Γ ret b →
      Checked Γ ret (.for i c s b)
  | retVoid {Γ} : Checked Γ (some .void) (.ret none)
  | ret {Γ r e t} : HasType Γ e t → Assignable t r → Checked Γ (some r) (.ret (some e))
  | brk {Γ ret p} : Checked Γ ret (.brk p)
  | cont {Γ ret p} : Checked Γ ret (.cont p)
  | use {Γ ret} : Checked Γ ret .use

/-! The same rules in the order the checker applies them: a declaration gives a variable its type from there on. -/

/-- The types as seen from inside the function with this index, or from outside functions. -/
def TyEnv.at (Γ : TyEnv) (cur : Option Nat) : TyEnv :=
  Γ.enter fun i => (cur.bind Γ.body).bind fun b => b.1 i

/-- The result type of the function with this index. -/
def TyEnv.result (Γ : TyEnv) (cur : Option Nat) : Option Tag := (cur.bind Γ.body).map Prod.snd

/-- A variable (of the function with this index, if it is a local one) gets a type. -/
def TyEnv.declare (Γ : TyEnv) (cur : Option Nat) (s : VarSym) (t : Tag) : TyEnv :=
  match s with
  | .glob i => { Γ with var := fun x => if x = .glob i then some t else Γ.var x }
  | .loc i =>
    let typed (b : (Int → Option Tag) × Tag) := ((fun j => if j = i then some t else b.1 j), b.2)
    { Γ with body := fun k => if cur = some k then (Γ.body k).map typed else Γ.body k }
  | .const _ => Γ

/-- `Checks Γ cur s Γ'`: the checker accepts `s`, inside the function `cur` if any; `Γ` are the types before and `Γ'`
those afterwards. -/
inductive Checks : TyEnv → Option Nat → Stmt → TyEnv → Prop
  | node {Γ cur line s Γ'} : Checks Γ cur s Γ' → Checks Γ cur (.node line s) Γ'
  | call {Γ cur n args t} : HasType (Γ.at cur) (.call n args) t → Checks Γ cur (.call n args) Γ
  | nil {Γ cur} : Checks Γ cur (.block []) Γ
  | cons {Γ Γ₁ Γ' cur s ss} : Checks Γ cur s Γ₁ → Checks Γ₁ cur (.block ss) Γ' → Checks Γ cur (.block (s :: ss)) Γ'
  | declare {Γ cur n s r t} : (∀ c, s ≠ .const c) → HasType (Γ.at cur) r t → t ≠ .void →
      Checks Γ cur (.assign .declare (.id n (some s)) r) (Γ.declare cur s t)
  | assign {Γ cur op l r tl tr} : (op = .equal ∨ (compound op).isSome = true) → HasType (Γ.at cur) l tl →
      HasType (Γ.at cur) r tr → Assignable tr tl → Checks Γ cur (.assign op l r) Γ
  | other {Γ cur op r t} : op ≠ .declare → ¬ (op = .equal ∨ (compound op).isSome = true) → HasType (Γ.at cur) r t →
      Checks Γ cur (.assign op .null r) Γ
  | proc {Γ cur i na nl b v Γ'} : Γ.body i = some v → Checks Γ (some i) b Γ' → Checks Γ cur (.proc i na nl b) Γ'
  | ifThen {Γ cur c b Γ'} : HasType (Γ.at cur) c .bool → Checks Γ cur b Γ' → Checks Γ cur (.ifThen c b) Γ'
  | ifElse {Γ Γ₁ cur c b a Γ'} : HasType (Γ.at cur) c .bool → Checks Γ cur b Γ₁ → Checks Γ₁ cur a Γ' →
      Checks Γ cur (.ifElse c b a) Γ'
  | while {Γ cur c b Γ'} : HasType (Γ.at cur) c .bool → Checks Γ cur b Γ' → Checks Γ cur (.while c b) Γ'
  | for {Γ Γ₁ Γ₂ cur i c s b Γ'} : Checks Γ cur i Γ₁ → HasType (Γ₁.at cur) c .bool → Checks Γ₁ cur s Γ₂ →
      Checks Γ₂ cur b Γ' → Checks Γ cur (.for i c s b) Γ'
  | retVoid {Γ cur} : Γ.result cur = some .void → Checks Γ cur (.ret none) Γ
  | ret {Γ cur r e t} : Γ.result cur = some r → HasType (Γ.at cur) e t → Assignable t r → Checks Γ cur (.ret (some e)) Γ
  | brk {Γ cur p} : Checks Γ cur (.brk p) Γ
  | cont {Γ cur p} : Checks Γ cur (.cont p) Γ
  | use {Γ cur} : Checks Γ cur .use Γ

mutual
/-- The variables declared by `:=` in a statement, with the function they belong to. -/
def decls (cur : Option Nat) : Stmt → List (Option Nat × VarSym)
  | .node _ s => decls cur s
  | .block ss => declsL cur ss
  | .assign .declare (.id _ (some (.loc i))) _ => [(cur, .loc i)]
  | .assign .declare (.id _ (some s)) _ => [(none, s)]
  | .proc i _ _ b => decls (some i) b
  | .ifThen _ b => decls cur b
  | .ifElse _ b a => decls cur b ++ decls cur a
  | .while _ b => decls cur b
  | .for i _ s b => decls cur i ++ (decls cur s ++ decls cur b)
  | _ => []
/-- See `decls`. -/
def declsL (cur : Option Nat) : List Stmt → List (Option Nat × VarSym)
  | [] => []
  | s :: ss => decls cur s ++ declsL cur ss
end

/-- The variable exists and has no type yet. -/
inductive TyEnv.Untyped (Γ : TyEnv) : Option Nat × VarSym → Prop
  | glob {i} : Γ.var (.glob i) = none → Γ.Untyped (none, .glob i)
  | loc {k i L r} : Γ.body k = some (L, r) → L i = none → Γ.Untyped (some k, .loc i)

/-- Every variable is declared once, and has no type before. -/
def Fresh (Γ : TyEnv) (cur : Option Nat) (s : Stmt) : Prop :=
  (decls cur s).Nodup ∧ ∀ d ∈ decls cur s, Γ.Untyped d

end Tiny.Spec
