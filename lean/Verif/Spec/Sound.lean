import Verif.Spec.Types
import Verif.Spec.TypeTables

/-!
# What the types mean

The spec of C37: which values have a type, what it means that variables and objects have values of their types, and
which programs of those the type checker accepts belong to the core language (on which its verdict can be relied on).
-/

namespace Tiny.Spec

/-- The struct type of each object which is a struct. -/
abbrev ObjTypes := ObjId → Option Name

/-- The value does not refer to something which does not exist. -/
def Sane (S : ObjTypes) (h : Heap) : Value → Prop
  | .str o => o ∈ h.list ∧ ∃ b, h.obj o = .str b
  | .native o => o ∈ h.list
  | .struct o => ∃ n, S o = some n
  | _ => True

/-- What the names of types mean: for those the host has registered, whatever the host wants them to mean; for structs,
see `StructsMean`. -/
abbrev HostTypes := Name → ObjTypes → Heap → Value → Prop

/-- **The values of a type.** -/
def ValTy (Φ : HostTypes) (S : ObjTypes) (h : Heap) (v : Value) : Tag → Prop
  | .void => Sane S h v
  | .any => Sane S h v
  | .bool => ∃ b, v = .bool b
  | .int => ∃ i, v = .int i
  | .float => ∃ f, v = .float f
  | .str => (∃ p, v = .cstr p) ∨ ∃ o b, v = .str o ∧ o ∈ h.list ∧ h.obj o = .str b
  | .named n => Sane S h v ∧ Φ n S h v
  | .shadowed n => ∃ o, v = .struct o ∧ S o = some n
  | .nullable t => v = .null ∨ ValTy Φ S h v t

/-- The name of a struct means the objects of that struct. -/
def StructsMean (Γ : TyEnv) (Φ : HostTypes) : Prop :=
  ∀ n fs, Γ.fields n = some fs → Γ.hidden n = false → ∀ S h v, Φ n S h v ↔ ∃ o, v = .struct o ∧ S o = some n

/-- Objects: every struct has the fields of its type, with values of their types. -/
structure HeapTy (Γ : TyEnv) (Φ : HostTypes) (S : ObjTypes) (h : Heap) : Prop where
  fresh : ∀ o ∈ h.list, o < h.next
  structs : ∀ o n, S o = some n → o ∈ h.list ∧ ∃ fs vs, Γ.fields n = some fs ∧ h.obj o = .struct vs ∧
    vs.length = fs.length ∧ ∀ (k : Nat) v f, vs[k]? = some v → fs[k]? = some f → ValTy Φ S h v f.2

/-- Nothing is deleted; structs keep their types, strings and natives their contents. -/
structure Later (S : ObjTypes) (h : Heap) (S' : ObjTypes) (h' : Heap) : Prop where
  types : ∀ o n, S o = some n → S' o = some n
  list : ∀ o ∈ h.list, o ∈ h'.list
  strs : ∀ o b, o ∈ h.list → h.obj o = .str b → h'.obj o = .str b
  natives : ∀ o a p, o ∈ h.list → h.obj o = .native a p → h'.obj o = .native a p

/-- The world: its objects, and the global variables; those in `I` have a value of their type, the others may be
uninitialized. -/
structure WorldTy (Γ : TyEnv) (Φ : HostTypes) (S : ObjTypes) (I : VarSym → Prop) (w : World) : Prop where
  heap : HeapTy Γ Φ S w.heap
  globs : ∀ i t, Γ.var (.glob i) = some t → ∃ v, w.globals[i]? = some v ∧ (I (.glob i) → ValTy Φ S w.heap v t)

/-- The arguments and local variables. -/
def LocalsTy (Γ : TyEnv) (Φ : HostTypes) (S : ObjTypes) (I : VarSym → Prop) (h : Heap) (ρ : Vars) : Prop :=
  ∀ i t, Γ.var (.loc i) = some t → ∃ v, ρ.get i = some v ∧ (I (.loc i) → ValTy Φ S h v t)

/-- Neither a failed run-time check nor a confusion; if there is a result, it is as said. (What is undefined for
arithmetic reasons, and running for ever, are other matters.) -/
def Good {α : Type} (r : Res α) (P : α → Prop) : Prop :=
  match r with
  | .ok a => P a
  | .abort => False
  | .limit => False
  | .ub => True
  | .timeout => True

/-! ## The core language -/

/-- `early`: global variables which functions may read without having assigned them; `back`: foreign functions which
call back functions of the program. -/
structure Discipline where
  early : Nat → Prop
  back : Nat → Prop

/-- To call this function, the `early` variables must have been initialized. -/
def Ready (D : Discipline) (I : VarSym → Prop) (f : FnSym) : Prop :=
  (∀ i na va, f = .foreign i na va → D.back i) → ∀ g, D.early g → I (.glob g)

/-- The number of arguments fits. -/
def Arity (sig : Sig) (n : Nat) : Prop := n = sig.params.length ∨ sig.varargs = true ∧ sig.params.length ≤ n

/-- The function takes arguments of these types. -/
def Takes (sig : Sig) (ts : List Tag) : Prop :=
  Arity sig ts.length ∧ ∀ (k : Nat) t p, ts[k]? = some t → sig.params[k]? = some p → Assignable t p

mutual
/-- **Core expressions**, when the variables in `I` are initialized: they read initialized variables only; calls have
the right number of arguments; `a[i]` is implemented by a function which takes such arguments; constructors give every
field; there are no downcasts but that of `null` to a nullable type. -/
def CoreE (Γ : TyEnv) (D : Discipline) (I : VarSym → Prop) : Expr → Prop
  | .id _ (some (.const _)) => True
  | .id _ (some s) => I s
  | .id _ none => False
  | .paren e => CoreE Γ D I e
  | .un _ e => CoreE Γ D I e
  | .bin _ l r => CoreE Γ D I l ∧ CoreE Γ D I r
  | .ite c a b => CoreE Γ D I c ∧ CoreE Γ D I a ∧ CoreE Γ D I b
  | .cast e t => CoreE Γ D I e ∧ (t = .any ∨ e = .null ∧ ∃ u, t = .nullable u)
  | .dot l _ _ => CoreE Γ D I l
  | .call n args => CoreEs Γ D I args ∧ ∃ f sig, Γ.func n = some (f, sig) ∧ Arity sig args.length ∧ Ready D I f
  | .index arr elem f _ => CoreE Γ D I arr ∧ CoreE Γ D I elem ∧ ∃ ta te g sig, HasType Γ arr ta ∧ HasType Γ elem te ∧
      Γ.func (Γ.getIndex ta) = some (g, sig) ∧ f = some g ∧ Takes sig [ta, te] ∧ Ready D I g
  | .ctor n none args => CoreEs Γ D I args ∧ ∃ fs, Γ.fields n = some fs ∧ fs ≠ [] ∧ args.length = fs.length
  | .ctor n (some names) args => CoreEs Γ D I args ∧ ∃ fs, Γ.fields n = some fs ∧ fs ≠ [] ∧ (fs.map Prod.fst).Nodup ∧
      ∀ f ∈ fs, ∃ k : Nat, k < args.length ∧ names[k]? = some f.1
  | _ => True
/-- See `CoreE`. -/
def CoreEs (Γ : TyEnv) (D : Discipline) (I : VarSym → Prop) : List Expr → Prop
  | [] => True
  | e :: es => CoreE Γ D I e ∧ CoreEs Γ D I es
end

/-- One more variable. -/
def plus (I : VarSym → Prop) (s : VarSym) : VarSym → Prop := fun x => x = s ∨ I x

/-- **Core statements**: `Flow Γ D loop I s I'` – inside a loop or not; the variables in `I` are initialized before, those
in `I'` after `s` if it ends normally. Expressions are core expressions; `break` and `continue` are in loops; compound
assignments apply their operator to operands of the right types. -/
inductive Flow (Γ : TyEnv) (D : Discipline) : Bool → (VarSym → Prop) → Stmt → (VarSym → Prop) → Prop
  | node {loop I line s I'} : Flow Γ D loop I s I' → Flow Γ D loop I (.node line s) I'
  | call {loop I n args} : CoreE Γ D I (.call n args) → Flow Γ D loop I (.call n args) I
  | nil {loop I} : Flow Γ D loop I (.block []) I
  | cons {loop I I₁ I' s ss} : Flow Γ D loop I s I₁ → Flow Γ D loop I₁ (.block ss) I' → Flow Γ D loop I (.block (s :: ss)) I'
  | declare {loop I n s r} : CoreE Γ D I r → (∀ c, s ≠ .const c) →
      Flow Γ D loop I (.assign .declare (.id n (some s)) r) (plus I s)
  | assign {loop I n s r} : CoreE Γ D I r → (∀ c, s ≠ .const c) →
      Flow Γ D loop I (.assign .equal (.id n (some s)) r) (plus I s)
  | field {loop I l f tag r} : CoreE Γ D I l → CoreE Γ D I r → Flow Γ D loop I (.assign .equal (.dot l f tag) r) I
  | elem {loop I arr i g f r ta ti tr sig} : CoreE Γ D I arr → CoreE Γ D I i → CoreE Γ D I r →
      HasType Γ arr ta → HasType Γ i ti → HasType Γ r tr → Γ.func (Γ.setIndex ta) = some (f, sig) →
      Takes sig [ta, ti, tr] → Ready D I f → Flow Γ D loop I (.assign .equal (.index arr i g (some f)) r) I
  | compound {loop I op o l r tl tr t} : compound op = some o → CoreE Γ D I l → CoreE Γ D I r → HasType Γ l tl →
      HasType Γ r tr → BinTy o tl tr t → Assignable t tl → ((∃ n s, l = .id n (some s) ∧ ∀ c, s ≠ .const c) ∨ ∃ e f tag, l = .dot e f tag) →
      Flow Γ D loop I (.assign op l r) I
  | compoundElem {loop I op o arr i g f r ta ti tl tr t sig} : Spec.compound op = some o →
      CoreE Γ D I (.index arr i g (some f)) → CoreE Γ D I r → HasType Γ arr ta → HasType Γ i ti →
      HasType Γ (.index arr i g (some f)) tl → HasType Γ r tr → BinTy o tl tr t →
      Γ.func (Γ.setIndex ta) = some (f, sig) → Takes sig [ta, ti, t] → Ready D I f →
      Flow Γ D loop I (.assign op (.index arr i g (some f)) r) I
  | const {loop I l r} : Flow Γ D loop I (.assign .declareConst l r) I
  | proc {loop I i na nl b} : Flow Γ D loop I (.proc i na nl b) I
  | ifThen {loop I c b I₁} : CoreE Γ D I c → Flow Γ D loop I b I₁ → Flow Γ D loop I (.ifThen c b) I
  | ifElse {loop I c b a I₁ I₂} : CoreE Γ D I c → Flow Γ D loop I b I₁ → Flow Γ D loop I a I₂ →
      Flow Γ D loop I (.ifElse c b a) (fun x => I₁ x ∧ I₂ x)
  | while {loop I c b I₁} : CoreE Γ D I c → Flow Γ D true I b I₁ → Flow Γ D loop I (.while c b) I
  | for {loop I i c s b I₁ I₂ I₃} : Flow Γ D false I i I₁ → CoreE Γ D I₁ c → Flow Γ D true I₁ b I₂ → Flow Γ D false I₁ s I₃ →
      Flow Γ D loop I (.for i c s b) I₁
  | ret {loop I e} : (∀ x, e = some x → CoreE Γ D I x) → Flow Γ D loop I (.ret e) (fun _ => True)
  | brk {I p} : Flow Γ D true I (.brk p) (fun _ => True)
  | cont {I p} : Flow Γ D true I (.cont p) (fun _ => True)
  | use {loop I} : Flow Γ D loop I .use I

mutual
/-- The statement always ends with a `return` (or not at all). -/
def Returns : Stmt → Prop
  | .node _ s => Returns s
  | .block ss => ReturnsL ss
  | .ifElse _ b a => Returns b ∧ Returns a
  | .ret _ => True
  | _ => False
/-- One of the statements does. -/
def ReturnsL : List Stmt → Prop
  | [] => False
  | s :: ss => Returns s ∨ ReturnsL ss
end

/-- `null` is a value of the type, whatever the host's types mean. -/
def TakesNull : Tag → Prop
  | .void => True
  | .any => True
  | .nullable _ => True
  | _ => False

/-- A function of the core language: `L` are the types of its variables, `r` its result type. -/
structure CoreFn (Γ : TyEnv) (D : Discipline) (fn : Fn) (params : List Tag) (L : Int → Option Tag) (r : Tag) : Prop where
  nargs : fn.nargs = params.length
  args : ∀ (k : Nat) t, params[k]? = some t → L ((k : Int) - fn.nargs) = some t
  slots : ∀ i t, L i = some t → -(fn.nargs : Int) ≤ i ∧ i < fn.nlocals
  flow : ∃ I', Flow (Γ.enter L) D false (fun s => (∃ g, s = .glob g ∧ D.early g) ∨ ∃ i, s = .loc i ∧ i < 0) fn.body I'
  ends : TakesNull r ∨ Returns fn.body

/-- A foreign function which does what its signature says: called with values of the types of its parameters, and any
others after them, it does not fail and gives a value of its result type; variables and objects keep their types. -/
def ForeignTy (Γ : TyEnv) (D : Discipline) (Φ : HostTypes) (f : Nat → List Value → World → Res (Value × World)) (i : Nat) (sig : Sig) : Prop :=
  ∀ S I w vs, WorldTy Γ Φ S I w → (D.back i → ∀ g, D.early g → I (.glob g)) → Arity sig vs.length →
    (∀ v ∈ vs, Sane S w.heap v) →
    (∀ (k : Nat) v t, vs[k]? = some v → sig.params[k]? = some t → ValTy Φ S w.heap v t) →
    Good (f i vs w) fun r => ∃ S', Later S w.heap S' r.2.heap ∧ WorldTy Γ Φ S' I r.2 ∧ ValTy Φ S' r.2.heap r.1 sig.ret

/-- The host's types stay what they are while the program runs. -/
def HostMono (Φ : HostTypes) : Prop := ∀ n S h S' h' v, Φ n S h v → Later S h S' h' → Φ n S' h' v

/-- The surroundings of a program of the core language: the names of functions and structs mean the same to the checker
and to the program; foreign functions do what their signatures say. -/
structure Surroundings (Γ : TyEnv) (D : Discipline) (Φ : HostTypes) (c : Ctx) : Prop where
  funcs : ∀ n, c.globals.funcs n = (Γ.func n).map Prod.fst
  structs : ∀ n, c.globals.structs n = Γ.fields n
  consts : ∀ v t, Γ.var (.const v) = some t → t = constTag v
  mono : HostMono Φ
  named : StructsMean Γ Φ
  foreign : ∀ n i na va sig, Γ.func n = some (.foreign i na va, sig) → i < c.numForeign ∧ na = sig.params.length ∧
    va = sig.varargs ∧ ForeignTy Γ D Φ c.foreign i sig

/-- All functions follow the rules and belong to the core language. -/
structure Setting (Γ : TyEnv) (D : Discipline) (Φ : HostTypes) (c : Ctx) : Prop extends Surroundings Γ D Φ c where
  tiny : ∀ n i sig, Γ.func n = some (.tiny i, sig) → sig.varargs = false ∧ ∃ fn L, c.fns i = some fn ∧
    CoreFn Γ D fn sig.params L sig.ret ∧ Checked (Γ.enter L) (some sig.ret) fn.body

/-- **A program of the core language**, with its surroundings: its functions are those defined in the program, and core
functions; its statements are core statements, with no variable initialized at first; there is room for its global
variables. -/
structure CoreProgram (Γ : TyEnv) (D : Discipline) (Φ : HostTypes) (c : Ctx) (numGlobals : Nat) (prog : List Stmt)
    (I' : VarSym → Prop) : Prop extends Surroundings Γ D Φ c where
  tiny : ∀ n i sig, Γ.func n = some (.tiny i, sig) → sig.varargs = false ∧ ∃ fn L, (i, fn) ∈ procsL prog ∧ c.fns i = some fn ∧
    Γ.body i = some (L, sig.ret) ∧ CoreFn Γ D fn sig.params L sig.ret
  globals : ∀ i t, Γ.var (.glob i) = some t → i < numGlobals
  locals : ∀ i, Γ.var (.loc i) = none
  flow : Flow Γ D false (fun _ => False) (.block prog) I'

end Tiny.Spec
