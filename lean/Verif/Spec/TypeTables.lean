import Verif.Spec.Types
import Verif.Model.Resolve

/-!
# The type system and the symbol table

What the rules of `Verif/Spec/Types.lean` refer to, read off the symbol table; trees with and without resolved names.
-/

namespace Tiny.Spec

/-- The type of a constant. -/
def constTag : ConstVal → Tag
  | .str _ => .str
  | .bool _ => .bool
  | .int _ => .int
  | .float _ => .float

/-- The type of the variable with this storage number among some variables. -/
def typeAt (i : Int) (vs : List VarInfo) : Option Tag := (vs.find? (·.idx = i)).bind VarInfo.tag

/-- The types of the variables of a function. -/
def funcVars (fi : FuncInfo) (i : Int) : Option Tag := typeAt i (fi.args ++ fi.locals)

/-- The global variables. -/
def globVar : Sym → Option VarInfo
  | .glob v => some v
  | _ => none

/-- The Tiny functions. -/
def funcInfo : Sym → Option FuncInfo
  | .func fi => some fi
  | _ => none

/-- The types of the variables of the current function. -/
def currentVars (f : Front) (i : Int) : Option Tag :=
  match f.currFunc with
  | .at k =>
    match f.syms[k]? with
    | some (.func fi) => funcVars fi i
    | _ => none
  | _ => none

/-- All of a list, if none is missing. -/
def allSome {α : Type} : List (Option α) → Option (List α)
  | [] => some []
  | none :: _ => none
  | some a :: as => (allSome as).map (a :: ·)

/-- A function symbol: the function, its type. -/
def symSig (g : Sym) : Option (FnSym × Sig) :=
  match g.fnSym, g.sig with
  | some s, some (ps, va, some r) => (allSome ps).map fun ps => (s, ⟨ps, va, r⟩)
  | _, _ => none

/-- What the rules refer to. -/
def tyEnv (f : Front) : TyEnv where
  var := fun s => match s with
    | .glob i => typeAt i (f.syms.filterMap globVar)
    | .loc i => currentVars f i
    | .const c => some (constTag c)
  func := fun n => (referenceFunction f.syms n).bind symSig
  fields := fun n =>
    match f.syms.findSome? (·.structInfo n) with
    | some (true, fs) => some fs
    | _ => none
  hidden := f.hidden
  body := fun i =>
    match (f.syms.filterMap funcInfo).find? (·.index = i) with
    | some fi => fi.ret.map fun r => (funcVars fi, r)
    | none => none
  getIndex := fun t => indexName t "_get_index"
  setIndex := fun t => indexName t "_set_index"

/-- The symbol table has a function of this name with this number; a foreign one with so many arguments. -/
def NamedFn (f : Front) (n : Name) : FnSym → Prop
  | .tiny i => ∃ fi, Sym.func fi ∈ f.syms ∧ fi.name = n ∧ fi.index = i
  | .foreign i k va => ∃ ts r, Sym.foreign n i ts va r ∈ f.syms ∧ k = ts.length

/-- The functions for the elements of the values of some type `T`: `T_get_index`, and `T_set_index` unless there is none. -/
def IndexFns (f : Front) (g s : Option FnSym) : Prop :=
  ∃ t, (∃ h, g = some h ∧ NamedFn f (indexName t "_get_index") h) ∧ ∀ h, s = some h → NamedFn f (indexName t "_set_index") h

/-- The second tree is the first one with its names resolved (and some types and index functions filled in). -/
inductive Resolved (f : Front) : CExpr → Expr → Prop
  | null : Resolved f .null .null
  | bool {b} : Resolved f (.bool b) (.bool b)
  | int {i} : Resolved f (.int i) (.int i)
  | char {i} : Resolved f (.char i) (.char i)
  | float {x} : Resolved f (.float x) (.float x)
  | str {s} : Resolved f (.str s) (.str s)
  | id {n r s t} : symInfo f r = .ok (s, t) → Resolved f (.id n (some r)) (.id n (some s))
  | call {n as as'} : as.length = as'.length →
      (∀ (k : Nat) a a', as[k]? = some a → as'[k]? = some a' → Resolved f a a') → (∃ h, NamedFn f n h) →
      Resolved f (.call n as) (.call n as')
  | paren {e e'} : Resolved f e e' → Resolved f (.paren e) (.paren e')
  | bin {op l r l' r'} : Resolved f l l' → Resolved f r r' → Resolved f (.bin op l r) (.bin op l' r')
  | un {op e e'} : Resolved f e e' → Resolved f (.un op e) (.un op e')
  | dot {l l' field t} : Resolved f l l' → Resolved f (.dot l field) (.dot l' field t)
  | index {a i a' i' g s} : Resolved f a a' → Resolved f i i' → IndexFns f g s → Resolved f (.index a i) (.index a' i' g s)
  | ctor {n as as'} : as.length = as'.length →
      (∀ (k : Nat) a a', as[k]? = some a → as'[k]? = some a' → Resolved f a a') →
      Resolved f (.ctor n [] as) (.ctor n none as')
  | ctorNamed {n names as as'} : names ≠ [] → as.length = as'.length →
      (∀ (k : Nat) a a', as[k]? = some a → as'[k]? = some a' → Resolved f a a') →
      Resolved f (.ctor n names as) (.ctor n (some names) as')
  | cast {e e' t} : Resolved f e e' → Resolved f (.cast e t) (.cast e' t)
  | ite {c a b c' a' b'} : Resolved f c c' → Resolved f a a' → Resolved f b b' →
      Resolved f (.ite c a b) (.ite c' a' b')

/-- The index of the current function. -/
def curFn (f : Front) : Option Nat :=
  match f.currFunc with
  | .at k =>
    match f.syms[k]? with
    | some (.func fi) => some fi.index
    | _ => none
  | _ => none

/-- What the rules refer to, outside functions. -/
def baseEnv (f : Front) : TyEnv := (tyEnv f).enter fun _ => none

/-- The second statement is the first one with its names resolved. (A struct definition leaves nothing to do.) -/
inductive ResolvedS : Front → CStmt → Stmt → Prop
  | node {f line s s'} : ResolvedS f s s' → ResolvedS f (.node line s) (.node line s')
  | call {f n as as'} : Resolved f (.call n as) (.call n as') → ResolvedS f (.call n as) (.call n as')
  | nil {f} : ResolvedS f (.block []) (.block [])
  | cons {f s s' ss ss'} : ResolvedS f s s' → ResolvedS f (.block ss) (.block ss') →
      ResolvedS f (.block (s :: ss)) (.block (s' :: ss'))
  | assign {f op ann l l' r r'} : (op = .declare ∨ op = .equal ∨ (compound op).isSome = true) →
      Resolved f l l' → Resolved f r r' → ResolvedS f (.assign op ann l r) (.assign op l' r')
  | other {f op ann l r r'} : ¬ (op = .declare ∨ op = .equal ∨ (compound op).isSome = true) →
      Resolved f r r' → ResolvedS f (.assign op ann l r) (.assign op .null r')
  | proc {f decl n ps r b b' fi} : f.syms[decl]? = some (.func fi) → ResolvedS { f with currFunc := .at decl } b b' →
      ResolvedS f (.proc decl n ps r b) (.proc fi.index fi.args.length fi.locals.length b')
  | ifThen {f c c' b b'} : Resolved f c c' → ResolvedS f b b' → ResolvedS f (.ifThen c b) (.ifThen c' b')
  | ifElse {f c c' b b' a a'} : Resolved f c c' → ResolvedS f b b' → ResolvedS f a a' →
      ResolvedS f (.ifElse c b a) (.ifElse c' b' a')
  | while {f c c' b b'} : Resolved f c c' → ResolvedS f b b' → ResolvedS f (.while c b) (.while c' b')
  | for {f i i' c c' s s' b b'} : ResolvedS f i i' → Resolved f c c' → ResolvedS f s s' → ResolvedS f b b' →
      ResolvedS f (.for i c s b) (.for i' c' s' b')
  | retNone {f} : ResolvedS f (.ret none) (.ret none)
  | ret {f e e'} : Resolved f e e' → ResolvedS f (.ret (some e)) (.ret (some e'))
  | brk {f} : ResolvedS f .brk (.brk 0)
  | cont {f} : ResolvedS f .cont (.cont 0)
  | use {f m as a} : ResolvedS f (.use m as a) .use
  | struct {f n fs} : ResolvedS f (.struct n fs) (.block [])

mutual
/-- `:=` declares locals and globals, not arguments. -/
def DeclaresOwn : CStmt → Prop
  | .node _ s => DeclaresOwn s
  | .block ss => DeclareOwn ss
  | .assign op _ l _ => op = .declare → ∀ n k, l ≠ .id n (some (.arg k))
  | .proc _ _ _ _ b => DeclaresOwn b
  | .ifThen _ b => DeclaresOwn b
  | .ifElse _ b a => DeclaresOwn b ∧ DeclaresOwn a
  | .while _ b => DeclaresOwn b
  | .for i _ s b => DeclaresOwn i ∧ DeclaresOwn s ∧ DeclaresOwn b
  | _ => True
/-- See `DeclaresOwn`. -/
def DeclareOwn : List CStmt → Prop
  | [] => True
  | s :: ss => DeclaresOwn s ∧ DeclareOwn ss
end

end Tiny.Spec
