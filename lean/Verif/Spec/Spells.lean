import Verif.Spec.TypeTables
import Verif.Spec.Declares
import Verif.Spec.Lang

/-!
# The program is the one which was written

A tree of the source, and the program the machine runs for it: the same operators, literals and names at the same places. The
name of a variable is the number of a variable of that name (which one is the subject of C30), a string literal is the number of
its text in the string table, a function is the number the symbol table has for its name.
-/

namespace Tiny.Spec

/-- The symbol table has the function `n` with these arguments and this result; its number is `i`, it has `k` arguments and `m`
locals. -/
def Written (syms : List Sym) (n : Name) (ps : List (Name × SType)) (r : Option SType) (i k m : Nat) : Prop :=
  ∃ fi, Sym.func fi ∈ syms ∧ fi.name = n ∧
    fi.args.map (fun v => (v.name, v.tag)) = ps.map (fun p => (p.1, some (typeMeans p.2))) ∧
    fi.ret = some ((r.map typeMeans).getD .void) ∧
    i = fi.index ∧ k = ps.length ∧ m = fi.locals.length

/-- Inside the function number `c` (or outside of functions), a variable or constant of this name. -/
def Stands (f : Front) (c : Option Nat) (n : Name) : VarSym → Prop
  | .glob i => ∃ v, Sym.glob v ∈ f.syms ∧ v.name = n ∧ v.idx.toNat = i
  | .const k => ∃ t, Sym.const n t k ∈ f.syms
  | .loc i => ∃ fi v, Sym.func fi ∈ f.syms ∧ c = some fi.index ∧ v ∈ fi.args ++ fi.locals ∧ v.name = n ∧ v.idx = i

mutual
/-- The second expression is the first one, inside the function number `c` (or outside of functions). -/
inductive Spells (f : Front) (c : Option Nat) : SExpr → Expr → Prop
  | null : Spells f c .null .null
  | bool {b} : Spells f c (.bool b) (.bool b)
  | int {i} : Spells f c (.int i) (.int i)
  | char {i} : Spells f c (.char i) (.char i)
  | float {x} : Spells f c (.float x) (.float x)
  | str {t i} : f.strings[i]? = some t → Spells f c (.str t) (.str i)
  | id {n u v} : Stands f c n v → Spells f c (.id n u) (.id n (some v))
  | call {n as as'} : SpellsL f c as as' → (∃ h, NamedFn f n h) → Spells f c (.call n as) (.call n as')
  | paren {e e'} : Spells f c e e' → Spells f c (.paren e) (.paren e')
  | bin {op l r l' r'} : Spells f c l l' → Spells f c r r' → Spells f c (.bin op l r) (.bin op l' r')
  | un {op e e'} : Spells f c e e' → Spells f c (.un op e) (.un op e')
  | dot {l l' field t} : Spells f c l l' → Spells f c (.dot l field) (.dot l' field t)
  | index {a i a' i' g s} : Spells f c a a' → Spells f c i i' → IndexFns f g s → Spells f c (.index a i) (.index a' i' g s)
  | ctor {n as as'} : SpellsL f c as as' → Spells f c (.ctor n [] as) (.ctor n none as')
  | ctorNamed {n names as as'} : names ≠ [] → SpellsL f c as as' → Spells f c (.ctor n names as) (.ctor n (some names) as')
  | cast {e e' ty} : Spells f c e e' → Spells f c (.cast e ty) (.cast e' (typeMeans ty))
  | ite {e a b e' a' b'} : Spells f c e e' → Spells f c a a' → Spells f c b b' → Spells f c (.ite e a b) (.ite e' a' b')
/-- One after the other. -/
inductive SpellsL (f : Front) (c : Option Nat) : List SExpr → List Expr → Prop
  | nil : SpellsL f c [] []
  | cons {e e' es es'} : Spells f c e e' → SpellsL f c es es' → SpellsL f c (e :: es) (e' :: es')
end

mutual
/-- The second statement is the first one. (`x :: value`, `use` and struct definitions leave nothing to do.) -/
inductive SpellsS (f : Front) : Option Nat → SStmt → Stmt → Prop
  | node {c line s s'} : SpellsS f c s s' → SpellsS f c (.node line s) (.node line s')
  | call {c n as as'} : SpellsL f c as as' → (∃ h, NamedFn f n h) → SpellsS f c (.call n as) (.call n as')
  | block {c ss ss'} : SpellsSs f c ss ss' → SpellsS f c (.block ss) (.block ss')
  | assign {c op ann l l' r r'} : (op = .declare ∨ op = .equal ∨ (compound op).isSome = true) →
      Spells f c l l' → Spells f c r r' → SpellsS f c (.assign op ann l r) (.assign op l' r')
  | other {c op ann l r r'} : ¬ (op = .declare ∨ op = .equal ∨ (compound op).isSome = true) →
      Spells f c r r' → SpellsS f c (.assign op ann l r) (.assign op .null r')
  | proc {c u n ps r b b' i k m} : Written f.syms n ps r i k m → SpellsS f (some i) b b' → SpellsS f c (.proc u n ps r b) (.proc i k m b')
  | ifThen {c e e' b b'} : Spells f c e e' → SpellsS f c b b' → SpellsS f c (.ifThen e b) (.ifThen e' b')
  | ifElse {c e e' b b' a a'} : Spells f c e e' → SpellsS f c b b' → SpellsS f c a a' → SpellsS f c (.ifElse e b a) (.ifElse e' b' a')
  | while {c e e' b b'} : Spells f c e e' → SpellsS f c b b' → SpellsS f c (.while e b) (.while e' b')
  | for {c i i' e e' s s' b b'} : SpellsS f c i i' → Spells f c e e' → SpellsS f c s s' → SpellsS f c b b' →
      SpellsS f c (.for i e s b) (.for i' e' s' b')
  | retNone {c} : SpellsS f c (.ret none) (.ret none)
  | ret {c e e'} : Spells f c e e' → SpellsS f c (.ret (some e)) (.ret (some e'))
  | brk {c} : SpellsS f c .brk (.brk 0)
  | cont {c} : SpellsS f c .cont (.cont 0)
  | use {c m as a} : SpellsS f c (.use m as a) .use
  | struct {c n fs} : SpellsS f c (.struct n fs) (.block [])
/-- One after the other. -/
inductive SpellsSs (f : Front) : Option Nat → List SStmt → List Stmt → Prop
  | nil {c} : SpellsSs f c [] []
  | cons {c s s' ss ss'} : SpellsS f c s s' → SpellsSs f c ss ss' → SpellsSs f c (s :: ss) (s' :: ss')
end

/-- `func name(params): ret { body }`. -/
structure FuncDef where
  name : Name
  params : List (Name × SType)
  ret : Option SType
  body : SStmt

mutual
/-- The functions written in a statement. -/
def funcsIn : SStmt → List FuncDef
  | .node _ s => funcsIn s
  | .block ss => funcsInL ss
  | .proc _ n ps r b => ⟨n, ps, r, b⟩ :: funcsIn b
  | .ifThen _ b => funcsIn b
  | .ifElse _ b a => funcsIn b ++ funcsIn a
  | .while _ b => funcsIn b
  | .for i _ s b => funcsIn i ++ funcsIn b ++ funcsIn s
  | _ => []
/-- The functions written in statements. -/
def funcsInL : List SStmt → List FuncDef
  | [] => []
  | s :: ss => funcsIn s ++ funcsInL ss
end

/-- The function with the number `q.1` is the one written as `d`. -/
structure IsFunc (f : Front) (d : FuncDef) (q : Nat × Fn) : Prop where
  written : Written f.syms d.name d.params d.ret q.1 q.2.nargs q.2.nlocals
  body : SpellsS f (some q.1) d.body q.2.body

end Tiny.Spec
