import Verif.Model.Symbols
import Verif.Spec.Lex
import Verif.Spec.Grammar

/-!
# Signatures of bound functions

What the text given to `Tiny_BindFunction` says (C49).
-/

namespace Tiny.Spec

/-- The name of a function, the types of its arguments, whether more arguments may follow, the type of the result. -/
structure Signature where
  name : Name
  args : List SType
  varargs : Bool
  ret : Option SType

/-- What stands between the parentheses, and the closing one: types and `...`; commas may be left out and added. -/
inductive SigItems : List SType → Bool → List Token → Prop
  | close {us} : SigItems [] false (.sym .closeParen :: us)
  | comma {as va us} : SigItems as va us → SigItems as va (.sym .comma :: us)
  | dots {as va us} : SigItems as va us → SigItems as true (.sym .ellipsis :: us)
  | type {n as va us} : us.head? ≠ some (.sym .question) → SigItems as va us → SigItems ((n, false) :: as) va (.ident n :: us)
  | opt {n as va us} : SigItems as va us → SigItems ((n, true) :: as) va (.ident n :: .sym .question :: us)

/-- The tokens after the parenthesis which closes the arguments. -/
def AfterArgs : List Token → List Token
  | [] => []
  | .sym .closeParen :: us => us
  | _ :: us => AfterArgs us

/-- The type after the arguments; nothing after it matters. -/
inductive SigRet : Option SType → List Token → Prop
  | none {us} : us.head? ≠ some (.sym .colon) → SigRet none us
  | type {n us} : us.head? ≠ some (.sym .question) → SigRet (some (n, false)) (.sym .colon :: .ident n :: us)
  | opt {n us} : SigRet (some (n, true)) (.sym .colon :: .ident n :: .sym .question :: us)

/-- A signature: `name`, which takes any arguments and returns anything; `name(items)`, `name(items): type`. -/
inductive SigIs : Signature → List Token → Prop
  | bare {n us} : us.head? ≠ some (.sym .openParen) → SigIs ⟨n, [], true, none⟩ (.ident n :: us)
  | full {n as va r us} : SigItems as va us → SigRet r (AfterArgs us) →
      SigIs ⟨n, as, va, r⟩ (.ident n :: .sym .openParen :: us)

/-- The built-in types. -/
def builtinTypes : List (String × Tag) :=
  [("void", .void), ("bool", .bool), ("int", .int), ("float", .float), ("str", .str), ("any", .any)]

/-- The symbol is a type registered by the host, or a struct, of this name. -/
def IsTypeNamed (n : Name) : Sym → Bool
  | .ftype m => m == n
  | .struct m _ _ => m == n
  | _ => false

/-- What the name of a type means: a built-in type, or the registered type or struct of that name, which may still have
to be registered or defined. -/
def typeNamed (n : Name) : Tag :=
  match builtinTypes.find? (fun p => bytes p.1 == n) with
  | some p => p.2
  | none => .named n

/-- What `name` or `name?` means. -/
def typeMeans (ty : SType) : Tag := if ty.2 then .nullable (typeNamed ty.1) else typeNamed ty.1

/-- The type of the result: any, if there is none in the signature. -/
def retMeans : Option SType → Tag
  | some ty => typeMeans ty
  | none => .any

/-- The types of a signature. -/
def Signature.types (S : Signature) : List SType := S.args ++ S.ret.toList

/-- The symbols a table needs for some types: a struct for every name which means nothing yet, the type `t?` for every
`t?`. -/
def Needed (syms : List Sym) (tys : List SType) (m : Sym) : Prop :=
  (∃ ty ∈ tys, (∀ p ∈ builtinTypes, bytes p.1 ≠ ty.1) ∧ (∀ x ∈ syms, IsTypeNamed ty.1 x = false) ∧
    m = .struct ty.1 false []) ∨
  ∃ ty ∈ tys, ty.2 = true ∧ m = .nullable (typeNamed ty.1)

/-- `ms` are the missing ones of the needed symbols, each once. -/
structure Adds (syms : List Sym) (tys : List SType) (ms : List Sym) : Prop where
  only : ∀ m ∈ ms, Needed syms tys m
  all : ∀ m, Needed syms tys m → m ∈ syms ++ ms
  once : ms.Nodup
  new : ∀ m ∈ ms, m ∉ syms

/-- The function with this signature has been bound: after the types it mentions, its symbol has been added, with the
next number. -/
def Bound (f : Front) (S : Signature) (f' : Front) : Prop :=
  ∃ ms, Adds f.syms S.types ms ∧ f' = { f with
    syms := f.syms ++ ms ++ [.foreign S.name f.numForeign (S.args.map typeMeans) S.varargs
      (retMeans S.ret)]
    numForeign := f.numForeign + 1 }

/-- The usual way to write a type. -/
def SType.text (ty : SType) : List UInt8 := if ty.2 then ty.1 ++ bytes "?" else ty.1

/-- What stands between the parentheses, with commas and blanks. -/
def itemsText : List SType → Bool → List UInt8
  | [], false => []
  | [], true => bytes "..."
  | [ty], false => SType.text ty
  | ty :: tys, va => SType.text ty ++ bytes ", " ++ itemsText tys va

/-- What stands behind the parentheses. -/
def retText : Option SType → List UInt8
  | some ty => bytes ": " ++ SType.text ty
  | none => []

/-- The usual way to write a signature: `name(type, type?, ...): type`. -/
def Signature.text (S : Signature) : List UInt8 :=
  S.name ++ bytes "(" ++ itemsText S.args S.varargs ++ bytes ")" ++ retText S.ret

/-- The names in a signature are identifiers. -/
def Signature.WellNamed (S : Signature) : Prop :=
  Spelled S.name (.ident S.name) ∧ ∀ ty ∈ S.types, Spelled ty.1 (.ident ty.1)

/-- `void?`, which is no type, occurs. -/
def VoidOpt (us : List Token) : Prop := [.ident (bytes "void"), .sym .question] <:+: us

/-- No other function has been bound to the name. -/
def FreeName (f : Front) (n : Name) : Prop := ∀ i ts va r, Sym.foreign n i ts va r ∉ f.syms

end Tiny.Spec
