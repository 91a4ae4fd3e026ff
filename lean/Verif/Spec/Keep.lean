import Verif.Model.Parser

/-!
# What reading a source leaves alone

The spec of the symbol table part of C32.
-/

namespace Tiny.Spec

/-- A symbol is still there: unchanged, or it is a struct which was only mentioned before and now has (more)
fields. -/
inductive Kept : Sym → Sym → Prop
  | same (x : Sym) : Kept x x
  | filled (n : Name) (fs more : List (Name × Tag)) (d : Bool) : Kept (.struct n false fs) (.struct n d (fs ++ more))

/-- Everything which was in the tables is still there, at the same place; numbers of variables and functions
already given are not given again. -/
structure Keeps (f0 f : Front) : Prop where
  syms : ∀ (i : Nat) (x : Sym), f0.syms[i]? = some x → ∃ y, f.syms[i]? = some y ∧ Kept x y
  strings : f0.strings <+: f.strings
  globals : f0.numGlobalVars ≤ f.numGlobalVars
  functions : f0.numFunctions ≤ f.numFunctions
  foreign : f0.numForeign = f.numForeign

/-- There are too many strings: those in the table, and other ones for which `L` holds, are together more than
`MAX_STRINGS`. -/
def TooMany (f : Front) (L : Name → Prop) : Prop :=
  ∃ new : List Name, new.Nodup ∧ (∀ x ∈ new, x ∉ f.strings ∧ L x) ∧ maxStrings < f.strings.length + new.length

/-- One of the tokens is the string literal `x`. -/
def Literal (ts : List Tk) (x : Name) : Prop := ∃ t ∈ ts, t.kind = .string ∧ t.lexeme = x

end Tiny.Spec
