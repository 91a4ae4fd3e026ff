import Verif.Model.Ast

/-!
# Lexical scoping, independently of the symbol table

The spec of C30: a stack of scopes per function, innermost first.
-/

namespace Tiny.Spec

/-- What happens to names while a source is read, in order: a function with these parameters begins or ends, a scope
begins or ends, a variable (local inside a function, global outside) or a constant is declared. -/
inductive ScopeEv where
  | enter (name : Name) (args : List (Name × Tag))
  | leave
  | opn
  | close
  | declare (n : Name)
  | const (n : Name) (tag : Tag) (v : ConstVal)
deriving DecidableEq, Repr

/-- The names of a function: its parameters, the scopes which are open (innermost first; each with the names
declared in it and the running number of the declaration in this function), how many locals were declared. -/
structure FnScopes where
  args : List Name
  opened : List (List (Name × Nat))
  count : Nat
deriving DecidableEq, Repr

/-- All names: those of the function being read, how many scopes are open outside functions, the globals and
constants. -/
structure Scopes where
  fn : Option FnScopes := none
  outer : Nat := 0
  globals : List Name := []
deriving DecidableEq, Repr

/-- What a name refers to: a local (by its running number in the function), a parameter (by its position), or the
global or constant of that name. -/
inductive Ref where
  | loc (k : Nat)
  | arg (k : Nat)
  | global
deriving DecidableEq, Repr

/-- The innermost open declaration of a name. -/
def findLocal (n : Name) : List (List (Name × Nat)) → Option Nat
  | [] => none
  | s :: ss =>
    match s.find? (fun d => d.1 == n) with
    | some d => some d.2
    | none => findLocal n ss

/-- **Resolution**: the innermost open local, otherwise the parameter, otherwise the global or constant. -/
def Scopes.lookup (s : Scopes) (n : Name) : Option Ref :=
  match s.fn with
  | none => if n ∈ s.globals then some .global else none
  | some f =>
    match findLocal n f.opened with
    | some k => some (.loc k)
    | none =>
      match f.args.findIdx? (· == n) with
      | some k => some (.arg k)
      | none => if n ∈ s.globals then some .global else none

/-- How reading goes on. -/
inductive ScopeRes where
  | ok (s : Scopes)
  | rejected
  | illNested
deriving DecidableEq, Repr

/-- One event. A function begins only outside functions, ends only when the scopes opened in it are closed. A
declaration is rejected if the function has a visible local (outside functions: if there is a global or constant)
of that name; a constant if the name means anything at that point; parameters must have different names. -/
def Scopes.step (s : Scopes) : ScopeEv → ScopeRes
  | .enter _ args =>
    match s.fn with
    | some _ => .illNested
    | none => if (args.map Prod.fst).Nodup then .ok { s with fn := some ⟨args.map Prod.fst, [[]], 0⟩ } else .rejected
  | .leave =>
    match s.fn with
    | some ⟨_, [_], _⟩ => .ok { s with fn := none }
    | _ => .illNested
  | .opn =>
    match s.fn with
    | some f => .ok { s with fn := some { f with opened := [] :: f.opened } }
    | none => .ok { s with outer := s.outer + 1 }
  | .close =>
    match s.fn with
    | some ⟨a, _ :: b :: bs, c⟩ => .ok { s with fn := some ⟨a, b :: bs, c⟩ }
    | some _ => .illNested
    | none => if s.outer = 0 then .illNested else .ok { s with outer := s.outer - 1 }
  | .declare n =>
    match s.fn with
    | some ⟨a, b :: bs, c⟩ =>
      if (findLocal n (b :: bs)).isSome then .rejected
      else .ok { s with fn := some ⟨a, ((n, c) :: b) :: bs, c + 1⟩ }
    | some _ => .illNested
    | none => if n ∈ s.globals then .rejected else .ok { s with globals := n :: s.globals }
  | .const n _ _ =>
    if (s.lookup n).isSome then .rejected else .ok { s with globals := n :: s.globals }

/-- A sequence of events. -/
def Scopes.run (s : Scopes) : List ScopeEv → ScopeRes
  | [] => .ok s
  | e :: es =>
    match s.step e with
    | .ok s' => s'.run es
    | r => r

end Tiny.Spec
