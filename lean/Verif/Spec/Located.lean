import Verif.Spec.Session
import Verif.Spec.Spells
import Verif.Props.Lines

/-!
# Lines of the sources

The spec of C65: which file and line is reported for an address of a program made of several sources.
-/

namespace Tiny.Spec

/-- `Session`, where each source is listed with the file name which was given for it. -/
inductive Filed : TState → TState → List (Option Name × Front × List Stmt) → Prop
  | start {s} : Filed s s []
  | call {s0 s f qs} : Filed s0 s qs → HostCall s.front f → Filed s0 { s with front := f } qs
  | compile {s0 s t s' : TState} {qs qs' E file ts xs} {q : PS Front} {ss f} : Filed s0 s qs → Tail3 ts →
      parseProgram E.fuel ⟨ts, s.front⟩ = .ok xs q →
      useMacros E xs { s with nest := s.nest + 1, front := q.st } = .ok () t →
      Filed { s with nest := s.nest + 1, front := q.st } t qs' →
      resolveSs xs t.front = .ok ss f →
      compileTokens E file ts s = .ok true s' →
      Filed s0 s' (qs ++ qs' ++ [(file, f, ss)])
  | fail {s0 s s' : TState} {qs E file ts} : Filed s0 s qs → Tail3 ts →
      (∀ xs q, parseProgram E.fuel ⟨ts, s.front⟩ = .ok xs q → NoUse xs ∧ ∀ ss f, resolveSs xs q.st ≠ .ok ss f) →
      compileTokens E file ts s = .ok false s' → s'.front.currFunc = .none → Filed s0 s' qs

/-- The file in a record is this one: a number of its name in the string table, nothing if there is no name. -/
def FileIs (f : Front) : Option Name → Option Nat → Prop
  | none, i => i = none
  | some n, i => ∃ k, i = some k ∧ f.strings[k]? = some n

/-- The statements of all sources, in the order of their code, with file and line. -/
def writtenLines (qs : List (Option Name × Front × List Stmt)) : List (Option Name × Nat × Stmt) :=
  qs.flatMap fun q => (statementsL q.2.2).map fun x => (q.1, x.1, x.2)

/-- The record and the statement are those of a statement with file and line. -/
def RecordOf (f : Front) (x : LineRec × Stmt) (y : Option Name × Nat × Stmt) : Prop :=
  FileIs f y.1 x.1.file ∧ x.1.line = y.2.1 ∧ x.2 = y.2.2

/-- Each statement of the sources has an address, where its code starts, in the order of the sources; and the file and line
reported for an address are those of the last statement whose code starts at or before it. -/
structure Located (s : TState) (qs : List (Option Name × Front × List Stmt)) : Prop where
  increasing : s.lines.Pairwise (fun x y => x.pc < y.pc)
  table : ∃ L : List (LineRec × Stmt),
    List.Forall₂ (RecordOf s.front) L (writtenLines qs) ∧
    L.Pairwise (fun x y => x.1.pc ≤ y.1.pc) ∧
    (∀ x ∈ L, CodeOf (globalsOf s.front) (fun i => s.functionPcs[i]?) s.program x.1.pc x.2) ∧
    ∀ q : Nat, getFileLineForPC s.lines q =
      match (L.filter (fun x => x.1.pc ≤ q)).getLast? with
      | some x => .found x.1.file x.1.line
      | none => .nothing

mutual
/-- The statements in a statement with their lines, each before those inside it, in the order of the source (for a `for`:
initialisation, body, step). -/
def linesIn : SStmt → List (Nat × SStmt)
  | .node line s => (line, s) :: linesIn s
  | .block ss => linesInL ss
  | .proc _ _ _ _ b => linesIn b
  | .ifThen _ b => linesIn b
  | .ifElse _ b a => linesIn b ++ linesIn a
  | .while _ b => linesIn b
  | .for i _ s b => linesIn i ++ linesIn b ++ linesIn s
  | _ => []
/-- The same for consecutive statements. -/
def linesInL : List SStmt → List (Nat × SStmt)
  | [] => []
  | s :: ss => linesIn s ++ linesInL ss
end

end Tiny.Spec
