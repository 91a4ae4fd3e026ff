import Verif.Props.StdLib
import Verif.Props.SessionExamples

/-!
# C50: examples
-/

namespace Tiny
open Spec

namespace StdEx

def strtod : List UInt8 → BitVec 64 := fun _ => 0

/-- The front of an outcome. -/
def frontOf {α : Type} : Out TState α → Front
  | .ok _ s => s.front
  | _ => {}

/-- An array of integers in a new state: what `c50_array`, `c50_declared` ask for. -/
example : ∃ f₁ f', arrayMacro strtod [bytes "int"] (some (bytes "ai")) {} = .ok true { front := f' } ∧ Registers {} (bytes "ai") f₁ ∧
    BoundAll f₁ (arraySigs (bytes "ai") (bytes "int")) f' :=
  c50_array strtod (identB_spelled (by decide +kernel)) (identB_spelled (by decide +kernel)) (by decide)
    (fun h => by
      rcases h with ⟨p, hp, h⟩ | h | ⟨fs, h⟩
      · revert p; decide
      · cases h
      · cases h) (.inl ⟨("int", .int), by decide, rfl⟩) (by intro S _ i ts va r h; cases h)

/-- An array of structs. -/
def withNode : Front := { syms := [.module (bytes "array"), .struct (bytes "Node") true [(bytes "x", .int)]] }

example : ∃ f', arrayMacro strtod [bytes "Node"] (some (bytes "nodes")) { front := withNode } = .ok true { front := f' } ∧
    Declared f' (sig (bytes "nodes_push") [bytes "nodes", bytes "Node"] (bytes "void")) 9 := by
  refine ⟨frontOf (arrayMacro strtod [bytes "Node"] (some (bytes "nodes")) { front := withNode }), ?_, ?_⟩
  · have : (arrayMacro strtod [bytes "Node"] (some (bytes "nodes")) { front := withNode }) = .ok true { front := frontOf (arrayMacro strtod [bytes "Node"] (some (bytes "nodes")) { front := withNode }) } := by kernel_rfl
    exact this
  · unfold Declared
    decide +kernel

/-- **C50, defect.** The program has a function `ai_len` of the host's: `use array("int") as ai` ends the process. -/
theorem c50_ends : arrayMacro strtod [bytes "int"] (some (bytes "ai"))
    { front := { syms := [.foreign (bytes "ai_len") 0 [] true .any], numForeign := 1 } } = .abort :=
  c50_taken strtod (identB_spelled (by decide +kernel)) (identB_spelled (by decide +kernel)) (by decide)
    (fun h => by
      rcases h with ⟨p, hp, h⟩ | h | ⟨fs, h⟩
      · revert p; decide
      · cases h
      · cases h) (.inl ⟨("int", .int), by decide, rfl⟩)
    ⟨sig (bytes "ai_len") [bytes "ai"] (bytes "int"), List.mem_of_getElem? (i := 8) rfl, fun h => h 0 [] true .any (by decide +kernel)⟩

/-- **C50, defect.** The texts are cut off after 511 bytes: if the name of the array type has 252 bytes, `a_clear(a` is left,
and the process ends. -/
theorem c50_long : arrayMacro strtod [bytes "int"] (some (List.replicate 252 97)) {} = .abort := by kernel_rfl

/-- A source which uses the macro, and the type in the annotation of an argument. -/
def src : List UInt8 := bytes "use array(\"int\") as ai  func first(a: ai): int { return a[0] }  x := ai(1, 2)  y := first(x)"

def host : CompileEnv := { plainHost with macros := fun _ => arrayMacro plainHost.strtod }

theorem host_macros : HostMacros host := fun _ args a => c50_calls plainHost.strtod args a

def f0 : Front := { syms := [.module (bytes "array")] }

theorem setup : Setup f0 := .call .new (.module (n := bytes "array") rfl)

def s1 : TState := match compileString host none src { front := f0 } with
  | .ok _ s => s
  | _ => {}

theorem compiles : compileString host none src { front := f0 } = .ok true s1 := by kernel_rfl

/-- What `c50_source` asks for. -/
example : ∃ f ss, Session { front := f0 } s1 [(f, ss)] := by
  obtain ⟨_, _, _, _, _, _, _, ss, f, _, _, _, _, _, _, h⟩ := c50_source setup .start host_macros (by decide +kernel) (by decide +kernel) compiles
  exact ⟨f, ss, h⟩

/-- The types of `x` and `y`, and the type of `first`'s argument, is the registered one. -/
example : s1.front.syms.filterMap (fun x => match x with
    | .glob v => v.tag
    | .func fi => fi.args.head?.bind (·.tag)
    | _ => none) = [.named (bytes "ai"), .named (bytes "ai"), .int] := by decide +kernel

example : Registered s1.front (bytes "ai") := by unfold Registered; decide +kernel

end StdEx

end Tiny
