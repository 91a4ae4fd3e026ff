import Verif.Props.Bytecode
import Verif.Props.CompileExamples

/-!
# The program of `CompileExamples` meets the hypotheses of C19 and C42
-/

namespace Tiny.Example
open Spec

/-- The instruction starts from `a` on. -/
def starts (P : List UInt8) : Nat → Nat → List Nat
  | 0, _ => []
  | n + 1, a => a :: (match nextInstr P a with | some b => starts P n b | none => [])

theorem starts_mem {P : List UInt8} : ∀ (n a p : Nat), Visits P a p → P.length < n + a → p ≤ P.length → p ∈ starts P n a
  | 0, a, p, h, hn, hp => by have := h.le; omega
  | n + 1, a, p, h, hn, hp => by
    rw [starts]
    cases h with
    | here => simp
    | next h1 h2 =>
      rw [h1]
      have := nextInstr_lt h1
      exact List.mem_cons_of_mem _ (starts_mem n _ p h2 (by omega) hp)

theorem visited (p : Nat) (h : Visits code 0 p) : p ∈ starts code 210 0 :=
  starts_mem 210 0 p h (by rw [code_length]; omega) (by
    rcases Nat.lt_or_ge code.length p with hl | hl
    · exfalso
      have : ∀ {a b : Nat}, Visits code a b → a ≤ code.length → b ≤ code.length := by
        intro a b h
        induction h with
        | here => exact id
        | next h1 _ ih => intro _; obtain ⟨_, _, _, h3⟩ := nextInstr_some h1; exact ih h3
      have := this h (by omega)
      omega
    · exact hl)

theorem noLongStrings : ∀ p, Visits env.program 0 p → env.program[p]? ≠ some Op.pushString.toByte := by
  have h : ∀ p ∈ starts code 210 0, code[p]? ≠ some Op.pushString.toByte := by decide +kernel
  exact fun p hp => h p (visited p hp)

theorem listable : Listable env.program := by
  have h : ∀ p ∈ starts code 210 0, code[p]? ≠ some Op.shl.toByte ∧ code[p]? ≠ some Op.shr.toByte ∧
      (code[p]? = some Op.pushStruct.toByte → code[p + 1]? ≠ some 0) := by decide +kernel
  exact fun p hp => h p (visited p hp)

/-- `c42_running` for this program: it has 38 instructions, and a running thread is always at one of them. -/
example (k : Nat) (u : Thread) (h : stepsGC env k (startThread 1) = .ok u) :
    u.pc = -1 ∨ ∃ p : Nat, u.pc = (p : Nat) ∧ p ∈ starts code 210 0 := by
  rcases c42_running builtFrom noLongStrings (by
    intro i hi
    have : i = 0 := by
      have : i < 1 := hi
      omega
    subst this
    simp [allStmts, prog, procsL, procs]) 1 k h with h | ⟨p, op, h1, h2, _⟩
  · exact .inl h
  · exact .inr ⟨p, h1, visited p h2⟩

/-- Its jumps. -/
example : (starts code 210 0).filterMap (jumpTarget code) = [52, 26, 184, 168, 60, 176, 184, 60] := by decide +kernel

/-- The disassembler prints all of it. -/
example : (match disasmAll code 100 0 with
    | .ok (ls, b) => b && decide (ls.length = 38) && decide ((ls.map Prod.fst) = (starts code 210 0).dropLast.map fun n => ((n : Nat) : Int))
    | _ => false) = true := by decide +kernel

end Tiny.Example
