import Verif.Model.DisasmText

/-!
# Listing a program

The spec of C67: what a host sees which calls the disassembler again and again.
-/

namespace Tiny.Spec

/-- Calling the disassembler from the address on, with a buffer of that size, shows these addresses with these lines, and gets to the end,
which it shows by `-1`. -/
inductive Lists (fmtG : BitVec 64 → List UInt8) (s : TState) (maxlen : Nat) : Int → List (Nat × List UInt8) → Prop
  | done : Lists fmtG s maxlen (-1) []
  | line {p : Nat} {next : Int} {x ls} : disasmText fmtG s p maxlen = .ok (true, next, x) → Lists fmtG s maxlen next ls →
      Lists fmtG s maxlen p ((p, x) :: ls)

end Tiny.Spec
