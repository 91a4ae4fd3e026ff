import Verif.Model.Pos

/-!
# What positions and error messages should be
-/

namespace Tiny.Spec

/-- Number of newlines in a text. -/
def newlines (t : List UInt8) : Nat := t.count 10

/-- Length of the last line of a text: what follows its last newline. -/
def lastLineLength (t : List UInt8) : Nat := (t.reverse.takeWhile (· ≠ 10)).length

/-- The lines of a text, each with a flag saying whether a newline follows it. A text ending in a
newline has no further empty line. -/
def splitLines : List UInt8 → List (List UInt8 × Bool)
  | [] => []
  | c :: rest =>
    if c = 10 then ([], true) :: splitLines rest
    else match splitLines rest with
      | (l, t) :: ls => (c :: l, t) :: ls
      | [] => [([c], false)]

/-- One line of the excerpt: its number, an arrow if it is the error line, a tab, the text. -/
def excerptLine (errLine n : Nat) (l : List UInt8 × Bool) : List UInt8 :=
  fmtNat n ++ (if n = errLine then ascii " ->\t" else ascii "\t") ++ l.1 ++ (if l.2 then [10] else [])

/-- Lines numbered from `n`, keeping those at most three away from the error line. -/
def excerpt (errLine : Nat) : Nat → List (List UInt8 × Bool) → List UInt8
  | _, [] => []
  | n, l :: ls =>
    (if n ≤ errLine + 3 ∧ errLine ≤ n + 3 then excerptLine errLine n l else []) ++ excerpt errLine (n + 1) ls

/-- The whole message for an error on line `line` of `src`. -/
def fullMessage (fileName src : List UInt8) (line : Nat) (msg : List UInt8) : List UInt8 :=
  [10] ++ excerpt line 1 (splitLines src) ++ [10] ++
    (ascii "ERROR " ++ fileName ++ ascii "(" ++ fmtNat line ++ ascii "): ") ++ msg ++ [10]

/-- The message when there is no source text. -/
def shortMessage (msg : List UInt8) : List UInt8 := [10] ++ ascii "ERROR: " ++ msg ++ [10]

/-- Memory from `buf` holds the longest prefix of `text` that fits `bufsize` with a NUL after it, and
nothing from `bufsize` on was touched. -/
def HoldsPrefix (bufsize : Nat) (before after : Nat → UInt8) (text : List UInt8) : Prop :=
  (∀ i, bufsize ≤ i → after i = before i) ∧
  (0 < bufsize →
    (∀ i, i < min text.length (bufsize - 1) → some (after i) = text[i]?) ∧
    after (min text.length (bufsize - 1)) = 0)

end Tiny.Spec
