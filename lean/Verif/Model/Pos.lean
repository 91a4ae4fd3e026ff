import Verif.Model.Basic

/-!
# Positions and error messages: tiny/src/pos.c, tiny/src/util.c

A C string is the list of its bytes before the terminating NUL.
-/

namespace Tiny

/-- The newline byte. -/
def nl : UInt8 := 10

/-- The loop of `Tiny_TranslatePosToLineNumber`, util.c:22-30; `rest` is the text from `curPos`,
`todo` is `pos - curPos`. Reading the NUL fails the assertion. -/
def translateLoop : List UInt8 → Nat → Nat → Res Nat
  | _, 0, line => .ok line
  | [], _ + 1, _ => .abort
  | c :: rest, todo + 1, line => translateLoop rest todo (if c = nl then line + 1 else line)

/-- `Tiny_TranslatePosToLineNumber`, util.c:18-33 (a negative position never enters the loop). -/
def translatePosToLineNumber (src : List UInt8) (pos : Int) : Res Nat :=
  translateLoop src pos.toNat 1

/-- `Tiny_FriendlyPos`, tiny/include/pos.h. -/
structure FriendlyPos where
  lineIndex : Nat
  charIndex : Nat
deriving DecidableEq, Repr

/-- The loop of `Tiny_PosToFriendlyPos`, pos.c:14-35; `rest` is the text from `lineStart`
(`findIdx?` is `strchr(lineStart, '\n')`).  Fuel bounds the number of lines. -/
def friendlyLoop : Nat → List UInt8 → Nat → Nat → Nat → Res FriendlyPos
  | 0, _, _, _, _ => .timeout
  | fuel + 1, rest, lineStart, lineIndex, pos =>
    match rest.findIdx? (· == nl) with
    | none => do
      Res.assert (lineStart ≤ pos)
      pure ⟨lineIndex, pos - lineStart⟩
    | some k =>
      if lineStart + k ≥ pos then do
        Res.assert (lineStart ≤ pos)
        pure ⟨lineIndex, pos - lineStart⟩
      else friendlyLoop fuel (rest.drop (k + 1)) (lineStart + k + 1) (lineIndex + 1) pos

/-- `Tiny_PosToFriendlyPos`, pos.c:6-38, with `srcLen` the length of the source. -/
def posToFriendlyPos (src : List UInt8) (pos : Nat) : Res FriendlyPos := do
  Res.assert (pos < src.length)
  friendlyLoop (src.length + 1) src 0 0 pos

/-! ### Formatting -/

/-- Destination of `Tiny_FormatErrorV`: memory from `buf` on (all of it, so that writes past the
buffer would show), and `used` (util.c:40). -/
structure FmtState where
  mem : Nat → UInt8
  used : Nat

/-- `snprintf(buf + used, rem, ...)` for an expansion `text`: writes `min(len, rem-1)` bytes and a NUL
if `rem > 0`, nothing otherwise; returns `len`. -/
def snprintf (mem : Nat → UInt8) (off rem : Nat) (text : List UInt8) : Nat → UInt8 :=
  if rem = 0 then mem
  else fun i =>
    if off ≤ i ∧ i < off + min text.length (rem - 1) then text.getD (i - off) 0
    else if i = off + min text.length (rem - 1) then 0
    else mem i

/-- `APPEND` / `APPEND_V`, util.c:42-58: the remaining size is clamped at 0. -/
def append (bufsize : Nat) (s : FmtState) (text : List UInt8) : FmtState :=
  let rem := if (bufsize : Int) - s.used < 0 then 0 else bufsize - s.used
  { mem := snprintf s.mem s.used rem text, used := s.used + text.length }

/-- Bytes of an ASCII string. -/
def ascii (s : String) : List UInt8 := s.toList.map (fun c => c.toNat.toUInt8)

/-- `%d` of a non-negative number. -/
def fmtNat (n : Nat) : List UInt8 := ascii (toString n)

/-- `abs(a - b) <= 3`, util.c:68. -/
def within3 (a b : Nat) : Bool := a ≤ b + 3 && b ≤ a + 3

/-- The inner loop util.c:75-78: append characters up to the newline or the end. -/
def appendLine (bufsize : Nat) : FmtState → List UInt8 → FmtState × List UInt8
  | s, [] => (s, [])
  | s, c :: rest => if c = nl then (s, c :: rest) else appendLine bufsize (append bufsize s [c]) rest

theorem appendLine_length (bufsize : Nat) : ∀ (src : List UInt8) (s : FmtState),
    (appendLine bufsize s src).2.length ≤ src.length
  | [], s => by simp [appendLine]
  | c :: rest, s => by
    simp only [appendLine]
    split
    · simp
    · have := appendLine_length bufsize rest (append bufsize s [c])
      simp; omega

/-- The source excerpt loop, util.c:67-92.  Fuel bounds the iterations (each consumes a character
or finishes a line). -/
def excerptLoop (bufsize lineNumber : Nat) : Nat → FmtState → List UInt8 → Nat → Res FmtState
  | 0, _, _, _ => .timeout
  | _ + 1, s, [], _ => .ok s
  | fuel + 1, s, c :: rest, curLine =>
    if within3 lineNumber curLine then
      let s := append bufsize s
        (if curLine = lineNumber then fmtNat curLine ++ ascii " ->\t" else fmtNat curLine ++ ascii "\t")
      let (s, src) := appendLine bufsize s (c :: rest)
      match src with
      | [] => excerptLoop bufsize lineNumber fuel s [] (curLine + 1)
      | _ :: src => excerptLoop bufsize lineNumber fuel (append bufsize s [nl]) src (curLine + 1)
    else excerptLoop bufsize lineNumber fuel s rest (if c = nl then curLine + 1 else curLine)

/-- `Tiny_FormatErrorV`, util.c:35-104; `msg` is the expansion of the caller's format. -/
def formatError (bufsize : Nat) (mem : Nat → UInt8) (fileName : List UInt8) (src : Option (List UInt8))
    (pos : Int) (msg : List UInt8) : Res (Nat → UInt8) := do
  let s : FmtState := { mem := mem, used := 0 }
  let s := append bufsize s [nl]
  match src with
  | some src =>
    let lineNumber ← translatePosToLineNumber src pos
    let s ← excerptLoop bufsize lineNumber (src.length + 1) s src 1
    let s := append bufsize s [nl]
    let s := append bufsize s
      (ascii "ERROR " ++ fileName ++ ascii "(" ++ fmtNat lineNumber ++ ascii "): ")
    let s := append bufsize s msg
    let s := append bufsize s [nl]
    pure s.mem
  | none =>
    let s := append bufsize s (ascii "ERROR: ")
    let s := append bufsize s msg
    let s := append bufsize s [nl]
    pure s.mem

end Tiny
