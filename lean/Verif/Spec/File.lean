import Verif.Model.StdFile
import Verif.Spec.Str
import Verif.Spec.Lex

/-!
# What a program sees of files
-/

namespace Tiny.Spec
open Tiny.Std

/-- What C promises of `fopen`: a new stream is none of those which are open, and its address is not NULL. -/
def NewStreams (L : FileEnv) : Prop :=
  ∀ d n m a, L.openAt d n m = some a → d.streams a = none ∧ 0 < a ∧ a < 2 ^ 64

/-- The letter of a mode. -/
def modeLetter : OpenKind → UInt8
  | .read => b! 'r'
  | .write => b! 'w'
  | .append => b! 'a'

/-- The text `m` means the mode: its letter, then perhaps `b`, and `+` for both reading and writing. -/
def IsMode (m : List UInt8) (mode : OpenMode) : Prop :=
  ∃ r, r ∈ [bytes "", bytes "b", bytes "+", bytes "b+", bytes "+b"] ∧ m = modeLetter mode.kind :: r ∧ (mode.both = true ↔ b! '+' ∈ r)

/-- It was opened for reading, and nothing was written since it was opened or its position was set. -/
def MayRead (s : Stream) : Prop := (s.mode.kind = .read ∨ s.mode.both = true) ∧ s.last ≠ .writing ∧ s.pending = []

/-- It was opened for writing, and nothing was read since it was opened or its position was set. -/
def MayWrite (s : Stream) : Prop := (s.mode.kind ≠ .read ∨ s.mode.both = true) ∧ s.last ≠ .reading

/-- The text up to the first NUL. -/
def cut (b : List UInt8) : List UInt8 := b.takeWhile (· ≠ 0)

/-- The value `v` is the native object of the stream at the address `a`. -/
def HandleAt (h : Heap) (v : Value) (a : Nat) : Prop :=
  ∃ o p, v = .native o ∧ o ∈ h.list ∧ h.obj o = .native a p ∧ a < 2 ^ 64

/-- `c` after `x` was written over it from `p` on. If `p` is behind the end, NULs fill the gap. -/
def written (c : List UInt8) (p : Nat) (x : List UInt8) : List UInt8 :=
  if x = [] then c else (c ++ List.replicate (p - c.length) 0).take p ++ x ++ c.drop (p + x.length)

/-- What is in the file of a stream. -/
def onDisk (d : Disk) (s : Stream) : List UInt8 := (d.files s.file).getD []

/-- Where the bytes which wait go: at the end of a file opened for appending. -/
def waitAt (d : Disk) (s : Stream) : Nat := if s.mode.kind = .append then (onDisk d s).length else s.pos

/-- What the file of a stream contains for who uses the stream (and for everybody as soon as it is closed). -/
def content (d : Disk) (s : Stream) : List UInt8 := written (onDisk d s) (waitAt d s) s.pending

/-- The position of a stream. -/
def position (d : Disk) (s : Stream) : Nat := if s.pending = [] then s.pos else waitAt d s + s.pending.length

/-- Between `d` and `d'` only the file `n` and the stream at `a` may have changed. -/
structure OnlyTouches (a : Nat) (n : List UInt8) (d d' : Disk) : Prop where
  files : ∀ m, m ≠ n → d'.files m = d.files m
  streams : ∀ b, b ≠ a → d'.streams b = d.streams b

/-- Where a stream writes. -/
def writesAt (d : Disk) (s : Stream) : Nat := if s.mode.kind = .append then (content d s).length else position d s

/-- The stream `s'` in `d'` is what was `s` in `d`: the same file, opened in the same way, and nothing else has changed. -/
structure SameStream (a : Nat) (d : Disk) (s : Stream) (d' : Disk) (s' : Stream) : Prop where
  isOpen : d'.streams a = some s'
  file : s'.file = s.file
  mode : s'.mode = s.mode
  there : d.files s.file ≠ none → d'.files s.file ≠ none
  only : OnlyTouches a s.file d d'

/-- The eight functions. -/
inductive FileFn where
  | fopen
  | fclose
  | fread
  | fwrite
  | fseek
  | fsize
  | readFile
  | writeFile

/-- A call of one of them. -/
def fileCall (L : FileEnv) : FileFn → List Value → Disk → Heap → Res (Value × Disk × Heap)
  | .fopen => libFopen L
  | .fclose => libFclose
  | .fread => libFread
  | .fwrite => libFwrite L
  | .fseek => libFseek
  | .fsize => libFsize
  | .readFile => libReadFile L
  | .writeFile => libWriteFile L

/-- The calls `fn(f, v)` for each of the values, in order: the results, and what there is then. -/
def fileCalls (L : FileEnv) (fn : FileFn) (f : Value) : List Value → Disk → Heap → Res (List Value × Disk × Heap)
  | [], d, h => .ok ([], d, h)
  | v :: vs, d, h => do
    let (r, d, h) ← fileCall L fn [f, v] d h
    let (rs, d, h) ← fileCalls L fn f vs d h
    .ok (r :: rs, d, h)

/-- The address a value stands for. -/
def AddressOf (h : Heap) : Value → Nat → Prop
  | .native o, a => ∃ b p, h.obj o = .native b p ∧ a = b % 2 ^ 64
  | .light p, a => a = p % 2 ^ 64
  | _, a => a = 0

/-- The only file a call can change: that of the name given, or that of the stream given. -/
def MayChange (L : FileEnv) (d : Disk) (h : Heap) : FileFn → List Value → List UInt8 → Prop
  | .fopen, v :: _, n => ∃ b, IsStr L.cmem h v b ∧ n = cut b
  | .writeFile, v :: _, n => ∃ b, IsStr L.cmem h v b ∧ n = cut b
  | .readFile, _, _ => False
  | .fread, _, _ => False
  | _, v :: _, n => ∃ a s, AddressOf h v a ∧ d.streams a = some s ∧ s.file = n
  | _, [], _ => False

/-- The only stream, of those which are open, a call can change: that given. -/
def MayMove (h : Heap) : FileFn → List Value → Nat → Prop
  | .fopen, _, _ => False
  | .readFile, _, _ => False
  | .writeFile, _, _ => False
  | _, v :: _, a => AddressOf h v a
  | _, [], _ => False

/-- A text in pieces of these lengths; at the end of the text they are shorter. -/
def pieces (c : List UInt8) : List Nat → List (List UInt8)
  | [] => []
  | k :: ks => c.take k :: pieces (c.drop k) ks

end Tiny.Spec
