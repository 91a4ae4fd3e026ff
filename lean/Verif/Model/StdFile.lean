import Verif.Model.StdNative
import Verif.Model.Compile

/-!
# Files (tiny/src/std.c:76-181) and `Tiny_CompileFile` (tiny/src/tiny.c:4083-4114)

The C library is modelled by its contract: files have a content, streams a position. What was written to a stream reaches
the file when the stream is closed or its position is set, or earlier, when the library likes.

Simplifications: two names are two files; a stream reads what is in the file at that time, nothing is read ahead; reading and
writing do not fail; other programs do not change the files; a directory cannot be opened; reading directly after writing, or
writing directly after reading, is undefined (C allows the second at the end of the file).
-/

namespace Tiny

/-- The three kinds of modes of `fopen`. -/
inductive OpenKind where
  | read
  | write
  | append
  deriving DecidableEq

/-- A mode of `fopen`; `both` is `+`. -/
structure OpenMode where
  kind : OpenKind
  both : Bool
  deriving DecidableEq

/-- The modes of the C standard; for other texts the behaviour is undefined. -/
def openModes : List (List UInt8 × OpenMode) :=
  [(nameOf "r", ⟨.read, false⟩), (nameOf "rb", ⟨.read, false⟩), (nameOf "r+", ⟨.read, true⟩), (nameOf "rb+", ⟨.read, true⟩),
   (nameOf "r+b", ⟨.read, true⟩), (nameOf "w", ⟨.write, false⟩), (nameOf "wb", ⟨.write, false⟩), (nameOf "w+", ⟨.write, true⟩),
   (nameOf "wb+", ⟨.write, true⟩), (nameOf "w+b", ⟨.write, true⟩), (nameOf "a", ⟨.append, false⟩), (nameOf "ab", ⟨.append, false⟩),
   (nameOf "a+", ⟨.append, true⟩), (nameOf "ab+", ⟨.append, true⟩), (nameOf "a+b", ⟨.append, true⟩)]

/-- What was last done with a stream since its position was set. -/
inductive LastUse where
  | nothing
  | reading
  | writing
  deriving DecidableEq

/-- A `FILE`: `pending` was written at `pos` and is not in the file yet. -/
structure Stream where
  file : List UInt8
  mode : OpenMode
  pos : Nat := 0
  pending : List UInt8 := []
  last : LastUse := .nothing

/-- The files by name, and the streams which are open by address. -/
structure Disk where
  files : List UInt8 → Option (List UInt8)
  streams : Nat → Option Stream

/-- What the C library decides: whether a file can be opened and the address of its new `FILE`, and how many of the bytes
which wait are written to the file before they have to be. Also the memory of constants. -/
structure FileEnv where
  cmem : Nat → List UInt8
  openAt : Disk → List UInt8 → OpenMode → Option Nat
  early : List UInt8 → Nat

/-- Change a stream. -/
def Disk.setStream (d : Disk) (a : Nat) (s : Option Stream) : Disk :=
  { d with streams := fun b => if b = a then s else d.streams b }

/-- Change a file. -/
def Disk.setFile (d : Disk) (n : List UInt8) (c : List UInt8) : Disk :=
  { d with files := fun m => if m = n then some c else d.files m }

/-- A `FILE *` which must be open. -/
def Disk.stream (d : Disk) (a : Nat) : Res Stream :=
  match d.streams a with
  | some s => .ok s
  | none => .ub

/-- The bytes in the file of a stream. -/
def Disk.bytesOf (d : Disk) (s : Stream) : List UInt8 := (d.files s.file).getD []

/-- Bytes written over the content of a file from a position on; behind the end, NULs fill the gap. -/
def overwrite (c : List UInt8) (p : Nat) (x : List UInt8) : List UInt8 :=
  c.take p ++ List.replicate (p - c.length) 0 ++ x ++ c.drop (p + x.length)

/-- The first `k` bytes which wait are written to the file, at its end if it was opened for appending. -/
def Disk.flush (d : Disk) (s : Stream) (k : Nat) : Disk × Stream :=
  let x := s.pending.take k
  if x = [] then (d, s)
  else
    let c := d.bytesOf s
    let p := if s.mode.kind = .append then c.length else s.pos
    (d.setFile s.file (overwrite c p x), { s with pos := p + x.length, pending := s.pending.drop k })

/-- C `fopen`. -/
def fopen (L : FileEnv) (d : Disk) (n m : List UInt8) : Res (Option Nat × Disk) :=
  match openModes.lookup m with
  | none => .ub
  | some mode =>
    if mode.kind = .read ∧ d.files n = none then .ok (none, d)
    else
      match L.openAt d n mode with
      | none => .ok (none, d)
      | some a =>
        let c := if mode.kind = .write then [] else (d.files n).getD []
        .ok (some a, (d.setFile n c).setStream a (some { file := n, mode := mode }))

/-- C `fseek(f, off, SEEK_END)` and `SEEK_SET`; a negative position is refused. -/
def fseek (d : Disk) (a : Nat) (fromEnd : Bool) (off : Int) : Res Disk := do
  let s ← d.stream a
  let (d, s) := d.flush s s.pending.length
  let p := (if fromEnd then ((d.bytesOf s).length : Int) else 0) + off
  .ok (d.setStream a (some { s with pos := if p < 0 then s.pos else p.toNat, last := .nothing }))

/-- C `ftell`. -/
def ftell (d : Disk) (a : Nat) : Res Nat := do
  let s ← d.stream a
  .ok (s.pos + s.pending.length)

/-- C `fread(_, 1, n, f)`: the bytes read. -/
def fread (d : Disk) (a : Nat) (n : Nat) : Res (List UInt8 × Disk) := do
  let s ← d.stream a
  if s.mode.kind ≠ .read ∧ s.mode.both = false then .ok ([], d)
  else if s.last = .writing then .ub
  else
    let x := ((d.bytesOf s).drop s.pos).take n
    .ok (x, d.setStream a (some { s with pos := s.pos + x.length, last := .reading }))

/-- C `fwrite(x, 1, _, f)`: the number of bytes written. -/
def fwrite (L : FileEnv) (d : Disk) (a : Nat) (x : List UInt8) : Res (Nat × Disk) := do
  let s ← d.stream a
  if s.mode.kind = .read ∧ s.mode.both = false then .ok (0, d)
  else if s.last = .reading then .ub
  else
    let s := { s with pending := s.pending ++ x, last := .writing }
    let (d, s) := d.flush s (L.early s.pending)
    .ok (x.length, d.setStream a (some s))

/-- C `fclose`. -/
def fclose (d : Disk) (a : Nat) : Res Disk := do
  let s ← d.stream a
  let (d, _) := d.flush s s.pending.length
  .ok (d.setStream a none)

namespace Std

/-- `&FileProp`, std.c:76-80: neither marker nor finalizer. -/
def fileProp : Nat := 6

/-- The text of a C string. -/
def cText (m : List UInt8) : List UInt8 := m.takeWhile (· ≠ 0)

/-- `Tiny_ToString` where NULL is undefined. -/
def toCStr (L : FileEnv) (h : Heap) (v : Value) : Res (List UInt8) := do
  match ← toStr L.cmem h v with
  | none => .ub
  | some m => .ok m

/-- `FILE *file = Tiny_ToAddr(args[0])`, not looked at. -/
def fileAt (h : Heap) (v : Value) : Res Nat := do
  let a ← toAddr h v
  .ok a.toNat

/-- `Lib_Fopen`, std.c:82-91. -/
def libFopen (L : FileEnv) (args : List Value) (d : Disk) (h : Heap) : Res (Value × Disk × Heap) :=
  match args with
  | n :: m :: _ => do
    let n ← toCStr L h n
    let m ← toCStr L h m
    let (f, d) ← fopen L d (cText n) (cText m)
    match f with
    | none => .ok (.null, d, h)
    | some a =>
      let (o, h) := h.alloc (.native a fileProp)
      .ok (.native o, d, h)
  | _ => .ub

/-- `Lib_Fsize`, std.c:93-101. -/
def libFsize (args : List Value) (d : Disk) (h : Heap) : Res (Value × Disk × Heap) :=
  match args with
  | f :: _ => do
    let a ← fileAt h f
    let d ← fseek d a true 0
    let n ← ftell d a
    let d ← fseek d a false 0
    .ok (newInt n, d, h)
  | _ => .ub

/-- `Lib_Fread`, std.c:103-120. `fread` gives no negative number. -/
def libFread (args : List Value) (d : Disk) (h : Heap) : Res (Value × Disk × Heap) :=
  match args with
  | f :: n :: _ => do
    let a ← fileAt h f
    let n ← toNumberInt n
    if n < 0 ∨ n = 2 ^ 31 - 1 then .ub
    else do
      let (x, d) ← fread d a n.toNat
      let buf ← memcpy (newBuf (n.toNat + 1)) 0 x x.length
      let buf ← bufSet buf n.toNat 0
      let (v, h) ← newString h buf x.length
      .ok (v, d, h)
  | _ => .ub

/-- `Lib_Fseek`, std.c:122-129. -/
def libFseek (args : List Value) (d : Disk) (h : Heap) : Res (Value × Disk × Heap) :=
  match args with
  | f :: n :: _ => do
    let a ← fileAt h f
    let n ← toNumberInt n
    let d ← fseek d a false n
    .ok (.null, d, h)
  | _ => .ub

/-- `Lib_Fwrite`, std.c:131-137: as many bytes as the third argument says, of three. Reading behind the string is undefined. -/
def libFwrite (L : FileEnv) (args : List Value) (d : Disk) (h : Heap) : Res (Value × Disk × Heap) :=
  match args with
  | f :: s :: rest => do
    let a ← fileAt h f
    let m ← toCStr L h s
    let n ← match rest with
      | [k] => toNumberInt k
      | _ => .ok ((cText m).length : Int)
    if n < 0 ∨ m.length < n then .ub
    else do
      let (k, d) ← fwrite L d a (m.take n.toNat)
      .ok (newInt k, d, h)
  | _ => .ub

/-- `Lib_Fclose`, std.c:139-145. -/
def libFclose (args : List Value) (d : Disk) (h : Heap) : Res (Value × Disk × Heap) :=
  match args with
  | f :: _ => do
    let a ← fileAt h f
    let d ← fclose d a
    .ok (.null, d, h)
  | _ => .ub

/-- `fseek` to the end, `ftell`, `rewind`, `fread` into a new array of one byte more, a NUL behind it, `fclose`:
std.c:154-163, tiny.c:4096-4109. The array, and the number of bytes. -/
def slurp (d : Disk) (a : Nat) : Res (List (Option UInt8) × Nat × Disk) := do
  let d ← fseek d a true 0
  let n ← ftell d a
  let d ← fseek d a false 0
  let (x, d) ← fread d a n
  let buf ← memcpy (newBuf (n + 1)) 0 x x.length
  let buf ← bufSet buf n 0
  let d ← fclose d a
  .ok (buf, n, d)

/-- `Lib_ReadFile`, std.c:147-166. -/
def libReadFile (L : FileEnv) (args : List Value) (d : Disk) (h : Heap) : Res (Value × Disk × Heap) :=
  match args with
  | n :: _ => do
    let n ← toCStr L h n
    let (f, d) ← fopen L d (cText n) (nameOf "rb")
    match f with
    | none => .ok (.null, d, h)
    | some a => do
      let (buf, n, d) ← slurp d a
      let (v, h) ← newString h buf n
      .ok (v, d, h)
  | _ => .ub

/-- `Lib_WriteFile`, std.c:168-181. -/
def libWriteFile (L : FileEnv) (args : List Value) (d : Disk) (h : Heap) : Res (Value × Disk × Heap) :=
  match args with
  | n :: s :: _ => do
    let n ← toCStr L h n
    let (f, d) ← fopen L d (cText n) (nameOf "w")
    match f with
    | none => .ok (.bool false, d, h)
    | some a => do
      let m ← toCStr L h s
      let (_, d) ← fwrite L d a (cText m)
      let d ← fclose d a
      .ok (.bool true, d, h)
  | _ => .ub

end Std

/-- A call of the C library inside the compiler. -/
def Act.libc {σ α : Type} (x : Res α) : Act σ α := fun s =>
  match x with
  | .ok a => .ok a s
  | .abort => .abort
  | .ub => .ub
  | .limit => .abort
  | .timeout => .timeout

/-- `Tiny_CompileFile`, tiny.c:4083-4114: the result (`false`: an error), and the files. The source text ends at the first
NUL. -/
def compileFile (L : FileEnv) (E : CompileEnv) (n : List UInt8) (d : Disk) : Act TState (Bool × Disk) := do
  let (f, d) ← .libc (fopen L d n (nameOf "rb"))
  match f with
  | none => pure (false, d)
  | some a => do
    let (buf, len, d) ← .libc (Std.slurp d a)
    let src ← .libc (Std.bufBytes len buf)
    let r ← compileString E (some n) (Std.cText src)
    pure (r, d)

end Tiny
