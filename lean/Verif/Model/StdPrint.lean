import Verif.Model.StdNative

/-!
# Output of the standard library (tiny/src/std.c:585-697)

What is written to `stdout` is a list of bytes. What the C library writes for `%f` and `%p` is a parameter.
-/

namespace Tiny
namespace Std

/-- What printing depends on: the memory of constants, how `%f` writes a `double`, how `%p` writes an address, and the
`name` of a `Tiny_NativeProp` (`none`: the property table, or its name, is NULL). -/
structure PrintEnv where
  cmem : Nat → List UInt8
  fmtF : BitVec 64 → List UInt8
  fmtP : Nat → List UInt8
  propName : Nat → Option (List UInt8)

/-- `printf("%.*s", (int)len, p)`: at most `len` bytes up to the first NUL; a negative precision is no precision. -/
def precText (len : Nat) (m : List UInt8) : List UInt8 :=
  let n := (BitVec.ofNat 32 len).toInt
  (if n < 0 then m else m.take n.toNat).takeWhile (· ≠ 0)

/-- The loops of `Print` over elements and fields, std.c:617-630, 641-647, with `", "` in between. -/
def printEach (print : Value → Res (List UInt8)) : Bool → List Value → Res (List UInt8)
  | _, [] => .ok []
  | first, v :: vs => do
    let a ← print v
    let r ← printEach print false vs
    .ok ((if first then [] else nameOf ", ") ++ a ++ r)

/-- `Print`, std.c:585-652, with a bound on the depth of the recursion. There is no case for `bool`. Only arrays made with
`ArrayProp` are written element by element. -/
def print (E : PrintEnv) (h : Heap) : Nat → Bool → Value → Res (List UInt8)
  | 0, _, _ => .timeout
  | fuel + 1, repr, v =>
    match v with
    | .null => .ok (nameOf "<null>")
    | .bool _ => .ok []
    | .int i => .ok (fmtInt i.toInt)
    | .float f => .ok (E.fmtF f)
    | .cstr p =>
      let s := (E.cmem p).takeWhile (· ≠ 0)
      .ok (if repr then nameOf "\"" ++ s ++ nameOf "\"" else s)
    | .str o => do
      match ← h.deref o with
      | .str b =>
        let s := precText b.length (b ++ [0])
        .ok (if repr then nameOf "\"" ++ s ++ nameOf "\"" else s)
      | _ => .ub
    | .light p => .ok (nameOf "<light native at " ++ E.fmtP p ++ nameOf ">")
    | .native o => do
      match ← h.deref o with
      | .native a p =>
        if repr ∧ p = arrayProp then do
          let s ← printEach (print E h fuel true) true (h.natRefs a arrayProp)
          .ok (nameOf "[" ++ s ++ nameOf "]")
        else
          match E.propName p with
          | some n => .ok (nameOf "<native '" ++ n ++ nameOf "' at " ++ E.fmtP a ++ nameOf ">")
          | none => .ok (nameOf "<native at " ++ E.fmtP a ++ nameOf ">")
      | _ => .ub
    | .struct o => do
      match ← h.deref o with
      | .struct fs => do
        let s ← printEach (print E h fuel true) true fs
        .ok (nameOf "struct {" ++ s ++ nameOf "}")
      | _ => .ub

/-- `args[arg].i`, `args[arg].f` whatever the tag is: a number of either kind is read by its bits; of anything else the
bytes are indeterminate or an address, which is not modelled (`ub`). -/
def rawBits : Value → Res (BitVec 64)
  | .int i => .ok i
  | .float f => .ok f
  | _ => .ub

/-- `printf("\nInvalid format specifier '%c'\n", c)`, std.c:687. -/
def invalidText (c : UInt8) : List UInt8 := nameOf "\nInvalid format specifier '" ++ c :: nameOf "'\n"

/-- The `switch` of `Lib_Printf`, std.c:667-688. The case of `%` falls through. -/
def directive (E : PrintEnv) (h : Heap) (c : UInt8) (v : Value) : Res (List UInt8) :=
  if c = b! 'i' then do
    let x ← rawBits v
    .ok (fmtInt x.toInt)
  else if c = b! 'f' then do
    let x ← rawBits v
    .ok (E.fmtF x)
  else if c = b! 's' then do
    let n ← stringLen E.cmem h v
    match ← toStr E.cmem h v with
    | none => .ub
    | some m => .ok (precText n m)
  else if c = b! 'c' then do
    let x ← rawBits v
    .ok [UInt8.ofNat x.toNat]
  else if c = b! 'q' then print E h (h.list.length + 1) true v
  else if c = b! '%' then .ok (nameOf "%" ++ invalidText c)
  else .ok (invalidText c)

/-- The loop of `Lib_Printf`, std.c:659-695: the format from the pointer on, and the arguments not used so far. `exit(1)`
is `abort`; reading behind the NUL is undefined. -/
def printfLoop (E : PrintEnv) (h : Heap) : List UInt8 → List Value → Res (List UInt8)
  | [], _ => .ub
  | c :: r, args =>
    if c = 0 then .ok []
    else if c = b! '%' then
      match args, r with
      | [], _ => .abort
      | _, [] => .ub
      | v :: vs, d :: r => do
        let a ← directive E h d v
        let s ← printfLoop E h r vs
        .ok (a ++ s)
    else do
      let s ← printfLoop E h r args
      .ok (c :: s)

/-- `Lib_Printf`, std.c:654-697: its result and what it writes. -/
def printf (E : PrintEnv) (args : List Value) (h : Heap) : Res (Value × List UInt8) :=
  match args with
  | [] => .ub
  | v :: rest => do
    match ← toStr E.cmem h v with
    | none => .ub
    | some m => do
      let s ← printfLoop E h m rest
      .ok (.null, s)

/-- The loop of `Lib_Input`, std.c:563-576: bytes up to the next newline, and the rest of the input. At the end of the input
`getc` gives `EOF` for ever: it never ends. -/
def inputLoop : List UInt8 → Res (List UInt8 × List UInt8)
  | [] => .timeout
  | c :: r =>
    if c = b! '\n' then .ok ([], r)
    else do
      let (s, r) ← inputLoop r
      .ok (c :: s, r)

/-- `Lib_Input`, std.c:556-583: the result, the memory, what is written, and the rest of the input. -/
def input (E : PrintEnv) (args : List Value) (stdin : List UInt8) (h : Heap) : Res (Value × Heap × List UInt8 × List UInt8) := do
  let out ← match args with
    | [] => .ok []
    | v :: _ => do
      match ← toStr E.cmem h v with
      | none => .ub
      | some m => .ok (m.takeWhile (· ≠ 0))
  let (s, r) ← inputLoop stdin
  let (v, h) ← newString h (s.map some) s.length
  .ok (v, h, out, r)

end Std
end Tiny
