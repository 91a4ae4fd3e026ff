import Verif.Model.Basic

/-!
# Source lines of program counters

`Tiny_PCToFileLine` (detail.h), `AddPCFileLineRecord` and `GetFileLineForPC`, tiny.c:3533-3598.
-/

namespace Tiny

/-- `Tiny_PCToFileLine`: `fileStrIndex` is `none` where the code stores -1 (no file name). -/
structure LineRec where
  pc : Nat
  file : Option Nat
  line : Nat
deriving DecidableEq, Repr, Inhabited

/-- `AddPCFileLineRecord`, tiny.c:3533-3547: a record with the pc of the last one replaces it. -/
def addRecord (rs : List LineRec) (r : LineRec) : List LineRec :=
  match rs.getLast? with
  | some last => if r.pc = last.pc then rs.dropLast ++ [r] else rs ++ [r]
  | none => rs ++ [r]

/-- The search loop of `GetFileLineForPC`, tiny.c:3565-3587; the result is `curIndex`. A record read outside the
array would be undefined behaviour (`none`). -/
def searchPC (rs : List LineRec) (pc : Nat) (lo hi : Nat) : Option Nat :=
  let cur := (lo + hi) / 2
  if lo + 1 ≥ hi then some cur
  else
    match rs[cur]? with
    | none => none
    | some r =>
      if r.pc < pc then searchPC rs pc cur hi
      else if r.pc > pc then searchPC rs pc lo cur
      else some cur
termination_by hi - lo

/-- What `GetFileLineForPC` reports: nothing (file `NULL`, line 0), or a file and a line. -/
inductive LineOut where
  | nothing
  | found (file : Option Nat) (line : Nat)
  | ub
deriving DecidableEq, Repr

/-- `GetFileLineForPC`, tiny.c:3549-3598, up to looking the file name up in the table of strings. -/
def getFileLineForPC (rs : List LineRec) (pc : Int) : LineOut :=
  if pc < 0 ∨ rs.length = 0 then .nothing
  else
    match searchPC rs pc.toNat 0 rs.length with
    | none => .ub
    | some i =>
      match rs[i]? with
      | none => .ub
      | some r => .found r.file r.line

end Tiny
