import Verif.Model.Value

/-!
# The dictionary: tiny/src/dict.c

Open addressing with linear probing, growth at load 1/2, deletion without tombstones.
Loops without a static bound take fuel.
-/

namespace Tiny

/-- `Dict`, tiny/include/dict.h.  `filledCount` is a natural number (the C `int` never goes negative
in a reachable state). -/
structure Dict where
  bucketCount : Nat
  filledCount : Nat
  keys : List Value
  values : List Value
deriving DecidableEq, Repr

/-- `*ArrayGet(a, i)`, tiny/src/array.c:87-91 (asserts the bounds). -/
def arrGet (a : List Value) (i : Nat) : Res Value :=
  match a[i]? with
  | some v => .ok v
  | none => .abort

/-- `ArraySet(a, i, v)`, tiny/src/array.c:81-85 (asserts the bounds). -/
def arrSet (a : List Value) (i : Nat) (v : Value) : Res (List Value) :=
  if i < a.length then .ok (a.set i v) else .abort

namespace Dict

/-- `Init`, tiny/src/dict.c:43-54.  `ArrayResize` of a fresh array to `bucketCount` nulls is
`List.replicate` (see C06 for the resize of a non-empty array). -/
def init (bucketCount : Nat) : Dict :=
  { bucketCount := bucketCount
    filledCount := 0
    keys := List.replicate bucketCount .null
    values := List.replicate bucketCount .null }

/-- `InitDict`, tiny/src/dict.c:77 with `INIT_BUCKET_COUNT` 32 (line 7). -/
def initDict : Dict := init 32

mutual

/-- `DictSet`, tiny/src/dict.c:84-95: grow when half full, hash, start probing. -/
def set : Nat → Mem → Dict → Value → Value → Res Dict
  | 0, _, _, _, _ => .timeout
  | fuel + 1, m, d, key, value => do
    let d ← if d.filledCount ≥ d.bucketCount / 2 then grow fuel m d else pure d
    let hash ← hashValue m key
    let index := hash.toNat % d.bucketCount
    setProbe fuel m d key value hash.toNat index index

/-- The probe loop and the final stores of `DictSet`, tiny/src/dict.c:93-128. -/
def setProbe : Nat → Mem → Dict → Value → Value → Nat → Nat → Nat → Res Dict
  | 0, _, _, _, _, _, _, _ => .timeout
  | fuel + 1, m, d, key, value, hash, index, origin => do
    let prevKey ← arrGet d.keys index
    if !prevKey.isNull && !areValuesEqual m prevKey key then
      let index := (index + 1) % d.bucketCount
      if index = origin then
        let d ← grow fuel m d
        let index := hash % d.bucketCount
        setProbe fuel m d key value hash index index
      else
        setProbe fuel m d key value hash index origin
    else if prevKey.isNull then
      let ks ← arrSet d.keys index key
      let vs ← arrSet d.values index value
      pure { d with keys := ks, filledCount := d.filledCount + 1, values := vs }
    else
      let vs ← arrSet d.values index value
      pure { d with values := vs }

/-- `Grow`, tiny/src/dict.c:56-75. -/
def grow : Nat → Mem → Dict → Res Dict
  | 0, _, _ => .timeout
  | fuel + 1, m, d => growLoop fuel m d 0 (init (d.bucketCount * 2))

/-- The loop of `Grow`, tiny/src/dict.c:61-69: re-insert every entry into the new table. -/
def growLoop : Nat → Mem → Dict → Nat → Dict → Res Dict
  | 0, _, _, _, _ => .timeout
  | fuel + 1, m, d, i, newDict =>
    if i < d.bucketCount then do
      let prevKey ← arrGet d.keys i
      let newDict ←
        if !prevKey.isNull then do
          let prevValue ← arrGet d.values i
          set fuel m newDict prevKey prevValue
        else pure newDict
      growLoop fuel m d (i + 1) newDict
    else pure newDict

end

/-- The loop of `DictGet`, tiny/src/dict.c:135-150. `none` is the NULL result. -/
def getLoop : Nat → Mem → Dict → Value → Nat → Nat → Res (Option Value)
  | 0, _, _, _, _, _ => .timeout
  | fuel + 1, m, d, key, index, origin => do
    let keyHere ← arrGet d.keys index
    if keyHere.isNull then pure none
    else if areValuesEqual m keyHere key then do
      let v ← arrGet d.values index
      pure (some v)
    else
      let index := (index + 1) % d.bucketCount
      if index = origin then pure none
      else getLoop fuel m d key index origin

/-- `DictGet`, tiny/src/dict.c:131-154. -/
def get (fuel : Nat) (m : Mem) (d : Dict) (key : Value) : Res (Option Value) := do
  let hash ← hashValue m key
  let index := hash.toNat % d.bucketCount
  getLoop fuel m d key index index

/-- The loop of `DictRemove`, tiny/src/dict.c:162-194: clear the matching bucket, re-insert every
displaced entry after it, stop at an empty bucket. -/
def removeLoop : Nat → Mem → Dict → Value → Nat → Res Dict
  | 0, _, _, _, _ => .timeout
  | fuel + 1, m, d, key, index => do
    let keyHere ← arrGet d.keys index
    if keyHere.isNull then pure d
    else do
      let d ←
        if areValuesEqual m keyHere key then do
          let ks ← arrSet d.keys index .null
          pure { d with keys := ks, filledCount := d.filledCount - 1 }
        else do
          let h ← hashValue m keyHere
          if h.toNat % d.bucketCount ≠ index then do
            let value ← arrGet d.values index
            let ks ← arrSet d.keys index .null
            set fuel m { d with keys := ks, filledCount := d.filledCount - 1 } keyHere value
          else pure d
      removeLoop fuel m d key ((index + 1) % d.bucketCount)

/-- `DictRemove`, tiny/src/dict.c:156-195. -/
def remove (fuel : Nat) (m : Mem) (d : Dict) (key : Value) : Res Dict := do
  let hash ← hashValue m key
  removeLoop fuel m d key (hash.toNat % d.bucketCount)

/-- `DictClear`, tiny/src/dict.c:197-204: every bucket of both arrays is set to null. -/
def clear (d : Dict) : Dict :=
  { d with keys := d.keys.map (fun _ => .null), values := d.values.map (fun _ => .null),
           filledCount := 0 }

/-- One call of the dictionary's mutating API. -/
inductive Op where
  | set (key value : Value)
  | remove (key : Value)
  | clear
deriving DecidableEq, Repr

/-- Perform one call. -/
def step (fuel : Nat) (m : Mem) (d : Dict) : Op → Res Dict
  | .set k v => set fuel m d k v
  | .remove k => remove fuel m d k
  | .clear => .ok (clear d)

/-- Perform a history of calls. -/
def run (fuel : Nat) (m : Mem) : Dict → List Op → Res Dict
  | d, [] => .ok d
  | d, op :: ops => do
    let d ← step fuel m d op
    run fuel m d ops

/-- `Lib_DictKeys`, tiny/src/std.c:416-432: push every non-null key, in bucket order. -/
def keysList (d : Dict) : List Value := d.keys.filter (fun k => !k.isNull)

/-- `Lib_DictValues`, tiny/src/std.c:434-450: push the value of every bucket with a non-null key. -/
def valuesList (d : Dict) : List Value :=
  ((d.keys.zip d.values).filter (fun p => !p.1.isNull)).map (·.2)

end Dict

end Tiny
