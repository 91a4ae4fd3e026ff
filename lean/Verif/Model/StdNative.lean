import Verif.Model.Array
import Verif.Model.Dict
import Verif.Model.StdBind
import Verif.Model.StdString

/-!
# Arrays, dictionaries and 64-bit integers of the standard library (tiny/src/std.c:183-450, 736-769)

The `Array` or `Dict` behind a native value lives in memory of the host. That memory is `Heap.natRefs`: at an address,
the values which the marker of a `Tiny_NativeProp` visits; we use some more keys (which are the address of no
`Tiny_NativeProp`) for what no marker visits.

Simplifications: of the buffer of an array the values in use are kept, not the spare capacity, so that the contents of
new cells which were not written (see C06) are undefined (`ub`) rather than what was there before. Of a bucket of a
dictionary without a key the value is not kept: it is overwritten before it is read.
-/

namespace Tiny
namespace Std

/-- `&ArrayProp`, std.c:199-203. -/
def arrayProp : Nat := 1
/-- `&PrimitiveArrayProp`, std.c:206-210: no marker. -/
def primArrayProp : Nat := 2
/-- `&DictProp`, std.c:355-359. -/
def dictProp : Nat := 3
/-- The contents of arrays of primitive values. -/
def primData : Nat := 4
/-- Not empty for an array whose `data` is NULL. -/
def noBuffer : Nat := 5

/-- Write memory of the host. -/
def setNat (h : Heap) (a key : Nat) (vs : List Value) : Heap :=
  { h with natRefs := fun b k => if b = a ∧ k = key then vs else h.natRefs b k }

/-- `Array *array = Tiny_ToAddr(args[0])`: its address, and where its values are. Anything but a native made with
`ArrayProp` or `PrimitiveArrayProp` is read as an `Array` nevertheless: `ub`. -/
def arrayAt (h : Heap) : Value → Res (Nat × Nat)
  | .native o => do
    match ← h.deref o with
    | .native a p => if p = arrayProp then .ok (a, arrayProp) else if p = primArrayProp then .ok (a, primData) else .ub
    | _ => .ub
  | _ => .ub

/-- The `Array` at an address. -/
def loadArray (h : Heap) (a key : Nat) : Arr Value :=
  if h.natRefs a noBuffer = [] then
    some ⟨(h.natRefs a key).length, (h.natRefs a key).length, (h.natRefs a key).map some⟩
  else none

/-- The values in use, all of which must have been written. -/
def cellValues : List (Option Value) → Res (List Value)
  | [] => .ok []
  | some v :: r => do
    let vs ← cellValues r
    .ok (v :: vs)
  | none :: _ => .ub

/-- Store an `Array` at an address. -/
def storeArray (h : Heap) (a key : Nat) : Arr Value → Res Heap
  | none => .ok (setNat (setNat h a key []) a noBuffer [.null])
  | some b => do
    let vs ← cellValues (b.cells.take b.n)
    .ok (setNat (setNat h a key vs) a noBuffer [])

/-- What the C functions do with the result of a call on an array. The result being an object which was in an array of
primitive values, its address may be that of an object deleted meanwhile: `ub`. -/
def arrayResult (key : Nat) : Arr.Out Value → Res Value
  | .unit => .ok .null
  | .num n => .ok (newInt n)
  | .val v => if key = primData ∧ v.objId?.isSome then .ub else .ok v

/-- A call on the array which is the first argument. -/
def arrayCall (op : Arr.Op Value) (v : Value) (h : Heap) : Res (Value × Heap) := do
  let (a, key) ← arrayAt h v
  let (b, out) ← (loadArray h a key).step op
  let h ← storeArray h a key b
  let r ← arrayResult key out
  .ok (r, h)

/-- An address for new memory of the host: not NULL, and another one for each object. -/
def newAddr (h : Heap) : Nat := h.next + 1

/-- `Tiny_NewNative` (tiny.c:328-346) of a new `Array` with the given values. (`PrimitiveArrayProp` has no marker, so that no values are visited.) -/
def newArray (prop key : Nat) (b : Arr Value) (h : Heap) : Res (Value × Heap) := do
  let a := newAddr h
  let h ← storeArray (setNat h a primArrayProp []) a key b
  let (o, h) := h.alloc (.native a prop)
  .ok (.native o, h)

/-- `CreateArrayEx`, std.c:212-221; `InitArrayEx`, array.c:14-19, allocates even without values. -/
def createArray (primitive : Bool) (args : List Value) (h : Heap) : Res (Value × Heap) :=
  newArray (if primitive then primArrayProp else arrayProp) (if primitive then primData else arrayProp)
    (some ⟨args.length, args.length, args.map some⟩) h

/-- `int index = Tiny_ToInt(args[1])`. -/
def indexArg (v : Value) : Int := ((toInt v).truncate 32).toInt

/-- `Lib_ArraySortInt`, std.c:330-336, by any sorting algorithm `qsort`. Every value of an array with two or more is
compared with some other, so one which is no integer fails the assertion; integers so far apart that the comparison
overflows are undefined (as if all were compared with all). -/
def sortInt (qsort : List Value → List Value) (v : Value) (h : Heap) : Res (Value × Heap) := do
  let (a, key) ← arrayAt h v
  let l := h.natRefs a key
  if l.length ≤ 1 then .ok (.null, h)
  else if l.any (fun x => match x with | .int _ => false | _ => true) then .abort
  else if l.any (fun x => l.any fun y => compareInts x y = .ub) then .ub
  else .ok (.null, setNat h a key (qsort l))

/-- The functions of an array type, std.c:212-336. An argument left out is undefined. -/
def arrayFn (qsort : List Value → List Value) : ArrayFn → List Value → Heap → Res (Value × Heap)
  | .create p, args => createArray p args
  | .len, v :: _ => arrayCall .len v
  | .clear, v :: _ => arrayCall .clear v
  | .resize, v :: n :: _ => fun h => do arrayCall (.resize (← toNumberInt n) .null) v h
  | .resizeFill, v :: n :: x :: _ => fun h => do arrayCall (.resize (← toNumberInt n) x) v h
  | .push, v :: x :: _ => arrayCall (.push x) v
  | .get, v :: i :: _ => arrayCall (.get (indexArg i)) v
  | .set, v :: i :: x :: _ => arrayCall (.set (indexArg i) x) v
  | .pop, v :: _ => arrayCall .pop v
  | .shift, v :: _ => arrayCall .shift v
  | .remove, v :: i :: _ => arrayCall (.remove (indexArg i)) v
  | .insert, v :: i :: x :: _ => arrayCall (.insert (indexArg i) x) v
  | .sortInt, v :: _ => sortInt qsort v
  | _, _ => fun _ => .ub

/-- `Dict *dict = args[0].obj->nat.addr`. Anything but a native made with `DictProp` is read as a `Dict`
nevertheless: `ub`. -/
def dictAt (h : Heap) : Value → Res Nat
  | .native o => do
    match ← h.deref o with
    | .native a p => if p = dictProp then .ok a else .ub
    | _ => .ub
  | _ => .ub

/-- Keys and values, which are stored bucket by bucket (`DictProtectFromGC`, std.c:338-347). -/
def unpair : List Value → List Value × List Value
  | k :: v :: r => let (ks, vs) := unpair r; (k :: ks, v :: vs)
  | _ => ([], [])

/-- Keys and values bucket by bucket. -/
def pair : List Value → List Value → List Value
  | k :: ks, v :: vs => k :: (if k.isNull then .null else v) :: pair ks vs
  | _, _ => []

/-- The `Dict` at an address. -/
def loadDict (h : Heap) (a : Nat) : Dict :=
  let (ks, vs) := unpair (h.natRefs a dictProp)
  { bucketCount := ks.length, filledCount := ks.countP (fun k => !k.isNull), keys := ks, values := vs }

/-- Store a `Dict` at an address. -/
def storeDict (h : Heap) (a : Nat) (d : Dict) : Heap := setNat h a dictProp (pair d.keys d.values)

/-- Bound on the rounds of the loops of dict.c, which is enough (`c51_dict`). -/
def dictFuel (d : Dict) : Nat := 6 * d.bucketCount + 8

/-- `for (...; i += 2) DictSet(dict, args[i], args[i + 1])`, std.c:374. -/
def setAll (m : Mem) : Dict → List Value → Res Dict
  | d, k :: v :: r => do
    let d ← d.set (dictFuel d) m k v
    setAll m d r
  | d, _ => .ok d

/-- `CreateDict`, std.c:361-377. `exit(1)` is `abort`. -/
def createDict (cmem : Nat → List UInt8) (args : List Value) (h : Heap) : Res (Value × Heap) := do
  if args.length % 2 ≠ 0 then .abort
  else do
    let d ← setAll ⟨h.obj, cmem⟩ .initDict args
    let a := newAddr h
    let (o, h) := (storeDict h a d).alloc (.native a dictProp)
    .ok (.native o, h)

/-- The C functions of std.c for dictionaries. -/
inductive DictFn where
  | create | put | exists | get | remove | clear | keys | values
deriving DecidableEq, Repr

/-- `InitArray` and a push for each value, std.c:419-432, 437-450: without any, `data` stays NULL. -/
def arrayOf (vs : List Value) : Arr Value := if vs = [] then none else some ⟨vs.length, vs.length, vs.map some⟩

/-- The functions of `dict` and `dict_str_int`, std.c:361-450. An argument left out is undefined. -/
def dictFn (cmem : Nat → List UInt8) : DictFn → List Value → Heap → Res (Value × Heap)
  | .create, args, h => createDict cmem args h
  | .put, v :: k :: x :: _, h => do
    let a ← dictAt h v
    let d := loadDict h a
    let d ← d.set (dictFuel d) ⟨h.obj, cmem⟩ k x
    .ok (.null, storeDict h a d)
  | .exists, v :: k :: _, h => do
    let a ← dictAt h v
    let d := loadDict h a
    let r ← d.get (dictFuel d) ⟨h.obj, cmem⟩ k
    .ok (.bool r.isSome, h)
  | .get, v :: k :: _, h => do
    let a ← dictAt h v
    let d := loadDict h a
    let r ← d.get (dictFuel d) ⟨h.obj, cmem⟩ k
    .ok (r.getD .null, h)
  | .remove, v :: k :: _, h => do
    let a ← dictAt h v
    let d := loadDict h a
    let d ← d.remove (dictFuel d) ⟨h.obj, cmem⟩ k
    .ok (.null, storeDict h a d)
  | .clear, v :: _, h => do
    let a ← dictAt h v
    .ok (.null, storeDict h a (loadDict h a).clear)
  | .keys, v :: _, h => do
    let a ← dictAt h v
    newArray arrayProp arrayProp (arrayOf (loadDict h a).keysList) h
  | .values, v :: _, h => do
    let a ← dictAt h v
    newArray arrayProp arrayProp (arrayOf (loadDict h a).valuesList) h
  | _, _, _ => .ub

/-- `Tiny_ToAddr`, tiny.c:181-186, as a 64-bit integer. -/
def toAddr (h : Heap) : Value → Res (BitVec 64)
  | .light p => .ok (BitVec.ofNat 64 p)
  | .native o => do
    match ← h.deref o with
    | .native a _ => .ok (BitVec.ofNat 64 a)
    | _ => .ub
  | _ => .ok 0#64

/-- The loop of `Lib_I64AddMany`, std.c:746-748. Signed overflow is undefined. -/
def addMany (h : Heap) : BitVec 64 → List Value → Res (BitVec 64)
  | x, [] => .ok x
  | x, v :: vs => do
    let y ← toAddr h v
    if BitVec.saddOverflow x y then .ub else addMany h (x + y) vs

/-- The loop of `Lib_I64MulMany`, std.c:756-758. -/
def mulMany (h : Heap) : BitVec 64 → List Value → Res (BitVec 64)
  | x, [] => .ok x
  | x, v :: vs => do
    let y ← toAddr h v
    if BitVec.smulOverflow x y then .ub else mulMany h (x * y) vs

/-- The C functions of std.c for `i64`. -/
inductive I64Fn where
  | ofInt | addMany | mulMany | toString
deriving DecidableEq, Repr

/-- The functions of `i64`, std.c:736-769. -/
def i64Fn : I64Fn → List Value → Heap → Res (Value × Heap)
  | .ofInt, v :: _, h => .ok (.light (toInt v).toNat, h)
  | .addMany, v :: vs, h => do
    let x ← toAddr h v
    let r ← addMany h x vs
    .ok (.light r.toNat, h)
  | .mulMany, v :: vs, h => do
    let x ← toAddr h v
    let r ← mulMany h x vs
    .ok (.light r.toNat, h)
  | .toString, v :: _, h => do
    let x ← toAddr h v
    let text := fmtInt x.toInt
    if text.length < 32 then newString h (text.map some) text.length else .ub
  | _, _, _ => .ub

/-- The C functions of std.c for strings. -/
inductive StrFn where
  | strlen | stridx | strchr | strcat | substr | stoi | intToStr
deriving DecidableEq, Repr

/-- The string functions, Model/StdString. -/
def strFn (cmem : Nat → List UInt8) (lit : Nat) : StrFn → List Value → Heap → Res (Value × Heap)
  | .strlen => strlenF cmem
  | .stridx => Std.stridx cmem
  | .strchr => Std.strchr cmem
  | .strcat => Std.strcat cmem
  | .substr => Std.substr cmem lit
  | .stoi => Std.stoi cmem
  | .intToStr => Std.intToStr

/-- A function of the library. -/
inductive LibFn where
  | array (f : ArrayFn)
  | dict (f : DictFn)
  | i64 (f : I64Fn)
  | str (f : StrFn)
deriving DecidableEq, Repr

/-- What the library is given: the memory of constants, the address of `""`, and a sorting algorithm. -/
structure LibEnv where
  cmem : Nat → List UInt8
  lit : Nat
  qsort : List Value → List Value

/-- The functions of the library. -/
def libFn (L : LibEnv) : LibFn → List Value → Heap → Res (Value × Heap)
  | .array f => arrayFn L.qsort f
  | .dict f => dictFn L.cmem f
  | .i64 f => i64Fn f
  | .str f => strFn L.cmem L.lit f

end Std
end Tiny
