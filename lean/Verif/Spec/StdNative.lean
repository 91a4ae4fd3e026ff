import Verif.Spec.GC
import Verif.Spec.Array
import Verif.Spec.Map
import Verif.Spec.Sort
import Verif.Model.StdNative

/-!
# What is asked of the functions of the standard library
-/

namespace Tiny.Spec

/-- Cannot tell apart heaps which differ in what is not reachable, and leaves what it does not reach intact: the
condition `ForeignParametric`, for a function which sees only the heap. -/
def HeapParametric (F : List Value → Heap → Res (Value × Heap)) : Prop :=
  ∀ args h h' others, HeapSim h h' (args ++ others) →
    ResRel (fun a b => b.1 = a.1 ∧ HeapSim a.2 b.2 (a.1 :: others)) (F args h) (F args h')

/-- In the machine `env` foreign function `i` is function `fn` of the library. -/
def Implements (env : Env) (L : Std.LibEnv) (i : Nat) (fn : Std.LibFn) : Prop :=
  ∀ args w, env.foreign i args w = do
    let (v, h) ← Std.libFn L fn args w.heap
    .ok (v, { w with heap := h })

/-- `ForeignParametric` for one function. -/
def ParametricAt (env : Env) (i : Nat) : Prop :=
  ∀ args w w' others, w'.globals = w.globals → w'.trace = w.trace →
    HeapSim w.heap w'.heap (args ++ w.globals ++ others) →
    ResRel (fun a b => b.1 = a.1 ∧ b.2.globals = a.2.globals ∧
        HeapSim a.2.heap b.2.heap (a.1 :: a.2.globals ++ others))
      (env.foreign i args w) (env.foreign i args w')

/-! ## What arrays and dictionaries hold -/

/-- What is behind a native value: an array (of primitive values? does it have a buffer? its values), or a dictionary (the
calls made on it, and its keys with their values in the order of enumeration). -/
inductive Content where
  | array (primitive buffer : Bool) (l : List Value)
  | dict (ops : List Dict.Op) (es : List (Value × Value))

/-- What is behind each native object. -/
abbrev Store := Nat → Option Content

/-- Change what is behind one object. -/
def Store.put (σ : Store) (o : Nat) (c : Content) : Store := fun p => if p = o then some c else σ p

/-- What a program gets from a call on an array. -/
def outValue : Arr.Out Value → Value
  | .unit => .null
  | .val v => v
  | .num n => .int ((BitVec.ofNat 32 n).signExtend 64)

/-- Is an object given back? -/
def isObjectOut : Arr.Out Value → Bool
  | .val v => v.objId?.isSome
  | _ => false

/-- A call on the array behind `o`: as on a list. An object out of an array of primitive values is undefined. `none` is:
nothing is said, because there is no array, or because an array which is not empty grows by `resize` (C06). -/
def arraySays (σ : Store) (o : Nat) (op : Arr.Op Value) : Option (Res (Value × Store)) :=
  match σ o with
  | some (.array p b l) => (arrStep b l op).map fun r => do
    let (b', l', out) ← r
    if p && isObjectOut out then .ub else .ok (outValue out, σ.put o (.array p b' l'))
  | _ => none

/-- Which call on an array a function of the library makes, given its other arguments: integers of 32 bits. -/
def opOf : ArrayFn → List Value → Option (Arr.Op Value)
  | .len, [] => some .len
  | .clear, [] => some .clear
  | .pop, [] => some .pop
  | .shift, [] => some .shift
  | .push, [x] => some (.push x)
  | .get, [.int i] => if -2 ^ 31 ≤ i.toInt ∧ i.toInt < 2 ^ 31 then some (.get i.toInt) else none
  | .remove, [.int i] => if -2 ^ 31 ≤ i.toInt ∧ i.toInt < 2 ^ 31 then some (.remove i.toInt) else none
  | .resize, [.int i] => if -2 ^ 31 ≤ i.toInt ∧ i.toInt < 2 ^ 31 then some (.resize i.toInt .null) else none
  | .set, [.int i, x] => if -2 ^ 31 ≤ i.toInt ∧ i.toInt < 2 ^ 31 then some (.set i.toInt x) else none
  | .insert, [.int i, x] => if -2 ^ 31 ≤ i.toInt ∧ i.toInt < 2 ^ 31 then some (.insert i.toInt x) else none
  | .resizeFill, [.int i, x] => if -2 ^ 31 ≤ i.toInt ∧ i.toInt < 2 ^ 31 then some (.resize i.toInt x) else none
  | _, _ => none

/-- `es` are the keys and values after the calls `ops`, each key once. -/
structure Enumerates (m : Mem) (ops : List Dict.Op) (es : List (Value × Value)) : Prop where
  once : es.Pairwise fun a b => areValuesEqual m a.1 b.1 = false
  valid : ∀ e ∈ es, ValidKey m e.1
  all : ∀ k, ValidKey m k → ∀ v, valueAfter m ops k = some v ↔ ∃ k', (k', v) ∈ es ∧ areValuesEqual m k' k = true

/-- The calls of `dict(k1, v1, k2, v2, ...)`. -/
def setsOf : List Value → List Dict.Op
  | k :: v :: r => .set k v :: setsOf r
  | _ => []

/-- A change of a dictionary. -/
def Changes (m : Mem) (σ : Store) (o : Nat) (ops : List Dict.Op) (op : Dict.Op) (r : Res (Value × Store)) : Prop :=
  (ValidOp m op ∧ ∃ es', Enumerates m (ops ++ [op]) es' ∧ r = .ok (.null, σ.put o (.dict (ops ++ [op]) es'))) ∨
  (¬ ValidOp m op ∧ r = .abort)

/-- What the functions for dictionaries do; `next` is the next new object. -/
inductive DictSays (m : Mem) (σ : Store) (next : Nat) : Std.DictFn → List Value → Res (Value × Store) → Prop where
  | create {args es} : args.length % 2 = 0 → (∀ op ∈ setsOf args, ValidOp m op) → Enumerates m (setsOf args) es →
    DictSays m σ next .create args (.ok (.native next, σ.put next (.dict (setsOf args) es)))
  | createOdd {args} : args.length % 2 = 1 → DictSays m σ next .create args .abort
  | createBad {args op} : op ∈ setsOf args → ¬ ValidOp m op → DictSays m σ next .create args .abort
  | put {o ops es k v r} : σ o = some (.dict ops es) → Changes m σ o ops (.set k v) r →
    DictSays m σ next .put [.native o, k, v] r
  | remove {o ops es k r} : σ o = some (.dict ops es) → Changes m σ o ops (.remove k) r →
    DictSays m σ next .remove [.native o, k] r
  | clear {o ops es r} : σ o = some (.dict ops es) → Changes m σ o ops .clear r → DictSays m σ next .clear [.native o] r
  | get {o ops es k} : σ o = some (.dict ops es) → ValidKey m k →
    DictSays m σ next .get [.native o, k] (.ok ((valueAfter m ops k).getD .null, σ))
  | exists {o ops es k} : σ o = some (.dict ops es) → ValidKey m k →
    DictSays m σ next .exists [.native o, k] (.ok (.bool (valueAfter m ops k).isSome, σ))
  | getBad {o ops es k} : σ o = some (.dict ops es) → ¬ ValidKey m k → DictSays m σ next .get [.native o, k] .abort
  | existsBad {o ops es k} : σ o = some (.dict ops es) → ¬ ValidKey m k → DictSays m σ next .exists [.native o, k] .abort
  | keys {o ops es} : σ o = some (.dict ops es) →
    DictSays m σ next .keys [.native o] (.ok (.native next, σ.put next (.array false (!es.isEmpty) (es.map (·.1)))))
  | values {o ops es} : σ o = some (.dict ops es) →
    DictSays m σ next .values [.native o] (.ok (.native next, σ.put next (.array false (!es.isEmpty) (es.map (·.2)))))

/-- Values a program can have: their objects were made before. -/
def Made (h : Heap) (v : Value) : Prop := ∀ o, v.objId? = some o → o < h.next

/-- The objects which were there stay as they are. -/
def KeepsObjects (h h' : Heap) : Prop :=
  h.next ≤ h'.next ∧ (∀ o, o < h.next → h'.obj o = h.obj o) ∧ ∀ o ∈ h.list, o ∈ h'.list

/-- The natives made by the library. -/
def libraryProps : List Nat := [Std.arrayProp, Std.primArrayProp, Std.dictProp]

/-- What other functions of the host may do: make objects (but no arrays and dictionaries), assign to fields of structs,
free what is not used any more; memory of the library stays as it is. -/
structure LeavesLibrary (h h' : Heap) : Prop where
  next : h.next ≤ h'.next
  kind : ∀ o, o < h.next → h'.obj o = h.obj o ∨ ((∃ fs, h.obj o = .struct fs) ∧ ∃ fs, h'.obj o = .struct fs)
  memory : ∀ o, o < h.next → ∀ key, key ≤ Std.noBuffer → h'.natRefs (o + 1) key = h.natRefs (o + 1) key
  old : ∀ o ∈ h'.list, o < h.next → o ∈ h.list
  new : ∀ o ∈ h'.list, h.next ≤ o → ∀ a p, h'.obj o = .native a p → p ∉ libraryProps

/-- Forget what was deleted. -/
def Store.only (σ : Store) (l : List Nat) : Store := fun o => if o ∈ l then σ o else none

/-- The outcome `x` of a call in a memory `h` is the one said, `r`; `R` relates memories to what they hold. -/
def Agrees (R : Heap → Store → Prop) (h : Heap) (r : Res (Value × Store)) (x : Res (Value × Heap)) : Prop :=
  ResRel (fun a b => b.1 = a.1 ∧ Made b.2 b.1 ∧ R b.2 a.2 ∧ KeepsObjects h b.2) r x

/-- **What the library is.** `R h σ`: memory `h` holds the arrays and dictionaries `σ`. -/
structure LibrarySpec (L : Std.LibEnv) (R : Heap → Store → Prop) : Prop where
  /-- at first there are none -/
  start : R {} (fun _ => none)
  /-- every array and dictionary of the program is one of them -/
  covers : ∀ {h σ o a p}, R h σ → o ∈ h.list → h.obj o = .native a p → p ∈ libraryProps → (σ o).isSome = true
  /-- arrays are lists -/
  array : ∀ {h σ f o rest op r}, R h σ → (∀ v ∈ rest, Made h v) → opOf f rest = some op → arraySays σ o op = some r →
    Agrees R h r (Std.libFn L (.array f) (.native o :: rest) h)
  /-- a new array holds the arguments -/
  create : ∀ {h σ primitive args}, R h σ → (∀ v ∈ args, Made h v) →
    Agrees R h (.ok (.native h.next, σ.put h.next (.array primitive true args))) (Std.libFn L (.array (.create primitive)) args h)
  /-- sorting -/
  sort : ∀ {h σ o primitive buffer l}, R h σ → σ o = some (.array primitive buffer l) → (∀ v ∈ l, ∃ i, v = .int i) →
    (∀ a ∈ l, ∀ b ∈ l, intOf a - intOf b < 2 ^ 31) → ∃ l', l'.Perm l ∧ l'.Pairwise (fun a b => intOf a ≤ intOf b) ∧
      Agrees R h (.ok (.null, σ.put o (.array primitive buffer l'))) (Std.libFn L (.array .sortInt) [.native o] h)
  /-- dictionaries are maps -/
  dict : ∀ {h σ f args}, R h σ → (∀ v ∈ args, Made h v) → (f = .create ∨ ∃ o ops es rest, args = .native o :: rest ∧
      σ o = some (.dict ops es) ∧ rest.length = (match f with | .put => 2 | .exists | .get | .remove => 1 | _ => 0)) →
    ∃ r, DictSays ⟨h.obj, L.cmem⟩ σ h.next f args r ∧ Agrees R h r (Std.libFn L (.dict f) args h)
  /-- strings and 64-bit integers have nothing to do with them -/
  string : ∀ {h σ f args v h'}, R h σ → Std.libFn L (.str f) args h = .ok (v, h') → R h' σ
  i64 : ∀ {h σ f args v h'}, R h σ → Std.libFn L (.i64 f) args h = .ok (v, h') → R h' σ
  /-- neither have other functions, assignments and the collector -/
  other : ∀ {h h' σ}, R h σ → LeavesLibrary h h' → R h' (σ.only h'.list)

/-- Every foreign function of the machine is one of the library, or leaves the library alone. -/
def UsesLibrary (env : Env) (L : Std.LibEnv) : Prop :=
  ∀ i, (∃ fn, Implements env L i fn) ∨
    (ParametricAt env i ∧ ∀ args w v w', env.foreign i args w = .ok (v, w') → LeavesLibrary w.heap w'.heap)

end Tiny.Spec
