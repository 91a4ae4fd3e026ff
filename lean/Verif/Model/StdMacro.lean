import Verif.Model.StdBind
import Verif.Model.StdString

/-!
# The macros `json` and `delegate` (tiny/src/std.c:771-849, 999-1119)

Both write a source text into a buffer and give it to `Tiny_CompileString`. The functions the texts use are modelled as
foreign functions: their arguments and the heap to a value and the new heap.
-/

namespace Tiny

/-- A `char` array written to with `used += snprintf(buf + used, sizeof(buf) - used, ...)`: `used`, and the text in it. -/
structure TextBuf where
  used : Nat := 0
  text : List UInt8 := []

/-- One such call, for an array of `cap` bytes, which would write `x`: not more than `cap - 1` bytes of the text fit, but
`used` grows by the length of `x`. If `used` is past the end of the array, the size given to `snprintf` is about 2^64. -/
def TextBuf.add (cap : Nat) (b : TextBuf) (x : List UInt8) : Act TState TextBuf :=
  if cap < b.used then .undef else pure ⟨b.used + x.length, (b.text ++ x).take (cap - 1)⟩

/-- `sym->sstruct.fields` if the symbol of the type is a struct, defined or only mentioned (then it has none),
std.c:772-785. -/
def tagFields (f : Front) : Tag → Option (List (Name × Tag))
  | .named n =>
    match f.syms.find? (fun x => (x.asType n).isSome) with
    | some (.struct _ _ fs) => some fs
    | _ => none
  | .shadowed n => (f.syms.findSome? (·.structInfo n)).map Prod.snd
  | _ => none

/-- `sizeof(buf)`, std.c:788. -/
def jsonCap : Nat := 2048

/-- std.c:798-800 (`used` is 0). -/
def jsonHead (n : Name) : List UInt8 :=
  nameOf "func " ++ n ++ nameOf "_to_json(v: " ++ n ++ nameOf "): str {\n\treturn strcat(\"{\",\n\t\t"

/-- std.c:803-805. -/
def jsonSep : List UInt8 := nameOf ", \",\",\n\t\t"

/-- std.c:811-812. -/
def jsonField (f t : Name) : List UInt8 :=
  nameOf "\"\\\"" ++ f ++ nameOf "\\\":\", " ++ t ++ nameOf "_to_json(v." ++ f ++ nameOf ")"

/-- std.c:815. -/
def jsonTail : List UInt8 := nameOf ",\n\t\"}\")\n}"

/-- The loop of `BindJsonSerializerForType`, std.c:802-813, from the field number `i` on; `bind` is the recursive call, the
result of which is not looked at. -/
def jsonFields (bind : Tag → Act TState Bool) : Nat → List (Name × Tag) → TextBuf → Act TState TextBuf
  | _, [], b => pure b
  | i, p :: ps, b => do
    let b ← if 0 < i then b.add jsonCap jsonSep else pure b
    let _ ← bind p.2
    let b ← b.add jsonCap (jsonField p.1 p.2.name)
    jsonFields bind (i + 1) ps b

/-- `BindJsonSerializerForType`, std.c:771-828, with a bound on the depth of the recursion. `E` is used for the generated
source, in which there is no `use`. -/
def bindJson (E : CompileEnv) : Nat → Tag → Act TState Bool
  | 0, _ => fun _ => .timeout
  | k + 1, t => do
    let s ← .get
    match tagFields s.front t with
    | none => pure true
    | some fs =>
      if (findFuncSymbol ((t.name ++ nameOf "_to_json").take (jsonCap - 1)) s.front).isSome then pure true
      else do
        let b ← TextBuf.add jsonCap {} (jsonHead t.name)
        let b ← jsonFields (bindJson E k) 0 fs b
        let b ← b.add jsonCap jsonTail
        compileString E (some (nameOf "(json mod)")) b.text

/-- `JsonMacroFunction`, std.c:830-849. If there is no type of that name, a NULL pointer is read. -/
def jsonMacro (E : CompileEnv) (k : Nat) : Macro := fun args _ =>
  match args with
  | [n] => do
    let s ← .get
    match findTypeSymbol n s.front with
    | none => .undef
    | some t => if (tagFields s.front t).isSome then bindJson E k t else pure false
  | _ => pure false

/-- `sizeof(typeBuf)` and so on, std.c:1040-1042, 1081, 1096. -/
def delegateCap : Nat := 512

/-- The three arrays, std.c:1040-1046. -/
structure DelegateBufs where
  type : TextBuf := {}
  args : TextBuf := {}
  params : TextBuf := {}

/-- The loop over the parameters of the function, std.c:1052-1071, from number `i` on. -/
def delegateArgs : Nat → List Tag → DelegateBufs → Act TState DelegateBufs
  | _, [], b => pure b
  | i, t :: ts, b => do
    let b ← if 0 < i then do
        let x ← b.type.add delegateCap (nameOf "_")
        let y ← b.args.add delegateCap (nameOf ", ")
        let z ← b.params.add delegateCap (nameOf ", ")
        pure (⟨x, y, z⟩ : DelegateBufs)
      else pure b
    let x ← b.type.add delegateCap t.name
    let y ← b.args.add delegateCap (nameOf "a" ++ Std.fmtDigits i ++ nameOf ": " ++ t.name)
    let z ← b.params.add delegateCap (nameOf "a" ++ Std.fmtDigits i)
    delegateArgs (i + 1) ts ⟨x, y, z⟩

/-- The types of the parameters, and of the result, of a function symbol, std.c:1053-1074. Those of a function of the
program have been set by the parser when macros are run. -/
def Sym.delegateSig : Sym → Option (List Tag × Tag)
  | .func fi => (fi.args.mapM (m := Option) VarInfo.tag).bind fun ts => fi.ret.map fun r => (ts, r)
  | .foreign _ _ ts _ r => some (ts, r)
  | _ => none

/-- `callBuf`, std.c:1083-1090. -/
def delegateCall (t as ps : List UInt8) (r : Tag) : List UInt8 :=
  snprintf512 (
    if r = .void then
      nameOf "func " ++ t ++ nameOf "_call(f: " ++ t ++ nameOf ", " ++ as ++ nameOf ") { call_function(f, " ++ ps ++ nameOf ") }"
    else
      nameOf "func " ++ t ++ nameOf "_call(f: " ++ t ++ nameOf ", " ++ as ++ nameOf "): " ++ r.name ++
        nameOf " { return cast(call_function(f, " ++ ps ++ nameOf "), " ++ r.name ++ nameOf ") }")

/-- `createBuf`, std.c:1097-1099. -/
def delegateCreate (a t f : List UInt8) : List UInt8 :=
  snprintf512 (nameOf "func " ++ a ++ nameOf "(): " ++ t ++ nameOf " { return cast(get_function_index(\"" ++ f ++ nameOf "\"), " ++
    t ++ nameOf ") }")

/-- `DelegateMacroFunction`, std.c:1025-1105. If there is no function of that name, a NULL pointer is read. The results of
the two compilations are not looked at. -/
def delegateMacro (E : CompileEnv) : Macro := fun args asName =>
  match args, asName with
  | [n], some a => do
    let s ← .get
    match (findFuncSymbol n s.front).bind Sym.delegateSig with
    | none => .undef
    | some (ts, r) => do
      let t0 ← TextBuf.add delegateCap {} (nameOf "delegate_")
      let b ← delegateArgs 0 ts { type := t0 }
      let t ← b.type.add delegateCap (nameOf "_" ++ r.name)
      if (findTypeSymbol t.text s.front).isSome then pure ()
      else do
        onFront (registerType t.text)
        let _ ← compileString E (some (nameOf "(delegate call function)")) (delegateCall t.text b.args.text b.params.text r)
      let s ← .get
      if (findFuncSymbol a s.front).isSome then pure true
      else do
        let _ ← compileString E (some (nameOf "(delegate create function)")) (delegateCreate a t.text n)
        pure true
  | _, _ => pure false

/-- The test in `Tiny_GetFunctionIndex`, tiny.c:558. -/
def Sym.isTinyFunc (n : Name) : Sym → Bool
  | .func fi => fi.name == n
  | _ => false

/-- `Tiny_GetFunctionIndex`, tiny.c:554-565: only functions of the program are looked for. -/
def getFunctionIndex (f : Front) (n : Name) : Int :=
  match f.syms.find? (Sym.isTinyFunc n) with
  | some (.func fi) => fi.index
  | _ => -1

namespace Std

/-- `Lib_Ntos`, std.c:523-531: the number as `float`, written with `%g`; `fmtG` is the text for a `double` (which is
converted to `float` first), `ofInt` the conversion of an integer. -/
def ntos (fmtG : BitVec 64 → List UInt8) (ofInt : BitVec 64 → BitVec 64) (v : Value) (h : Heap) : Res (Value × Heap) :=
  let x := fmtG (match v with | .float f => f | .int i => ofInt i | _ => ofInt 0)
  let (o, h) := h.alloc (.str x)
  .ok (.str o, h)

/-- `Lib_PrimitiveToJson`, std.c:999-1023; `lit` is where the C literal of a text is. For strings, `Strcat` is called with
`sizeof(forwardArgs)`, 48, as the number of arguments, but there are three. -/
def primitiveToJson (lit : List UInt8 → Nat) (fmtG : BitVec 64 → List UInt8) (ofInt : BitVec 64 → BitVec 64)
    (args : List Value) (h : Heap) : Res (Value × Heap) :=
  match args with
  | [.null] => .ok (.cstr (lit (nameOf "null")), h)
  | [.bool b] => .ok (.cstr (lit (if b then nameOf "true" else nameOf "false")), h)
  | [.int i] => ntos fmtG ofInt (.int i) h
  | [.float f] => ntos fmtG ofInt (.float f) h
  | [.cstr _] => .ub
  | [.str _] => .ub
  | [_] => .ok (.cstr (lit (nameOf "null")), h)
  | _ => .abort

/-- `GetFunctionIndex`, std.c:1107-1112; `f` is the symbol table of `thread->state`. Simplification: `strcmp` with NULL is
undefined; if the state has no functions, it is not called. -/
def functionIndex (f : Front) (cmem : Nat → List UInt8) (args : List Value) (h : Heap) : Res (Value × Heap) :=
  match args with
  | [v] => do
    match ← toStr cmem h v with
    | none => .ub
    | some m => .ok (newInt (getFunctionIndex f (m.takeWhile (· ≠ 0))), h)
  | _ => .abort

/-- `CallFunction`, std.c:1114-1119; `call` is `Tiny_CallFunction` (tiny.c:583-618), which asserts that the number, an `int`, is
not negative (`callFunction`, Model/VM.lean, is for such numbers). -/
def callBack (call : Nat → List Value → World → Res (Value × World)) (args : List Value) (w : World) : Res (Value × World) :=
  match args with
  | [] => .abort
  | v :: vs =>
    let i := ((toInt v).setWidth 32).toInt
    if i < 0 then .abort else call i.toNat vs w

end Std

end Tiny
