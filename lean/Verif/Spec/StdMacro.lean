import Verif.Model.StdMacro
import Verif.Spec.Grammar
import Verif.Spec.Lex
import Verif.Spec.Types
import Verif.Spec.StdLib
import Verif.Spec.Lang
import Verif.Spec.Str
import Verif.Spec.Session
import Verif.Model.Compile
import Mathlib.Data.List.Forall2

/-!
# What `use json(...)` and `use delegate(...)` add to a program (C56)
-/

namespace Tiny.Spec

/-! ## `json` -/

/-- `"name":` -/
def jsonKey (n : Name) : List UInt8 := bytes "\"" ++ n ++ bytes "\":"

/-- The function which writes values of a type. -/
def jsonFn (t : Name) : Name := t ++ bytes "_to_json"

/-- For the fields, with the names of their types: `"\"f\":", t_to_json(v.f), ",", ...` -/
def jsonArgs : List (Name × Name) → List SExpr
  | [] => []
  | [p] => [.str (jsonKey p.1), .call (jsonFn p.2) [.dot (.id (bytes "v") ()) p.1]]
  | p :: q :: ps => .str (jsonKey p.1) :: .call (jsonFn p.2) [.dot (.id (bytes "v") ()) p.1] :: .str (bytes ",") :: jsonArgs (q :: ps)

/-- `func T_to_json(v: T): str { return strcat("{", ..., "}") }` -/
def jsonFunc (t : Name) (fs : List (Name × Name)) : SStmt :=
  .node 1 (.proc () (jsonFn t) [(bytes "v", t, false)] (some (bytes "str", false)) (.node 1 (.block [
    .node 2 (.ret (some (.call (bytes "strcat") (.str (bytes "{") :: jsonArgs fs ++ [.str (bytes "}")]))))])))

/-- The members of a JSON object: names, and the texts of the values. -/
def jsonMembers : List (Name × List UInt8) → List UInt8
  | [] => []
  | [p] => jsonKey p.1 ++ p.2
  | p :: q :: ps => jsonKey p.1 ++ p.2 ++ bytes "," ++ jsonMembers (q :: ps)

/-- A JSON object. -/
def jsonObject (ms : List (Name × List UInt8)) : List UInt8 := bytes "{" ++ jsonMembers ms ++ bytes "}"

/-- `f` writes the value `v` as `x`: called with it when the objects of the heap `h` are still there, it returns a string
with this text, and changes nothing which was there. -/
def WritesAs (c : Ctx) (f : FnSym) (h : Heap) (v : Value) (x : List UInt8) : Prop :=
  ∀ w, Extends h w.heap → ∃ N r w', (∀ n, N ≤ n → call c n f [v] w = .ok (r, w')) ∧ IsStr c.cmem w'.heap r x ∧ Extends w.heap w'.heap

/-- The function joins two or more strings. -/
def JoinsTexts (c : Ctx) (f : FnSym) : Prop :=
  ∀ w vs xs, (∀ o ∈ w.heap.list, o < w.heap.next) → 2 ≤ vs.length → AreStrs c.cmem w.heap vs xs →
    ∃ N r w', (∀ n, N ≤ n → call c n f vs w = .ok (r, w')) ∧ IsStr c.cmem w'.heap r xs.flatten ∧ Extends w.heap w'.heap

/-- The functions for the types of the fields write the values `vs`; the members are the names of the fields, with these
texts. -/
def FieldsWritten (c : Ctx) (h : Heap) : List (Name × Tag) → List Value → List (Name × List UInt8) → Prop
  | [], [], [] => True
  | p :: ps, v :: vs, m :: ms => m.1 = p.1 ∧ (∃ g, c.globals.funcs (jsonFn p.2.name) = some g ∧ WritesAs c g h v m.2) ∧ FieldsWritten c h ps vs ms
  | _, _, _ => False

/-- **The function `T_to_json` writes structs as JSON objects.** -/
def WritesStruct (c : Ctx) (T : Name) (fs : List (Name × Tag)) : Prop :=
  ∀ h o vs ms, (∀ a ∈ h.list, a < h.next) → o ∈ h.list → h.obj o = .struct vs → FieldsWritten c h fs vs ms →
    ∃ g, c.globals.funcs (jsonFn T) = some g ∧ WritesAs c g h (.struct o) (jsonObject ms)

/-- The function can be called with one value of the type. -/
def TakesOne (t : Tag) : Sym → Prop
  | .func fi => ∃ v q, fi.args = [v] ∧ v.tag = some q ∧ Assignable t q
  | .foreign _ _ ps va _ => (va = true ∧ ps = []) ∨ ∃ q, ps = [q] ∧ Assignable t q
  | _ => False

/-- The source of the function for a struct, for the fields and the names of their types. -/
def jsonSource (t : Name) (fs : List (Name × Name)) : List UInt8 :=
  bytes "func " ++ t ++ bytes "_to_json(v: " ++ t ++ bytes "): str {\n\treturn strcat(\"{\",\n\t\t" ++
    List.intercalate (bytes ", \",\",\n\t\t") (fs.map fun p =>
      bytes "\"\\\"" ++ p.1 ++ bytes "\\\":\", " ++ p.2 ++ bytes "_to_json(v." ++ p.1 ++ bytes ")") ++
    bytes ",\n\t\"}\")\n}"

/-- The fields of a struct, and the names of their types. -/
def namedFields (fs : List (Name × Tag)) : List (Name × Name) := fs.map fun p => (p.1, p.2.name)

/-- **The types of which values can be written as JSON**: those for which there is a function `t_to_json`; and the structs
for which there is none yet, if their fields are of such types (but not of type `t?`), and the source is not too long. -/
inductive Writable (f : Front) : Tag → Prop
  | known {t x} : f.syms.find? (IsFuncNamed (jsonFn t.name)) = some x → TakesOne t x → Writable f t
  | struct {n fs} : f.syms.find? (IsTypeNamed n) = some (.struct n true fs) → (∀ p ∈ builtinTypes, bytes p.1 ≠ n) → NoFunction f (jsonFn n) →
      Spelled n (.ident n) → fs ≠ [] → (fs.map Prod.fst).Nodup → (∀ p ∈ fs, Spelled p.1 (.ident p.1) ∧ Spelled p.2.name (.ident p.2.name)) → (jsonSource n (namedFields fs)).length < 2048 →
      (∀ p ∈ fs, Writable f p.2) → Writable f (.named n)

/-- The function which joins strings is bound, as the standard library does it. -/
def HasStrcat (f : Front) : Prop :=
  ∃ i, f.syms.find? (IsFuncNamed (bytes "strcat")) = some (.foreign (bytes "strcat") i [.str, .str] true .str)

/-- The states in which a macro is called: by the host, or when a source has been parsed, after other macros it uses. -/
inductive AtUse : TState → Prop
  | host {s} : History s → AtUse s
  | parsed {s n ts xs q} : History s → Tail3 ts → parseProgram n ⟨ts, s.front⟩ = .ok xs q → AtUse { s with nest := s.nest + 1, front := q.st }
  | used {E s m args a b s'} : AtUse s → MacrosKeep E → E.macros m args a s = .ok b s' → AtUse s'

/-- The strings which are registered. -/
def JsonLiteral (f : Front) (x : Name) : Prop :=
  x ∈ [bytes "{", bytes "}", bytes ",", bytes "(json mod)"] ∨ ∃ n fs p, Sym.struct n true fs ∈ f.syms ∧ p ∈ fs ∧ x = jsonKey p.1

/-- Sources, each of which is this one statement, are compiled one after the other. -/
inductive Compiles (E : CompileEnv) (file : Name) : List SStmt → TState → TState → Prop
  | nil {s} : Compiles E file [] s s
  | cons {x xs src us nx rest s s1 s2} : sourceTokens E.strtod src = us ++ nx :: rest → ProgIs [x] us nx →
      compileString E (some file) src s = .ok true s1 → Compiles E file xs s1 s2 → Compiles E file (x :: xs) s s2

mutual
/-- The JSON text of a value of the type called `t`, for the structs `us`: structs are objects, whatever their fields are; the
others as their functions write them. -/
inductive JsonOf (c : Ctx) (us : List (Name × List (Name × Tag))) (h : Heap) : Name → Value → List UInt8 → Prop
  | base {t v x g} : c.globals.funcs (jsonFn t) = some g → WritesAs c g h v x → JsonOf c us h t v x
  | object {T fs o vs ms} : (T, fs) ∈ us → o ∈ h.list → h.obj o = .struct vs → MembersOf c us h fs vs ms → JsonOf c us h T (.struct o) (jsonObject ms)

inductive MembersOf (c : Ctx) (us : List (Name × List (Name × Tag))) (h : Heap) : List (Name × Tag) → List Value → List (Name × List UInt8) → Prop
  | nil : MembersOf c us h [] [] []
  | cons {f t fs v vs x ms} : JsonOf c us h t.name v x → MembersOf c us h fs vs ms → MembersOf c us h ((f, t) :: fs) (v :: vs) ((f, x) :: ms)
end

/-- The types for which the macro binds nothing: those of the language and of the host. -/
def NotStruct (f : Front) (t : Tag) : Prop :=
  (∃ p ∈ builtinTypes, p.2 = t) ∨ ∃ n, t = .named n ∧ Registered f n

/-- The foreign function number `i` is this one, which looks only at its arguments and the heap. -/
def ForeignIs (c : Ctx) (i : Nat) (F : List Value → Heap → Res (Value × Heap)) : Prop :=
  i < c.numForeign ∧ ∀ vs w, c.foreign i vs w = (F vs w.heap >>= fun p => .ok (p.1, { w with heap := p.2 }))

/-! ## `delegate` -/

/-- The name of the delegate type for functions of these types: `delegate_int_str_bool`. -/
def delegateType (ts : List Name) (r : Name) : Name :=
  bytes "delegate_" ++ List.intercalate (bytes "_") ts ++ bytes "_" ++ r

/-- `a0`, `a1`, ... -/
def argName (i : Nat) : Name := bytes "a" ++ decimal i

/-- The function which calls: `D_call`. -/
def callName (D : Name) : Name := D ++ bytes "_call"

/-- The parameters `a0: t0`, `a1: t1`, ..., from number `i` on. -/
def delegateParams : Nat → List Name → List (Name × SType)
  | _, [] => []
  | i, t :: ts => (argName i, t, false) :: delegateParams (i + 1) ts

/-- They are passed on. -/
def delegateIds : Nat → List Name → List SExpr
  | _, [] => []
  | i, _ :: ts => .id (argName i) () :: delegateIds (i + 1) ts

/-- `func D_call(f: D, a0: t0, ...): r { return cast(call_function(f, a0, ...), r) }`; without a result
`func D_call(f: D, a0: t0, ...) { call_function(f, a0, ...) }` -/
def delegateCallFn (D : Name) (ts : List Name) (r : Option Name) : SStmt :=
  .node 1 (.proc () (callName D) ((bytes "f", D, false) :: delegateParams 0 ts) (r.map fun r => (r, false)) (.node 1 (.block [.node 1 (
    match r with
    | some r => .ret (some (.cast (.call (bytes "call_function") (.id (bytes "f") () :: delegateIds 0 ts)) (r, false)))
    | none => .call (bytes "call_function") (.id (bytes "f") () :: delegateIds 0 ts))])))

/-- `func g(): D { return cast(get_function_index("n"), D) }` -/
def delegateCreateFn (g D n : Name) : SStmt :=
  .node 1 (.proc () g [] (some (D, false)) (.node 1 (.block [.node 1 (
    .ret (some (.cast (.call (bytes "get_function_index") [.str n]) (D, false))))])))

/-- The lengths of the sources. -/
def delegateArgTexts : Nat → List Name → List (List UInt8)
  | _, [] => []
  | i, t :: ts => (argName i ++ bytes ": " ++ t) :: delegateArgTexts (i + 1) ts

def delegateIdTexts : Nat → List Name → List (List UInt8)
  | _, [] => []
  | i, _ :: ts => argName i :: delegateIdTexts (i + 1) ts

def delegateCallSource (D : Name) (ts : List Name) (r : Option Name) : List UInt8 :=
  bytes "func " ++ callName D ++ bytes "(f: " ++ D ++ bytes ", " ++ List.intercalate (bytes ", ") (delegateArgTexts 0 ts) ++ bytes ")" ++
    match r with
    | some r => bytes ": " ++ r ++ bytes " { return cast(call_function(f, " ++ List.intercalate (bytes ", ") (delegateIdTexts 0 ts) ++ bytes "), " ++ r ++ bytes ") }"
    | none => bytes " { call_function(f, " ++ List.intercalate (bytes ", ") (delegateIdTexts 0 ts) ++ bytes ") }"

def delegateCreateSource (g D n : Name) : List UInt8 :=
  bytes "func " ++ g ++ bytes "(): " ++ D ++ bytes " { return cast(get_function_index(\"" ++ n ++ bytes "\"), " ++ D ++ bytes ") }"

/-- The types which a source can name: those of the language, and those of the program and of the host. -/
def NamedType (f : Front) (t : Tag) : Prop :=
  (∃ p ∈ builtinTypes, p.2 = t) ∨
  ∃ n, t = .named n ∧ Spelled n (.ident n) ∧ (∀ p ∈ builtinTypes, bytes p.1 ≠ n) ∧ (f.syms.find? (IsTypeNamed n)).isSome

/-- The name means a function with parameters of these types, and this result. -/
def HasSig (f : Front) (n : Name) (ts : List Tag) (r : Tag) : Prop :=
  (∃ fi, f.syms.find? (IsFuncNamed n) = some (.func fi) ∧ fi.args.map VarInfo.tag = ts.map some ∧ fi.ret = some r) ∨
  ∃ i va, f.syms.find? (IsFuncNamed n) = some (.foreign n i ts va r)

/-- The two functions which the generated ones call are bound, as the standard library does it. -/
def HasDelegateFns (f : Front) : Prop :=
  (∃ i, f.syms.find? (IsFuncNamed (bytes "call_function")) = some (.foreign (bytes "call_function") i [.any] true .any)) ∧
  ∃ j, f.syms.find? (IsFuncNamed (bytes "get_function_index")) = some (.foreign (bytes "get_function_index") j [.str] false .any)

/-- The result which a function of this type has, if any. -/
def resultOf (r : Tag) : Option Tag := if r = .void then none else some r

/-- The strings which are registered. -/
def DelegateLiteral (n x : Name) : Prop :=
  x ∈ [n, bytes "(delegate call function)", bytes "(delegate create function)"]

/-- Called with a delegate and `arity` more values, the function called `m` calls `call_function` with all of them, and
returns what it returns, or nothing. -/
def PassesOn (c : Ctx) (m : Name) (arity : Nat) (r : Option Tag) : Prop :=
  ∃ G F K, c.globals.funcs m = some G ∧ c.globals.funcs (bytes "call_function") = some F ∧
    ∀ k, K ≤ k → ∀ d vs w, vs.length = arity → call c k G (d :: vs) w =
      match call c k F (d :: vs) w with
      | .ok (v, w') => .ok (if r = none then .null else v, w')
      | e => e

/-- Called without arguments, the function called `g` calls `get_function_index` with the string `n`, and returns what it
returns. -/
def Creates (c : Ctx) (g n : Name) : Prop :=
  ∃ G F K p, c.globals.funcs g = some G ∧ c.globals.funcs (bytes "get_function_index") = some F ∧ c.cmem p = n ∧
    ∀ k, K ≤ k → ∀ w, call c k G [] w = call c k F [.cstr p] w

/-- The two functions, as the standard library has them: the first looks for the number of a function in the symbol table
`f`, the second calls the function of a number; what that does is `run`. -/
structure DelegateWorld (c : Ctx) (f : Front) (run : Nat → List Value → World → Res (Value × World)) : Prop where
  index : ∃ j, c.globals.funcs (bytes "get_function_index") = some (.foreign j 1 false) ∧ ForeignIs c j (Std.functionIndex f c.cmem)
  call : ∃ i, c.globals.funcs (bytes "call_function") = some (.foreign i 1 true) ∧ i < c.numForeign ∧ ∀ vs w, c.foreign i vs w = Std.callBack run vs w

end Tiny.Spec
