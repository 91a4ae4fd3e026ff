import Verif.Spec.Signature

/-!
# The functions of the standard library

What `use array("t") as a` and the `Tiny_BindStandard...` functions declare (C50).
-/

namespace Tiny.Spec

/-- `name(arg, arg): ret`, or `name(arg, arg, ...): ret`. -/
def sig (name : Name) (args : List Name) (ret : Name) (varargs : Bool := false) : Signature :=
  ⟨name, args.map fun n => (n, false), varargs, some (ret, false)⟩

/-- `name`: any arguments, any result. -/
def bare (name : Name) : Signature := ⟨name, [], true, none⟩

/-- The functions of an array type `a` with elements of type `t`. -/
def arraySigs (a t : Name) : List Signature :=
  [sig a [] a true,
   sig (a ++ bytes "_clear") [a] (bytes "void"),
   sig (a ++ bytes "_resize") [a, bytes "int"] (bytes "void"),
   sig (a ++ bytes "_resize_fill") [a, bytes "int", t] (bytes "void"),
   sig (a ++ bytes "_get") [a, bytes "int"] t,
   sig (a ++ bytes "_get_index") [a, bytes "int"] t,
   sig (a ++ bytes "_set") [a, bytes "int", t] (bytes "void"),
   sig (a ++ bytes "_set_index") [a, bytes "int", t] (bytes "void"),
   sig (a ++ bytes "_len") [a] (bytes "int"),
   sig (a ++ bytes "_push") [a, t] (bytes "void"),
   sig (a ++ bytes "_pop") [a] t,
   sig (a ++ bytes "_shift") [a] t,
   sig (a ++ bytes "_remove") [a, bytes "int"] (bytes "void"),
   sig (a ++ bytes "_insert") [a, bytes "int", t] (bytes "void")] ++
  if t = bytes "int" then [sig (a ++ bytes "_sort") [a] (bytes "void")] else []

/-- Functions are bound one after the other. -/
inductive BoundAll : Front → List Signature → Front → Prop
  | nil {f} : BoundAll f [] f
  | cons {f f' f'' S Ss} : Bound f S f' → BoundAll f' Ss f'' → BoundAll f (S :: Ss) f''

/-- The symbol is a function of this name, of the program or of the host. -/
def IsFuncNamed (n : Name) : Sym → Bool
  | .func fi => fi.name == n
  | .foreign m _ _ _ _ => m == n
  | _ => false

/-- In the symbol table, the name means the C function bound with this signature; its number is `i`. -/
def Declared (f : Front) (S : Signature) (i : Nat) : Prop :=
  f.syms.find? (IsFuncNamed S.name) = some (.foreign S.name i (S.args.map typeMeans) S.varargs (retMeans S.ret))

/-- No function of the name, of the host's or of the program's. -/
def NoFunction (f : Front) (n : Name) : Prop := ∀ x ∈ f.syms, IsFuncNamed n x = false

/-- The name means a type of the host's. -/
def Registered (f : Front) (n : Name) : Prop := f.syms.find? (IsTypeNamed n) = some (.ftype n)

/-- The name means a type: a built-in one, one of the host's, a struct which has been defined. -/
def KnownType (f : Front) (n : Name) : Prop :=
  (∃ p ∈ builtinTypes, bytes p.1 = n) ∨ Registered f n ∨ ∃ fs, f.syms.find? (IsTypeNamed n) = some (.struct n true fs)

/-- A type is registered: it is added, or, if it has been mentioned, put in the place of the undefined struct. -/
def Registers (f : Front) (n : Name) (f' : Front) : Prop :=
  ((∀ x ∈ f.syms, IsTypeNamed n x = false) ∧ f' = { f with syms := f.syms ++ [.ftype n] }) ∨
  ∃ A B fs, f.syms = A ++ .struct n false fs :: B ∧ (∀ x ∈ A, IsTypeNamed n x = false) ∧
    f' = { f with syms := A ++ .ftype n :: B }

/-- The text declares the function. -/
def SaysSig (text : List UInt8) (S : Signature) : Prop :=
  ∃ ts e, Reads 1 text ts e ∧ SigIs S (ts.map Item.tok) ∧ ¬ VoidOpt (ts.map Item.tok) ∧ 0 ∉ text

/-- The functions of `Tiny_BindStandardLib`. -/
def libSigs : List Signature :=
  let str := bytes "str"; let int := bytes "int"; let float := bytes "float"; let any := bytes "any"; let void := bytes "void"
  [sig (bytes "strlen") [str] int, sig (bytes "stridx") [str, int] int, sig (bytes "sget") [str, int] int,
   sig (bytes "strchr") [str, int] int, sig (bytes "strcat") [str, str] str true, sig (bytes "substr") [str, int, int] str,
   sig (bytes "str_get_index") [str, int] int, sig (bytes "ston") [str] float, sig (bytes "str_to_int") [str] int,
   sig (bytes "int_to_str") [int] str, sig (bytes "ntos") [] str true, sig (bytes "stoi") [str, int] int,
   sig (bytes "time") [] int, sig (bytes "srand") [int] void, sig (bytes "rand") [] int,
   sig (bytes "floor") [float] float, sig (bytes "ceil") [float] float, sig (bytes "get_function_index") [str] any,
   sig (bytes "call_function") [any] any true, sig (bytes "exit") [int] void,
   bare (bytes "bool_to_json"), bare (bytes "str_to_json"), bare (bytes "int_to_json"), bare (bytes "float_to_json"),
   bare (bytes "get_executing_line"), bare (bytes "debug_break")]

/-- The functions of `Tiny_BindStandardDict`. -/
def dictSigs : List Signature :=
  let d := bytes "dict"; let e := bytes "dict_str_int"
  let str := bytes "str"; let int := bytes "int"; let bool := bytes "bool"; let any := bytes "any"; let void := bytes "void"
  [sig d [] d true, sig (bytes "dict_put") [d, any, any] void, sig (bytes "dict_exists") [d, any] bool,
   sig (bytes "dict_get") [d, any] any, sig (bytes "dict_remove") [d, any] void, sig (bytes "dict_keys") [d] (bytes "array_any"),
   sig (bytes "dict_values") [d] (bytes "array_any"), sig (bytes "dict_clear") [d] void,
   sig (bytes "dict_get_index") [d, str] any, sig (bytes "dict_set_index") [d, str, any] void,
   sig e [] e true, sig (bytes "dict_str_int_put") [e, str, int] void, sig (bytes "dict_str_int_exists") [e, str] bool,
   sig (bytes "dict_str_int_get") [e, str] int, sig (bytes "dict_str_int_remove") [e, str] void,
   sig (bytes "dict_str_int_keys") [e] (bytes "array_str"), sig (bytes "dict_str_int_clear") [e] void]

/-- The functions of `Tiny_BindStandardIO`. -/
def ioSigs : List Signature :=
  let file := bytes "file"; let str := bytes "str"; let int := bytes "int"; let bool := bytes "bool"; let void := bytes "void"
  [sig (bytes "fopen") [str, str] file, sig (bytes "fclose") [file] void, sig (bytes "fread") [file, int] str,
   sig (bytes "fwrite") [file, str] void true, sig (bytes "fseek") [file, int] void, sig (bytes "fsize") [file] int,
   sig (bytes "read_file") [str] str, sig (bytes "write_file") [str, str] bool, sig (bytes "input") [] str true,
   sig (bytes "printf") [str] void true]

/-- The functions of `Tiny_BindI64`. -/
def i64Sigs : List Signature :=
  let i64 := bytes "i64"
  [sig (bytes "int_to_i64") [bytes "int"] i64, sig (bytes "i64_add_many") [i64] i64 true,
   sig (bytes "i64_mul_many") [i64] i64 true, sig (bytes "i64_to_string") [i64] (bytes "str")]

end Tiny.Spec
