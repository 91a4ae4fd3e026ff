import Verif.Model.Bind

/-!
# What the standard library binds (tiny/src/std.c:851-1000, 1175-1228)

The macro `array`, and the functions `Tiny_BindStandardLib`, `-Array`, `-Dict`, `-IO` and `Tiny_BindI64`.
-/

namespace Tiny

/-- The C functions of std.c behind the functions of an array type. -/
inductive ArrayFn where
  | create (primitive : Bool)
  | clear | resize | resizeFill | get | set | len | push | pop | shift | remove | insert | sortInt
deriving DecidableEq, Repr

/-- `snprintf` into `char[512]`. -/
def snprintf512 (text : List UInt8) : List UInt8 := text.take 511

/-- What is given to `Tiny_BindFunction` for an array type `a` with elements of type `t`, and the C function,
std.c:887-935. -/
def arrayBinds (a t : Name) (primitive isInt : Bool) : List (List UInt8 × ArrayFn) :=
  [(a ++ nameOf "(...): " ++ a, .create primitive),
   (a ++ nameOf "_clear(" ++ a ++ nameOf "): void", .clear),
   (a ++ nameOf "_resize(" ++ a ++ nameOf ", int): void", .resize),
   (a ++ nameOf "_resize_fill(" ++ a ++ nameOf ", int, " ++ t ++ nameOf "): void", .resizeFill),
   (a ++ nameOf "_get(" ++ a ++ nameOf ", int): " ++ t, .get),
   (a ++ nameOf "_get_index(" ++ a ++ nameOf ", int): " ++ t, .get),
   (a ++ nameOf "_set(" ++ a ++ nameOf ", int, " ++ t ++ nameOf "): void", .set),
   (a ++ nameOf "_set_index(" ++ a ++ nameOf ", int, " ++ t ++ nameOf "): void", .set),
   (a ++ nameOf "_len(" ++ a ++ nameOf "): int", .len),
   (a ++ nameOf "_push(" ++ a ++ nameOf ", " ++ t ++ nameOf "): void", .push),
   (a ++ nameOf "_pop(" ++ a ++ nameOf "): " ++ t, .pop),
   (a ++ nameOf "_shift(" ++ a ++ nameOf "): " ++ t, .shift),
   (a ++ nameOf "_remove(" ++ a ++ nameOf ", int): void", .remove),
   (a ++ nameOf "_insert(" ++ a ++ nameOf ", int, " ++ t ++ nameOf "): void", .insert)] ++
  if isInt then [(a ++ nameOf "_sort(" ++ a ++ nameOf "): void", .sortInt)] else []

/-- Calls of `Tiny_BindFunction`, one after the other. -/
def bindTexts (strtod : List UInt8 → BitVec 64) : List (List UInt8) → Act TState Unit
  | [] => pure ()
  | x :: xs => do
    tinyBindFunction strtod x
    bindTexts strtod xs

/-- `bool primitive`, std.c:884-885. -/
def primitiveTag : Tag → Bool
  | .bool | .int | .float => true
  | _ => false

/-- `ArrayMacroFunction`, std.c:851-938. The arguments of a macro are string literals of the source and hold no zero
byte, so that `%s` writes all of them. -/
def arrayMacro (strtod : List UInt8 → BitVec 64) : Macro := fun args asName =>
  match args, asName with
  | [t], some a => do
    let s ← .get
    if (findTypeSymbol a s.front).isSome then pure true
    else
      match findTypeSymbol t s.front with
      | none => pure false
      | some e => do
        onFront (registerType a)
        bindTexts strtod ((arrayBinds a t (primitiveTag e) (e == .int)).map fun x => snprintf512 x.1)
        pure true
  | _, _ => pure false

/-- One of the calls which make up the `Tiny_BindStandard...` functions. -/
inductive StdCall where
  /-- `Tiny_RegisterType` -/
  | type (name : String)
  /-- `Tiny_BindFunction` -/
  | func (sig : String)
  /-- `Tiny_BindMacro` -/
  | macro (name : String)
  /-- `Tiny_BindConstInt` -/
  | constInt (name : String) (val : BitVec 64)
deriving DecidableEq, Repr

/-- Do it. (An error reported by `DeclareConst`, when the name is taken, jumps to `compileErrorJmpBufs[-1]` if no
compilation is under way.) -/
def StdCall.run (strtod : List UInt8 → BitVec 64) : StdCall → Act TState Unit
  | .type n => onFront (registerType (nameOf n))
  | .func x => tinyBindFunction strtod (nameOf x)
  | .macro n => onFront (bindMacro (nameOf n))
  | .constInt n v => fun s =>
    match onFront (declareConst (nameOf n) .int (.int v)) s with
    | .err s' => if s.nest = 0 then .ub else .err s'
    | r => r

/-- Do all of them. -/
def runStd (strtod : List UInt8 → BitVec 64) : List StdCall → Act TState Unit
  | [] => pure ()
  | x :: xs => do
    x.run strtod
    runStd strtod xs

/-- `Tiny_BindStandardArray`, std.c:940-942. -/
def bindStandardArray : List StdCall := [.macro "array"]

/-- `Tiny_BindStandardDict`, std.c:944-971. -/
def bindStandardDict : List StdCall :=
  [.type "array_any", .type "array_str", .type "dict",
   .func "dict(...): dict",
   .func "dict_put(dict, any, any): void",
   .func "dict_exists(dict, any): bool",
   .func "dict_get(dict, any): any",
   .func "dict_remove(dict, any): void",
   .func "dict_keys(dict): array_any",
   .func "dict_values(dict): array_any",
   .func "dict_clear(dict): void",
   .func "dict_get_index(dict, str): any",
   .func "dict_set_index(dict, str, any): void",
   .type "dict_str_int",
   .func "dict_str_int(...): dict_str_int",
   .func "dict_str_int_put(dict_str_int, str, int): void",
   .func "dict_str_int_exists(dict_str_int, str): bool",
   .func "dict_str_int_get(dict_str_int, str): int",
   .func "dict_str_int_remove(dict_str_int, str): void",
   .func "dict_str_int_keys(dict_str_int): array_str",
   .func "dict_str_int_clear(dict_str_int): void"]

/-- `Tiny_BindStandardIO`, std.c:973-988. -/
def bindStandardIO : List StdCall :=
  [.type "file",
   .func "fopen(str, str): file",
   .func "fclose(file): void",
   .func "fread(file, int): str",
   .func "fwrite(file, str, ...): void",
   .func "fseek(file, int): void",
   .func "fsize(file): int",
   .func "read_file(str): str",
   .func "write_file(str, str): bool",
   .func "input(...): str",
   .func "printf(str, ...): void"]

/-- `Tiny_BindI64`, std.c:990-997. -/
def bindI64 : List StdCall :=
  [.type "i64",
   .func "int_to_i64(int): i64",
   .func "i64_add_many(i64, ...): i64",
   .func "i64_mul_many(i64, ...): i64",
   .func "i64_to_string(i64): str"]

/-- `Tiny_BindStandardLib`, std.c:1175-1228, without the functions for Windows. -/
def bindStandardLib : List StdCall :=
  [.constInt "INT_MAX" 2147483647,
   .func "strlen(str): int",
   .func "stridx(str, int): int",
   .func "sget(str, int): int",
   .func "strchr(str, int): int",
   .func "strcat(str, str, ...): str",
   .func "substr(str, int, int): str",
   .func "str_get_index(str, int): int",
   .func "ston(str): float",
   .func "str_to_int(str): int",
   .func "int_to_str(int): str",
   .func "ntos(...): str",
   .func "stoi(str, int): int",
   .func "time(): int",
   .func "srand(int): void",
   .func "rand(): int",
   .func "floor(float): float",
   .func "ceil(float): float",
   .func "get_function_index(str): any",
   .func "call_function(any, ...): any",
   .macro "delegate",
   .func "exit(int): void",
   .func "bool_to_json",
   .func "str_to_json",
   .func "int_to_json",
   .func "float_to_json",
   .func "get_executing_line",
   .macro "json",
   .func "debug_break"]

end Tiny
