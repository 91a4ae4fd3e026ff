# Formal model of goodpaul6/Tiny in Lean 4

## Layout

* `lean/Verif/Model/*.lean` – the model of the C code, function by function; every definition cites the file and
  lines it models and says where it simplifies.
* `lean/Verif/Spec/*.lean` – small independent specifications (finite maps, lists, grammar, typing rules, an
  evaluator for the language, …), written without the model's helpers.
* `lean/Verif/Proofs/*.lean` – helper lemmas and invariants.
* `lean/Verif/Props/*.lean` – the property theorems (names start with the property id, `c01_…`), with concrete
  cases which meet their hypotheses next to them, and the defects (theorems saying what the code does where the
  property one would like fails).
* `properties.jsonl`, `MANIFEST.json` – the properties and which theorems prove them (`tools/` generates both).
* `AXIOMS.md` – the axioms of every theorem named in the manifest.
* `seeded/` – wrong programs the theorems were tested against: `LOG.jsonl`, the edits, the runner.

## Conventions

* Outcomes: a failing `assert` or `exit(1)` is *abort*; undefined behaviour (out-of-bounds access, NULL or dangling
  pointer, …) is *ub*; an error reported through `longjmp` is *err*, and carries the state at that point; loops
  without a static bound take fuel and give *timeout* when it runs out. The theorems show that enough fuel exists
  (or, for the defects, that no fuel is enough).
* C `int` counters (lengths, capacities, program counters) are natural numbers or integers without overflow, except
  where the code stores them in narrower fields; machine values (`Tiny_Int`, hashes, bytes, operands) are fixed-width
  bit vectors.
* `malloc` always succeeds (the code never checks).
* Floats: the 64-bit patterns are carried; arithmetic on them is a parameter of the model, except where only
  comparison with itself matters.
* Pointers to symbols are positions in the symbol list, pointers to types are the type (`Tag`), pointers to C functions
  are the name under which they were bound.
* Types (`Tag`): `named n` is the first struct or registered type of that name in the table, `shadowed n` the struct `n`
  which an earlier registered type hides. Registering a type that has only been mentioned converts its symbol in place
  (`convertType`), so tags that were handed out stay valid.

## What is modelled

| C code | model | notes |
|---|---|---|
| `dict.c`, `stretchy_buffer` use, `array.c` | `Dict`, `Array` | complete |
| `arena.c` | `Arena` | complete |
| `pos.c`, `Tiny_FormatError…` | `Pos` | complete |
| `lexer.c` | `Lexer`, `Token` | complete; `strtod` is a parameter |
| `tiny.c` 98–165 heap, marking, sweeping | `Heap` | complete; native objects have abstract marking functions |
| `tiny.c` 167–426 values | `Value`, `Basic` | complete |
| `tiny.c` 487–647 threads, `Tiny_CallFunction` | `VM` | complete |
| `tiny.c` 649–701 emitting bytes, strings | `Codegen`, `Symbols` | complete |
| `tiny.c` 703–1006 symbols, scopes, types | `Symbols` | complete |
| `tiny.c` 1010–1079 `Tiny_BindFunction` and its signature parser; 4393–4426 `Tiny_FindTypeSymbol`, `Tiny_FindFuncSymbol` | `Bind` | complete, from the signature's text |
| `tiny.c` 1081–1096 constants | `Symbols` | complete |
| `tiny.c` 1101–1442 interpreter | `VM`, `Op` | complete, byte level |
| `tiny.c` 1443–2458 parser | `Parser` | complete; abstract in the symbol table (`Ops`), instantiated with `Symbols` |
| `tiny.c` 2465–3035 type checker | `CType`, `Resolve` | complete; gives the tree the code generator reads |
| `tiny.c` 3039–3884 code generator | `Codegen`, `Ast` | complete, byte level |
| `tiny.c` 3533–3602 line records | `Lines` | complete |
| `tiny.c` 3888–4081 `CheckInitialized`, `CompileState`, `Tiny_CompileString` | `Compile` | complete; macros are a parameter |
| `tiny.c` 4116–4374 disassembler | `Disasm`, `DisasmText` | instruction boundaries; the printed text |
| `tiny.c` 542–552, 569–581 globals for the host | `HostGlobal` | complete, on a thread whose globals are allocated |
| `tiny.c` 4376–4391 `Tiny_BindMacro` | `Compile` | complete |
| `std.c` 45–75, 320–336, 452–541 strings, conversion, sorting | `StdString` | `qsort` and `snprintf("%d")` by contract |
| `std.c` 76–181 files, `tiny.c` 4083–4114 `Tiny_CompileFile` | `StdFile` | complete; the C library by contract (its buffering is a parameter) |
| `std.c` 183–450, 736–769 arrays, dictionaries, 64-bit integers as natives of the machine | `StdNative` | complete; built on `Array`, `Dict`; `qsort` a parameter |
| `std.c` 523–531, 771–849, 999–1119 macros `json` and `delegate`, their natives; `tiny.c` 554–565 `Tiny_GetFunctionIndex` | `StdMacro` | complete; the recursion of `BindJsonSerializerForType` has a bound; `%g` is a parameter |
| `std.c` 851–997, 1175–1228 array macro, `Tiny_BindStandard…`, `Tiny_BindI64` | `StdBind` | complete; the functions for Windows are left out |

Not modelled: the texts of error messages (but C10 for their buffer),
natives of `std.c` other than those above (they are arbitrary
foreign functions in the interpreter theorems, under stated hypotheses), `tigr`, the command
line program.

## How each property is proved

| id | model | method |
|----|-------|--------|
| C01–C03 | `Dict`: buckets, probing, growth, removal with re-insertion | probe-chain invariant; refinement to a finite map; termination by a free bucket |
| C04 | `Value`: `areValuesEqual`, `hashValue` | case analysis; equality of length and bytes up to NUL |
| C05–C06 | stretchy buffer and `Array` with raw buffer | refinement to `List`; exact description of the resize defect |
| C07–C08 | arena pages | invariant over allocation lists; bit-mask lemma for the rounding |
| C09, C10 | position functions; `APPEND` as `snprintf` on a buffer of size n | induction over the source; buffer = prefix of the full text |
| C11–C15, C44 | lexer over bytes | `Spec/Lex`: what a token sequence's spellings are (`Reads`); scanner correctness by induction on the remaining text; non-termination for every fuel |
| C16, C17, C45 | parser over tokens | `Spec/Grammar` (inductive trees), `Spec/Printer`; soundness and completeness of every parsing function by mutual induction, uniqueness of trees |
| C46 | parser and symbol table | outcome predicate through all parsing functions; termination by a measure on the rest of the tokens |
| C18, C19, C42 | `GEN_VALUE`, `READ_VALUE`, patching, disassembler | arithmetic on offsets; layout of generated code (`Proofs/Layout`), walk over instructions |
| C20–C24 | byte-level code generator and interpreter | `Spec/Lang`: an evaluator on trees; `At`: what code lies at an address; simulation by induction on the evaluator's fuel; whole programs with the collector |
| C25–C27, C43 | object list, marking with fuel, sweep | reachability spec; heap isomorphism `HeapSim` along runs with collections at any point |
| C28 | line table and binary search | invariants of the table along code generation |
| C29–C31 | strings, scopes, slots | refinement to stacks of scopes; invariants over all operation sequences |
| C32 | `Compile`: all phases with failure points | Hoare triples for every phase (`Proofs/CodeKeep`, `ResolveKeep`, `Rollback`) |
| C33, C41 | product of thread states over one program | commutation; induction over schedules |
| C34, C35 | interpreter instructions | bit-vector arithmetic; cases |
| C36, C47 | tags, type checker | `Spec/Types`: typing rules; the checker accepts exactly what follows them, for every reachable table |
| C37 | evaluator, typing rules, compiled code | `Spec/Sound`: values of a type, the core language; preservation and progress by induction on the evaluator's fuel; the machine through C20 |
| C48 | all of the above | `Spec/Session`: what a host can do with a state; one invariant over all sessions (`Proofs/SessionInv`) gives the hypotheses of C20, C24, C37 for the final state |
| C49 | lexer, type parser and `Tiny_BindFunction` on the signature's text | `Spec/Signature`: signatures as trees, their token sequences and their texts; what type a signature means; soundness, completeness and uniqueness of reading; `Proofs/LexText` (a text of words and punctuation is read as its pieces) |
| C50 | the calls of `Tiny_BindStandardLib/Array/Dict/IO`, `Tiny_BindI64` and `ArrayMacroFunction` (`Model/StdBind`) | `Spec/StdLib`: the signatures as trees, independent of the texts std.c formats; the texts are read back with C49; `Props/HostMacro`: macros which only make host calls keep what C32/C48 need |
| C52 | the table operations of the parser (`frontOps`), with the type checker and `CompileState` around them | `Spec/Declares`: the declarations of a tree, the entries of a table; induction over the statements (`Proofs/Declares`): the new table is a permutation of old entries and new ones; iff-theorems for structs, constants and `use` |
| C51 | the natives of `std.c` as foreign functions of the machine (`Model/StdNative`) | `Spec/StdNative`: `LibrarySpec`, a relation between memories and the lists and maps they hold, under which every function does what the list or map operation does; simulation with C01–C08; the relation holds throughout every run (`Proofs/StdRun`); the functions are parametric, so C20, C43, C48 apply to programs with the library |
| C53 | parser, type checker, `CheckInitialized` | induction over the statements (`Proofs/Initialized`): the variables of the new table are those assigned to; the resolved tree assigns to the same variables, which sets their flags |
| C54 | the natives for `i64` | `partialSums`, `partialProducts` over the integers; induction over the arguments |
| C55 | `Print`, `Lib_Printf`, `Lib_Input` (`Model/StdPrint`), output as a list of bytes | `Spec/Print`: formats as lists of pieces, `Shows` and `Prints` inductively; more depth changes nothing, and the number of objects is depth enough (paths, as for the collector) |
| C57 | `compileString` with all phases (`Model/Compile`) | `Spec/Crash` (the excepted constructs, on the trees of the grammar), `Spec/Clean` (the states a host can reach); the parser cannot crash (C46); what names mean after the parser is known to the type checker (`Proofs/NameSafe`: every variable read has a type, every struct exists), so no lookup of it fails (`CheckSafe`); a tree that passed the checker has what the code generator asserts (`GenTyped`, `GenSafe`); failing and succeeding compilations lead back to such a state (`CompileSafe`, `PhaseSafe`); `CrashDec` decides the exceptions for concrete sources |
| C58 | `compileString` with all phases (`Model/Compile`) | `Spec/Accept` (the rules about names, places, existing types and sizes on the trees of the grammar; the rules of types are `Spec/Types`); `Proofs/Scoped`: naming the tree succeeds exactly if the names follow the rules; `Proofs/Exist`: no struct is left undefined exactly if the types exist; C47 (type rules are exact); `Proofs/GenExact`: the code generator reports an error exactly if a size or a place is wrong; `Props/Accept` joins them using C45 (the tree of a source is unique) and C57 (no crash). Hypotheses: no `use` among the statements, `0 ≤ currScope` (0 at the start, kept by host calls and successful compilations: `c52_calls`, `c52_source`) |
| C56 | `JsonMacroFunction`, `BindJsonSerializerForType`, `Lib_PrimitiveToJson` (`Model/StdMacro`), with the whole compiler (`Model/Compile`) | `Spec/StdMacro`: the tree of the generated function, the JSON object of a struct value, which types are writable, at which states a macro is called. `Proofs/JsonText`: the tokens and the tree of the generated text; `Proofs/OneLine`: compiling a function of one `return` in any state; `Proofs/JsonBind`: induction over the writable types, with what has been compiled so far; `Proofs/JsonMeans`: the function evaluated by the language semantics (C20/C48 connect that to the machine) |
| C59 | `DelegateMacroFunction`, `GetFunctionIndex`, `CallFunction`, `Tiny_GetFunctionIndex` (`Model/StdMacro`), with the whole compiler | as C56: `Proofs/DelegateText` (tokens and trees of the two texts), `DelegateBind` (the three buffers), `DelegateFns` (compiling them in any state), `Props/Delegate` (the macro; what the functions do by the language semantics; with the two natives, a call through a delegate is a call of the function) |
| C60 | `Lib_Fopen` … `Lib_WriteFile` (`Model/StdFile`) over a model of C streams: files by name, a position and bytes which wait per stream; an arbitrary part of them is written early | `Spec/File`: content and position as the user of a stream sees them; `flush_spec`: early writing changes neither; then induction over the calls |
| C61 | `Tiny_CompileFile` (`Model/StdFile`) | reduction to `compileString` by C60's lemmas |
| C62 | the text of `Tiny_DisasmOne` (`Model/DisasmText`) | case analysis over instructions; truncation is `List.take` |
| C63 | `Tiny_GetGlobalIndex`, `Tiny_GetGlobal`, `Tiny_SetGlobal` (`Model/HostGlobal`) | tables invariant of sessions (C48), C32's survival of symbols, reduction to C48 |
| C64 | the tree of the grammar (C45) and the statements of C48, in one relation (`Spec/Spells`) | induction over the tree through naming and type checking together; survival of strings and functions (C32) |
| C65 | sessions with file names (`Spec/Located`); record table as in C28 | invariant over sessions: the table is the fold of the records of all accepted sources; codes as in C42/C48; tree of the text as in C64 |
| C66 | the operands of the instructions found by walking the program (`Spec/Walk`, `Spec/Operands`), the tables of the state | references of the statements of C64 are entries; induction over the generated code; invariants of sessions (C48) |
| C67 | `Tiny_DisasmOne` in the states of sessions; its repeated calls (`Spec/Listed`) | the operands refer to entries (C66), a statement starts at or before each address (C65), the code is a walk of whole instructions; induction over the walk |
| C38–C40 | string natives, comparison, decimal conversion | list lemmas, bit-vector arithmetic |

Two properties are partial because the code does not have them: C06 (growing a non-empty array) and C27 (marking a
cyclic heap); what the code does instead is proved.

## Trusted base

* Lean 4.33.0's kernel. Axioms: at most `propext`, `Classical.choice`, `Quot.sound`; the exact set for each theorem is
  in `AXIOMS.md`. No axioms of our own, no `native_decide`, no `bv_decide`.
* The faithfulness of the hand-written model to the C text (there is no extraction), and of the specifications to the
  English properties.
* Hypotheses which stand for code outside the model, all visible in the statements: foreign functions
  (`ForeignKeepsHeap`, `ForeignParametric`, `ForeignTy`), macros (`MacrosKeep`), `qsort` (its contract), `strtod` and float
  arithmetic (arbitrary functions).

## Findings (all proved as theorems of the model unless marked °)

* Array resize writes the fill value at the wrong slots (C06). Marking recurses for ever on cyclic data (C27).
* An unterminated string literal makes the lexer loop (C12); newlines in string literals are not counted (C15).
* `float ± 1` increments the bit pattern; string constants with index > 255 are written with 4 bytes and read with 8;
  integer literals and `% | & << >>` are narrowed to 32 bits (C20, C34). `break` outside a loop jumps to address 0 (C22).
* The disassembler does not know the shift instructions (C19). A bound function called by a statement sees the line of
  the next statement (C28). Error positions are one token late (C44).
* The type checker does not check that variables are initialized, that functions return, that calls and constructors have
  all arguments, nor the operator of a compound assignment; each gap lets an accepted program run into undefined
  behaviour (C37).
* `T?` is not assignable to `T?`, nor `null` typed `any` to `T?` (C36).
* `strlen` stops at an embedded NUL (C38); comparing integers further apart than 2^31 is not an order (C39).
* After a failed compilation: the final `HALT` may be overwritten, the next compilation may read a freed function, line
  records and struct definitions stay (C32).
* A signature with `void?` given to `Tiny_BindFunction` outside of a compilation jumps through `jmpbufs[-1]` (C49).
* `use array("t") as a` ends the process if the host has bound one of the names `a`, `a_len`, …, or if the name of the
  array type is so long that a signature is cut off by the 512-byte buffer (C50).
* `use` as the body of an `if` is accepted and ignored; after an error inside a block `use` is refused in later sources (C52).
* The return value `Tiny_CallFunction` puts back may be of an object which the call has freed (C24).
* ° `use` with more than 128 arguments
  overruns a buffer; "Too many arguments" passes a struct pointer to `%s`; `BindConstInt` truncates to 32 bits.
* `CheckInitialized` never reports anything (C53).
* The natives (C51): an index is cut to 32 bits; the keys of an empty dictionary form an array that cannot be cleared;
  `resize` fills integer arrays with null; `dict_str_int` gives null for `int`; arguments are not checked to be arrays or
  dictionaries. `i64` zero cannot be a key of a dictionary (C54).
* `printf` (C55): nothing is written for a bool by `%q`; `%%` writes `%`, reports an invalid directive and uses up an argument;
  a format ending in `%` is read beyond its end; a struct containing itself is shown for ever; arrays of primitive values are
  not shown. `input` never returns at the end of the input.
* Compiling (C57): `x := x` (or any mention of `x`, also where `x` is a parameter) reads a type that is not there; `-2147483648`
  overflows in the compiler; a host that binds `f(): P` without a struct `P` makes every source that uses fields of the result,
  or `new P{}`, end the process; `use array("int") as ai` together with `new ai{}` does so too. ° A struct mentioned by the host
  and defined by a source which then fails keeps fields whose types have been freed.
* `use json("T")` (C56): reads a NULL pointer if there is no type `T`; recurses without end for a struct that contains itself
  (such as a list); overruns its 2048-byte buffer for wide structs; a field of type `str` makes `Strcat` read 48 arguments of
  an array of three. ° Whole numbers are written as `float` with `%g`, so `1234567` becomes `1.23457e+06`; texts are not escaped.
* `fopen` and `read_file` (C60) are declared to give a `file` and a `str` but give null for a missing file, and then every use is
  undefined; so is every use of a closed file. `fwrite(f, s, n)` reads behind the string if `n` is larger. `write_file` and
  `fwrite(f, s)` stop at a NUL. `fsize` moves the position to 0.
* `use delegate("f") as g` (C59) reads a NULL pointer if there is no function `f`; for a C function `f` it succeeds, but calling
  the delegate fails an assertion (its number is -1).
* ° A file closed by the program is closed again when it is collected.
