import json
P=[]
def p(id,title,statement,quant,why,anchors):
    P.append(dict(id=id,title=title,statement=statement,quantifier=quant,why_tests_cant=why,anchors=anchors))

p("C01","A dictionary is a finite map over every history",
 "After any sequence of DictSet / DictRemove / DictClear calls on a dictionary made by InitDict, with non-null hashable keys, DictGet(k) returns the value of the last DictSet whose key equals k (in the sense of Tiny_AreValuesEqual) and which was not followed by a DictRemove of an equal key or a DictClear, and returns NULL when there is no such DictSet.",
 "every finite sequence of dictionary operations, every key and value, every hash collision pattern, every growth point",
 "Linear probing with tombstone-free deletion goes wrong only for particular collision/wrap-around/grow patterns; the space of histories and hash values is unbounded.",
 ["tiny/src/dict.c:DictSet","tiny/src/dict.c:DictGet","tiny/src/dict.c:DictRemove","tiny/src/dict.c:DictClear","tiny/src/dict.c:Grow","tiny/src/dict.c:HashValue"])
p("C02","Dictionary enumeration lists each live entry exactly once",
 "After any history, walking the dictionary's buckets (as dict_keys/dict_values do) yields every live key exactly once, no dead key, and the values come out in the same order as their keys; the stored element count equals the number of live keys.",
 "every history of dictionary operations",
 "Duplicate or lost entries appear only for specific interleavings of removal, re-insertion and growth.",
 ["tiny/src/dict.c:DictSet","tiny/src/dict.c:DictRemove","tiny/src/std.c:Lib_DictKeys","tiny/src/std.c:Lib_DictValues"])
p("C03","Dictionary operations terminate and never overflow the table",
 "On every dictionary reachable from InitDict, every operation with a valid key terminates without failing an assertion or touching a bucket outside the table, and afterwards at most half of the buckets are in use; a key that cannot be hashed (null, float, NULL address) always fails an assertion and never corrupts the table.",
 "every reachable dictionary and every key",
 "The probe loops have no bound in the code: termination depends on an invariant of all reachable tables.",
 ["tiny/src/dict.c:DictSet","tiny/src/dict.c:DictGet","tiny/src/dict.c:DictRemove","tiny/src/dict.c:HashValue"])
p("C04","Value equality is an equivalence compatible with hashing",
 "Tiny_AreValuesEqual is symmetric and transitive on all values and reflexive on all values except NaN floats; two equal keys always have the same hash; string objects and constant strings with the same bytes are equal.",
 "every pair and triple of values and every heap",
 "Triples of values of nine kinds over unbounded strings cannot be enumerated.",
 ["tiny/src/tiny.c:Tiny_AreValuesEqual","tiny/src/dict.c:HashValue"])
p("C05","Arrays behave as lists over every history",
 "For any sequence of push, pop, shift, insert, remove, set, get, clear and shrink on an array, contents, length and returned values equal those of a mathematical list, every access stays inside the allocated buffer, and an out-of-range index or pop of an empty array fails an assertion instead of touching memory.",
 "every history, every element value, every growth point",
 "Off-by-one errors against capacity only show for particular length/capacity combinations reached by long histories.",
 ["tiny/src/array.c","tiny/src/stretchy_buffer.h"])
p("C06","Growing an array pads it with the given value",
 "ArrayResize(a, n, v) leaves the first min(len,n) elements unchanged and, when n > len, makes every new element equal to v, without writing outside the buffer. (The code violates this for every non-empty array.)",
 "every array contents, every new length and every fill value",
 "Tests only resize empty arrays, where the indexing slip is invisible.",
 ["tiny/src/array.c:ArrayResize","tiny/src/std.c:Lib_ArrayResize"])
p("C07","Arena allocations are in bounds, disjoint and aligned",
 "Every block returned by Tiny_ArenaAlloc lies inside a page owned by the arena, overlaps no block returned earlier, and starts at a multiple of the requested (power of two) alignment when pages are aligned; later allocations never move or shrink earlier blocks.",
 "every sequence of allocation sizes and power-of-two alignments",
 "Overlap needs a particular sequence of sizes and alignments; the alignment rounding was, per its own comment, checked on two numbers.",
 ["tiny/src/arena.c:Tiny_ArenaAlloc","tiny/src/arena.c:NextMultipleOf"])
p("C08","Destroying an arena frees each page exactly once",
 "After any sequence of allocations Tiny_DestroyArena frees exactly the pages that were obtained from the allocator, each once, and reads no page after freeing it.",
 "every allocation history",
 "Double frees and leaks depend on the page-list shape built by the whole history.",
 ["tiny/src/arena.c:Tiny_DestroyArena","tiny/src/arena.c:Tiny_ArenaAlloc"])
p("C09","Source positions map to the right line and column",
 "For every source text and every position inside it, Tiny_TranslatePosToLineNumber returns one plus the number of newlines before the position, and Tiny_PosToFriendlyPos returns that number of newlines and the distance from the preceding newline; the pair determines the position.",
 "every source text and every position",
 "Boundary cases (position on a newline, empty lines, no final newline) multiply without bound.",
 ["tiny/src/util.c:Tiny_TranslatePosToLineNumber","tiny/src/pos.c:Tiny_PosToFriendlyPos"])
p("C10","Error formatting never overruns its buffer",
 "For every buffer size, source, file name and message, Tiny_FormatErrorV writes no byte at or after buf+bufsize, leaves the buffer NUL-terminated when bufsize > 0, and the text in it is the longest prefix that fits of the full message (newline, numbered source lines within three of the error line, 'ERROR file(line): message').",
 "every buffer size, source text, error position, file name and message",
 "Overruns appear only at exact truncation boundaries.",
 ["tiny/src/util.c:Tiny_FormatErrorV"])
p("C11","Tokens lex back from their spelling",
 "If a source text consists of spellings of tokens (operators, keywords, identifiers, decimal and hexadecimal integers, floating-point, string and character literals), the longest reading taken at every point, then calling Tiny_GetToken until TINY_TOK_EOF delivers exactly these tokens, with the spelled names, string contents, characters and numbers; conversely whatever is delivered is such a reading of the source. In particular any list of tokens written with blanks between them lexes back.",
 "every source text, every finite list of tokens",
 "Maximal munch between operators, keywords, numbers and identifiers has unboundedly many contexts.",
 ["tiny/src/lexer.c:Tiny_GetToken","tiny/src/lexer.c:GetToken"])
p("C12","Lexing terminates unless a string literal is left open",
 "Calling Tiny_GetToken until it returns TINY_TOK_EOF or an error token ends after a number of steps bounded by the length of the source, without reading outside it, for every source in which no string literal is left open; it ends with TINY_TOK_EOF exactly when the source consists of tokens. When a string literal is left open the call never returns (a defect: no error can be reported).",
 "every source text",
 "Non-termination cannot be observed by a test and depends on the remaining input.",
 ["tiny/src/lexer.c:Tiny_GetToken"])
p("C13","String and character literals denote the escaped text",
 "Every byte string without NUL can be written as a string literal by escaping, and the literal lexes to exactly that byte string, leaving the lexer just after the closing quote; likewise for character literals and every byte but NUL.",
 "every byte string and every following text",
 "Escapes interact with each other and with the closing quote in unboundedly many strings.",
 ["tiny/src/lexer.c:CHECK_ESCAPE","tiny/src/lexer.c:Tiny_GetToken"])
p("C14","White space and comments between tokens do not matter",
 "Any white space and any // comments between tokens give the same sequence of tokens and values (a comment directly after a / excepted, since /// starts the comment one byte earlier).",
 "every list of tokens and every choice of separators",
 "The set of layouts of a program is infinite.",
 ["tiny/src/lexer.c:Tiny_GetToken"])
p("C15","Token line numbers are exact",
 "The line number the lexer reports at a token is one plus the number of newlines before it, not counting newlines inside earlier string and character literals. (So it is too small after a string literal containing a raw newline: a defect.)",
 "every source text and every token in it",
 "Depends on the whole prefix of the source text.",
 ["tiny/src/lexer.c:Tiny_GetToken","tiny/src/tiny.c:AddPCFileLineRecord"])
p("C16","Binary expressions group by precedence, left to right",
 "For every sequence of operands and binary operators, the parser's tree, read left to right, gives back the same sequence; in it an operator never has a weaker-binding operator as child on the left, nor a weaker or equally binding one on the right; and this tree is the only one with those properties.",
 "every finite expression",
 "Grouping of arbitrarily long operator chains.",
 ["tiny/src/tiny.c:ParseBinRhs","tiny/src/tiny.c:GetTokenPrec","tiny/src/tiny.c:ParseExpr"])
p("C17","Printing then parsing an expression is the identity",
 "For every expression tree, printing it with the minimal (or any sufficient) parentheses and parsing the tokens gives the tree back and leaves the following token unread.",
 "every expression tree, of any depth",
 "Trees are unbounded.",
 ["tiny/src/tiny.c:ParseExpr","tiny/src/tiny.c:ParseFactor","tiny/src/tiny.c:ParseValue"])
p("C18","Instruction operands survive encoding",
 "Whatever the length of the program so far, an operand written by the code generator is read back by the interpreter as the same number, at an aligned offset, with the program counter left at the next instruction; jumps patched later read back their final target and patching changes no other byte.",
 "every program length, operand value and operand width",
 "Alignment padding depends on the absolute position of the instruction in the whole program.",
 ["tiny/src/tiny.c:GEN_VALUE","tiny/src/tiny.c:READ_VALUE_AT","tiny/src/tiny.c:GenerateJump","tiny/src/tiny.c:PatchJumpLoc"])
p("C19","The disassembler and the interpreter agree on instruction boundaries",
 "For every instruction the disassembler supports, at any offset, Tiny_DisasmOne advances its pc exactly to the offset at which the interpreter continues when the instruction falls through, so a linear walk of any generated program visits exactly the instruction starts.",
 "every program and every offset",
 "Depends on opcode, alignment and operands.",
 ["tiny/src/tiny.c:Tiny_DisasmOne","tiny/src/tiny.c:ExecuteCycle"])
p("C20","Compiled expressions compute their value",
 "Executing the bytecode generated for an expression, placed anywhere in a program, ends with exactly one more value on the stack, equal to the value of the expression in the language's semantics, and with the rest of the stack, the frames and untouched globals and locals unchanged; a failing run-time check fails the run and an endless evaluation runs without end. (The exceptions, where the code does something else: float + or - the literal 1, string constants with index above 255, host integer constants wider than 32 bits, structs with more than 255 fields, and what C leaves undefined.)",
 "every expression, every position in a program, every machine state",
 "Expressions are unbounded trees; correctness is about all their stack interleavings.",
 ["tiny/src/tiny.c:CompileExpr","tiny/src/tiny.c:ExecuteCycle"])
p("C21","&& and || short-circuit, ?: evaluates one branch",
 "The right operand of && (||) is executed exactly when the left one is true (false); of the two branches of a conditional expression exactly the selected one is executed; a call in the skipped part has no effect.",
 "every pair or triple of operand expressions including ones with side effects",
 "The claim is about the absence of effects for all operand programs.",
 ["tiny/src/tiny.c:CompileExpr","tiny/src/tiny.c:GenerateJump","tiny/src/tiny.c:PatchJumpLoc"])
p("C22","Compiled statements and loops run as written",
 "Executing the bytecode of a statement (blocks, if/else, while, for, break, continue, return, assignments, expression statements), placed anywhere, has the effect given by the language's semantics, leaves the operand stack height unchanged and continues just after the statement; break leaves and continue resumes exactly the innermost loop. (The exception: break and continue outside any loop are accepted and jump to the start of the program.)",
 "every statement, loops running any number of iterations",
 "Loop counts and nesting depths are unbounded.",
 ["tiny/src/tiny.c:CompileStatement","tiny/src/tiny.c:PatchBreakContinue","tiny/src/tiny.c:ExecuteCycle"])
p("C23","Function calls preserve the caller's frame",
 "Calling a function, of any nesting or recursion depth within the machine's limits, and returning from it pops exactly the arguments, restores the caller's frame pointer, frame count and continuation, keeps the caller's locals and pending operands, and delivers the returned value.",
 "every function body that returns and every machine state",
 "Recursion depth and bodies are unbounded.",
 ["tiny/src/tiny.c:DoPushIndir","tiny/src/tiny.c:DoPopIndir","tiny/src/tiny.c:ExecuteCycle"])
p("C24","Tiny_CallFunction leaves the thread as it found it",
 "When the host calls Tiny_CallFunction on a thread (running or idle) and the function returns, pc, fp, sp, frame count and return value of the thread are what they were, the live part of the stack is unchanged, and the result is the function's return value.",
 "every thread state, function and argument list",
 "Requires reasoning over every execution of the callee.",
 ["tiny/src/tiny.c:Tiny_CallFunction"])
p("C25","Garbage collection never frees what a program can still reach",
 "If the collector runs at the end of any cycle, every object reachable from the stack, the globals or the pending return value survives with unchanged contents.",
 "every heap (of any size and shape without reference cycles) and every root set",
 "Heaps are unbounded graphs; use-after-free shows up only for specific shapes.",
 ["tiny/src/tiny.c:Tiny_ProtectFromGC","tiny/src/tiny.c:MarkAll","tiny/src/tiny.c:Sweep","tiny/src/tiny.c:GarbageCollect"])
p("C26","Garbage collection frees exactly the unreachable objects",
 "After a collection the object list contains exactly the reachable objects in the same order, each unreachable object was deleted exactly once, numObjects equals the length of the list, all marks are clear and the next threshold is twice the number of survivors.",
 "every heap and every root set",
 "Leaks and double frees depend on the whole heap graph.",
 ["tiny/src/tiny.c:Sweep","tiny/src/tiny.c:GarbageCollect","tiny/src/tiny.c:DeleteObject"])
p("C27","Garbage collection terminates on every heap",
 "Collecting any heap a script can build terminates. (The code violates this: the mark bit is set only after the fields were visited, so a struct reachable from itself recurses without end.)",
 "every heap, including cyclic ones",
 "Non-termination is not observable by a finite test.",
 ["tiny/src/tiny.c:Tiny_ProtectFromGC"])
p("C28","Program counters map to the right source line",
 "For every program, the file and line reported for a pc are those of the last statement whose code starts at or before that pc; records are kept strictly increasing by pc.",
 "every sequence of records added during compilation and every pc",
 "A binary search goes wrong only for particular lengths and gaps.",
 ["tiny/src/tiny.c:GetFileLineForPC","tiny/src/tiny.c:AddPCFileLineRecord"])
p("C29","String constants are interned",
 "Registering a string returns an index at which the table holds that string, equal strings get equal indices, different strings different ones, and registering never changes the string at an index given out earlier.",
 "every sequence of registered strings",
 "Depends on the whole registration history.",
 ["tiny/src/tiny.c:RegisterString","tiny/src/tiny.c:GeneratePushString"])
p("C30","Names resolve to the innermost visible declaration",
 "Inside a function, a name refers to the open local of that name if there is one, otherwise to the argument, otherwise to the global or constant; locals of closed scopes are invisible; redeclaring a visible local of the same function is rejected; functions see none of each other's locals.",
 "every sequence of scope openings, closings and declarations",
 "Scoping bugs need specific nesting histories.",
 ["tiny/src/tiny.c:ReferenceVariable","tiny/src/tiny.c:DeclareLocal","tiny/src/tiny.c:DeclareArgument","tiny/src/tiny.c:OpenScope","tiny/src/tiny.c:CloseScope"])
p("C31","Distinct variables never share storage",
 "Two different locals of one function, two different arguments, a local and an argument, and two different globals always have different storage slots, all inside the frame the call sets up.",
 "every sequence of declarations",
 "Slot clashes depend on the full declaration history.",
 ["tiny/src/tiny.c:DeclareLocal","tiny/src/tiny.c:DeclareArgument","tiny/src/tiny.c:DeclareGlobalVar","tiny/src/tiny.c:CompileStatement"])
p("C32","A failed compile does not disturb what was compiled before",
 "After Tiny_CompileString reports an error, the state has exactly the symbols, strings, bound functions and function entries it had, the same amount of code, and every byte of the earlier code is unchanged except possibly the final HALT; variable and function numbers handed out are never handed out again, and further sources can be compiled. After an error found while parsing or type checking (and no `use`) the code, entries and line records are exactly what they were. A successful compilation likewise keeps everything that was there. Exceptions the code makes, each exhibited: a code-generation error overwrites the final HALT and leaves line records behind; a struct that had only been mentioned stays defined; an error inside a function body leaves a pointer to the destroyed function which the next compilation reads.",
 "every history of host calls, every source and every failure point in it, every macro that itself only binds and compiles",
 "The failure may occur at any point of parsing, typing or code generation, after any history.",
 ["tiny/src/tiny.c:Tiny_CompileString","tiny/src/tiny.c:CompileState","tiny/src/tiny.c:Tiny_BindMacro","tiny/src/tiny.c:BuildForeignFunctions"])
p("C33","Threads of one state do not interfere",
 "For any interleaving of cycles of two threads started on one compiled state, each thread's stack, globals, heap and result are the same as if it had run alone for the same number of cycles.",
 "every interleaving schedule and every program without shared native state",
 "The number of schedules is unbounded.",
 ["tiny/src/tiny.c:Tiny_ExecuteCycle","tiny/src/tiny.c:Tiny_InitThread","tiny/src/tiny.c:Tiny_StartThread"])
p("C34","Integer arithmetic is 64-bit two's complement where it does not narrow",
 "+, - and * on integers give the mathematical result whenever it fits 64 bits; %, |, &, <<, >> and literals keep only the low 32 bits, sign-extended, so they agree with the mathematical result exactly when it fits 32 bits; comparisons are exact.",
 "all pairs of 64-bit integers",
 "2^128 pairs.",
 ["tiny/src/tiny.c:ExecuteCycle","tiny/src/tiny.c:Tiny_NewInt"])
p("C35","Struct fields are independent cells",
 "A struct built from n values has exactly those fields in order; writing field i makes reading i return the written value and leaves every other field and every other object unchanged; constructors with designated field names store each argument under its name.",
 "every field count, index, heap and argument order",
 "Quantifies over all heaps and permutations.",
 ["tiny/src/tiny.c:ExecuteCycle","tiny/src/tiny.c:CompileExpr","tiny/src/tiny.c:NewStructObject"])
p("C36","Type assignability is exactly the documented relation",
 "A value of static type S may be stored where type T is declared exactly when S is not void and T is any, or S and T are the same non-nullable type, or T is U? with S not any and S assignable to U; so assignability is reflexive except for void and for U? where U? is not assignable to U, and null (of type any) cannot be stored in a T?.",
 "every pair of types",
 "Types are unbounded (nested nullables, structs).",
 ["tiny/src/tiny.c:IsTagAssignableTo","tiny/src/tiny.c:GetOrCreateNullableSymbol"])
p("C37","Well-typed programs of the core language never go wrong",
 "If the type checker accepts a program of the core language, then running it, on values of the declared types and with foreign functions that do what their signatures say, never fails one of the interpreter's type assertions and never uses a value as what it is not: every expression gives a value of its type, every function one of its result type, every variable and every field of every object keeps a value of its type. The core language: variables are read only after they have been assigned on every path; calls, constructors and index functions get all their arguments with the right types; the operator of a compound assignment fits its operands; functions with a result type return on every path; no downcasts; break and continue only in loops. (The type checker does not enforce these; without each of them there are accepted programs which run into undefined behaviour.)",
 "every accepted program of the core language, every expression, statement and call in it, every well-typed state and every length of the run",
 "Soundness is a statement about all programs and all their runs.",
 ["tiny/src/tiny.c:ResolveTypes","tiny/src/tiny.c:ExecuteCycle","tiny/src/tiny.c:IsTagAssignableTo"])
p("C38","String library functions are exact",
 "strcat returns the concatenation of its arguments' bytes in order; substr(s,a,b) returns bytes a..b-1 (to the end when b is -1) and fails an assertion outside 0<=a<=b<=len, except that an empty range past the end gives the empty string; stridx and strchr read and find bytes exactly; substr pieces concatenate back to the string; strlen of a concatenation is the sum.",
 "every list of strings and every index",
 "Unbounded strings and index combinations.",
 ["tiny/src/std.c:Strcat","tiny/src/std.c:Lib_Substr","tiny/src/std.c:Strlen"])
p("C39","Sorting integers orders them",
 "Sorting an array of integers which lie less than 2^31 apart yields the same integers in ascending order, whatever algorithm the C library's qsort uses. (Farther apart the comparison is not even an order: the difference is narrowed to 32 bits.)",
 "every array of 64-bit integers and every sorting algorithm that keeps the contract of qsort",
 "2^128 pairs; the failure needs large magnitudes.",
 ["tiny/src/std.c:CompareInts","tiny/src/std.c:Lib_ArraySortInt"])
p("C40","Integers survive conversion to text and back",
 "For every integer in the 32-bit range, converting it to a string and back with the library gives the same integer (the low 32 bits in general), different integers have different texts, and in a source the text is the literal of that integer, after a minus sign for negative ones. In general stoi of a text in a base from 2 to 36 is the number the text begins with (blanks, sign, longest run of digits), limited to 64 bits and cut to 32.",
 "every 32-bit integer",
 "2^32 values and formatting of signs and widths.",
 ["tiny/src/lexer.c:Tiny_GetToken","tiny/src/std.c"])
p("C41","Running a program is deterministic and stops only as specified",
 "Given the same foreign functions, a thread's state after n cycles is a function of its start state; a thread that has stopped stays stopped and unchanged; HALT, or return from the entry frame, are the only ways to stop.",
 "every program, thread state and number of cycles",
 "Executions are unbounded.",
 ["tiny/src/tiny.c:Tiny_ExecuteCycle","tiny/src/tiny.c:Tiny_Run"])
p("C42","Jumps land on instructions of the same compilation unit",
 "In the code generated for any statement or expression every jump target is the start of an instruction generated for that statement or the position just after it; no jump leaves the code generated so far.",
 "every program",
 "Requires induction over all programs.",
 ["tiny/src/tiny.c:CompileStatement","tiny/src/tiny.c:CompileExpr","tiny/src/tiny.c:PatchBreakContinue"])
p("C43","Garbage collection is invisible to programs",
 "Running any program with the collector gives, after every number of cycles, the same pc, stack, frames, return value, globals, foreign calls and contents of all reachable objects as running it on an interpreter which never collects, unless a collection meets a reachable cycle (where the code recurses without end).",
 "every program, every number of cycles, every set of foreign functions which cannot tell the heaps apart",
 "Collections can happen after any instruction, with any heap shape.",
 ["tiny/src/tiny.c:ExecuteCycle","tiny/src/tiny.c:GarbageCollect","tiny/src/tiny.c:MarkAll","tiny/src/tiny.c:Sweep"])
p("C44","Compile errors name the line of the token that was read last",
 "The line named by a compile error raised after a token has been read is the line on which that token ends, unless a newline directly follows the token: then it is the next line (a defect: the lexer's position is one past its lookahead byte).",
 "every source text and every token in it",
 "Depends on the whole source text and on what follows the token.",
 ["tiny/src/tiny.c:ReportErrorSL","tiny/src/util.c:Tiny_TranslatePosToLineNumber","tiny/src/lexer.c:Tiny_GetToken"])
p("C45","The parser accepts exactly the grammar, and gives each program one tree",
 "A token sequence is accepted as a program, statement or expression exactly if the grammar (which the reference manual of the language would contain) derives it and its names can be looked up and declared from left to right; the tree built is the one the grammar assigns, and the grammar assigns only one.",
 "every token sequence, hence every source text the lexer accepts, and every state of the symbol tables",
 "Programs are unbounded; an ambiguity or a wrongly accepted phrase can need any nesting.",
 ["tiny/src/tiny.c:ParseProgram","tiny/src/tiny.c:ParseStatement","tiny/src/tiny.c:ParseExpr","tiny/src/tiny.c:ParseValue","tiny/src/tiny.c:ParseFactor"])
p("C46","Parsing any source ends, without undefined behaviour, and keeps what was declared before",
 "For every source text in which the lexer does not hang (no unterminated string literal), the parser returns a tree or reports an error; it never trips an assertion other than the limit on string constants, and in both cases every symbol, string, variable number and function number given out before is still there and not given out again.",
 "every NUL-free source text, well-formed or not, and every earlier state of the symbol tables",
 "All malformed inputs have to be covered.",
 ["tiny/src/tiny.c:ParseProgram","tiny/src/tiny.c:ParseStatement","tiny/src/tiny.c:ReferenceVariable","tiny/src/tiny.c:DeclareGlobalVar","tiny/src/tiny.c:GetStructTag"])
p("C47","The type checker accepts exactly the programs which follow the typing rules",
 "In any symbol table a host can build up by binding and compiling, a parsed program passes type checking exactly if it follows the typing rules of the language (written down as inference rules), every expression gets at most one type and one meaning for its names, and the accepted program follows the rules for the types its variables have in the end.",
 "every parsed program and every earlier history of binding and compiling",
 "Programs are unbounded and a wrongly accepted phrase can need any nesting and any earlier declarations.",
 ["tiny/src/tiny.c:ResolveTypes","tiny/src/tiny.c:IsTagAssignableTo","tiny/src/tiny.c:GetFieldTag"])
p("C48","Sources compiled one after another make up one program which the machine runs as the language says",
 "A host binds functions, constants, types and macros, compiles any number of sources (some of which may use macros that compile further sources, some of which may fail in the parser or type checker) and runs the state: the machine does what the language says about the program made of the statements of the sources compiled successfully, in the order of their code; every function found by name is the one defined in it and calling it does what the language says; bound functions keep their number; each source follows the typing rules; and if all keep to the core language no run fails a check or reads what does not exist.",
 "every session: any number and order of host calls and compilations, nested ones included, every source text, every run",
 "Sessions are unbounded and every later compilation changes the tables and code earlier sources depend on.",
 ["tiny/src/tiny.c:Tiny_CompileString","tiny/src/tiny.c:CompileState","tiny/src/tiny.c:Tiny_Run","tiny/src/tiny.c:Tiny_CallFunction","tiny/src/tiny.c:Tiny_BindMacro"])
p("C49","A signature text binds exactly the function it describes",
 "Tiny_BindFunction, given a text that consists of tokens, binds a function exactly if the text is a signature (name; or name, argument types, optional '...', optional result type), the name is not bound yet and 'void?' does not occur; the function then gets the next number and the types the text names, where a name means the built-in type, else the registered type or struct of that name, which may be registered or defined later; apart from the types mentioned for the first time nothing is added. Later calls in scripts are checked against exactly these types. Otherwise the process stops, or (void?) the error goes to the compilation under way.",
 "every signature text (all names, numbers of arguments, spacing), every earlier state",
 "Texts, names and earlier states are unbounded.",
 ["tiny/src/tiny.c:Tiny_BindFunction","tiny/src/tiny.c:BindFunction","tiny/src/tiny.c:ParseTypeL","tiny/src/tiny.c:Tiny_FindTypeSymbol"])
p("C50","The standard library and the array macro declare exactly the documented functions",
 "Tiny_BindStandardLib, -Array, -Dict, -IO and Tiny_BindI64 succeed whenever their names are free (in particular all of them, in a new state) and then every name means the C function with the documented argument and result types, the types are registered, and what was declared before still is. 'use array(\"t\") as a' makes a a new type with the functions a, a_push, a_get, a_len, ... over elements of type t, so that x[i] has type t; using it again does nothing; unknown element types are an error that changes nothing. Sources using such macros compile into sessions to which all theorems about compiled programs apply.",
 "all names of array and element types (up to the buffer size), every earlier state of the symbol tables, every source using the macro",
 "Names, earlier states and sources are unbounded; the signatures are built by string formatting and parsed again at run time.",
 ["tiny/src/std.c:ArrayMacroFunction","tiny/src/std.c:Tiny_BindStandardLib","tiny/src/std.c:Tiny_BindStandardDict","tiny/src/std.c:Tiny_BindStandardIO","tiny/src/std.c:Tiny_BindI64","tiny/src/tiny.c:Tiny_RegisterType"])
p("C52","A source declares exactly what it says",
 "After a source is compiled, the symbol table has, besides what it had before, exactly one entry for each declaration of the source: each struct with its fields in order and their types (1 to 255 fields, different names), each constant with the value of its literal, each function with its arguments and result, each global variable with its declared type; all structs it mentions are defined. A struct, a constant or a 'use' is accepted exactly when the rules allow it; 'return', functions and structs are accepted only in their places.",
 "all source texts and all earlier states of the symbol tables reached without a failed compilation",
 "Sources and tables are unbounded; the limit on fields, the scopes and the order of updates interact.",
 ["tiny/src/tiny.c:ParseStruct","tiny/src/tiny.c:ParseFunc","tiny/src/tiny.c:ParseStatement","tiny/src/tiny.c:DeclareConst","tiny/src/tiny.c:Tiny_CompileString"])
p("C51","Arrays and dictionaries of the standard library are lists and maps in every program",
 "At every moment of every run of a program (collections included) each array of the library holds a list and each dictionary a map: every library function called with arrays, dictionaries and values of the program gives the result the list or map operation gives, changes that one array or dictionary as the operation does and no other object; keys() and values() give each key and its value once, in the same order; the sort function of integer arrays sorts. Other functions, assignments and the collector change none of it. The functions for dictionaries never run into undefined behaviour, and no library function can tell whether the collector ran.",
 "every program, every run, every sequence of calls, all keys and values, every point at which the collector runs",
 "Histories of calls, sizes, keys and collections are unbounded, and the memory is shared by all arrays and dictionaries.",
 ["tiny/src/std.c:CreateArray","tiny/src/std.c:Lib_ArrayPush","tiny/src/std.c:CreateDict","tiny/src/std.c:Lib_DictPut","tiny/src/std.c:Lib_DictKeys","tiny/src/std.c:Lib_ArraySortInt","tiny/src/array.c","tiny/src/dict.c"])
p("C53","No source is rejected for an uninitialized variable",
 "Every variable is assigned to by the statement that declares it, so the last phase of Tiny_CompileString never reports 'Attempted to use uninitialized variable': for every source and every earlier history the result and the state are those of a compilation without that phase.",
 "every source text, every earlier history of binding and compiling, macros included",
 "Sources and histories are unbounded; a declaration that escapes its assignment could hide in any nesting.",
 ["tiny/src/tiny.c:CheckInitialized","tiny/src/tiny.c:ParseStatement","tiny/src/tiny.c:CompileStatement","tiny/src/tiny.c:Tiny_CompileString"])
p("C54","The 64-bit integers of the standard library are numbers",
 "i64(i) is the number i; i64_add and i64_mul of any number of arguments are their sum and product as long as no intermediate result leaves the 64-bit range (else the behaviour is undefined); i64_to_string is a new string with the decimal text; == on them is equality of the numbers. None of them changes the memory otherwise.",
 "every argument list, number and memory",
 "Argument lists and numbers are unbounded; tests try a few values, rarely at the ends of the range.",
 ["tiny/src/std.c:Lib_IntToI64","tiny/src/std.c:Lib_I64AddMany","tiny/src/std.c:Lib_I64MulMany","tiny/src/std.c:Lib_I64ToString"])
p("C55","printf writes the format with each directive replaced by its argument",
 "printf(format, ...) writes the text of the format as it is and for each directive (%i %f %s %c %q) its own argument in order, ignores arguments left over, ends the process if there are too few, and changes nothing else; %q shows structs and arrays recursively, and showing a value ends unless an array or struct contains itself. input(prompt) writes the prompt and returns the next line of the input.",
 "every format, argument list, memory and input",
 "Formats, argument lists and nested values are unbounded.",
 ["tiny/src/std.c:Print","tiny/src/std.c:Lib_Printf","tiny/src/std.c:Lib_Input"])
p("C57","Compiling does not crash",
 "In every state a host can reach by binding functions, constants, types and macros and compiling sources (where the host mentions no struct that is not defined and no source failed inside a function body), Tiny_CompileString on every source text on which the lexer returns either succeeds or reports an error; it does not run into undefined behaviour, does not end the process through an assertion and does not run for ever, and after it the state is again such a state. The exceptions are explicit: a declaration 'x := e' where e mentions x, '-' in front of the literal 2147483648, a 'use' with more than 128 arguments, more than 2048 different strings in all, and macros which crash themselves or register a type that the source makes with 'new'.",
 "every source text, every such state, every macro that only binds things",
 "Sources and histories are unbounded; a crash could hide in any combination of constructs in any nesting, in any phase (parser, macros, type checker, code generator).",
 ["tiny/src/tiny.c:Tiny_CompileString","tiny/src/tiny.c:CompileState","tiny/src/tiny.c:ParseStatement","tiny/src/tiny.c:ResolveTypes","tiny/src/tiny.c:GetStructTag","tiny/src/tiny.c:CompileExpr","tiny/src/tiny.c:CompileStatement","tiny/src/tiny.c:Tiny_BindFunction","tiny/src/tiny.c:Tiny_RegisterType"])
p("C58","Tiny_CompileString accepts exactly the valid programs",
 "In every state a host can reach by binding functions, constants, types and macros and compiling sources (as in C57), Tiny_CompileString returns success on a source without 'use' exactly if the source is a valid program, and reports an error otherwise. Valid means: it is derived from the grammar; names, structs and places follow the rules (a global variable is declared once, a local once per visible scope, a constant has an unused name, functions and structs are outside of functions, parameters and fields are distinct, a struct has 1 to 255 fields, 'return' is in functions, with a value only if there is a result type, 'void?' is no type); every type that is written and every struct that is made exists at the end of the source; the types follow the type rules; calls have at most 255 arguments, functions at most 255 locals, C functions get the number of arguments they need, and values are only assigned to variables, fields and elements.",
 "every source text, every such state",
 "Completeness (no valid program is rejected) and soundness (no invalid one is accepted) both range over all programs, of unbounded size and nesting.",
 ["tiny/src/tiny.c:Tiny_CompileString","tiny/src/tiny.c:CompileState","tiny/src/tiny.c:DeclareGlobalVar","tiny/src/tiny.c:DeclareLocal","tiny/src/tiny.c:DeclareConst","tiny/src/tiny.c:DeclareStruct","tiny/src/tiny.c:ParseStatement","tiny/src/tiny.c:ResolveTypes","tiny/src/tiny.c:CompileStatement","tiny/src/tiny.c:CheckInitialized"])
p("C56","use json(\"T\") gives functions which write structs as JSON",
 "Wherever a macro can be called, for a struct T whose fields are of types that can be written (there is a function t_to_json for the type, or it is such a struct itself; structs that contain themselves excepted) 'use json(\"T\")' succeeds: it compiles, one after the other, exactly one function S_to_json for T and for each struct S needed which has none. In every program compiled later S_to_json(v) returns a string which is the JSON object with the names of the fields in order and the texts the functions for their types return, at every depth, and changes nothing else; int, float, bool and null are written as C writes them. If T_to_json is there already nothing changes; a wrong number of arguments or a type which is no struct is an error.",
 "every reachable state, every struct type (any number of fields and nesting), every later program, every value",
 "Struct types, nesting and values are unbounded; the macro writes source text into a buffer, compiles it inside of another compilation, recursively.",
 ["tiny/src/std.c:JsonMacroFunction","tiny/src/std.c:BindJsonSerializerForType","tiny/src/std.c:Lib_PrimitiveToJson","tiny/src/std.c:Strcat","tiny/src/tiny.c:Tiny_CompileString"])
p("C59","use delegate(\"f\") as g gives values through which f can be called",
 "Wherever a macro can be called, for a function f with parameters of types t0, t1, ... and result r (all with names) 'use delegate(\"f\") as g' succeeds: it registers the type D = delegate_t0_t1_..._r, if it is not there yet, with a function D_call(D, t0, t1, ...): r, and declares g(): D; if D is there only g is compiled, if g is there too nothing is done. In every program compiled later, handing what g() returned to D_call with arguments, at any later time, calls f with exactly these arguments and returns what f returns (nothing if f has no result). Without a name, or with a wrong number of arguments, the macro is an error.",
 "every reachable state, every function (any number of parameters), every later program, all arguments",
 "Signatures are unbounded; the macro writes source texts, registers a type and compiles twice inside of another compilation; later programs and calls are unbounded.",
 ["tiny/src/std.c:DelegateMacroFunction","tiny/src/std.c:GetFunctionIndex","tiny/src/std.c:CallFunction","tiny/src/tiny.c:Tiny_GetFunctionIndex","tiny/src/tiny.c:Tiny_RegisterType","tiny/src/tiny.c:Tiny_CompileString"])
p("C60","Files: what is written is what is read, and nothing else changes",
 "fopen gives null and changes nothing if the file cannot be opened (always if it is to be read and missing), else a new stream at position 0 (writing empties the file). Texts written to a file opened for writing or appending and then closed are in the file in order, behind what was there when appending, whatever the C library buffers in between; texts read in pieces are the consecutive pieces of the content. fseek sets the position, fsize gives the size (and sets the position to 0), fwrite with a count writes so many bytes. read_file gives exactly the bytes of a file or null; write_file replaces the content by the text up to its first NUL, so that read_file after write_file gives a text without NULs back. No call changes a file or open stream other than the one it names. A closed or null file, a count behind the string, a negative length, and reading directly after writing are not guarded against (undefined).",
 "all files, contents, texts, positions, sequences of writes and reads, buffering choices of the C library, and arguments",
 "a test writes a few short texts under one C library; the claim is for every sequence of calls, every text including NULs and every point at which buffers are flushed",
 ["tiny/src/std.c:Lib_Fopen","tiny/src/std.c:Lib_Fread","tiny/src/std.c:Lib_Fwrite","tiny/src/std.c:Lib_Fseek","tiny/src/std.c:Lib_Fsize","tiny/src/std.c:Lib_Fclose","tiny/src/std.c:Lib_ReadFile","tiny/src/std.c:Lib_WriteFile"])
p("C61","Tiny_CompileFile is Tiny_CompileString of the text of the file",
 "If the file is missing or cannot be opened, Tiny_CompileFile gives an error and the state is exactly as before; otherwise result and state are those of Tiny_CompileString with the bytes of the file up to the first NUL, and the file name. No file changes. So compiling a file which a program has written with write_file is compiling that text.",
 "all states, files, contents and compilation environments",
 "must hold for every state and every file content",
 ["tiny/src/tiny.c:Tiny_CompileFile","tiny/src/tiny.c:Tiny_CompileString"])
p("C62","A line of a listing says what the instruction is",
 "Tiny_DisasmOne never writes more than maxlen bytes into its buffer, the NUL included. If maxlen allows for the position, it writes the address, the file and the line of the instruction, its name in opcodes.h, and its operands: numbers in decimal, characters in quotes, strings with their text, functions with their address, foreign functions with their name; what does not fit is cut off at the end and nothing else, so a smaller buffer always gets a beginning of what a larger one gets. If not even the position fits, it returns false and the address stays.",
 "all programs, addresses, states and buffer sizes",
 "must hold for every buffer size, including those which cut a line anywhere, and every program",
 ["tiny/src/tiny.c:Tiny_DisasmOne","tiny/src/tiny.c:GetFileLineForPC"])
p("C63","The host reads and sets the variables of a program by name",
 "Tiny_GetGlobalIndex gives -1 exactly for names of which there is no global variable; otherwise the number of the variable a source means by that name, which no other variable has and which never changes, whatever is bound or compiled later. Tiny_GetGlobal after a run gives the value the language says the variable has; Tiny_SetGlobal changes that variable and nothing else, and functions of the program called afterwards run as the language says with that value. Numbers outside of the variables fail an assertion.",
 "all states reachable by the host's calls, names, threads, values and programs",
 "the numbers are given by declarations in any order over any history of successful and failed compilations; a test sees a few of them",
 ["tiny/src/tiny.c:Tiny_GetGlobalIndex","tiny/src/tiny.c:Tiny_GetGlobal","tiny/src/tiny.c:Tiny_SetGlobal","tiny/src/tiny.c:Tiny_CallFunction"])
p("C64","The program which runs is the one which was written",
 "When Tiny_CompileString accepts a source, the statements the machine then runs for it (C48) are those of its text: the same operators, names, field names, types of casts and literals at the same places; a text literal is the text which was written, a name is a variable or constant declared under that name, a call of f runs the body written for f with its parameters. This stays so whatever is bound and compiled later, and also for sources which use macros.",
 "all sources, with or without use, over all histories of the host's calls and successful or failed compilations",
 "literals and functions become numbers in tables shared by all sources; a confusion of two of them shows only for particular histories",
 ["tiny/src/tiny.c:RegisterString","tiny/src/tiny.c:DeclareFunction","tiny/src/tiny.c:ParseValue","tiny/src/tiny.c:ParseFunc","tiny/src/tiny.c:ResolveTypes","tiny/src/tiny.c:CompileState"])
p("C65","Reported lines are lines of the text, over any history",
 "After any sequence of calls of the host and successful or failed compilations of sources with file names, including macros which compile sources, every statement of the sources which were accepted has an address where its code starts, in the order of the code; the file and line reported for an address are the file name given for the source and the line of the text of the last statement which starts at or before it. Where a statement starts, its own line is reported unless another one starts there too.",
 "all histories of calls, all sources and file names, all addresses",
 "the table is shared by all sources and file names are numbers in the table of all strings; records of failed sources or a name confused with a literal show only for particular histories",
 ["tiny/src/tiny.c:GetFileLineForPC","tiny/src/tiny.c:AddPCFileLineRecord","tiny/src/tiny.c:CompileStatement","tiny/src/tiny.c:CompileState","tiny/src/tiny.c:Tiny_CompileString","tiny/src/tiny.c:RegisterString"])
p("C66","Every number in a compiled program refers to an entry of its table",
 "In the program which any sequence of calls of the host and successful or failed compilations of sources leaves behind, including macros which compile sources, every instruction that names a text, a variable, a function or a bound function by number names one there is: the text is in the string table, the variable in the symbol table and below the number of global variables, the function has an address at which an instruction of the program starts, the bound function is the one whose pointer the state has under this number, and an argument or local is one of the function to whose code the instruction belongs (outside of functions none are named), and a field number is below the number of fields of a struct.",
 "all histories of calls, all sources, all instructions of the program",
 "tables grow and are partly undone when sources fail; a number which is off by one reads a neighbour's entry or beyond the table only for particular histories",
 ["tiny/src/tiny.c:CompileExpr","tiny/src/tiny.c:CompileGetLHS","tiny/src/tiny.c:CompileCallSymbolWithArgsPrepared","tiny/src/tiny.c:BuildForeignFunctions","tiny/src/tiny.c:RegisterString","tiny/src/tiny.c:Tiny_CompileString","tiny/src/tiny.c:ExecuteCycle"])
p("C67","Every compiled program can be listed",
 "In the program which any sequence of calls of the host and successful or failed compilations of sources with file names leaves behind, Tiny_DisasmOne lists every instruction (but the shifts): it returns true, the line begins with the address, file and line of a statement of the sources and the name of the instruction, and *ppc moves to the next instruction or to -1 at the end; everything it looks up is there, so it never fails an assertion or reads outside of a table. With a buffer large enough, calling it again and again from 0 ends, and shows each instruction of the program once, in order, and nothing else. If not even the position fits, it returns false and *ppc stays.",
 "all histories of calls, all sources, all instructions, all buffer sizes",
 "what the disassembler looks up was left by other parts of the code over any history; a missing entry shows only for particular programs",
 ["tiny/src/tiny.c:Tiny_DisasmOne","tiny/src/tiny.c:GetFileLineForPC","tiny/src/tiny.c:CompileStatement","tiny/src/tiny.c:Tiny_CompileString"])
with open('/verif/properties.jsonl','w') as f:
    for x in P: f.write(json.dumps(x)+"\n")
print(len(P))
