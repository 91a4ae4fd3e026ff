{
 "claims": [
  {
   "property": "C01",
   "status": "proved",
   "theorems": [
    "Tiny.c01_dict_is_a_map"
   ],
   "note": ""
  },
  {
   "property": "C02",
   "status": "proved",
   "theorems": [
    "Tiny.c02_dict_enumeration"
   ],
   "note": ""
  },
  {
   "property": "C03",
   "status": "proved",
   "theorems": [
    "Tiny.c03_dict_total_and_half_empty"
   ],
   "note": ""
  },
  {
   "property": "C04",
   "status": "proved",
   "theorems": [
    "Tiny.c04_equal_symm",
    "Tiny.c04_equal_trans",
    "Tiny.c04_equal_refl",
    "Tiny.c04_equal_hash",
    "Tiny.c04_strings",
    "Tiny.c04_strings_without_nul",
    "Tiny.c04_kinds",
    "Tiny.c04_other_kinds",
    "Tiny.c04_embedded_nul_witness"
   ],
   "note": "strings with embedded NUL compare only up to the NUL; witness proved"
  },
  {
   "property": "C05",
   "status": "proved",
   "theorems": [
    "Tiny.c05_array_is_a_list",
    "Tiny.c05_out_of_range"
   ],
   "note": ""
  },
  {
   "property": "C06",
   "status": "partial",
   "theorems": [
    "Tiny.c06_resize_partial",
    "Tiny.c06_resize_grow_defect",
    "Tiny.c06_resize_false",
    "Tiny.c06_resize_stale"
   ],
   "note": "the full statement is false of the code: growing a non-empty array writes the fill value at the wrong slots; proved for shrinking and for empty arrays, and the defect is characterised exactly"
  },
  {
   "property": "C07",
   "status": "proved",
   "theorems": [
    "Tiny.c07_arena_blocks",
    "Tiny.c07_arena_address",
    "Tiny.c07_rounding",
    "Tiny.c07_rounding_not_power_of_two"
   ],
   "note": ""
  },
  {
   "property": "C08",
   "status": "proved",
   "theorems": [
    "Tiny.c08_arena_destroy"
   ],
   "note": ""
  },
  {
   "property": "C09",
   "status": "proved",
   "theorems": [
    "Tiny.c09_line_number",
    "Tiny.c09_friendly_pos",
    "Tiny.c09_agree",
    "Tiny.c09_friendly_injective"
   ],
   "note": ""
  },
  {
   "property": "C10",
   "status": "proved",
   "theorems": [
    "Tiny.c10_format_error",
    "Tiny.c10_format_error_no_source"
   ],
   "note": ""
  },
  {
   "property": "C25",
   "status": "proved",
   "theorems": [
    "Tiny.c25_reachable_survives",
    "Tiny.c25_no_dangling_ever"
   ],
   "note": "foreign functions are assumed to respect the heap (ForeignKeepsHeap)"
  },
  {
   "property": "C26",
   "status": "proved",
   "theorems": [
    "Tiny.c26_collect_exact",
    "Tiny.c26_each_object_deleted_once"
   ],
   "note": ""
  },
  {
   "property": "C27",
   "status": "partial",
   "theorems": [
    "Tiny.c27_collect_terminates_partial",
    "Tiny.c27_cycle_never_ends"
   ],
   "note": "the full statement is false of the code: marking recurses for ever on a reachable cycle, which is proved; termination is proved exactly for heaps without one"
  },
  {
   "property": "C43",
   "status": "proved",
   "theorems": [
    "Tiny.c43_gc_transparent",
    "Tiny.foreignParametric_keeps"
   ],
   "note": ""
  },
  {
   "property": "C33",
   "status": "proved",
   "theorems": [
    "Tiny.c33_threads_independent",
    "Tiny.c33_any_schedule"
   ],
   "note": "host memory shared between threads through foreign functions is outside the model"
  },
  {
   "property": "C34",
   "status": "proved",
   "theorems": [
    "Tiny.c34_int_instruction",
    "Tiny.c34_comparison",
    "Tiny.c34_narrowing"
   ],
   "note": ""
  },
  {
   "property": "C35",
   "status": "proved",
   "theorems": [
    "Tiny.c35_construct",
    "Tiny.c35_read",
    "Tiny.c35_write"
   ],
   "note": ""
  },
  {
   "property": "C41",
   "status": "proved",
   "theorems": [
    "Tiny.c41_stopped",
    "Tiny.c41_how_to_stop",
    "Tiny.c41_run"
   ],
   "note": ""
  },
  {
   "property": "C20",
   "status": "proved",
   "theorems": [
    "Tiny.c20_expression",
    "Tiny.c20_program",
    "Tiny.c20_defect_float_plus_one",
    "Tiny.c20_defect_long_string",
    "Tiny.c20_defect_wide_constant"
   ],
   "note": "the semantics is the independent evaluator Spec/Lang.lean; the listed exceptions evaluate to 'undefined' there and what the code does is proved separately; runs that hit the stack or call depth limit are excepted; program-level theorem includes the collector"
  },
  {
   "property": "C21",
   "status": "proved",
   "theorems": [
    "Tiny.c21_and",
    "Tiny.c21_or",
    "Tiny.c21_conditional"
   ],
   "note": ""
  },
  {
   "property": "C22",
   "status": "proved",
   "theorems": [
    "Tiny.c22_statement",
    "Tiny.c20_program",
    "Tiny.c22_defect_break_outside_loop"
   ],
   "note": ""
  },
  {
   "property": "C23",
   "status": "proved",
   "theorems": [
    "Tiny.c23_call_any_code",
    "Tiny.c23_call_compiled"
   ],
   "note": ""
  },
  {
   "property": "C24",
   "status": "proved",
   "theorems": [
    "Tiny.c24_call_function",
    "Tiny.c24_stale_result"
   ],
   "note": "the value put back may be of an object the call has freed; the next call is then undefined (c24_stale_result)"
  },
  {
   "property": "C18",
   "status": "proved",
   "theorems": [
    "Tiny.c18_operand",
    "Tiny.c18_operand_fits",
    "Tiny.c18_call",
    "Tiny.c18_patch",
    "Tiny.c18_patch_succeeds"
   ],
   "note": ""
  },
  {
   "property": "C19",
   "status": "proved",
   "theorems": [
    "Tiny.c19_interpreter",
    "Tiny.c19_program",
    "Tiny.c19_defect_shift",
    "Tiny.c19_defect_long_string"
   ],
   "note": "the disassembler does not support the two shift instructions (proved); PUSH_STRING is decoded like the code generator writes it, not like the interpreter reads it (proved)"
  },
  {
   "property": "C42",
   "status": "proved",
   "theorems": [
    "Tiny.c42_expression",
    "Tiny.c42_statement",
    "Tiny.c42_program",
    "Tiny.c42_running"
   ],
   "note": "c42_running needs that no string constant has an index above 255 (see c20_defect_long_string)"
  },
  {
   "property": "C11",
   "status": "proved",
   "theorems": [
    "Tiny.c11_lex",
    "Tiny.c11_lex_sound",
    "Tiny.c11_unambiguous",
    "Tiny.c11_roundtrip",
    "Tiny.c14_layout",
    "Tiny.c40_literal"
   ],
   "note": "strtod is a parameter of the model: the value of a float literal is whatever it returns for the text"
  },
  {
   "property": "C12",
   "status": "proved",
   "theorems": [
    "Tiny.c12_terminates",
    "Tiny.c12_call"
   ],
   "note": "the one case that does not terminate (an unterminated string literal) is proved not to"
  },
  {
   "property": "C13",
   "status": "proved",
   "theorems": [
    "Tiny.c13_quote",
    "Tiny.c13_string",
    "Tiny.c13_char",
    "Tiny.c13_char_all"
   ],
   "note": ""
  },
  {
   "property": "C14",
   "status": "proved",
   "theorems": [
    "Tiny.c14_layout"
   ],
   "note": ""
  },
  {
   "property": "C15",
   "status": "proved",
   "theorems": [
    "Tiny.c15_line",
    "Tiny.c15_exact",
    "Tiny.newline_in_token",
    "Tiny.c15_defect"
   ],
   "note": "newlines inside string literals are not counted (c15_defect)"
  },
  {
   "property": "C44",
   "status": "proved",
   "theorems": [
    "Tiny.c44_error_line",
    "Tiny.c44_defect"
   ],
   "note": ""
  },
  {
   "property": "C38",
   "status": "proved",
   "theorems": [
    "Tiny.c38_strcat",
    "Tiny.c38_substr",
    "Tiny.c38_pieces",
    "Tiny.c38_strlen",
    "Tiny.c38_strlen_strcat",
    "Tiny.c38_strchr",
    "Tiny.c38_stridx",
    "Tiny.c38_defect_nul"
   ],
   "note": "strlen stops at an embedded NUL (c38_defect_nul), so the sum of lengths needs strings without NUL"
  },
  {
   "property": "C39",
   "status": "proved",
   "theorems": [
    "Tiny.c39_sort",
    "Tiny.c39_defect",
    "Tiny.qsort_exists"
   ],
   "note": "qsort is any function keeping its contract; beyond 2^31 the comparison is proved not to be an order"
  },
  {
   "property": "C40",
   "status": "proved",
   "theorems": [
    "Tiny.c40_int_to_str",
    "Tiny.c40_roundtrip",
    "Tiny.c40_text_injective",
    "Tiny.c40_source",
    "Tiny.c40_literal",
    "Tiny.c40_stoi"
   ],
   "note": ""
  },
  {
   "property": "C29",
   "status": "proved",
   "theorems": [
    "Tiny.c29_intern",
    "Tiny.c29_limit"
   ],
   "note": "registration fails (an assertion of the program) only for a new string when the table holds 1024 strings"
  },
  {
   "property": "C30",
   "status": "proved",
   "theorems": [
    "Tiny.c30_scoping"
   ],
   "note": "stated for every sequence of the parser's scope operations (open, close, declare, enter and leave a function)"
  },
  {
   "property": "C31",
   "status": "proved",
   "theorems": [
    "Tiny.c31_storage"
   ],
   "note": ""
  },
  {
   "property": "C36",
   "status": "proved",
   "theorems": [
    "Tiny.c36_assignable",
    "Tiny.c36_reflexive",
    "Tiny.c36_nullable_defect",
    "Tiny.c36_null_defect"
   ],
   "note": "the exact relation the code implements; its failures of reflexivity are proved as defects"
  },
  {
   "property": "C28",
   "status": "proved",
   "theorems": [
    "Tiny.c28_table",
    "Tiny.c28_lines",
    "Tiny.c28_defect"
   ],
   "note": "while a bound function called by a call statement runs, the pc is already past the statement and the next statement's line is reported (c28_defect)"
  },
  {
   "property": "C16",
   "status": "proved",
   "theorems": [
    "Tiny.c16_grouping",
    "Tiny.c16_all"
   ],
   "note": ""
  },
  {
   "property": "C17",
   "status": "proved",
   "theorems": [
    "Tiny.c17_roundtrip",
    "Tiny.c17_same",
    "Tiny.c17_parentheses",
    "Tiny.c17_print_parse",
    "Tiny.c17_exact"
   ],
   "note": "any sufficient parentheses; which are sufficient is exact (c17_exact)"
  },
  {
   "property": "C45",
   "status": "proved",
   "theorems": [
    "Tiny.c45_program",
    "Tiny.c45_program_sound",
    "Tiny.c45_statement",
    "Tiny.c45_statement_sound",
    "Tiny.c45_expr",
    "Tiny.c45_expr_sound",
    "Tiny.c45_unique",
    "Tiny.c45_source"
   ],
   "note": "the grammar is that of the code, including its oddities (any unknown token as assignment operator, 'new' followed by any token)"
  },
  {
   "property": "C46",
   "status": "proved",
   "theorems": [
    "Tiny.c46_parse",
    "Tiny.c46_source",
    "Tiny.c46_no_hang"
   ],
   "note": "an assertion can fail only if the table and the literals of the source are more than MAX_STRINGS different strings (Spec.TooMany)"
  },
  {
   "property": "C47",
   "status": "proved",
   "theorems": [
    "Tiny.c47_expr",
    "Tiny.c47_unique",
    "Tiny.c47_statement",
    "Tiny.c47_program"
   ],
   "note": "the rules are those of the code, with its gaps (too few arguments are accepted, compound assignment only needs assignability, index functions are not checked against their use)"
  },
  {
   "property": "C32",
   "status": "proved",
   "theorems": [
    "Tiny.c32_failed",
    "Tiny.c32_succeeded",
    "Tiny.c32_nested",
    "Tiny.c32_exact",
    "Tiny.c32_source",
    "Tiny.c32_halt_lost",
    "Tiny.c32_dangling",
    "Tiny.c32_struct_left",
    "Tiny.c32_lines_left"
   ],
   "note": "macros are assumed to keep what was there (c32_nested: compiling does); states after an error inside a function body are excluded because the code then reads freed memory (c32_dangling); the exceptions are theorems"
  },
  {
   "property": "C37",
   "status": "proved",
   "theorems": [
    "Tiny.c37_expression",
    "Tiny.c37_statement",
    "Tiny.c37_call",
    "Tiny.c37_program",
    "Tiny.c37_machine",
    "Tiny.c37_uninitialized",
    "Tiny.c37_no_return",
    "Tiny.c37_too_few",
    "Tiny.c37_compound",
    "Tiny.c37_cast"
   ],
   "note": "for the core language (Verif/Spec/Sound.lean); c37_machine is about the compiled code; the rules which the type checker lacks are each shown to be necessary by an accepted program that runs into undefined behaviour"
  },
  {
   "property": "C48",
   "status": "proved",
   "theorems": [
    "Tiny.c48_run",
    "Tiny.c48_function",
    "Tiny.c48_call",
    "Tiny.c48_bound",
    "Tiny.c48_checked",
    "Tiny.c48_sound",
    "Tiny.c48_source",
    "Tiny.c48_machine"
   ],
   "note": "from the source text to the run (C45, C47, C20, C37 composed); runs that meet the stack or depth limit or collect a reachable cycle are excepted as in C20; failures in code generation or inside a function body end a session (C32)"
  },
  {
   "property": "C49",
   "status": "proved",
   "theorems": [
    "Tiny.c49_outcome",
    "Tiny.c49_bind",
    "Tiny.c49_text",
    "Tiny.c49_declare",
    "Tiny.c49_typed",
    "Tiny.c49_session",
    "Tiny.c49_findType",
    "Tiny.c49_findType_none",
    "Tiny.c49_void_ub"
   ],
   "note": "texts which contain characters that start no token are not covered by c49_outcome; outside of a compilation the error for 'void?' is undefined behaviour (c49_void_ub)"
  },
  {
   "property": "C50",
   "status": "proved",
   "theorems": [
    "Tiny.c50_array",
    "Tiny.c50_declared",
    "Tiny.c50_again",
    "Tiny.c50_error",
    "Tiny.c50_taken",
    "Tiny.c50_index",
    "Tiny.c50_calls",
    "Tiny.c50_keeps",
    "Tiny.c50_source",
    "Tiny.c50_lib",
    "Tiny.c50_dict",
    "Tiny.c50_io",
    "Tiny.c50_i64",
    "Tiny.c50_std",
    "Tiny.c50_setup",
    "Tiny.StdEx.c50_ends",
    "Tiny.StdEx.c50_long"
   ],
   "note": "for array types whose name and element type are short enough for the 512-byte buffer (2*|name|+|type| <= 484); beyond it texts are cut off (c50_long); if one of the names is already bound by the host the process ends (c50_taken); what the C functions do is not part of this claim (see C08, C38, C39, C51)"
  },
  {
   "property": "C52",
   "status": "proved",
   "theorems": [
    "Tiny.c52_declares",
    "Tiny.c52_uses",
    "Tiny.c52_places",
    "Tiny.c52_ready",
    "Tiny.c52_struct",
    "Tiny.c52_use",
    "Tiny.c52_const",
    "Tiny.c52_calls",
    "Tiny.c52_setup",
    "Tiny.c52_source",
    "Tiny.c52_use_ignored",
    "Tiny.c52_scope_left"
   ],
   "note": "c52_source is for sources without 'use' (whose macros may declare more); the inferred types of variables are the subject of C47; 'use' as the body of an if is accepted but ignored (c52_use_ignored); after an error inside a block the state is not at rest (c52_scope_left)"
  },
  {
   "property": "C51",
   "status": "proved",
   "theorems": [
    "Tiny.c51_parametric",
    "Tiny.c51_gc",
    "Tiny.librarySpec",
    "Tiny.c51_library",
    "Tiny.c51_dict_total",
    "Tiny.sampleMachine_uses",
    "Tiny.c51_index_cut",
    "Tiny.c51_keys_clear",
    "Tiny.c51_resize_null",
    "Tiny.c51_get_null",
    "Tiny.c51_misuse"
   ],
   "note": "growing an array which is not empty by resize is excluded (C06); qsort is any function keeping its contract (and permuting its input even where the comparison is no order); reading an object out of an array declared as primitive is undefined because it is not traced"
  },
  {
   "property": "C53",
   "status": "proved",
   "theorems": [
    "Tiny.c53_never",
    "Tiny.c53_source",
    "Tiny.check_passes",
    "Tiny.c37_uninitialized"
   ],
   "note": "the check is therefore useless: programs that do read variables before they are set are accepted (c37_uninitialized)"
  },
  {
   "property": "C54",
   "status": "proved",
   "theorems": [
    "Tiny.c54_of_int",
    "Tiny.c54_add",
    "Tiny.c54_mul",
    "Tiny.c54_to_string",
    "Tiny.c54_equal",
    "Tiny.c54_zero_key"
   ],
   "note": "sums and products outside the 64-bit range are signed overflow (undefined)"
  },
  {
   "property": "C55",
   "status": "proved",
   "theorems": [
    "Tiny.c55_printf",
    "Tiny.c55_too_few",
    "Tiny.c55_format",
    "Tiny.c55_trailing",
    "Tiny.c55_shown_once",
    "Tiny.c55_cycle",
    "Tiny.c55_input",
    "Tiny.c55_input_eof",
    "Tiny.c55_percent"
   ],
   "note": "what the C library writes for %f and %p is a parameter; %i, %f and %c with an argument that is no number are not modelled (they read the union whatever the tag)"
  },
  {
   "property": "C57",
   "status": "proved",
   "theorems": [
    "Tiny.c57_source",
    "Tiny.c57_tokens",
    "Tiny.c57_check",
    "Tiny.c57_check_error",
    "Tiny.c57_noUse",
    "Tiny.c57_uses",
    "Tiny.c57_array",
    "Tiny.c57_std",
    "Tiny.c57_long",
    "Tiny.Crash1.c57_self",
    "Tiny.Crash1.c57_negate",
    "Tiny.Crash1.c57_open",
    "Tiny.Crash1.c57_made",
    "Tiny.Crash1.safe"
   ],
   "note": "the exceptions are those of the code: each is shown to be necessary by a source that crashes (c57_self, c57_negate, c57_long, c57_open, c57_made); memory for the tree and the machine stack of the recursive parser are taken to suffice; what is said of macros that compile sources themselves is C32/C48"
  },
  {
   "property": "C58",
   "status": "proved",
   "theorems": [
    "Tiny.c58_source",
    "Tiny.c58_tokens",
    "Tiny.c58_check",
    "Tiny.ex_code",
    "Tiny.rest_exact",
    "Tiny.Accept1.exact",
    "Tiny.Accept1.one_valid"
   ],
   "note": "for sources without 'use' (whose macros may declare more) and without the constructs of C57 that crash; the rules of types are those of C47; in states where no error left blocks 'closed below zero' (0 <= currScope, true at the start and kept, c52_calls/c52_source); TooMany (C46) is the only other outcome"
  },
  {
   "property": "C56",
   "status": "proved",
   "theorems": [
    "Tiny.c56_json",
    "Tiny.c56_nested",
    "Tiny.c56_strcat",
    "Tiny.c56_primitives",
    "Tiny.c56_args",
    "Tiny.c56_not_struct",
    "Tiny.c56_again",
    "Tiny.c56_flat",
    "Tiny.c56_defect_unknown",
    "Tiny.c56_defect_recursive",
    "Tiny.c56_defect_long",
    "Tiny.c56_defect_str",
    "Tiny.JsonEx.c56_list",
    "Tiny.JsonEx.c56_wide"
   ],
   "note": "for sources which fit into the buffer of 2048 bytes and strings below number 256 (beyond: c56_defect_long, c20_defect_*); the text %g gives for a number is a parameter; fields of type t? are excluded (their name is no type name in the generated source); strings cannot be written (c56_defect_str)"
  },
  {
   "property": "C59",
   "status": "proved",
   "theorems": [
    "Tiny.c59_delegate",
    "Tiny.c59_again",
    "Tiny.c59_nothing",
    "Tiny.c59_calls",
    "Tiny.c59_args",
    "Tiny.c59_defect_unknown",
    "Tiny.c59_defect_foreign"
   ],
   "note": "for texts below 512 bytes, types with names (no t?) and strings below number 256 (c20_defect_*); g and D_call not declared before; what Tiny_CallFunction does with the number is a parameter here (C24/C48 say it for the machine); functions of the host are accepted but have no number (c59_defect_foreign)"
  },
  {
   "property": "C60",
   "status": "proved",
   "theorems": [
    "Tiny.c60_fopen",
    "Tiny.c60_fread",
    "Tiny.c60_fwrite",
    "Tiny.c60_fwrite_count",
    "Tiny.c60_fwrite_beyond",
    "Tiny.c60_fseek",
    "Tiny.c60_fsize",
    "Tiny.c60_fclose",
    "Tiny.c60_closed",
    "Tiny.c60_wrong_way",
    "Tiny.c60_read_file",
    "Tiny.c60_write_file",
    "Tiny.c60_roundtrip",
    "Tiny.c60_write_pieces",
    "Tiny.c60_read_pieces",
    "Tiny.c60_others",
    "Tiny.c60_defect_missing",
    "Tiny.c60_defect_nul",
    "Tiny.c60_defect_mixed"
   ],
   "note": "the C library by contract (Model/StdFile): distinct names are distinct files, reading and writing do not fail, nothing is read ahead; how much is written early is a parameter"
  },
  {
   "property": "C61",
   "status": "proved",
   "theorems": [
    "Tiny.c61_missing",
    "Tiny.c61_file",
    "Tiny.c61_written"
   ],
   "note": "files as in C60; the text of the error message is not modelled"
  },
  {
   "property": "C62",
   "status": "proved",
   "theorems": [
    "Tiny.c62_buffer",
    "Tiny.c62_text",
    "Tiny.c62_cut",
    "Tiny.c62_defect_file"
   ],
   "note": "what the C library writes for %g is a parameter; numbers below 2^31 (PUSH_INT: any); the shift instructions have no line (c19_defect_shift)"
  },
  {
   "property": "C63",
   "status": "proved",
   "theorems": [
    "Tiny.c63_index",
    "Tiny.c63_named",
    "Tiny.c63_stays",
    "Tiny.c63_get",
    "Tiny.c63_set",
    "Tiny.c63_run",
    "Tiny.c63_call",
    "Tiny.c63_defect_later"
   ],
   "note": "runs as in C48; a thread has the variables there were when it was started: those of sources compiled later are outside of its array (c63_defect_later)"
  },
  {
   "property": "C64",
   "status": "proved",
   "theorems": [
    "Tiny.c64_source",
    "Tiny.c64_later",
    "Tiny.c64_functions",
    "Tiny.c64_called"
   ],
   "note": "sessions as in C48; which of the variables of the same name a name stands for is C30; two functions may have the same name (the language does not forbid it), calls then mean the first one"
  },
  {
   "property": "C65",
   "status": "proved",
   "theorems": [
    "Tiny.c65_lines",
    "Tiny.c65_source",
    "Tiny.c65_filed",
    "Tiny.c65_start"
   ],
   "note": "sessions as in C48; program of at most 2^32 bytes; that the lines of tokens are those of the text is C15, that the lines of statements are those of their tokens is C45"
  },
  {
   "property": "C66",
   "status": "proved",
   "theorems": [
    "Tiny.c66_operands"
   ],
   "note": "sessions as in C48 with at least one accepted source; program of at most 2^32 bytes and at most 2^32 variables and functions; text constants bound by the host are numbers of registered strings, as Tiny_BindConstString has it; no function with more than 2^31 parameters; the number of a field is one of some struct (of the right one: C37, for the core language); the number of fields is written as one byte"
  },
  {
   "property": "C67",
   "status": "proved",
   "theorems": [
    "Tiny.c67_listing",
    "Tiny.c67_program",
    "Tiny.ListedEx.listed"
   ],
   "note": "limits as in C66; all sources with file names (c62_defect_file) and at least one statement; not the shift instructions (c19_defect_shift); no struct with a multiple of 256 fields (its number of fields is written as one byte, 0); the text of %g is a parameter"
  }
 ]
}