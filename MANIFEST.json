{
 "claims": [
  {
   "property": "C01",
   "status": "proved",
   "theorems": [
    "EB.C01_decode_encode",
    "EB.C01_encode_injective"
   ],
   "note": "All 62 opcodes; operands are exactly the fields of instr!."
  },
  {
   "property": "C02",
   "status": "proved",
   "theorems": [
    "EB.C02_packedArrayType",
    "EB.C02_taggedRegister",
    "EB.C02_varArgTag",
    "EB.C02_varArgTag_injective",
    "EB.C02_datumPtr",
    "EB.C02_datumPtr_injective"
   ],
   "note": "Pointers for 24-bit indexes (what U24 admits), registers for frame pointers whose absolute index fits 32 bits (otherwise the code panics)."
  },
  {
   "property": "C03",
   "status": "proved",
   "theorems": [
    "EB.C03_accepted_iff",
    "EB.C03_in_range",
    "EB.C03_injective",
    "EB.C03_surjective",
    "EB.C03_error"
   ],
   "note": ""
  },
  {
   "property": "C04",
   "status": "proved",
   "theorems": [
    "EB.C04_store_load",
    "EB.C04_history"
   ],
   "note": "Array level; the VM instructions use the same operations."
  },
  {
   "property": "C05",
   "status": "proved",
   "theorems": [
    "EB.C05_push_ok",
    "EB.C05_push_fail",
    "EB.C05_history"
   ],
   "note": "Entry 0 is the built-in empty string, so the bound is max 1 limit."
  },
  {
   "property": "C06",
   "status": "proved",
   "theorems": [
    "EB.C06_add",
    "EB.C06_sub",
    "EB.C06_mul",
    "EB.C06_div",
    "EB.C06_mod",
    "EB.C06_neg",
    "EB.C06_pow",
    "EB.C06_shl",
    "EB.C06_shr",
    "EB.C06_bitwise",
    "EB.C06_register_roundtrip",
    "EB.C06_instructions",
    "EB.C06_comparisons",
    "EB.C06_total",
    "EB.C06_spec_inRange",
    "EB.C06_text_comparisons",
    "EB.C06_text_total"
   ],
   "note": "The VM's checked operations including square-and-multiply power, against exact integers."
  },
  {
   "property": "C07",
   "status": "partial",
   "theorems": [
    "EB.C07_expression_partial",
    "EB.program_partial",
    "EB.program_at_partial"
   ],
   "note": "C07_expression_partial: for every expression that calls no function of the program (built-in functions may be called), every environment, host and machine state, the compiled code leaves the value in the destination or raises the error of the first failing operation at its position, changes no variable, and the host has seen the calls that the expression says. Expressions that call functions of the program: program_partial. Missing: what program_partial leaves out (jumps between units; findings marked in Spec/Exec)."
  },
  {
   "property": "C08",
   "status": "proved",
   "theorems": [
    "EB.C08_rejection_calls",
    "EB.C08_accepted_calls",
    "EB.C08_value_type_calls",
    "EB.C08_static_type",
    "EB.C08_rejection",
    "EB.C08_conversion",
    "EB.C08_value_type",
    "EB.C08_variables",
    "EB.C08_typed",
    "EB.C08_values",
    "EB.C08_functions"
   ],
   "note": "C08_static_type, C08_conversion, C08_accepted_calls: the type that the compiler gives is the one of the rules, also with calls; C08_rejection_calls: a rejected expression is ill-typed and the error says what is wrong with it; C08_variables, C08_typed, C08_values, C08_functions: in whole accepted programs each expression has one type, its values have it, functions give values of their types and variables keep contents of their types, whatever the built-in callables do. Values are those of the reference interpreter, which the machine refines (C07, C10-C12, C67): machine words carry no types."
  },
  {
   "property": "C09",
   "status": "partial",
   "theorems": [
    "EB.C09_registers_partial",
    "EB.C09_counterexample"
   ],
   "note": "After any sequence of definitions distinct names have distinct registers, temporaries differ from every variable and from each other, exhaustion is reported, later definitions do not move variables. The full claim is false: C09_counterexample compiles and runs FOR i = 1 TO 3: x = i * 2: NEXT, where the temporary of the loop condition has the register that x gets later, so x ends as 0."
  },
  {
   "property": "C10",
   "status": "partial",
   "theorems": [
    "EB.C10_taken",
    "EB.C10_none",
    "EB.C10_guard_fails",
    "EB.C10_else",
    "EB.C10_taken_partial",
    "EB.C10_none_partial",
    "EB.program_partial",
    "EB.program_at_partial"
   ],
   "note": "Compiled programs follow a reference interpreter (program_partial), for all programs, hosts, limits and run lengths, with calls of built-in callables, jumps to labels and error handlers; C10_taken, C10_none, C10_else and C10_guard_fails say what it does with IF, and C10_taken_partial/C10_none_partial put both together. Missing: jumps between the program and bodies of callables, GOSUBs without RETURN, RESUME NEXT at the end of blocks, values that are not known (findings)."
  },
  {
   "property": "C11",
   "status": "partial",
   "theorems": [
    "EB.C11_while",
    "EB.C11_do_pre_while",
    "EB.C11_do_pre_until",
    "EB.C11_do_post_while",
    "EB.C11_do_post_until",
    "EB.C11_do_forever",
    "EB.C11_for",
    "EB.C11_for_start_fails",
    "EB.C11_exit_do",
    "EB.C11_exit_for",
    "EB.C11_for_values",
    "EB.C11_for_parsed",
    "EB.program_partial",
    "EB.program_at_partial"
   ],
   "note": "Compiled programs follow a reference interpreter (program_partial); the C11 theorems characterise all loops exactly by their rounds, EXIT by the loop that it leaves, the values of integer FOR variables, and the sign of STEP in the parser. Missing: as for C10; variables first defined in a loop (C09_counterexample)."
  },
  {
   "property": "C12",
   "status": "partial",
   "theorems": [
    "EB.C12_taken",
    "EB.C12_else",
    "EB.C12_none",
    "EB.C12_any",
    "EB.C12_integers",
    "EB.C12_taken_partial",
    "EB.program_partial",
    "EB.program_at_partial"
   ],
   "note": "Compiled programs follow a reference interpreter (program_partial); the C12 theorems say which case it takes. Missing: as for C10."
  },
  {
   "property": "C13",
   "status": "proved",
   "theorems": [
    "EB.C13_call_isolation"
   ],
   "note": "VM level: for every image and every balanced execution, whatever the callee does. The compiler's placement of the result register is a separate matter (finding F15)."
  },
  {
   "property": "C14",
   "status": "partial",
   "theorems": [
    "EB.C14_default_partial",
    "EB.C14_counterexample",
    "EB.program_partial",
    "EB.program_at_partial"
   ],
   "note": "Proved for booleans, integers and strings. For doubles the code violates it: C14_counterexample (the result has the bits of the index of the constant)."
  },
  {
   "property": "C15",
   "status": "proved",
   "theorems": [
    "EB.C15_gosub_return",
    "EB.C15_gosub_target",
    "EB.C15_depth",
    "EB.C15_errors"
   ],
   "note": ""
  },
  {
   "property": "C16",
   "status": "proved",
   "theorems": [
    "EB.C16_policy",
    "EB.C16_error_outcome"
   ],
   "note": "All executions, instructions and upcalls."
  },
  {
   "property": "C17",
   "status": "partial",
   "theorems": [
    "EB.C17_next_partial",
    "EB.C17_program_partial",
    "EB.C17_counterexample",
    "EB.program_partial",
    "EB.program_at_partial"
   ],
   "note": "C17_next_partial and C17_program_partial: after a failing simple statement that is followed by another one in the same block the machine goes on with that one, wherever the two stand. The code violates the claim at the end of loops, branches and procedures: C17_counterexample."
  },
  {
   "property": "C18",
   "status": "partial",
   "theorems": [
    "EB.C18_bound_partial",
    "EB.C18_forever_partial",
    "EB.C18_no_handlers",
    "EB.C18_counterexample"
   ],
   "note": "Between yields the number of steps is bounded, except through error handlers that re-arm themselves (finding F11, proved as C18_counterexample)."
  },
  {
   "property": "C19",
   "status": "proved",
   "theorems": [
    "EB.C19_failed_chunk_changes_nothing",
    "EB.C19_failed_chunks_leave_no_trace",
    "EB.C19_code_kept"
   ],
   "note": "Over every session: failed chunks change nothing and leave no trace, accepted ones keep all earlier code and metadata apart from the end marker."
  },
  {
   "property": "C20",
   "status": "proved",
   "theorems": [
    "EB.C20_indices_stay",
    "EB.C20_one_index_each",
    "EB.C20_get_constant",
    "EB.C20_references_keep_their_meaning"
   ],
   "note": "Tables grow at their ends only, no entry occurs twice, and every reference denotes the same constant or builtin in every later image."
  },
  {
   "property": "C21",
   "status": "proved",
   "theorems": [
    "EB.C21_targets_inside",
    "EB.C21_labels",
    "EB.C21_label_exists",
    "EB.C21_unknown_label",
    "EB.C21_calls"
   ],
   "note": "C21_targets_inside (every target is the address of an instruction), C21_labels (a label denotes the statement behind it, in the same chunk or a later one; the target fits 16 bits), C21_label_exists and C21_unknown_label (a label that stands nowhere is rejected, with nothing changed), C21_calls (a call of a command of the program goes to its definition: a jump over it, the value of a function, the body). Calls of functions in expressions are compiled by the same code; what they do is C54."
  },
  {
   "property": "C22",
   "status": "partial",
   "theorems": [
    "EB.C22_capitals",
    "EB.C22_program_partial",
    "EB.C22_program",
    "EB.C22_session",
    "EB.C22_counterexample",
    "EB.C22_same_key",
    "EB.C22_same_variable"
   ],
   "note": "Keys agree exactly when names differ only in case of A-Z; references are accepted exactly when the annotation agrees (C23_lookup), independent of case. For whole programs and sessions: parts that differ only in the case of names outside of parameter lists are accepted together and give the same image (C22_program, C22_session); parameter lists too if both are accepted (C22_program_partial). The code compares the parameter names of DECLARE and definition with case (C22_counterexample, finding F19)."
  },
  {
   "property": "C23",
   "status": "proved",
   "theorems": [
    "EB.C23_lookup",
    "EB.C23_empty",
    "EB.C23_define_local",
    "EB.C23_define_shared",
    "EB.C23_others_keep",
    "EB.C23_no_second_definition",
    "EB.C23_assignment_defines",
    "EB.C23_session"
   ],
   "note": "Symbol tables refine lists of declarations: lookup, definition, double definition, assignment, and all states of a session."
  },
  {
   "property": "C24",
   "status": "partial",
   "theorems": [
    "EB.C24_positions",
    "EB.C24_errors_partial",
    "EB.C24_runtime"
   ],
   "note": "Positions of all tokens, error tokens and the end of the file are proved for every text (C24_positions). C24_errors_partial: every error of compiling a text, in any session, is at one of them, except that jumps that are too long (programs of more than 65535 instructions) may be reported at 0:0. C24_runtime: every error of a run is at a position of one of the texts, given that built-ins report positions of their own arguments."
  },
  {
   "property": "C25",
   "status": "proved",
   "theorems": [
    "EB.C25_cover",
    "EB.C25_wellformed",
    "EB.C25_terminates",
    "EB.C25_progress"
   ],
   "note": "Proved for every text: the pieces cover the text in order, every token takes at least one character, reading terminates, and the end of the file repeats. The converse (well-formed texts give their tokens) is proved too."
  },
  {
   "property": "C26",
   "status": "proved",
   "theorems": [
    "EB.C26_decimal",
    "EB.C26_decimal_value",
    "EB.C26_decimal_too_big",
    "EB.C26_based",
    "EB.C26_integer_only",
    "EB.C26_based_too_big",
    "EB.C26_text",
    "EB.C26_text_all",
    "EB.C26_text_only"
   ],
   "note": "Every decimal and based literal that fits denotes its value, all others are rejected, and integer and text tokens come only from such literals. Unicode classification of characters is a parameter that is only constrained on ASCII."
  },
  {
   "property": "C27",
   "status": "proved",
   "theorems": [
    "EB.C27_tree",
    "EB.C27_grouping",
    "EB.C27_redundant_parens",
    "EB.C27_unambiguous"
   ],
   "note": "All expressions, any depth: canonical trees are parsed as they stand, chains group at the rightmost loosest operator, redundant parentheses change nothing but positions, and the grouping is determined by the tokens."
  },
  {
   "property": "C28",
   "status": "partial",
   "theorems": [
    "EB.C28_accepted",
    "EB.C28_exact_partial",
    "EB.C28_rejected_partial",
    "EB.C28_balanced",
    "EB.C28_two_operands",
    "EB.C28_ends",
    "EB.C28_not_after_operand",
    "EB.C28_empty_parens",
    "EB.C28_paren_call"
   ],
   "note": "Exact for all token sequences without the three malformed patterns of Regular; balance and no two operands in a row hold for all sequences. The full claim is false: 1 NOT 2, f(()) and (f)(1) are accepted (proved)."
  },
  {
   "property": "C29",
   "status": "proved",
   "theorems": [
    "EB.C29_data_cursor",
    "EB.C29_types",
    "EB.C29_values"
   ],
   "note": "Conversion between numbers is the FloatOps parameter."
  },
  {
   "property": "C30",
   "status": "partial",
   "theorems": [
    "EB.C30_bounds_partial",
    "EB.C30_errors",
    "EB.C30_dimension_zero"
   ],
   "note": "Holds for dimensions 1..n; dimension 0 is accepted by LBOUND and crashes UBOUND (finding F12, C30_dimension_zero)."
  },
  {
   "property": "C31",
   "status": "partial",
   "theorems": [
    "EB.C31_left",
    "EB.C31_right",
    "EB.C31_mid_partial",
    "EB.C31_mid_not_as_documented",
    "EB.C31_len",
    "EB.C31_space",
    "EB.C31_asc",
    "EB.C31_chr",
    "EB.C31_asc_chr",
    "EB.C31_instr",
    "EB.C31_ltrim",
    "EB.C31_rtrim",
    "EB.C31_trim"
   ],
   "note": "All functions proved; MID is documented as 1-indexed but the code is 0-indexed (finding F17, C31_mid_not_as_documented)."
  },
  {
   "property": "C32",
   "status": "proved",
   "theorems": [
    "EB.C32_contained",
    "EB.C32_copy",
    "EB.C32_stored_names"
   ],
   "note": "Paths, COPY targets and all stored names; the directory drive joins the name to its directory (resolve in Spec/Storage)."
  },
  {
   "property": "C33",
   "status": "proved",
   "theorems": [
    "EB.C33_current_mounted",
    "EB.C33_distinct_names",
    "EB.C33_failures"
   ],
   "note": "Unicode upper-casing is a parameter with the laws of Spec.UpperOk (proved for ASCII)."
  },
  {
   "property": "C34",
   "status": "proved",
   "theorems": [
    "EB.C34_files",
    "EB.C34_read_after_write"
   ],
   "note": "In-memory drives; refinement of any command history to a map (Spec.FsStep)."
  },
  {
   "property": "C35",
   "status": "proved",
   "theorems": [
    "EB.C35_canonical",
    "EB.C35_exists",
    "EB.C35_extension"
   ],
   "note": "Upper-casing laws as in C33."
  },
  {
   "property": "C36",
   "status": "partial",
   "theorems": [
    "EB.C36_line_partial",
    "EB.C36_prompts",
    "EB.C36_counterexample",
    "EB.C36_raw"
   ],
   "note": "Proved for every key sequence, history, initial text, echo mode and prompt that leaves at least one input column (ASCII prompts: all lengths but columns-1), lines up to 32767 characters; on consoles that are not interactive, for all keys (C36_raw). Fails for a prompt of columns-1 (C36_counterexample)."
  },
  {
   "property": "C37",
   "status": "partial",
   "theorems": [
    "EB.C37_screen_partial",
    "EB.C37_counterexample"
   ],
   "note": "Proved for the same prompts and lines as C36; fails when no column is left for the line (C37_counterexample)."
  },
  {
   "property": "C38",
   "status": "partial",
   "theorems": [
    "EB.C38_entered",
    "EB.C38_browsing",
    "EB.C38_counterexample"
   ],
   "note": "Entering and browsing proved for the same prompts and lines as C36. An interrupted session leaves its empty entry in the history (C38_counterexample)."
  },
  {
   "property": "C39",
   "status": "partial",
   "theorems": [
    "EB.Edit.C39_history_partial",
    "EB.Edit.C39_typing",
    "EB.Edit.C39_moves_partial",
    "EB.Edit.C39_reload_partial",
    "EB.Edit.C39_counterexample",
    "EB.Edit.C39_counterexample_reload"
   ],
   "note": "For every history of load, set_name and edit calls (edit with any keys on a console of at least 1x2), the text, name, dirty flag and cursor are those of a small one-string document specification, no call panics and the cursor is in a line (C39_history_partial); typing gives the typed text; moves change neither text nor dirty; reloading the text reproduces it without carriage returns. Missing: white space outside ASCII and texts with carriage returns before a newline, for which the property is false (C39_counterexample, C39_counterexample_reload)."
  },
  {
   "property": "C40",
   "status": "partial",
   "theorems": [
    "EB.Edit.C40_screen_partial",
    "EB.Edit.C40_counterexample"
   ],
   "note": "For every history and any keys, whatever the console showed before, the console shows the viewport of the text, the cursor is at the insertion point and visible, and the status row is right (C40_screen_partial), for any console that meets the nondeterministic contract Spec.Console. Missing: consoles of one row (the editor panics, C40_counterexample) and white space outside ASCII."
  },
  {
   "property": "C41",
   "status": "proved",
   "theorems": [
    "EB.C41_line",
    "EB.C41_axis"
   ],
   "note": "Lines between any two points of the 16-bit grid: no overflow, right ends and number of pixels, connected, within half a pixel of the segment; axis-parallel lines exactly."
  },
  {
   "property": "C42",
   "status": "proved",
   "theorems": [
    "EB.C42_fill"
   ],
   "note": "Filling recolours exactly the connected region of the starting point's colour, for every picture on the grid."
  },
  {
   "property": "C43",
   "status": "partial",
   "theorems": [
    "EB.C43_circle_partial",
    "EB.C43_symmetric",
    "EB.C43_closed",
    "EB.C43_filled_partial",
    "EB.C43_radii",
    "EB.C43_counterexample"
   ],
   "note": "Outline and filled circle characterised exactly for every centre and radius for which the circle fits in 16-bit coordinates; symmetric and closed; too large radii are rejected. Otherwise the code overflows (C43_counterexample, F30)."
  },
  {
   "property": "C44",
   "status": "partial",
   "theorems": [
    "EB.C44_polygon_partial",
    "EB.C44_outline",
    "EB.C44_start",
    "EB.C44_triangle",
    "EB.C44_counterexample",
    "EB.C44_rectangle",
    "EB.C44_counterexample_rectangle"
   ],
   "note": "Filled polygons are the even-odd inside plus the outline, independent of the starting vertex, when no edge is so long that the calculation overflows (C44_counterexample, F31); rectangles of at least one pixel are their border (C44_counterexample_rectangle for empty ones)."
  },
  {
   "property": "C45",
   "status": "partial",
   "theorems": [
    "EB.C45_canvas_partial",
    "EB.C45_synced_partial",
    "EB.C45_outside",
    "EB.C45_counterexample",
    "EB.C45_counterexample_empty"
   ],
   "note": "Refinement to a canvas for every history of operations, with what the device shows under syncing and without. Missing: filled rectangles that start beyond the right or bottom edge, which colour the last column or row (C45_counterexample, F32), empty rectangles, which underflow, and device errors."
  },
  {
   "property": "C46",
   "status": "proved",
   "theorems": [
    "EB.C46_total",
    "EB.C46_found",
    "EB.C46_round_trip",
    "EB.C46_not_found"
   ],
   "note": "Colour lookups: total, exact on the table, round trip, and not found outside it."
  },
  {
   "property": "C47",
   "status": "proved",
   "theorems": [
    "EB.C47_refill",
    "EB.C47_words_exist",
    "EB.C47_narrow_counterexample",
    "EB.C47_indented"
   ],
   "note": "refill for every width; refill_many panics on consoles narrower than its margins (C47_narrow_counterexample)."
  },
  {
   "property": "C48",
   "status": "partial",
   "theorems": [
    "EB.C48_pages_partial",
    "EB.C48_pages_wrapped",
    "EB.C48_counterexample",
    "EB.C48_stop"
   ],
   "note": "Holds when no printed line wraps; a wrapped line can scroll unseen rows away (finding F18, C48_counterexample)."
  },
  {
   "property": "C49",
   "status": "partial",
   "theorems": [
    "EB.C49_read_back_partial",
    "EB.C49_not_read_back"
   ],
   "note": "False for the code: negative integers and texts with quotes or backslashes are not read back (proved in C49_not_read_back, finding F24). C49_read_back_partial proves the remaining constants; for doubles it assumes that Rust's Display and parse are inverse on the printed form."
  },
  {
   "property": "C50",
   "status": "proved",
   "theorems": [
    "EB.C50_exitCode",
    "EB.C50_end"
   ],
   "note": "ExitCode::try_from and the END instruction."
  },
  {
   "property": "C51",
   "status": "partial",
   "theorems": [
    "EB.C51_after_evaluation_partial",
    "EB.C51_failure_partial",
    "EB.C51_counterexample",
    "EB.program_partial",
    "EB.program_at_partial"
   ],
   "note": "Proved where the right-hand side mentions the variable. The code violates the general claim: C51_counterexample."
  },
  {
   "property": "C52",
   "status": "proved",
   "theorems": [
    "EB.C52_resolution",
    "EB.C52_describes",
    "EB.C52_queries",
    "EB.C52_finish"
   ],
   "note": "Console specifications: every resolution and specification accepted or rejected as the grammar says; queries and leftovers."
  },
  {
   "property": "C53",
   "status": "proved",
   "theorems": [
    "EB.C53_val"
   ],
   "note": ""
  },
  {
   "property": "C54",
   "status": "partial",
   "theorems": [
    "EB.C54_calls_partial",
    "EB.program_partial",
    "EB.program_at_partial"
   ],
   "note": "C54_calls_partial: the calls that the host sees are those of the reference interpreter, for all programs, hosts and run lengths, with an example host and a program that does not end. Missing: as for C10."
  },
  {
   "property": "C55",
   "status": "partial",
   "theorems": [
    "EB.C55_parsing_partial",
    "EB.C55_counterexample"
   ],
   "note": "C55_parsing_partial: parsing ends for every text (the fuel of the model is never used up), panics only if a minus sign precedes a literal with the value -2147483648 (C55_counterexample, F23), and all positions are those of tokens. Missing: the depth of the recursion (nesting of statements and the native stack)."
  },
  {
   "property": "C56",
   "status": "partial",
   "theorems": [
    "EB.C56_goto",
    "EB.C56_goto_partial",
    "EB.C56_gosub",
    "EB.C56_return",
    "EB.C56_gosub_full",
    "EB.C56_gosub_partial",
    "EB.C56_handler",
    "EB.C56_second_error",
    "EB.C56_handler_partial",
    "EB.C56_counterexample",
    "EB.program_partial",
    "EB.program_at_partial"
   ],
   "note": "Compiled programs follow the reference interpreter (program_partial) also through GOTO, GOSUB, RETURN and ON ERROR GOTO; the C56 theorems say what these do for labels at the top level of a program or body. The code violates the claim for EXIT in a GOSUB and for errors in callables with a handler elsewhere: C56_counterexample."
  },
  {
   "property": "C57",
   "status": "proved",
   "theorems": [
    "EB.C57_program",
    "EB.C57_text",
    "EB.C57_unambiguous"
   ],
   "note": "Completeness of the parser for the grammar of Spec/Grammar.lean: every derivation is parsed to its statements, without error, and the grammar is unambiguous. Expressions are those of C27 (any canonical tree). Not claimed: that everything the parser accepts is in the grammar; it also takes a few texts outside of it (an ELSE of a one-line IF at the end of a line, v() = e, END without a line end before END IF)."
  },
  {
   "property": "C58",
   "status": "proved",
   "theorems": [
    "EB.C58_accepted",
    "EB.C58_valid",
    "EB.C58_program_accepted",
    "EB.C58_program_valid"
   ],
   "note": "Accepted if and only if valid, for programs and for every chunk of every session, up to the errors that say that a table is full (constants, registers, upcalls, jump distance). Validity (Spec/Valid.lean) is written without reference to the compiler; it states F41 and F42 as they are."
  },
  {
   "property": "C59",
   "status": "partial",
   "theorems": [
    "EB.C59_partial",
    "EB.C59_valid",
    "EB.C59_counterexample",
    "EB.C59_counterexample_params",
    "EB.C59_counterexample_result"
   ],
   "note": "C59_partial: after any history of chunks, compiling any text panics at most if (1) a minus sign stands before the literal of -2147483648 (see C55), (2) parameters of a callable do not have different names or one has the name of its function, or (3) a callable is called that is declared and never defined. C59_counterexample, C59_counterexample_params and C59_counterexample_result show that (2) and (3) do crash it; C59_valid: valid texts (C58) never do. The full property is false of the code."
  },
  {
   "property": "C60",
   "status": "proved",
   "theorems": [
    "EB.C60_clear",
    "EB.C60_run",
    "EB.C60_clear_call",
    "EB.C60_handler"
   ],
   "note": "for hosts whose callables do not change the limits of the heap"
  },
  {
   "property": "C61",
   "status": "partial",
   "theorems": [
    "EB.C61_line",
    "EB.C61_break",
    "EB.C61_variables_partial",
    "EB.C61_counterexample"
   ],
   "note": "Proved: rejected lines change nothing, accepted ones run from their first instruction, breaks, no pending call at the prompt; the variables are the right ones if no SUB or FUNCTION was left unfinished. Missing: without that condition the claim is false (C61_counterexample, finding F46)."
  },
  {
   "property": "C62",
   "status": "partial",
   "theorems": [
    "EB.C62_parts_partial",
    "EB.C62_stopped_partial",
    "EB.C62_counterexample"
   ],
   "note": "Proved for sessions of any number of parts and for a last part that fails or ends. Missing: variables that no executed statement has defined (there the claim is false, C62_counterexample, finding F48), calls of SUBs and FUNCTIONs of earlier parts, ON ERROR GOTO active across parts, predefined variables, and what program_partial leaves out."
  },
  {
   "property": "C63",
   "status": "partial",
   "theorems": [
    "EB.C63_unsaved",
    "EB.C63_save",
    "EB.C63_load",
    "EB.C63_new",
    "EB.C63_run",
    "EB.C63_reload_partial",
    "EB.C63_counterexample"
   ],
   "note": "Lines that end with a carriage return lose it when the program is saved and loaded (C63_counterexample); everything else is proved. The console is assumed not to fail when it prints."
  },
  {
   "property": "C64",
   "status": "partial",
   "theorems": [
    "EB.C64_leave_partial",
    "EB.C64_stays",
    "EB.C64_goes_on",
    "EB.C64_counterexample"
   ],
   "note": "Lines that exit ask first. The end of the input and read errors do not (C64_counterexample, finding F45)."
  },
  {
   "property": "C65",
   "status": "partial",
   "theorems": [
    "EB.C65_library",
    "EB.C65_program_partial",
    "EB.C65_fields_partial",
    "EB.C65_counterexample"
   ],
   "note": "C65_library: the callables meet the specification on values for every image, call and memory; C65_program_partial: the output of whole programs (as far as program_partial goes); C65_fields_partial: columns of PRINT for ASCII text; C65_counterexample: bytes are counted (F50). Missing: callables outside of stdTable (files, programs, HELP, GPIO, sound, time, GFX_POLY, ERRMSG)."
  },
  {
   "property": "C66",
   "status": "proved",
   "theorems": [
    "EB.C66_items",
    "EB.C66_session"
   ],
   "note": "C66_items for programs, C66_session for sessions with rejected parts."
  },
  {
   "property": "C67",
   "status": "proved",
   "theorems": [
    "EB.C67_specified",
    "EB.C67_program",
    "EB.C67_stops",
    "EB.C67_no_crash",
    "EB.C67_for_ever",
    "EB.C67_std",
    "EB.C67_std_stops"
   ],
   "note": "The interpreter gives a meaning to all accepted programs of the class Spec.Settled (C67_specified); the machine does what it says (C67_program), stops in a way exactly if the interpreter does (C67_stops), runs for ever exactly if the interpreter never ends (C67_for_ever) and never crashes (C67_no_crash). C67_std and C67_std_stops: the same with the built-in callables of the model. Replies says what is asked of the built-in callables."
  },
  {
   "property": "C68",
   "status": "partial",
   "theorems": [
    "EB.C68_program_partial",
    "EB.C68_text_partial",
    "EB.C68_rejected_partial",
    "EB.C68_loops_closed",
    "EB.C68_counterexample"
   ],
   "note": "The code accepts a little more than the grammar: C68_counterexample. The theorems say what: the grammar with the three productions of Spec.Accepts that are marked, and malformed expressions that Spec.Regular excludes (see C28). C68_loops_closed is the consequence for loops."
  },
  {
   "property": "C69",
   "status": "proved",
   "theorems": [
    "EB.C69_random",
    "EB.C69_angles"
   ],
   "note": "Stated about stdLib, which the machine refines in every program (C65_library, C65_program_partial). The generator (SmallRng) and the arithmetic of doubles are parameters."
  },
  {
   "property": "C70",
   "status": "proved",
   "theorems": [
    "EB.C70_input",
    "EB.C70_end",
    "EB.C70_others",
    "EB.C70_integer"
   ],
   "note": "Stated about stdLib, which the machine refines in every program (C65_library, C65_program_partial). How a line is edited while it is typed is C36; the text of a double is read by a parameter."
  },
  {
   "property": "C71",
   "status": "proved",
   "theorems": [
    "EB.C71_range",
    "EB.C71_refused",
    "EB.C71_locate"
   ],
   "note": "Stated about stdLib, which the machine refines in every program (C65_library, C65_program_partial). Without GFX_POLY and GFX_POLYF; what consoles draw is C41 to C45."
  },
  {
   "property": "C72",
   "status": "partial",
   "theorems": [
    "EB.C72_terminal_partial",
    "EB.C72_counterexample_full",
    "EB.C72_counterexample_ghost",
    "EB.C72_counterexample_delete"
   ],
   "note": "C72_terminal_partial: all sequences of operations the console is made for (the cursor stays in its row, and before the end of it while it is shown; positions in range; nothing is deleted before the first column while the cursor is shown; the alternate screen is entered with a hidden cursor); the excluded ones include panics and wrong pictures: C72_counterexample_full (F33), C72_counterexample_ghost (F55), C72_counterexample_delete (F56). The shapes are C37-C40 and C45."
  },
  {
   "property": "C73",
   "status": "partial",
   "theorems": [
    "EB.C73_editor_lcd_partial",
    "EB.C73_counterexample_tab"
   ],
   "note": "C73_editor_lcd_partial: all histories, programs and keys but white space out of ASCII (as in C39) and tab keys that take the cursor to a column the LCD does not have; without the latter condition it is wrong: C73_counterexample_tab (F57). The alternate screen has to be entered with a hidden cursor, as in C72."
  },
  {
   "property": "C74",
   "status": "proved",
   "theorems": [
    "EB.C74_pins",
    "EB.C74_one_mode",
    "EB.C74_answers",
    "EB.C74_refused",
    "EB.C74_arguments",
    "EB.C74_opened"
   ],
   "note": "C74_pins: what each pin is used for; C74_one_mode; C74_answers, C74_opened: what commands give; C74_arguments: wrong arguments are reported at their place, with any pins; C74_refused: refused commands change nothing."
  },
  {
   "property": "C75",
   "status": "partial",
   "theorems": [
    "EB.C75_trace_partial",
    "EB.C75_trace_readable_partial",
    "EB.C75_reads_partial",
    "EB.C75_counterexample_inject",
    "EB.C75_counterexample_reset"
   ],
   "note": "C75_trace_partial and C75_trace_readable_partial: the trace is exactly what was done and can be decoded; C75_reads_partial: levels are given in the order in which they were injected. What the help says about other orders and about resets is wrong: C75_counterexample_inject (F58), C75_counterexample_reset (F59)."
  },
  {
   "property": "C76",
   "status": "proved",
   "theorems": [
    "EB.C76_fonts",
    "EB.C76_characters",
    "EB.C76_editor",
    "EB.C76_names"
   ],
   "note": "C76_fonts: the fonts meet the hypotheses of C37, C72 and C73; C76_characters: different characters look different; C76_editor: the visible text and the cursor can be read from the pixels; C76_names: lookup."
  },
  {
   "property": "C77",
   "status": "proved",
   "theorems": [
    "EB.C77_bytes",
    "EB.C77_succeeds",
    "EB.C77_set_data",
    "EB.C77_screens",
    "EB.C77_colors",
    "EB.C77_ink"
   ],
   "note": "C77_bytes: any bus at all; C77_succeeds: any bus without errors; C77_set_data: one window; C77_screens: any number of windows, against the abstract LCD; C77_colors, C77_ink: colors on this LCD. That the glass begins in column 1 and row 2 of the memory is a fact about the hardware that is taken from the driver."
  },
  {
   "property": "C78",
   "status": "proved",
   "theorems": [
    "EB.C78_dir",
    "EB.C78_drives",
    "EB.C78_pwd",
    "EB.C78_changes"
   ],
   "note": "C78_dir, C78_drives, C78_pwd: what is shown; C78_changes: what the other commands do. For in-memory drives."
  },
  {
   "property": "C79",
   "status": "proved",
   "theorems": [
    "EB.C79_find",
    "EB.C79_callables",
    "EB.C79_order",
    "EB.C79_reference"
   ],
   "note": "C79_find: which topic is shown; C79_callables: commands, functions and categories; C79_order: hash maps and the summary; C79_reference: the sections of the language reference. The layout of a topic is not part of the claim."
  },
  {
   "property": "C80",
   "status": "partial",
   "theorems": [
    "EB.C80_asks",
    "EB.C80_refuses",
    "EB.C80_plain_partial",
    "EB.C80_none",
    "EB.C80_counterexample"
   ],
   "note": "C80_asks, C80_refuses, C80_none: scripts that ask, that are refused and that have no second line; C80_plain_partial: other second lines whose fourth byte ends a character; C80_counterexample: for others it crashes (F60)."
  },
  {
   "property": "C81",
   "status": "partial",
   "theorems": [
    "EB.C81_sleep_refuses",
    "EB.C81_sleep_partial",
    "EB.C81_sound_partial",
    "EB.C81_counterexample"
   ],
   "note": "C81_sleep_refuses, C81_sleep_partial, C81_sound_partial: all finite durations below 2^64 seconds; C81_counterexample: the others crash (F61)."
  },
  {
   "property": "C82",
   "status": "partial",
   "theorems": [
    "EB.C82_update",
    "EB.C82_public",
    "EB.C82_show",
    "EB.C82_refuses_partial",
    "EB.C82_crash",
    "EB.C82_counterexample",
    "EB.C82_link_counterexample"
   ],
   "note": "C82_update, C82_public, C82_show: changes that are well formed and none; C82_refuses_partial: other changes that can be cut before their last two bytes; C82_crash, C82_counterexample: the others crash (F62); C82_link_counterexample: the link of a file with a drive but no slash (F64)."
  },
  {
   "property": "C83",
   "status": "partial",
   "theorems": [
    "EB.C83_ascii_partial",
    "EB.C83_complex",
    "EB.C83_accepts",
    "EB.C83_counterexample"
   ],
   "note": "C83_ascii_partial: passwords of ASCII; C83_complex, C83_accepts: for all passwords, what is accepted has letters and numbers, and eight characters with letters and numbers are accepted; C83_counterexample: five characters are accepted (F63)."
  },
  {
   "property": "C84",
   "status": "partial",
   "theorems": [
    "EB.C84_login_partial",
    "EB.C84_login_refused",
    "EB.C84_logout_partial",
    "EB.C84_login_counterexample",
    "EB.C84_logout_counterexample"
   ],
   "note": "C84_login_partial, C84_login_refused, C84_logout_partial: commands that succeed and that are refused before anything happens; C84_login_counterexample, C84_logout_counterexample: errors after which something has changed (F65, F66)."
  },
  {
   "property": "C85",
   "status": "proved",
   "theorems": [
    "EB.C85_talk",
    "EB.C85_only"
   ],
   "note": "C85_talk: any conversation ends with its answers shown and, if confirmed, sent once; C85_only: nothing else is ever sent."
  },
  {
   "property": "C86",
   "status": "partial",
   "theorems": [
    "EB.C86_runs",
    "EB.C86_only",
    "EB.C86_link",
    "EB.C86_link_counterexample",
    "EB.C86_autoexec"
   ],
   "note": "C86_runs, C86_only: what is run from the cloud; C86_autoexec; C86_link: the link of a file that is named with a drive and a slash runs it; C86_link_counterexample: without the slash it does not (F67)."
  },
  {
   "property": "C87",
   "status": "partial",
   "theorems": [
    "EB.C87_distinct_partial",
    "EB.C87_plain",
    "EB.C87_counterexample"
   ],
   "note": "C87_distinct_partial: names without %, tabs and ends of lines; C87_plain: names of characters that are not encoded; C87_counterexample: names with % (F68)."
  },
  {
   "property": "C88",
   "status": "partial",
   "theorems": [
    "EB.C88_put",
    "EB.C88_delete",
    "EB.C88_list_partial",
    "EB.C88_list_counterexample",
    "EB.C88_open_partial",
    "EB.C88_open_counterexample",
    "EB.C88_saved"
   ],
   "note": "C88_put, C88_delete: files are kept; C88_list_partial: listings of files with .BAS; C88_open_partial, C88_saved: drives with names in capital letters, as this version saves them; C88_list_counterexample, C88_open_counterexample: other files and drives of older versions (F69, F70)."
  },
  {
   "property": "C89",
   "status": "proved",
   "theorems": [
    "EB.C89_last",
    "EB.C89_none",
    "EB.C89_keeps",
    "EB.C89_reported"
   ],
   "note": "C89_last: the last error that was raised; C89_none: empty without errors since the machine was cleared; C89_keeps: kept without errors; C89_reported: what stopped the program."
  }
 ]
}