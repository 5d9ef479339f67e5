{"id": "C01", "title": "Instruction words decode back to what was encoded", "statement": "Whatever instruction the compiler emits, the 32-bit word stored in the image is decoded by the VM to the same operation with the same operands, and two different instructions never share a word.", "quantifier": "every opcode and every value of each of its operand fields", "why_tests_cant": "The operand space is 2^24 per opcode; tests sample a handful of operand values per instruction.", "anchors": ["core/src/bytecode.rs: instr!, make_*, parse_*, opcode_of"]}
{"id": "C02", "title": "Runtime value tags are lossless and unambiguous", "statement": "Constant pointers, heap pointers, tagged register references, packed array types and variadic-argument tags each decode to exactly what was encoded, and a heap pointer is never mistaken for a constant pointer or vice versa.", "quantifier": "every index, register number, type, separator and dimension count accepted by the encoders", "why_tests_cant": "The ranges (24-bit indexes, 32-bit register indexes) are too large to enumerate and the failure would be a confusion between two far-apart values.", "anchors": ["core/src/mem.rs: DatumPtr", "core/src/bytecode.rs: TaggedRegisterRef, PackedArrayType, VarArgTag", "core/src/num.rs: U24"]}
{"id": "C03", "title": "Array subscripts address distinct, in-bounds cells", "statement": "For every array, a subscript list is accepted exactly when each subscript lies between 0 and the size of its dimension minus 1; accepted subscript lists address cells inside the array; different accepted subscript lists address different cells, and every cell is addressed by one.", "quantifier": "all dimension lists and all subscript lists of matching length", "why_tests_cant": "Unbounded number of dimensions and sizes.", "anchors": ["core/src/mem.rs: ArrayData::flat_index", "core/src/vm/context.rs: resolve_array_index, do_load_array, do_store_array"]}
{"id": "C04", "title": "Array elements behave like independent variables", "statement": "After any sequence of element assignments, reading an element returns the value last assigned to those exact subscripts, or the type's default if there was none, and out-of-range accesses change nothing.", "quantifier": "all arrays and all sequences of element writes", "why_tests_cant": "Histories are unbounded.", "anchors": ["core/src/mem.rs: ArrayData", "core/src/vm/context.rs: do_alloc_array, do_store_array, do_load_array"]}
{"id": "C05", "title": "Allocation never disturbs existing strings and arrays and honours the memory limit", "statement": "Creating a new string or array leaves every existing one readable with the same contents through the same pointer, the heap never exceeds the configured number of entries, and when it is full the allocation fails with an out-of-memory error and nothing changes.", "quantifier": "all heaps, limits and sequences of allocations", "why_tests_cant": "Depends on arbitrary histories and on limits of millions of entries.", "anchors": ["core/src/mem.rs: Heap::push", "core/src/vm/mod.rs: Limits"]}
{"id": "C06", "title": "Integer arithmetic is exact or is an error", "statement": "Every integer operator (+ - * / MOD ^ unary minus, shifts, bitwise, comparisons) yields the mathematically exact 32-bit result, or raises the documented error (overflow, division by zero, modulo by zero, negative exponent, negative shift); it never wraps silently or crashes.", "quantifier": "all pairs of 32-bit integers", "why_tests_cant": "2^64 operand pairs per operator; the failing cases are isolated points such as MIN / -1.", "anchors": ["core/src/vm/context.rs: checked_add_integer .. checked_shr_integer, do_power_integer, do_negate_integer"]}
{"id": "C07", "title": "Compiled expressions compute the value of the source expression", "statement": "Running the code generated for an expression leaves in the destination the value that the expression denotes (with the language's typing and promotion rules), or raises the error of the first failing operation at that operation's position, and changes no variable.", "quantifier": "all well-typed expressions of any depth, all variable contents, all starting registers", "why_tests_cant": "Expression trees are unbounded; the interesting bugs are register clobbering at specific nesting depths.", "anchors": ["core/src/compiler/exprs.rs: compile_expr, compile_pending_ops, peel_ops, cast_numerical_type", "core/src/vm/context.rs"]}
{"id": "C08", "title": "Expression typing is decided statically and values have the static type", "statement": "When an expression compiles, its static type follows the language's rules (integer with double promotes to double, comparisons give boolean, + on strings concatenates) and any value it produces at run time has that type; ill-typed expressions are rejected with an error naming the operand types.", "quantifier": "all expressions and all symbol tables", "why_tests_cant": "Unbounded expressions; a soundness gap only shows up for specific operator/type combinations.", "anchors": ["core/src/compiler/exprs.rs: peel_ops, resolve_numeric_binary_type, compile_expr_as_type"]}
{"id": "C09", "title": "Temporaries never overlap live variables", "statement": "Register allocation gives every variable its own register that is never reused by another variable or by a temporary, in any order of definitions and uses; running out of registers is reported as an error rather than reusing one.", "quantifier": "all sequences of variable definitions and nested temporary scopes", "why_tests_cant": "Depends on the whole history of definitions and nesting.", "anchors": ["core/src/compiler/syms.rs: LocalSymtable, GlobalSymtable, TempScope", "core/src/bytecode.rs: Register"]}
{"id": "C10", "title": "IF/ELSEIF/ELSE runs exactly the first branch whose guard holds", "statement": "Compiled IF statements evaluate guards in order, execute the body of the first true guard (or ELSE, or nothing) and continue after END IF.", "quantifier": "all branch counts, guards, bodies and states", "why_tests_cant": "Number of branches and nesting is unbounded; jump patching bugs appear at particular shapes.", "anchors": ["core/src/compiler/top.rs: compile_if", "core/src/compiler/codegen.rs: patch, make_target"]}
{"id": "C11", "title": "WHILE, DO and FOR loops iterate as the language defines", "statement": "Compiled WHILE, DO (all five forms) and FOR loops execute their body exactly while/until the guard says so, test before or after the body according to the form, FOR steps its variable and respects the sign of STEP, and EXIT DO / EXIT FOR leave exactly the innermost loop of their kind.", "quantifier": "all guards, bodies, nestings, iteration counts and states", "why_tests_cant": "Iteration counts and nestings are unbounded.", "anchors": ["core/src/compiler/top.rs: compile_while, compile_do, compile_for", "core/src/parser.rs: parse_do, parse_for, parse_step"]}
{"id": "C12", "title": "SELECT CASE picks the first matching case", "statement": "A compiled SELECT CASE evaluates its test expression once and executes the body of the first case any of whose guards (value, IS relation, range) matches, or CASE ELSE, or nothing.", "quantifier": "all case lists, guard kinds, values and bodies", "why_tests_cant": "Unbounded combinations of guards and cases.", "anchors": ["core/src/compiler/top.rs: compile_select, compile_case_guard, case_relop"]}
{"id": "C13", "title": "Calls isolate their locals and restore the caller", "statement": "Calling a FUNCTION or SUB gives it fresh registers that do not overlap the caller's, and on return all of the caller's variables and temporaries are as before except the result; this holds through any recursion.", "quantifier": "all call depths, callers, callees and local states", "why_tests_cant": "Recursion depth is unbounded.", "anchors": ["core/src/vm/context.rs: do_call, do_return, push_frame", "core/src/compiler/top.rs: compile_user_callable"]}
{"id": "C14", "title": "Functions that never set their result return the default value", "statement": "A FUNCTION that finishes without assigning its own name returns FALSE, 0, 0.0 or the empty string according to its type.", "quantifier": "all function types and all programs around the function", "why_tests_cant": "Depends on how many constants the rest of the program uses before the function.", "anchors": ["core/src/compiler/top.rs: compile_user_callable 1145-1165", "core/src/compiler/codegen.rs: emit_default"]}
{"id": "C15", "title": "GOSUB and RETURN nest like a stack", "statement": "RETURN continues right after the most recent GOSUB that has not returned yet; with no pending GOSUB it is an error; nesting deeper than the limit is a stack-overflow error, never a crash.", "quantifier": "all sequences of GOSUB/RETURN of any depth", "why_tests_cant": "Depth and order are unbounded.", "anchors": ["core/src/vm/context.rs: do_gosub, do_return, push_frame", "core/src/vm/mod.rs: Limits"]}
{"id": "C16", "title": "Runtime errors go to the active handler exactly once and otherwise stop the program", "statement": "With ON ERROR GOTO 0 an error stops the program and reports its position and message; with ON ERROR GOTO label control moves to the label and a second error raised while handling stops the program; ERRMSG sees the last error.", "quantifier": "all programs, error points and handler settings", "why_tests_cant": "Error may arise at any instruction in any state.", "anchors": ["core/src/vm/mod.rs: handle_exception, exec", "core/src/vm/context.rs: do_set_error_handler"]}
{"id": "C17", "title": "RESUME NEXT continues with the following statement", "statement": "With ON ERROR RESUME NEXT, after a failing statement execution continues with the statement that would have run next had the failing one completed.", "quantifier": "all programs and all failing statements, including last statements of loop bodies, branches and procedures", "why_tests_cant": "Depends on the code layout around the failing statement, in every nesting.", "anchors": ["core/src/vm/mod.rs: handle_exception", "core/src/compiler/top.rs: compile_stmt"]}
{"id": "C18", "title": "Running programs can always be interrupted", "statement": "Any execution that goes on forever gives control back to the host infinitely often (so Ctrl+C works).", "quantifier": "all images and all infinite executions", "why_tests_cant": "A liveness property over infinite executions.", "anchors": ["core/src/vm/context.rs: exec, do_jump, do_jump_if_false", "core/src/vm/mod.rs: exec, handle_exception"]}
{"id": "C19", "title": "A failed compilation leaves the session untouched", "statement": "If compiling a chunk of code fails, the compiler state and the image are exactly what they were, so that a REPL can continue; if it succeeds, the code compiled so far is kept unchanged as a prefix (apart from the end marker).", "quantifier": "all chunks, histories of chunks and failure points", "why_tests_cant": "All histories and all points of failure.", "anchors": ["core/src/compiler/mod.rs: Compiler::compile_more", "core/src/image.rs: Image::append", "core/src/compiler/codegen.rs: build_image_delta"]}
{"id": "C20", "title": "Constants, upcalls and data keep their numbers as the image grows", "statement": "An index handed out for a constant, upcall, or DATA value keeps denoting the same thing after any number of later compilations, equal constants share an index, and distinct constants never do.", "quantifier": "all sequences of insertions and image deltas", "why_tests_cant": "Depends on unbounded histories.", "anchors": ["core/src/compiler/ids.rs: HashMapWithIds", "core/src/compiler/codegen.rs: get_constant, get_upcall, build_image_delta", "core/src/image.rs: append"]}
{"id": "C21", "title": "Jumps always land inside the program", "statement": "In a successfully compiled image every jump, call, GOSUB and error-handler target is the address of an instruction of the image, labels denote the statement that follows them, and targets that do not fit 16 bits are reported as errors.", "quantifier": "all programs and all labels", "why_tests_cant": "Programs are unbounded; out-of-range targets only show at particular sizes.", "anchors": ["core/src/compiler/codegen.rs: apply_fixups, make_target, define_label, patch"]}
{"id": "C22", "title": "Identifiers are case-insensitive and types annotations are checked", "statement": "Two spellings of a name that differ only in case denote the same symbol; a reference with a type annotation is accepted exactly when it agrees with the symbol's type.", "quantifier": "all names, symbol tables and annotations", "why_tests_cant": "All spellings and histories.", "anchors": ["core/src/compiler/syms.rs: SymbolKey, get_var, put_var", "core/src/ast.rs: VarRef::accepts"]}
{"id": "C23", "title": "Local, shared and program variables resolve to the right storage", "statement": "A name resolves to the local variable if the current callable has one, else to a DIM SHARED global, else it is undefined; defining a variable never changes what other names resolve to; a name cannot be defined twice in a scope.", "quantifier": "all sequences of declarations and lookups", "why_tests_cant": "Depends on the history of declarations.", "anchors": ["core/src/compiler/syms.rs: GlobalSymtable, LocalSymtable"]}
{"id": "C24", "title": "Source positions are exact", "statement": "Every token and error reports the line and column of its first character, where lines end at newlines and tabs advance to the next multiple-of-8 stop.", "quantifier": "all source texts", "why_tests_cant": "Unbounded text with any mixture of tabs and newlines.", "anchors": ["core/src/reader.rs: CharReader", "core/src/lexer.rs: Lexer"]}
{"id": "C25", "title": "The lexer consumes all input and always terminates", "statement": "Tokenising any text terminates, each non-end token consumes at least one character, tokens cover the text in order, and after the end the lexer keeps returning end of file.", "quantifier": "all source texts", "why_tests_cant": "All texts, including malformed ones.", "anchors": ["core/src/lexer.rs: Lexer::read, consume_*"]}
{"id": "C26", "title": "Literals denote what is written", "statement": "Decimal and &x/&d/&o/&b integer literals that fit denote that number and others are rejected; text literals denote their characters, with backslash escapes.", "quantifier": "all numbers and all strings", "why_tests_cant": "All 2^32 values in 4 radixes, all strings.", "anchors": ["core/src/lexer.rs: consume_number, consume_integer, consume_integer_with_base, consume_text"]}
{"id": "C27", "title": "Operator precedence and associativity", "statement": "Parsing the fully parenthesis-free rendering of an operator expression yields the tree given by the documented priorities with left associativity; adding redundant parentheses does not change the tree.", "quantifier": "all expressions of any depth", "why_tests_cant": "Unbounded expressions and operator mixtures.", "anchors": ["core/src/parser.rs: ExprOp::priority, ExprOp::apply, parse_expr"]}
{"id": "C28", "title": "Malformed expressions are rejected", "statement": "The expression parser accepts exactly the token sequences of the expression grammar: two operands in a row, a missing operand or unbalanced parentheses are errors, and no operand is silently dropped.", "quantifier": "all token sequences", "why_tests_cant": "All token sequences of any length.", "anchors": ["core/src/parser.rs: parse_expr"]}
{"id": "C29", "title": "DATA values are READ in program order", "statement": "READ delivers the DATA values in source order, one per variable, converting per the variable's type with empty values as defaults; RESTORE starts over; reading past the end is an out-of-data error.", "quantifier": "all data lists and all sequences of READ and RESTORE", "why_tests_cant": "Arbitrary histories.", "anchors": ["std/src/data.rs: ReadCommand, RestoreCommand", "core/src/parser.rs: parse_data", "core/src/compiler/top.rs: Statement::Data"]}
{"id": "C30", "title": "LBOUND and UBOUND delimit the valid subscripts", "statement": "For every array and 1-based dimension, LBOUND and UBOUND are the smallest and largest subscript accepted in that dimension; an invalid dimension number is an error, not a crash.", "quantifier": "all arrays and all dimension arguments", "why_tests_cant": "All dimension lists and all 32-bit arguments.", "anchors": ["std/src/arrays.rs: parse_bound_args, LboundFunction, UboundFunction"]}
{"id": "C31", "title": "String functions agree with their mathematical definition", "statement": "LEFT, RIGHT, MID, LEN, SPACE, LTRIM, RTRIM, TRIM, ASC, CHR and INSTR return what their definition over character sequences says for every argument, and negative or invalid arguments give an error.", "quantifier": "all strings and all integer arguments", "why_tests_cant": "All strings and 32-bit arguments, including multi-byte characters.", "anchors": ["std/src/strings.rs"]}
{"id": "C32", "title": "User-supplied paths cannot escape a drive", "statement": "Whatever path a program supplies, the file name handed to a drive is non-empty, contains no '/', '\\\\' or ':' and is not '.' or '..', so a directory-backed drive never touches anything outside its directory.", "quantifier": "all path strings and all drive operations", "why_tests_cant": "A security property over all strings.", "anchors": ["std/src/storage/mod.rs: Location::new, leaf_name, set_leaf_name, Storage::get/put/delete/copy", "std/src/storage/fs.rs: DirectoryDrive"]}
{"id": "C33", "title": "The current drive is always mounted", "statement": "After any sequence of mount, unmount and cd operations the current drive is mounted (so relative paths always resolve), no two drives share a name up to case, and failed operations change nothing.", "quantifier": "all sequences of storage operations", "why_tests_cant": "Arbitrary histories.", "anchors": ["std/src/storage/mod.rs: Storage::attach, mount, unmount, cd, get_drive"]}
{"id": "C34", "title": "Files behave like a map from names to contents", "statement": "After any history, reading a file returns exactly what was last saved under that drive and name; writing or deleting one file affects no other file and no other drive; copying makes the destination equal to the source; ACLs survive overwrites.", "quantifier": "all histories of put/get/delete/copy/ACL updates over all drives", "why_tests_cant": "Arbitrary histories.", "anchors": ["std/src/storage/mod.rs: Storage", "std/src/storage/mem.rs: InMemoryDrive"]}
{"id": "C35", "title": "Canonical paths are stable and denote the same file", "statement": "Making a path canonical is idempotent, does not change which file it denotes and stays valid after the current drive changes; adding an extension only affects names without one.", "quantifier": "all paths, drives and extensions", "why_tests_cant": "All strings.", "anchors": ["std/src/storage/mod.rs: make_canonical, make_canonical_with_extension, Location::set_extension"]}
{"id": "C36", "title": "Line editing computes the text the user sees typed", "statement": "For every sequence of keys, the line returned by the interactive reader is the result of applying each editing key to the text at the cursor; the cursor always stays within the line.", "quantifier": "all key sequences, prompts, widths and initial contents", "why_tests_cant": "All key histories.", "anchors": ["std/src/console/readline.rs: Readline", "std/src/console/linebuffer.rs: LineBuffer"]}
{"id": "C37", "title": "The edited line shown on screen is the line being edited", "statement": "After every key the screen row shows exactly the visible window of the line (or asterisks when secure) after the prompt, with the cursor on the insertion point, and nothing else on the row is touched.", "quantifier": "all key sequences, widths and contents", "why_tests_cant": "All key histories; incremental repaint errors need specific sequences.", "anchors": ["std/src/console/readline.rs: redraw_line, erase_at, do_char, do_move_to"]}
{"id": "C38", "title": "Line history is preserved", "statement": "Entering a line appends it to the history and leaves older entries alone unless the user edits them; empty lines are not recorded; browsing never loses the line being typed.", "quantifier": "all key sequences and histories", "why_tests_cant": "All key histories.", "anchors": ["std/src/console/readline.rs: do_up_down, finish, new"]}
{"id": "C39", "title": "The full-screen editor applies edits at the cursor and keeps the cursor in the text", "statement": "For every sequence of keys the editor's text is the result of applying each edit at the cursor; the cursor is always within an existing line; an edit that changes the text marks the program dirty and moves do not; saving and loading reproduces the text.", "quantifier": "all key sequences and texts", "why_tests_cant": "All key histories.", "anchors": ["repl/src/editor.rs: Editor"]}
{"id": "C40", "title": "The editor's screen shows the text being edited", "statement": "After every key the console rows show exactly the part of the text inside the viewport, the cursor cell is the insertion point, and the insertion point is always visible.", "quantifier": "all key sequences, texts and console sizes", "why_tests_cant": "All key histories; partial refreshes go wrong only for particular sequences.", "anchors": ["repl/src/editor.rs: edit_interactively, refresh, refresh_current_line"]}
{"id": "C41", "title": "Lines are drawn connected and between their end points", "statement": "Drawing a line plots both end points, one pixel per step of the longer axis, successive pixels touch, all pixels lie within half a pixel of the ideal segment, and coordinates never overflow.", "quantifier": "all pairs of 16-bit points", "why_tests_cant": "2^64 point pairs.", "anchors": ["std/src/console/drawing.rs: draw_line, draw_line_low, draw_line_high"]}
{"id": "C42", "title": "Bucket fill paints exactly the connected region", "statement": "Filling recolours exactly the pixels 4-connected to the start through pixels of its colour, terminates, and leaves all other pixels alone.", "quantifier": "all pictures, start points and colours", "why_tests_cant": "All pictures.", "anchors": ["std/src/console/drawing.rs: bucket_fill"]}
{"id": "C43", "title": "Circles are symmetric and of the requested radius", "statement": "Drawing a circle terminates, plots a set of pixels symmetric about both axes and diagonals of its centre, inside the bounding square of the radius; too large radii are errors.", "quantifier": "all centres and radii", "why_tests_cant": "All 2^48 inputs.", "anchors": ["std/src/console/drawing.rs: draw_circle"]}
{"id": "C44", "title": "Polygons and rectangles are outlined and filled consistently", "statement": "Filled shapes cover on each scan line exactly the spans between paired edge crossings plus the outline, independent of the starting vertex; rectangles clip to the coordinate range.", "quantifier": "all point lists", "why_tests_cant": "All point lists.", "anchors": ["std/src/console/drawing.rs: draw_poly, fill_polygon, edge_intersection, draw_rect"]}
{"id": "C45", "title": "The LCD shows the framebuffer after every synchronised operation", "statement": "With syncing on, after each drawing operation the device shows the framebuffer; with syncing off it changes nothing until the next present, after which it shows the framebuffer; drawing outside the screen changes no pixel.", "quantifier": "all sequences of drawing and sync operations", "why_tests_cant": "All histories; damage-tracking errors need particular sequences.", "anchors": ["std/src/gfx/lcd/buffered/mod.rs: BufferedLcd"]}
{"id": "C46", "title": "Colour lookups agree", "statement": "Converting an ANSI colour number to RGB and back gives a colour number with the same RGB value.", "quantifier": "all 256 colour numbers", "why_tests_cant": "Finite, but it is the lemma the framebuffer read-back property rests on.", "anchors": ["std/src/console/colors.rs: ansi_color_to_rgb, rgb_to_ansi_color"]}
{"id": "C47", "title": "Paragraph refilling keeps the words and respects the width", "statement": "Refilling a paragraph keeps all its words in order, never splits a word, and only lines consisting of one word can reach the width.", "quantifier": "all paragraphs and widths", "why_tests_cant": "All texts and widths.", "anchors": ["std/src/console/format.rs: refill, refill_many"]}
{"id": "C48", "title": "The pager never scrolls unseen text away", "statement": "Between two prompts (or from the start) the pager prints at most as many screen rows as fit, and pressing ESC or Ctrl+C stops the output.", "quantifier": "all texts, console sizes and key answers", "why_tests_cant": "All sequences of lines.", "anchors": ["std/src/console/pager.rs: Pager"]}
{"id": "C49", "title": "Printed constants read back as themselves", "statement": "The source form printed for a constant (as in disassembly and error messages) is a literal that the lexer reads back as the same constant.", "quantifier": "all constants", "why_tests_cant": "All strings and numbers.", "anchors": ["core/src/mem.rs: ConstantDatum::as_source", "core/src/lexer.rs: consume_text, consume_number"]}
{"id": "C50", "title": "Exit codes are 0 to 127 and END reports exactly the given code", "statement": "END n stops the program with exit code n exactly when 0 <= n < 128, checked statically for literals and dynamically otherwise; other codes are errors.", "quantifier": "all integers", "why_tests_cant": "All 32-bit codes, static and dynamic.", "anchors": ["core/src/bytecode.rs: ExitCode", "core/src/compiler/top.rs: static_end_code", "core/src/vm/context.rs: do_end"]}
{"id": "C51", "title": "Assignments are atomic with respect to their own evaluation", "statement": "An assignment changes the variable only after the whole right-hand side has been evaluated: functions called by the right-hand side see the old value, and if evaluation fails the variable keeps the old value.", "quantifier": "all assignments, expressions and failure points", "why_tests_cant": "Depends on which sub-expression fails or which callee observes the variable.", "anchors": ["core/src/compiler/top.rs: compile_assignment, expr_references_symbol"]}
{"id": "C52", "title": "Console specifications are parsed completely", "statement": "Every flag in a console specification is either consumed by the driver or reported as unknown; resolutions are accepted exactly in the documented form with non-zero sizes.", "quantifier": "all specification strings", "why_tests_cant": "All strings.", "anchors": ["std/src/console/spec.rs: ConsoleSpec, parse_resolution"]}
{"id": "C53", "title": "VAL parses the longest numeric prefix and never crashes", "statement": "For every string, VAL converts exactly the longest prefix (after leading whitespace) that is a valid floating-point literal, so the conversion always succeeds, and returns 0 when no prefix is one.", "quantifier": "all strings", "why_tests_cant": "All strings; the scanner and the literal grammar must agree everywhere or the interpreter panics.", "anchors": ["std/src/strings.rs: parse_numeric_prefix, ValFunction"]}
{"id": "C54", "title": "Programs make exactly the calls of built-in commands that their text says", "statement": "The built-in commands and functions that a compiled program calls, their order, the argument values, separators and variables that they see, and what becomes of their results, assignments and errors are those that the source text says, whether the program ends, stops at END, fails or goes on forever, and independently of yields and of callables being asynchronous.", "quantifier": "all programs, all hosts, all answers of the host, runs of any length", "why_tests_cant": "Observable behaviour is an unbounded sequence of calls that depends on all answers of the host; tests see a few finite ones.", "anchors": ["core/src/compiler/args.rs: compile_args", "core/src/compiler/exprs.rs: compile_expr", "core/src/compiler/top.rs: compile_stmt", "core/src/vm/mod.rs: Vm::exec, UpcallHandler::invoke", "core/src/callable.rs: Scope"]}
{"id": "C55", "title": "Parsing any text ends without a crash", "statement": "Parsing ends for every text, without a panic, and yields statements and at most one error, all of whose positions are those of tokens of the text or its end.", "quantifier": "all texts, all character classifications", "why_tests_cant": "All texts, valid or not; the parser has many nested loops and error recovery, any of which could fail to consume input.", "anchors": ["core/src/parser.rs: Parser, StatementIter, parse", "core/src/lexer.rs: PeekableLexer"]}
{"id": "C56", "title": "GOTO, GOSUB, RETURN and ON ERROR GOTO go on at the label", "statement": "After GOTO, GOSUB or a failing statement under ON ERROR GOTO, the program goes on with the statements behind the label, with all variables as they were; RETURN goes on behind the GOSUB; while an error is being handled the next error stops the program.", "quantifier": "all programs, all nesting of jumps, blocks, GOSUBs and calls, runs of any length, all hosts", "why_tests_cant": "A jump can lead from any place of a program to any other and any number of jumps can follow each other.", "anchors": ["core/src/compiler/top.rs: compile_stmt (Gosub, Goto, Label, OnError, Return)", "core/src/compiler/codegen.rs: apply_fixups", "core/src/vm/context.rs: do_gosub, do_jump, do_return", "core/src/vm/mod.rs: handle_exception"]}
{"id": "C57", "title": "Programs of the grammar are parsed as what they spell", "statement": "A program text that follows the statement grammar (assignments, array assignments, calls, DATA, DECLARE, DIM, DO, END, EXIT, FOR, FUNCTION, GOSUB, GOTO, IF in one line and in blocks, labels, ON ERROR, RETURN, SELECT CASE, SUB, WHILE, with line ends and colons between them) is accepted and read as exactly the statements that it spells; no text spells two programs.", "quantifier": "all derivations of the grammar: programs of any length, nesting and layout, all expressions", "why_tests_cant": "Statements nest without bound and every construct ends at its own closing words, so whether a text is read as meant depends on all the others around it.", "anchors": ["core/src/parser.rs: Parser, parse_one, parse_one_safe, parse_uniline, parse_if, parse_for, parse_select, parse_do, parse_dim, parse_function, parse_sub, parse_declare, parse_data", "core/src/lexer.rs: PeekableLexer"]}
{"id": "C58", "title": "The compiler accepts the valid programs and no others", "statement": "A program (or the next chunk of a session) is accepted if and only if it is valid: every expression has a type and is used where that type or a convertible one is wanted, calls match a syntax of the callable in number, kind and separators of arguments, names are declared once and before use, EXIT and END stand where they may, exit codes are in range, no label and no callable is there twice, and every label that is jumped to and every callable that is called exists somewhere in the program; the only other reason for rejection is that a table of the compiler is full.", "quantifier": "all programs and all chunks after any history of a session, all callables of the host, all predefined variables", "why_tests_cant": "Validity depends on everything before a statement and, for labels and callables, on everything after it; a check that is missing for one combination of type, context and syntax is invisible to tests that do not use that combination.", "anchors": ["core/src/compiler/mod.rs: Compiler::compile, compile_more", "core/src/compiler/top.rs: compile_stmt, compile_assignment, compile_case_guards", "core/src/compiler/exprs.rs: compile_expr", "core/src/compiler/args.rs: compile_args, validate_syn_argsep, define_new_args", "core/src/compiler/syms.rs", "core/src/compiler/codegen.rs: apply_fixups", "core/src/callable.rs: CallableSyntax"]}
{"id": "C59", "title": "Compiling any text ends with a result, not a crash", "statement": "Whatever text is given to the compiler, and whatever parts of the program it has compiled before, it returns an error or an image; it does not panic.", "quantifier": "all texts, all sets of built-in callables whose functions define no variables, all predefined variables and all histories of accepted and rejected texts", "why_tests_cant": "The compiler contains unreachable!, expect and assert calls whose reachability depends on combinations of the parser, the symbol tables and the register allocation over all programs.", "anchors": ["core/src/compiler/top.rs compile_stmt", "core/src/compiler/syms.rs put_var", "core/src/compiler/codegen.rs build_image_delta", "core/src/compiler/exprs.rs", "core/src/compiler/args.rs", "core/src/parser.rs"]}
{"id": "C60", "title": "CLEAR and RUN start from a clean machine", "statement": "At any moment of any session, clearing the machine gives exactly the state that a new machine has: no variable, array, label, SUB or FUNCTION, error handler, last error, stack entry or heap entry of what was compiled and executed before is left. RUN does exactly what a new machine does that compiles and executes the stored program, and an error handler set by the stored program is gone when it ends, however it ends.", "quantifier": "all sequences of lines and programs, compiled or rejected, finished, failed, ended or interrupted at any instruction; all built-in callables and predefined variables", "why_tests_cant": "What may leak depends on the whole history of the session; tests reset after a handful of histories.", "anchors": ["std/src/lib.rs: Machine::clear, run, drain_actions, exec", "core/src/vm/mod.rs: Vm::reset, clear_error_handler", "std/src/exec.rs: ClearCommand", "std/src/program.rs: RunCommand"]}
{"id": "C61", "title": "A line typed at the prompt runs from its own start on the program's variables", "statement": "A line that is rejected changes nothing. A line that is accepted is executed from its first statement, whatever happened to the lines before it: nothing of an earlier line goes on or is executed again, even if that line failed, ended or was interrupted. A break stops a line at once and drops what a pending command requested. The line reads and writes the variables of the program.", "quantifier": "all sessions: all sequences of lines, results of commands, and signals at any instruction", "why_tests_cant": "Where the machine stands after a failed or interrupted line depends on the stack, the pending call and the program counter at that moment, over all histories.", "anchors": ["std/src/lib.rs: Machine::compile, exec, should_stop", "core/src/vm/mod.rs: Vm::exec, interrupt, park_at_eof, UpcallHandler::invoke", "core/src/image.rs: Image::append", "repl/src/lib.rs: run_repl_loop"]}
{"id": "C62", "title": "Variables read from outside have the values that the program computed", "statement": "A host that compiles and executes a program part by part and then reads variables gets, for every scalar variable and every array element in bounds, the value and type that the program computed; an error for subscripts out of bounds and for mixing up scalars and arrays; and nothing for names that were not declared. This holds after parts that end normally, fail or execute END.", "quantifier": "all programs split into parts in all ways, all built-in callables and their answers, all variables and subscripts, all limits", "why_tests_cant": "The register that is read depends on the order of all declarations in all parts, and the value on the whole execution; tests read a few variables after a few programs.", "anchors": ["core/src/vm/mod.rs: Vm::get_global, get_global_array, get_program, get_program_array", "core/src/mem.rs: ConstantDatum::from_raw, ArrayData::flat_index", "core/src/compiler/top.rs: compile", "core/src/image.rs: DebugInfo", "core/src/compiler/mod.rs: Compiler::compile_more"]}
{"id": "C63", "title": "Changes to the program are not lost without a confirmation, and SAVE and LOAD are exact", "statement": "If the text of the program is not what was last loaded, created or saved, then no command but EDIT changes it, except LOAD and NEW after an answer that means yes. SAVE writes exactly the text to the file of the given name or of the program, and changes no other file; LOAD reads exactly the text of the file; a saved program that is loaded again is the same; commands that fail or are aborted change nothing; RUN runs exactly the text.", "quantifier": "all histories of EDIT with any keys, LOAD, SAVE, NEW, RUN and storage commands, all names, texts and answers", "why_tests_cant": "Whether there are unsaved changes depends on the whole history of keys and commands; tests use a recording program and a few names.", "anchors": ["std/src/program.rs: continue_if_modified, LoadCommand, NewCommand, SaveCommand, RunCommand, EditCommand", "repl/src/editor.rs: Editor", "std/src/strings.rs: parse_boolean", "std/src/storage/mod.rs: Storage"]}
{"id": "C64", "title": "The interpreter does not end with unsaved changes without a confirmation", "statement": "The interactive interpreter ends only if the program has no unsaved changes or the question whether to discard them was answered with yes; otherwise it goes on with the program and its state.", "quantifier": "all sequences of input lines, answers, interrupts and read errors, all effects of the lines", "why_tests_cant": "All interactive sessions.", "anchors": ["repl/src/lib.rs: run_repl_loop", "std/src/program.rs: continue_if_modified"]}
{"id": "C65", "title": "The built-in callables do what they say", "statement": "What a program prints with PRINT, what its calls of the string functions, LBOUND, UBOUND and the numerical and trigonometric functions return, what READ assigns and RESTORE resets, what DEG, RAD and RANDOMIZE change, and the errors of these calls with their positions, are what a specification on values says, in any program and with any arguments: the callables read their arguments and write their results where the compiler put them, whatever else is in memory. Values after a comma in PRINT start in a column that is a multiple of 14.", "quantifier": "all programs, all arguments, all contents of the memory and histories of calls", "why_tests_cant": "Where arguments and results are depends on the registers and the heap at the call; tests call a few callables with a few literals.", "anchors": ["std/src/console/cmds.rs: PrintCommand", "std/src/strings.rs: all functions, format_double, format_integer", "std/src/data.rs: ReadCommand, RestoreCommand", "std/src/arrays.rs: LboundFunction, UboundFunction", "std/src/numerics.rs: all functions and commands", "core/src/callable.rs: Scope, ArgsStream"]}
{"id": "C66", "title": "READ sees the items of all DATA statements in the order of the source", "statement": "The items that READ reads one after the other are those of the DATA statements of the program in the order of its text, including those in loops, branches that are not taken and bodies of functions and subroutines; in a session the items of the accepted parts follow each other and rejected parts add none.", "quantifier": "all programs and all sessions", "why_tests_cant": "All nestings of statements and all histories of accepted and rejected parts.", "anchors": ["core/src/compiler/top.rs: compile_stmt (Data)", "core/src/image.rs: Image::append", "std/src/data.rs: ReadCommand"]}
{"id": "C67", "title": "Programs that only use what they have set run without a crash and do what their text says", "statement": "A program that the compiler accepts, that has no jumps and no error handlers, that reads no variable before it is set on every way to that place, and whose calls of built-in callables are ones that always answer, has one specified behaviour in every run: the machine comes to the end of the program, stops at END with that exit code, stops with that BASIC error at that position, or runs on for ever, with exactly the calls of built-in callables that the text says; it never crashes.", "quantifier": "all programs of the class (decided by the text alone), all hosts that answer, all limits of stack and memory, and runs of any length", "why_tests_cant": "Whether a run crashes or leaves the defined behaviour depends on the values that are computed, on the depth of recursion and on how long the program runs; tests see a few runs of a few programs.", "anchors": ["core/src/vm/mod.rs: Vm::exec", "core/src/vm/context.rs: Context::exec", "core/src/compiler/top.rs: compile_stmts", "core/src/compiler/exprs.rs: compile_expr", "std/src/data.rs: ReadCommand", "std/src/console/cmds.rs: PrintCommand"]}
{"id": "C68", "title": "A text that is accepted is a program", "statement": "If a text is read without a syntax error then it is a program of the language: its tokens are statements of the grammar one after the other, each on its line, with their keywords and expressions in the right places and every block closed by its own end, and what is compiled is the program that they spell. Texts that are none are rejected with an error.", "quantifier": "all texts", "why_tests_cant": "There is no end of texts that are not programs; tests reject a few of them.", "anchors": ["core/src/parser.rs: Parser::parse, parse_one, parse_one_safe, parse_if, parse_if_uniline, parse_select, parse_for, parse_do, parse_until, parse_comma_separated_exprs"]}
{"id": "C69", "title": "Random numbers can be repeated, and the unit of angles stays as it was set", "statement": "After RANDOMIZE with a seed, or RND with a negative number, the numbers that RND gives are those of the generator with that seed, one after the other, whatever happened before and whatever else is called in between; RND(0) gives the last one again. SIN, COS and TAN take degrees after DEG and radians after RAD, and radians at the start, until the other command is called.", "quantifier": "all histories of calls before and between, all seeds, all arguments", "why_tests_cant": "The state is shared between all callables and hidden; tests draw a few numbers in a row.", "anchors": ["std/src/numerics.rs: Prng, RandomizeCommand, RndFunction, AngleMode, get_angle, to_angle, DegCommand, RadCommand, SinFunction, CosFunction, TanFunction"]}
{"id": "C70", "title": "INPUT stores the first answer that is a value of the variable's type", "statement": "INPUT shows its prompt (followed by a question mark and a blank if a semicolon follows it) and reads a line. If the line is not a value of the variable's type, the user is told why and asked again, with the last text offered for correction, as often as needed; the first answer that is such a value is stored in the variable and in no other, and what is typed after it is left for later calls. If the input ends before, the call fails and the variable keeps its value. No other command or function uses up what was typed.", "quantifier": "for all histories of calls, prompts, types of variables, sequences of typed lines (including lines that cannot be read) and sizes of memory", "why_tests_cant": "the number of refused answers, their texts and the calls before are unbounded", "anchors": ["std/src/console/cmds.rs InputCommand", "std/src/console/readline.rs read_line", "std/src/strings.rs parse_boolean", "std/src/numerics.rs parse_integer"]}
{"id": "C71", "title": "The console is only given what is in range, and rejected commands change nothing", "statement": "Whatever programs do with LOCATE, COLOR and the GFX commands, the console is only asked for cursor positions on the screen, colors from 0 to 255, coordinates that fit into 16 bits with a sign and radii that fit into 16 bits without. A command with an argument out of range fails at the position of that argument, and then neither the screen nor anything else has changed. LOCATE x, y succeeds exactly if x is from 0 to SCRCOLS - 1 and y from 0 to SCRROWS - 1.", "quantifier": "for all histories of calls, all values of the arguments and all sizes of the screen", "why_tests_cant": "all 32-bit values of up to six arguments and all histories of calls", "anchors": ["std/src/console/cmds.rs LocateCommand ColorCommand", "std/src/gfx/mod.rs", "std/src/console/cmds.rs get_color get_coord"]}
{"id": "C72", "title": "The graphics console shows text as a terminal does", "statement": "Whatever sequence of text operations (write, print, clear, locate, move, colors, showing and hiding the cursor, the alternate screen, syncing) is given to the graphics console on an LCD, it does not fail, and the screen shows the characters of a terminal of that size: texts are wrapped at the last column and scroll at the last row, each character has the pixels of its glyph in the colors that were set when it was written, control characters are blanks, the cursor is a block that hides nothing once it has gone, leaving the alternate screen brings back what was there, and without syncing the screen keeps what it showed.", "quantifier": "for all sequences of operations, texts, colors, fonts, color encodings, sizes of the screen (at least one column and two rows) and initial contents of the device", "why_tests_cant": "the texts, the histories and the sizes are unbounded, and each pixel of each cell after each history is claimed", "anchors": ["std/src/console/graphics.rs GraphicsConsole", "std/src/console/mod.rs remove_control_chars", "std/src/gfx/lcd/buffered/mod.rs BufferedLcd"]}
{"id": "C73", "title": "The full-screen editor on an LCD shows the program in pixels", "statement": "Whatever was done with the graphics console of an LCD and with the editor before, after any keys the console has not failed, and the pixels of the LCD are those of the part of the program around the insertion point, in white on the background, with a white block where the next character goes, and of the status in the last row.", "quantifier": "for all histories of the console and of the editor, programs, keys, fonts whose blank is blank, color encodings, and sizes of the screen", "why_tests_cant": "the program, the keys and the history are unbounded, and each pixel after each key is claimed, through both the editor's partial refreshes and the console's cursor handling", "anchors": ["repl/src/editor.rs Editor::edit_interactively", "std/src/console/graphics.rs GraphicsConsole", "std/src/gfx/lcd/buffered/mod.rs BufferedLcd"]}
{"id": "C74", "title": "GPIO pins are used as configured", "statement": "On a Raspberry Pi, after any GPIO commands, each pin is used for what it was last configured for since it was last cleared (by GPIO_CLEAR, CLEAR or RUN), an output has the level last written to it since then, and all other pins are as they were before the program; GPIO_WRITE works for outputs and only for them; GPIO_READ gives the level of inputs and only of them; commands that are refused change nothing, except that a pin whose new configuration fails is cleared.", "quantifier": "for all sequences of commands with all arguments, all pins, and all behaviours of the board", "why_tests_cant": "histories and arguments are unbounded, and the tests use only the mock, which does not look at the configuration", "anchors": ["std/src/gpio/mod.rs GpioSetupCommand GpioClearCommand GpioReadFunction GpioWriteCommand PinsClearable", "rpi/src/gpio.rs RppalPins"]}
{"id": "C75", "title": "The GPIO mock gives injected levels and a readable trace", "statement": "With the mock, GPIO_MOCK_TRACE tells exactly what was done with the pins, in order, and GPIO_MOCK_INJECT gives the levels that are read.", "quantifier": "for all sequences of commands with all arguments", "why_tests_cant": "that different histories give different texts is about all pairs of histories", "anchors": ["std/src/gpio/fakes.rs MockPins", "std/src/gpio/mod.rs GpioMockInjectCommand GpioMockTraceFunction"]}
{"id": "C76", "title": "Text can be read from an LCD", "statement": "With each of the fonts, any two printable characters have different pixels, the blank has none and none is a block like the cursor, so that what can be seen of a program in the editor, and where the cursor is, can be read from the pixels.", "quantifier": "for all fonts, characters, pairs of colors that are different on the LCD, programs and histories of the editor", "why_tests_cant": "it is about all pairs of characters, and of programs, and the tests look at two glyphs of one font", "anchors": ["std/src/gfx/lcd/fonts/mod.rs Font Fonts", "std/src/gfx/lcd/fonts/font_5x8.rs", "std/src/gfx/lcd/fonts/font_16x16.rs", "std/src/gfx/lcd/fonts/font_vga8x16.rs"]}
{"id": "C77", "title": "The ST7735S shows the pixels that it is told to show", "statement": "Pixel data for a window of the ST7735S LCD is shown there pixel by pixel and changes nothing else, whatever was sent to the LCD before and however the SPI bus cuts the data into pieces; if the bus fails, what was sent is a beginning of the data, without gaps or repetitions.", "quantifier": "for all windows on the glass, data, sequences of windows, states of the controller, transfer sizes and partial or failing writes of the bus", "why_tests_cant": "the driver has no tests, and the ways in which a bus may take data are unlimited", "anchors": ["st7735s/src/lib.rs lcd_write ST7735SLcd::set_data ST7735SLcd::lcd_set_window ST7735SLcd::encode ST7735SLcd::decode", "std/src/spi.rs SpiBus", "std/src/gfx/lcd/mod.rs to_xy_size"]}
{"id": "C78", "title": "The commands for files show what is stored", "statement": "After any history, DIR lists all files of a drive and no others, once, in order, with their sizes and totals; MOUNT lists all drives with what the last successful MOUNT of each said; PWD shows a path that leads back with CD at any later time while the drive is mounted; CD, COPY, KILL, MOUNT and UNMOUNT change exactly what they should and say so when they fail.", "quantifier": "for all histories of storage commands, drives, names, contents, paths, and narrow and wide consoles", "why_tests_cant": "listings depend on all that was done before", "anchors": ["std/src/storage/cmds.rs show_dir show_drives CdCommand CopyCommand DirCommand KillCommand MountCommand PwdCommand UnmountCommand", "std/src/storage/mod.rs Storage::mounted Storage::system_path"]}
{"id": "C79", "title": "HELP finds the topic that is asked for", "statement": "HELP with a text shows the topic of that name in letters of any case, or else the only topic whose name begins with the text; if there are several it fails and lists all of them in order, and if there is none it says so. Every command and function is found under its name and is listed, with all others of its category and nothing else, under its category. The summary lists every category once, in order. None of this depends on the order of hash maps. The language reference is split exactly into its sections, with line ends of Unix or Windows.", "quantifier": "for all sets of commands and functions with distinct topic names, all texts asked for, all orders of hash maps, and all language references", "why_tests_cant": "hash maps are gone through in an order that changes between runs, and any command that is added changes which prefixes are ambiguous", "anchors": ["std/src/help.rs Topics::new Topics::find callables_to_index parse_lang_reference HelpCommand::summary", "core/src/ast.rs ExprType::annotation"]}
{"id": "C80", "title": "A script gets the console that its second line asks for", "statement": "A script that begins with #! and whose second line is a remark, with ' or with REM in letters of any case, which says endbasic cli: console= and a specification gets exactly that specification, with line ends of Unix or Windows; a remark for the command line that names no console is refused; any other script starts as without such a line.", "quantifier": "for all texts of scripts", "why_tests_cant": "the second line can be any text, in any language", "anchors": ["cli/src/propline.rs extract_propline parse_propline strip_newline"]}
{"id": "C81", "title": "SLEEP and SOUND take as long as they are told", "statement": "SLEEP and SOUND refuse negative durations, and SOUND a pitch that is not positive, without waiting or playing anything; otherwise they wait or play for the number of nanoseconds that is nearest to the duration, with the given pitch, and report errors of the clock or the console. No number crashes them.", "quantifier": "for all doubles, pitches and hosts", "why_tests_cant": "there are 2^64 doubles, with infinities, numbers that are too large and values that are not numbers", "anchors": ["std/src/datetime.rs SleepCommand::async_exec", "std/src/sound/cmds.rs SoundCommand::async_exec"]}
{"id": "C82", "title": "SHARE changes who may read a file exactly as told", "statement": "SHARE with changes of the form username+r or username-r asks the storage once to allow and to forbid exactly these users, reports its error, and prints the link to the file if it was made public; if any change has another form, it is refused at that argument and nothing is changed; without changes the readers are shown and nothing is changed.", "quantifier": "for all files, lists of changes and storages", "why_tests_cant": "the changes are any number of any texts, in any language", "anchors": ["client/src/cmds.rs ShareCommand::async_exec ShareCommand::parse_acl ShareCommand::show_acls ShareCommand::has_public_acl"]}
{"id": "C83", "title": "A password for a new account is accepted exactly if it follows the rules it is told", "statement": "SIGNUP accepts a password exactly if it is at least eight characters long and has letters and numbers.", "quantifier": "for all passwords", "why_tests_cant": "passwords are texts of any length in any language", "anchors": ["client/src/cmds.rs validate_password_complexity"]}
{"id": "C84", "title": "LOGIN and LOGOUT keep the account and the CLOUD drive together", "statement": "A LOGIN that succeeds ends with the user logged in and their drive mounted as CLOUD, a LOGOUT that succeeds with nobody logged in and no drive CLOUD; no other drive and no current drive changes. LOGIN and LOGOUT that report an error change nothing.", "quantifier": "for all users, passwords, sets of drives and answers of the server", "why_tests_cant": "the drives are any set that MOUNT has made and the server can refuse anything", "anchors": ["client/src/cmds.rs LoginCommand::async_exec LoginCommand::do_login LogoutCommand::async_exec", "client/src/drive.rs CloudDriveFactory::create"]}
{"id": "C85", "title": "SIGNUP sends what was typed, and only after it was confirmed", "statement": "SIGNUP asks again until a good password is typed twice in a row and until questions are answered with yes or no, where an empty line says no; it shows the answers for review and sends exactly them, once, if they are confirmed; otherwise it sends nothing.", "quantifier": "for all sequences of lines that are typed", "why_tests_cant": "the lines are any sequence of any texts, and questions can be asked any number of times", "anchors": ["client/src/cmds.rs SignupCommand::async_exec SignupCommand::read_bool SignupCommand::read_password"]}
{"id": "C86", "title": "The interpreter starts with the program it was asked to run", "statement": "Asked to run user/file, the interpreter mounts the drive of that user as AUTORUN, loads exactly the text of that file, runs it and returns its exit code, 130 if it was stopped and 1 if it failed; no argument makes it run anything else. The link that SHARE prints for a public file runs that file. AUTOEXEC.BAS of the current drive runs once if it is there, and whatever it does the interpreter starts.", "quantifier": "for all arguments, drives, files and programs", "why_tests_cant": "arguments come from links that anyone can write, and files have any names and contents", "anchors": ["repl/src/lib.rs run_from_cloud try_load_autoexec", "client/src/cmds.rs ShareCommand::async_exec"]}
{"id": "C87", "title": "Different files of the cloud have different addresses", "statement": "The address with which a file of a cloud drive is read, written, shared or deleted is made from its name in such a way that different files of a user have different addresses, so that writing one never changes another.", "quantifier": "for all names of files", "why_tests_cant": "names are texts of any characters", "anchors": ["client/src/cloud.rs CloudService::make_url CloudService::get_file CloudService::patch_file_content CloudService::delete_file"]}
{"id": "C88", "title": "The drive of the web interface keeps files", "statement": "On the local drive of the web interface, a file that was saved is read back under its name in any case until it is deleted or saved again, no operation on a file changes another, DIR lists exactly the files that are there with their sizes, and opening the drive, also one of an older version, loses no file and does not crash.", "quantifier": "for all contents of the local storage, names and orders of keys", "why_tests_cant": "the local storage has any history and its order of keys depends on the browser", "anchors": ["web/src/store.rs WebDrive::from_window WebDrive::fixup_names WebDrive::rename WebDrive::get WebDrive::put WebDrive::delete WebDrive::enumerate"]}
{"id": "C89", "title": "ERRMSG tells the last error", "statement": "After any mix of running, interrupting and resuming programs and invoking asynchronous commands, ERRMSG is the position and the message of the last error that was raised, handled or not, and empty if none was raised since the machine was cleared. After an error stopped the program it is the one that was reported. Nothing but another error or clearing the machine changes it.", "quantifier": "for all programs, built-in callables, schedules of asynchronous calls and interrupts", "why_tests_cant": "errors come from instructions and from callables, at any point of any program", "anchors": ["std/src/exec.rs ErrmsgFunction", "core/src/vm/mod.rs handle_exception handle_upcall_result"]}
