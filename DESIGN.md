# Formal model of EndBASIC in Lean 4: design

The Lean project in `lean/` contains an executable model of parts of EndBASIC
(source at `/repo`, read as text; nothing was compiled) and theorems about it.

## Layout

* `Verif/Model/*.lean`: the model. One Lean definition per modelled Rust function, each with a
  comment citing the file and lines it models and what was simplified.
* `Verif/Spec/*.lean`: small independent specifications (mathematical definitions a reader can
  check against the English property, not using model helpers).
* `Verif/Lemmas/*.lean`: helper lemmas.
* `Verif/Props/*.lean`: the property theorems (names listed in `MANIFEST.json`), each next to an
  `example` showing a concrete non-trivial case meeting its hypotheses.

## Trusted base

* Lean 4.33.0's kernel and the fidelity of the model to the Rust source (by reading).
* Axioms: at most `propext`, `Classical.choice`, `Quot.sound` (checked with `#print axioms` by the
  gate). No `sorry`, no `native_decide`, no `bv_decide`, no axioms of our own.
* Rust semantics assumed by the model: `HashMap`/`BTreeMap` are finite maps, `Vec` is a list,
  integer overflow in plain arithmetic panics (debug) where we mark it as an explicit error,
  `char` is a Unicode scalar value, `String` is a list of chars.

## Global modelling conventions

* Machine words are `BitVec`; source-level integers are `Int` with explicit 32-bit range checks.
* Doubles: IEEE-754 arithmetic is not defined in Lean's kernel. The VM and compiler models are
  parametric in a record `FloatOps` of operations on 64-bit patterns, and theorems hold for every
  such record (so nothing is assumed about rounding, and nothing is proved about it either).
* Panics (`expect`, `unwrap`, index out of range, `unreachable!`) are explicit error values.
* Console, files and time are modelled as pure state (grids of cells, finite maps).
* `async` is modelled as a sequence of turns: the program yields, the host answers.

## Plan per property

| id | modelled code | method |
|----|---------------|--------|
| C01 | bytecode.rs instr! layouts for all opcodes, opcode_of | BitVec extensional round trip, injectivity from it |
| C02 | DatumPtr, U24, TaggedRegisterRef, PackedArrayType, VarArgTag | BitVec round trip and disjointness |
| C03 | ArrayData::flat_index | induction on dimensions, mixed radix spec |
| C04 | AllocArray/LoadArray/StoreArray | invariant over write histories; refinement to function from subscripts |
| C05 | Heap::push, Limits | invariant by induction over pushes |
| C06 | checked_* ops, power, negate, shifts | case analysis against exact `Int` spec |
| C07 | compile_expr & friends, VM step | compiler-correctness by induction on expressions against a denotational semantics |
| C08 | typing in peel_ops | inductive typing relation iff, preservation; for whole programs: invariant of the reference interpreter (`Lemmas/Typing*.lean`) |
| C09 | Register, LocalSymtable, TempScope | invariants over operation lists |
| C10-C12 | compile_if/while/do/for/select + VM | simulation of big-step statement semantics |
| C13 | do_call, do_return, frames | induction over call trees / frame invariant |
| C14 | compile_user_callable default value | false for DOUBLE (finding F1): counterexample theorem + partial for other types |
| C15 | do_gosub/do_return | refinement to a stack machine |
| C16 | handle_exception | state-machine proof over all states |
| C17 | handle_exception RESUME NEXT + stmt starts | false in general (finding F5): counterexamples + partial for straight-line code |
| C18 | exec loop | progress measure: between yields finitely many steps; false through error handlers (finding F11) |
| C19 | compile_more, Image::append | direct proof over abstract compile function; prefix preservation |
| C20 | HashMapWithIds, constants, deltas | invariant by induction |
| C21 | apply_fixups, labels, callables | invariant over codegen operations; unknown labels are rejected by C58; calls go to the definition (`C21_calls`) |
| C22 | SymbolKey, VarRef::accepts, and the whole compiler: `Spec.Capitals` is the program in capitals; each function of the compiler is shown to commute with it, with the tables of the compiler in capitals, by induction over the program. The only place where it does not is the comparison of a definition with its DECLARE (`C22_counterexample`, F19) | equational, induction over programs |
| C23 | symtable lookups | refinement to nested finite maps |
| C24 | CharReader, parser, compiler, exec loop | refinement to a position function of the prefix; then every position in the parsed tree, in errors, in the metadata of instructions and in run-time errors comes from a token |
| C25 | Lexer | well-founded consumption measure |
| C26 | consume_number/integer/text | round trip with printers |
| C27 | shunting yard in parse_expr | induction on operator trees |
| C28 | parse_expr | false (finding F7): counterexample theorems + partial |
| C29 | READ/RESTORE, DATA | refinement to cursor over list |
| C30 | LBOUND/UBOUND | iff with C03; false for dimension 0 (finding F12) |
| C31 | strings.rs | equational vs. take/drop/filter specs |
| C32-C35 | storage/mod.rs, mem.rs | invariants over operation lists, refinement to map |
| C36-C38 | readline.rs, linebuffer.rs | refinement: screen model, gap-buffer spec |
| C39-C40 | repl/editor.rs | invariant by induction over keys; screen refinement; false for multi-byte indentation (finding F13) |
| C41 | draw_line* | loop invariants in `Int` |
| C42 | bucket_fill | worklist invariant + termination measure |
| C43 | draw_circle | loop invariant |
| C44 | polygons | structural proofs |
| C45 | BufferedLcd | invariant: outside damage device = framebuffer; off-screen rectangles do paint (finding F14) |
| C46 | colour table | kernel evaluation over the complete 256-entry table |
| C47 | refill | induction on words |
| C48 | Pager | invariant over prints |
| C49 | as_source | false for text (finding F9): counterexample + partial for integers/booleans |
| C50 | ExitCode, END | iff |
| C51 | compile_assignment | false (finding F2): counterexample + partial |
| C52 | ConsoleSpec | refinement to set of flags |
| C53 | parse_numeric_prefix | longest-prefix characterisation against a grammar |
| C54 | compile_args, upcalls, exec loop | simulation: the log of calls of the interpreter is the state of the host |
| C55 | parser, with the token stream as fuel | predicate transformer over the parser: every loop consumes a token, errors and statements take positions from tokens |
| C56 | GOTO, GOSUB, RETURN, ON ERROR GOTO; labels | simulation: the interpreter can start at a label inside of any block; false when a callable is left in a GOSUB or by an error (findings F39, F40) |
| C57 | parser, all statements | a grammar as an inductive relation between tokens and statements (`Spec/Grammar.lean`); induction over derivations: the parser reads what was written and stops where it ends; unambiguity follows |
| C58 | the whole compiler | validity as a relation over statements, in terms of what is known at each place, without reference to the compiler (`Spec/Valid.lean`); induction over programs: the compiler succeeds exactly if the statement is valid; fixups are all resolvable exactly if all labels and callables exist; induction over sessions |
| C59 | parser and compiler, panics as error values | the trees that the parser builds are tidy (no omitted arguments in function calls, literals in DATA, dimensions in arrays); induction over tidy programs: no panic, unless one of three conditions holds, each of which has a counterexample theorem or C55 (findings F43, F44) |
| C60 | Machine of std/src/lib.rs (compile, exec, clear, run, drain_actions), Vm::reset | invariant over all sessions: limits and frames of the machine are kept and the tables of the compiler and the image agree, so clearing gives the state of a new machine; one step of the loop after RUN is that of a new machine |
| C61 | the same, with interrupt and park_at_eof | the same invariant: at the prompt the program counter is at the only end-of-program instruction, which the next line replaces; false for the variables after a SUB or FUNCTION was left unfinished (finding F46): counterexample + partial |
| C62 | get_global*, get_program*, compile_more, exec loop | the simulation of C07 for each part, chained: after a part the machine stands at the end of the code and holds what the interpreter knows, and the tables of the image agree with the declarations; false for variables that are declared but not defined (finding F48) |
| C63 | continue_if_modified, LOAD/SAVE/NEW/RUN/EDIT on the editor of C39 and the storage of C34 | invariant over histories: not dirty means the text is the one last loaded, created or saved (an empty program and one with an empty line are the same); the commands by cases over the file system of C34; UTF-8 round trip of the core library |
| C64 | run_repl_loop with the execution of a line as a parameter | induction over the inputs; false at the end of the input (finding F45) |
| C65 | the exec functions of PRINT, READ, RESTORE, LBOUND, UBOUND, INPUT, LOCATE, COLOR, CLS, INKEY, SCRCOLS, SCRROWS, the GFX commands but for GFX_POLY and GFX_POLYF, all numerical and trigonometric functions and commands (with the angle mode and the generator of random numbers) and all string functions on registers and heap, with Scope and ArgsStream; their metadata | refinement to a specification on values (Spec/Stdlib.lean), shown to be a host in the sense of C54, so that C54 gives the output of whole programs; the columns of PRINT by induction, false for text that is not ASCII (finding F50) |
| C66 | compile_stmt for DATA, compile_more | induction over statements (every other step leaves the list alone) and over the chunks |
| C67 | The class is `Spec.Settled`, a computable check of the text that passes along the list of the variables that are known in any case. By induction over the fuel and the statements, the interpreter of `Spec.Exec` is never `stuck` on a valid program (C58) of the class: all that it needs is there and has its static type. With C54 the machine then does one of the specified things. `Replies` says what is asked of the built-in callables; for those of `stdTable` it is proved. The simulation counts steps: as long as the interpreter has not come to an end after `n` rounds, the machine makes at least `n` steps; as the machine is deterministic, it stops exactly if and as the interpreter does, and never crashes. |
| C68 | The converse of C57. `Spec.Accepted` is the grammar of `Spec.Grammar` with the three productions that the parser takes besides it, marked as not in the grammar; expressions are only known to be expressions if they are regular (C28). Each function of the parser gets a judgement `Takes`: from which tokens it comes to a result without an error, it has taken tokens that stand in the relation of the grammar to that result. By induction over the fuel for the compound statements. `C68_counterexample` is `v() = 1`, which is accepted and no program of the grammar. |
| C69 | the generator of random numbers and the angle mode as part of the state that the callables share (Model/Stdlib) | induction over the calls of a run in the specification of C65, which the machine refines |
| C70 | the console as part of what the callables share: a list of lines that the user will type (or that cannot be read), how many were read, and what was asked and shown; INPUT with its loop, the conversions of strings.rs and numerics.rs | induction over the refused answers in the specification of C65, which the machine refines |
| C71 | CLS, COLOR, LOCATE, SCRCOLS, SCRROWS and the GFX commands on the list of what the console was asked for | invariant of that list over the history of calls; the cases of each command |
| C72 | `GraphicsConsole` on the `BufferedLcd` of C45: position, cursor with its backup, colors, alternate screen, syncing, wrapping, scrolling and the clearing operations; the terminal of the specification types one character after the other on cells | simulation: an invariant that relates the pixels of the canvas of C45 to the cells, with and without the cursor, kept by every operation |
| C73 | the models of C39-C40 (editor) and C72 (graphics console) put together | the operations that the editor asks of the console of C40 are shown to be among those that a delicate console allows; the terminal of C72 is shown to be such a console (simulation); the theorems of C40 and C72 are composed |
| C74 | `RppalPins` over an arbitrary board (errors and levels are oracles of time), the GPIO commands | what the history says about a pin is defined by its latest configuring step; invariant by induction over the commands, per pin |
| C75 | `MockPins`, the queue of injected levels and the trace | induction over the commands; the codes, the decimal texts and the joined words are each shown to be injective |
| C76 | the tables of the three fonts, generated from the code, and the lookup by name | the kernel checks whole tables: glyphs are all different, have no bits out of their pixels, and are no blocks; the rest is general, and uses C73's description of the screen |
| C77 | the driver on any bus, in front of a controller that is specified after its data sheet (window, then pixels) | induction over the data for the bus, induction over the pixels for the controller; refines `Lcd.setData`, on which C45, C72, C73 and C76 rest |
| C78 | the commands on top of the storage of C32 to C35, with the lines that they print | the storage refines its specification (C34); sorting by induction; where drives point to, by induction over the history |
| C79 | `Topics::new`, `Topics::find`, the summary and `parse_lang_reference`; hash maps as lists in any order | which entries the trie has, by induction over insertions; lists in the order of the dictionary are known by their members |
| C80 | propline.rs on the text of the script, with slices in bytes | how lines are read and stripped, by induction over the text |
| C81 | the two commands on the bits of doubles, `Duration::from_secs_f64` from its documentation | arithmetic on doubles as numbers of units of 2^-1074 |
| C82 | SHARE on any storage, with slices in bytes | the arguments by induction over the list, cuts of texts in bytes |
| C83 | the check of passwords on any tables of letters and numbers | the loop as two searches, lengths in bytes and characters |
| C84 | LOGIN and LOGOUT on the model of the drives and any server | the drives as finite maps |
| C85 | SIGNUP on the lines that are typed | conversations as inductive relations, in both directions by induction |
| C86 | run_from_cloud and try_load_autoexec on the model of the drives, for any machine | how locations are read; the link of SHARE from C82 |
| C87 | the address of a file, with `Url::set_path` from the documentation of URLs and any set of characters that are encoded | an inverse of the encoding |
| C88 | WebDrive on the local storage as a finite map with any order of keys | laws of finite maps, induction over the listing and over the loop |
| C89 | the last error through any sequence of steps, invocations and interrupts | induction on the sequence |

## Findings (places where the code disagrees with the property)

* F1 `compiler/top.rs` 1152-1159: the default value of a DOUBLE function is loaded with the
  *index* of the constant 0.0 instead of the constant, so it is a tiny denormal when the index is
  not 0.
* F2 `compile_assignment`: when the right-hand side does not mention the variable syntactically,
  the result register doubles as scratch: callees see a partial value, and a failing evaluation
  under RESUME NEXT leaves one.
* F3 a variable assigned for the first time by an expression that reads it compiles (no
  undefined-symbol error) and reads a stale register.
* F4 a DECLAREd, never defined and called procedure panics in apply_fixups.
* F5 RESUME NEXT jumps to the next statement start in *code layout*: the last statement of a loop
  body leaves the loop, the last of a THEN branch enters the ELSE branch, the last of a procedure
  falls out of it.
* F6 frames are not unwound on END/errors/interrupts.
* F7 the expression parser accepts `a NOT b` (dropping `a`), `(a)(b)`, `()`.
* F8 `DATA -&x80000000` and `STEP -&x80000000` overflow.
* F9 `as_source` doubles quotes, the lexer escapes with backslashes.
* F10 AllocArray multiplies dimensions unchecked.
* F11 an error handler that re-arms itself and fails again loops forever without yielding.
* F12 `UBOUND(a, 0)` underflows an index.
* F13 the editor measures copied indentation in bytes, leaving the cursor past the end of line for
  multi-byte whitespace.
* F14 `BufferedLcd::draw_rect_filled` clamps the origin, so rectangles entirely to the right of or
  below the screen paint its last column or row.

* F15 an assignment whose value starts with a call of a function without arguments compiles to
  `CALL` on the register of the destination: the frame of the callee overlaps the locals behind it,
  and a `DIM SHARED` destination gives `do_call` a global register (panic). `g = 1 + f` with a
  shared `g` that `f` changes also goes wrong.
* F16 temporaries start behind the locals known at that point of the text; the temporaries of a loop
  guard share registers with variables first defined in the body (`C09_counterexample`).
* F17 MID$ is documented with 1-based positions and implemented with 0-based ones.
* F18 the pager counts lines wrongly when text wraps (`C48_counterexample`).
* F19 DECLARE and definition are compared with the case of the parameter names.
* F20 duplicate parameter names, or one named like the function, panic in the symbol table.
* F21 `1 NOT 2` parses as `NOT 2`; F22 `f(())` and `(a)(1)` are accepted (`C28`).
* F23 `DATA -&x80000000` and `STEP -&x80000000` negate `i32::MIN` (see F8).
* F24 `as_source` and the lexer disagree about quotes (see F9).
* F25 a text variable that was declared by use but not assigned reads constant 0.
* F26 the check that a callable does not clash with a variable only looks at globals.
* F27 the line editor with an input width of 0 panics or hides the input (`C36_counterexample`,
  `C37_counterexample`).
* F28 leaving the line editor with Ctrl+C or at end of file keeps the pushed entry in the history
  (`C38_counterexample`).
* F29 `do_move_to` casts to `i16`; a prompt with multi-byte characters is sliced in the middle.
* F30 `draw_circle` overflows `i16` for large radii (`C43_counterexample`).
* F31 `edge_intersection` overflows `i32` (`C44_counterexample`); polygon rounding depends on the
  direction of the edge.
* F32 `BufferedLcd::draw_rect_filled` beyond the right or lower edge (`C45_counterexample`).
* F33 a text console on an LCD whose width is a multiple of the glyph width can have its cursor
  behind the last column, where drawing it panics.
* F34 the editor's `copy_indent` returns a length in bytes (`C39_counterexample`).
* F35 the editor on a console with one row panics (`C40_counterexample`); texts with several `\r`
  change each time they are loaded (`C39_counterexample_reload`).
* F36 under ON ERROR RESUME NEXT an error in the last statement of the program panics: EOF is not
  a statement start, so the machine continues behind the code.
* F37 under ON ERROR RESUME NEXT an error in the statement before a FUNCTION or SUB definition
  continues inside its body.
* F38 see F5, for branches and loops (`C17_counterexample`).
* F39 EXIT SUB, EXIT FUNCTION and the end of a callable inside of a GOSUB only leave the GOSUB
  (`C56_counterexample`).
* F40 an error in a callable whose handler stands in the program (or in another callable) runs the
  handler in the frame of the callable: locals are mixed up and the call is never undone
  (`C56_counterexample`).
* F41 an argument of any type that must not be missing can be left out: `AnyValueSyntax.allow_missing`
  is not looked at for singular arguments (part of `Spec.ArgsFit`, so of the C58 theorems).
* F42 the stacks of open loops are not reset for a callable: EXIT DO in a FUNCTION that is defined
  inside of a DO is accepted and jumps out of the FUNCTION (part of `Spec.StmtOk`).
* F43 calling a callable that is DECLAREd but never defined panics in the compiler
  (`C59_counterexample`).
* F44 two parameters of the same name, or a parameter with the name of its FUNCTION, panic in the
  compiler (`unreachable!` in syms.rs put_var; `C59_counterexample_params`, `C59_counterexample_result`).
* F46 an error, END or break inside a SUB or FUNCTION leaves its frame on the stack; the lines that are
  typed afterwards use the registers of that frame for the variables of the program, so that after
  `x = 7` and a failing SUB the line `z = x` does not copy x (`C61_counterexample`).
* F47 a GOSUB that was left by END, an error or a break can be returned from by a RETURN typed at the
  prompt, which then executes the rest of the old line.
* F48 a variable that is declared in a branch that was not taken has no value: reading a string variable of
  this kind with get_program panics or returns an unrelated string (`C62_counterexample`).
* F49 get_global_array and get_program_array with a wrong number of subscripts fail a debug assertion (mem.rs
  flat_index); without it they return another element or index outside of the array.
* F45 CTRL-D (end of input) leaves the interactive interpreter with unsaved changes and without the question that END
  asks, and so do read errors (`C64_counterexample`).
* F50 PRINT aligns fields by the number of bytes (console/cmds.rs, `text.len()`), not of characters: after text that
  is not ASCII the next field starts too far to the left (`C65_counterexample`).  Fields are also counted from the start
  of the statement, not of the line.
* F51 MAX and MIN start from the smallest and largest finite double (numerics.rs 651, 696): MAX of only negative infinities
  is not an infinity but -1.8e308, and NaN is ignored (`Builtin.extreme` in Spec/Stdlib.lean says so).
* F52 `v() = e` is accepted as an assignment to an array with no subscripts (parser.rs 335-392); it is only rejected by the
  compiler if `v` is an array, by the number of subscripts (C68).
* F53 `IF c THEN s ELSE` may end there if an empty line or the end of the text follows, but not if a statement follows on the next
  line (parser.rs 1052-1110): the line end is taken as the beginning of the branch (C68).
* F54 between `END` and the `ELSE` of the block around it no line end is needed: `END ELSE` in one line is accepted (C68).
* F55 `enter_alt` saves the pixels while the cursor is drawn, and `leave_alt` draws the cursor over them: a block stays where the
  cursor was (C72, `C72_counterexample_ghost`).
* F56 `clear(PreviousChar)` in the first column with a visible cursor panics: `draw_cursor` asserts that there is no backup (C72,
  `C72_counterexample_delete`).
* F57 the tab key in the editor writes its blanks with a visible cursor: if they end at the last column of an LCD whose width is a
  multiple of the glyph width, the console panics (C73, `C73_counterexample_tab`; the cause is F33).
* F58 the help says that GPIO_MOCK_INJECT "pre-seeds the next GPIO_READ call for the given pin%", but reading another pin
  drops the level (C75, `C75_counterexample_inject`).
* F59 the help says that GPIO_MOCK_TRACE has the operations "since the last reset", but a reset keeps the earlier ones
  (C75, `C75_counterexample_reset`).
* F60 the second line of a script with `#!` is cut after four bytes without a check that a character ends there, so that a script whose second line is `b="é"` crashes the command line before it starts (cli/src/propline.rs 49). `C80_counterexample`.
* F61 `SLEEP` and `SOUND` check only for durations below zero, so that durations of 2^64 seconds or more, infinity and NaN reach `Duration::from_secs_f64`, which panics (std/src/datetime.rs 157, std/src/sound/cmds.rs 144). `C81_counterexample`.
* F62 (C82): `SHARE` cuts the last two bytes off a change without a check that a character ends there, so that `SHARE "f", "user€"` crashes the interpreter instead of reporting an invalid ACL (client/src/cmds.rs 310). `C82_counterexample`, `C82_crash`.
* F63 (C83): the length of passwords is checked in bytes although the message speaks of characters, so that `ñññ1ñ`, with five characters, is accepted (client/src/cmds.rs 418). `C83_counterexample`.
* F64 (C82): the link that `SHARE` prints for a public file drops what is before the first slash, so that for `CLOUD:a.bas`, which has no slash, it has the name of the drive in it (client/src/cmds.rs 384-387). `C82_link_counterexample`.
* F65 (C84): `LOGIN` logs in before it mounts the drive, so that with another drive mounted as CLOUD it reports an error although the user is then logged in (client/src/cmds.rs 115-132). `C84_login_counterexample`.
* F66 (C84): `LOGOUT` unmounts the drive before it asks the server, so that if the server cannot be reached the user is still logged in without their drive, and cannot `LOGIN` again to get it back (client/src/cmds.rs 212-229). `C84_logout_counterexample`.
* F67 (C86): the link that `SHARE` prints for `CLOUD:a.bas` has `CLOUD:a.bas` as the name of the file, which is no valid path, so that it runs nothing for anyone (client/src/cmds.rs 384-387, repl/src/lib.rs 129-148). `C86_link_counterexample`.
* F68 (C87): the names of files are put into addresses without encoding `%`, so that `a b.bas` and `a%20b.bas` are one file for the server and saving one overwrites the other (client/src/cloud.rs 123, 255, 318). `C87_counterexample`; it rests on the documentation of the crate url, which is not in the repository.
* F69 (C88): opening a drive of an older version that has both `a.bas` and `A.BAS` overwrites one with the other, and crashes the page if the key in small letters comes first, because there is then one key less than was counted (web/src/store.rs 147-171, 139); as keys are renamed while they are visited by index, names can also be missed. `C88_open_counterexample`.
* F70 (C88): a file whose extension is not .BAS can be saved and read in the web interface but is never listed (web/src/store.rs 72-78). `C88_list_counterexample`.

The findings are from reading; the ones proved in the model are marked in `MANIFEST.json` and have
theorems named `Cxx_counterexample…`.

## What is modelled

| model | code | not modelled |
|-------|------|--------------|
| `Types`, `Ast` | core/src/ast.rs | printing |
| `Lexer` | core/src/reader.rs, core/src/lexer.rs | token lengths; UTF-8 decoding (characters are given) |
| `Parser` | core/src/parser.rs, all of it | nesting is bounded by a counter computed from the number of tokens |
| `Codegen` | core/src/compiler/{ids,codegen,syms}.rs, syntax part of core/src/callable.rs | documentation strings |
| `CompExpr`, `CompStmt` | core/src/compiler/{exprs,args,top,mod}.rs, core/src/image.rs `append` | disassembly and listing |
| `Bytecode` | core/src/bytecode.rs | `Display` |
| `Mem` | core/src/mem.rs, core/src/num.rs | memory exhaustion of the process |
| `Arith`, `Vm`, `Run` | core/src/vm/{context,mod}.rs, the drive loop of std/src/lib.rs | caches of names; IEEE arithmetic (`FloatOps`) |
| `Source` | `ConstantDatum::as_source` | formatting of doubles |
| `Strings`, `Library`, `Colors`, `ConsoleSpec` | std/src/{strings,arrays,data}.rs, std/src/console/{format,pager,colors,spec}.rs | transcendental functions; other commands of std |
| `Storage` | std/src/storage/{mod,mem}.rs, name mapping of fs.rs | cloud drives, dates, quotas, the real file system |
| `Readline` | std/src/console/{readline,linebuffer}.rs | console errors |
| `Editor` | repl/src/editor.rs | console errors, file dialogs |
| `Machine` | std/src/lib.rs Machine, MachineBuilder::build | errors of the console; the store of programs (the text arrives with the action) |
| `Inspect` | core/src/vm/mod.rs get_global*, get_program* | nothing |
| `Drawing`, `Lcd` | std/src/console/drawing.rs, std/src/gfx/lcd | device errors, SPI |
| `TextCon` | the text operations of std/src/console/graphics.rs on the LCD | keys, sound; the drawing operations (see `Drawing`, `Lcd`) |
| `Stdlib`, `StdTable` | exec functions and metadata of std/src/{strings,data,arrays,numerics}.rs, console/cmds.rs and gfx/mod.rs (without GFX_POLY and GFX_POLYF) | arithmetic, comparison and conversion of doubles, case conversion and the generator of random numbers are parameters (`StdOps`) |
| `Gpio` | std/src/gpio/{mod,fakes}.rs, rpi/src/gpio.rs: all commands and all three kinds of pins | the library rppal and the board are arbitrary, except that a pin that is in use cannot be taken again and that a pin that is dropped is as before; positions of errors are given as the number of the argument |
| `Fonts` | std/src/gfx/lcd/fonts/*.rs | nothing |
| `St7735s` | st7735s/src/lib.rs lcd_write, lcd_write_reg, lcd_write_data, lcd_set_window, set_data, encode, decode; std/src/gfx/lcd/mod.rs to_xy_size | initialisation, buttons; the controller is a specification |
| `Files` | std/src/storage/cmds.rs | times of files (a parameter), quotas and system paths (in-memory drives have none) |
| `Help` | std/src/help.rs 139-158, 264-396, 463-472 | the layout of the topics; the trie is a map whose keys are gone through in order |
| `Propline` | cli/src/propline.rs | errors of the file system and texts that are not UTF-8 |
| `Timing` | SLEEP and SOUND | `MONOTONIC`, `BEEP`; the conversion of a double into a duration is that of the documentation of Rust |
| `Share` | SHARE and `validate_password_complexity` of client/src/cmds.rs | the drive that answers, how paragraphs are wrapped, the dialog of SIGNUP, LOGIN and LOGOUT; tables of letters and numbers are parameters |
| `Account` | LOGIN, LOGOUT and SIGNUP of client/src/cmds.rs | errors of the console other than the end of the input, the message of the day, explanations; files of cloud drives; how the server is reached |
| `Startup` | `run_from_cloud` and `try_load_autoexec` of repl/src/lib.rs | messages, errors of the console; programs are any function; cloud drives are the files that their users share; that `RUN` compiles |
| `Request` | the address of a file in client/src/cloud.rs | segments `.` and `..`, backslashes, headers and contents of requests; `Url::set_path` is that of the documentation |
| `WebDrive` | web/src/store.rs | times, JSON, errors of the local storage; assertions for debugging |
| `Errmsg` | ERRMSG of std/src/exec.rs and what is done with a machine between two calls | the texts of messages are a parameter |

Not modelled at all: the terminal, SDL and web front ends, the cloud client, I2C, sound,
the help system, and the decimal digits of doubles (`StdOps.showDouble`).

## How the model was checked against the code

* `validation/`: all 460 fixtures of core/tests/test_*.md (programs with the expected disassembly,
  output or error) are replayed on the Lean model, which gives the expected result for all of them.
  This is a test of the model's fidelity, not part of any proof.
* `seeded/LOG.jsonl`: realistic bugs seeded into a scratch copy of the model and the theorems that
  reject them.

## Whole programs

`Spec/Eval`, `Spec/Exec` define a reference interpreter (values, variables by name, statements, calls,
errors, the log of the calls of built-in callables). `Spec/Machine`, `Spec/Program` say what it means
that the machine, with a host that provides these callables, does the same. `program_partial` proves
it for all programs that the compiler accepts. The interpreter has the result `stuck` where nothing
is claimed: jumps between the program and the bodies of callables (F40), GOSUBs that do not come to
a RETURN (F39), variables without a known value (never assigned, or first
defined in a loop, F16), the destinations of F15, errors under RESUME NEXT in compound statements or
at the end of a block (F5), arrays of 2^60 elements or more (F10), and hosts that answer outside of
their declared result and argument types.
