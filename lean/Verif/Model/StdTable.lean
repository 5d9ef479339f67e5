import Verif.Model.Stdlib
import Verif.Model.CompStmt
/-!
# What the built-in callables of the model declare

The metadata with which the callables of `Verif.Model.Stdlib` are registered: names, types, arguments.  Categories and
descriptions are not modelled.
-/

namespace EB

/-- A function (core/src/callable.rs 449-460, 467-470) with alternative syntaxes. -/
def functionMd (name : String) (ret : ExprType) (syntaxes : List Syntax) : Str × Md :=
  (name.toList, ⟨name.toList, some ret, false, syntaxes, false⟩)

/-- A command (core/src/callable.rs 449-460). -/
def commandMd (name : String) (syn : Syntax) : Str × Md := (name.toList, ⟨name.toList, none, false, [syn], false⟩)

/-- Required values, separated by commas. -/
def valuesSyn : List (String × ExprType) → List SingSyn
  | [] => []
  | [(name, ty)] => [.reqValue name.toList ty .end]
  | (name, ty) :: rest => .reqValue name.toList ty (.exactly .long) :: valuesSyn rest

/-- The syntaxes of `LBOUND` and `UBOUND` (std/src/arrays.rs 80-110, 148-178). -/
def boundSyn : List Syntax :=
  [⟨[.reqRef "array".toList true false .end], none⟩,
   ⟨[.reqRef "array".toList true false (.exactly .long), .reqValue "dimension".toList .integer .end], none⟩]

/-- The syntax of `MAX` and `MIN` (std/src/numerics.rs 628-637, 673-682). -/
def extremeSyn : List Syntax := [⟨[], some ⟨"expr".toList, .typed .double, .exactly .long, true, false⟩⟩]

/-- The syntaxes of `RANDOMIZE` and `RND` (std/src/numerics.rs 784-796, 838-850): nothing, or an integer. -/
def seedSyn (name : String) : List Syntax := [⟨[], none⟩, ⟨valuesSyn [(name, .integer)], none⟩]

/-- A command with alternative syntaxes. -/
def commandsMd (name : String) (async : Bool) (syntaxes : List Syntax) : Str × Md := (name.toList, ⟨name.toList, none, async, syntaxes, false⟩)

/-- The syntax of commands and functions that take integers. -/
def intsSyn (names : List String) : Syntax := ⟨valuesSyn (names.map fun n => (n, .integer)), none⟩

/-- The syntaxes of `COLOR` (std/src/console/cmds.rs 97-128). -/
def colorSyn : List Syntax :=
  [⟨[], none⟩, intsSyn ["fg"],
   ⟨[.optValue "fg".toList .integer (.exactly .long), .optValue "bg".toList .integer .end], none⟩]

/-- The syntaxes of `INPUT` (std/src/console/cmds.rs 286-317). -/
def inputSyn : List Syntax :=
  [⟨[.reqRef "vref".toList false true .end], none⟩,
   ⟨[.optValue "prompt".toList .text (.oneOf [.long, .short]), .reqRef "vref".toList false true .end], none⟩]

/-- `add_all` (std/src/arrays.rs, console/cmds.rs, gfx/mod.rs, data.rs, numerics.rs, strings.rs), for the callables of the model.
The syntaxes are those of console/cmds.rs 508-519 (`PRINT`), data.rs 70-79 (`READ`), 197-198 (`RESTORE`),
numerics.rs 129-140 (`ABS`), strings.rs 154-162 (`ASC`), 220-231 (`CHR`), 277-326 (`INSTR`), 384-395 (`LCASE`), 424-442 (`LEFT`),
484-492 (`LEN`), 524-532 (`LTRIM`), 562-610 (`MID`), 668-686 (`RIGHT`), 729-737 (`RTRIM`), 767-775 (`SPACE`), 812-820 (`STR`),
879-887 (`TRIM`), 919-927 (`UCASE`), 959-967 (`VAL`), numerics.rs 170-178 (`ACOS`), 220-228 (`ASIN`), 270-278 (`ATN`),
313-324 (`CINT`), 361-372 (`COS`), 406-407 (`DEG`), 441-452 (`EXP`), 488-499 (`FIX`), 535-546 (`INT`), 582-590 (`LOG`), 716-718 (`PI`),
747-748 (`RAD`), 900-932 (`ROUND`), 971-979 (`SGN`), 1016-1027 (`SIN`), 1060-1068 (`SQR`), 1105-1116 (`TAN`), console/cmds.rs
66-67 (`CLS`), 95-128 (`COLOR`), 211-214 (`INKEY`), 284-317 (`INPUT`), 431-450 (`LOCATE`), 625-627 (`SCRCOLS`), 663-665 (`SCRROWS`),
gfx/mod.rs 184-207 (`GFX_CIRCLE`), 248-271 (`GFX_CIRCLEF`), 311-329 (`GFX_FILL`), 367-369 (`GFX_HEIGHT`), 404-436 (`GFX_LINE`),
474-493 (`GFX_PEEK`), 530-548 (`GFX_PIXEL`), 738-770 (`GFX_RECT`), 809-841 (`GFX_RECTF`), 1045-1059 (`GFX_SYNC`), 885-931 (`GFX_TRI`),
968-1014 (`GFX_TRIF`), 1119-1121 (`GFX_WIDTH`). -/
def stdTable : FMap Str Md :=
  [commandMd "PRINT" ⟨[], some ⟨"expr".toList, .anyValue, .oneOf [.long, .short], false, true⟩⟩,
   commandMd "READ" ⟨[], some ⟨"vref".toList, .varRef, .exactly .long, true, false⟩⟩,
   commandMd "RESTORE" ⟨[], none⟩,
   functionMd "ABS" .double [⟨valuesSyn [("expr", .double)], none⟩],
   functionMd "ASC" .integer [⟨valuesSyn [("char", .text)], none⟩],
   functionMd "CHR" .text [⟨valuesSyn [("code", .integer)], none⟩],
   functionMd "INSTR" .integer [⟨valuesSyn [("expr", .text), ("search", .text)], none⟩,
     ⟨valuesSyn [("start", .integer), ("expr", .text), ("search", .text)], none⟩],
   functionMd "LBOUND" .integer boundSyn,
   functionMd "LCASE" .text [⟨valuesSyn [("expr", .text)], none⟩],
   functionMd "LEFT" .text [⟨valuesSyn [("expr", .text), ("n", .integer)], none⟩],
   functionMd "LEN" .integer [⟨valuesSyn [("expr", .text)], none⟩],
   functionMd "LTRIM" .text [⟨valuesSyn [("expr", .text)], none⟩],
   functionMd "MAX" .double extremeSyn,
   functionMd "MID" .text [⟨valuesSyn [("expr", .text), ("start", .integer)], none⟩,
     ⟨valuesSyn [("expr", .text), ("start", .integer), ("length", .integer)], none⟩],
   functionMd "MIN" .double extremeSyn,
   functionMd "RIGHT" .text [⟨valuesSyn [("expr", .text), ("n", .integer)], none⟩],
   functionMd "RTRIM" .text [⟨valuesSyn [("expr", .text)], none⟩],
   functionMd "SPACE" .text [⟨valuesSyn [("n", .integer)], none⟩],
   functionMd "STR" .text [⟨[.anyValue "expr".toList false .end], none⟩],
   functionMd "TRIM" .text [⟨valuesSyn [("expr", .text)], none⟩],
   functionMd "UBOUND" .integer boundSyn,
   functionMd "UCASE" .text [⟨valuesSyn [("expr", .text)], none⟩],
   functionMd "VAL" .double [⟨valuesSyn [("expr", .text)], none⟩],
   functionMd "ACOS" .double [⟨valuesSyn [("n", .double)], none⟩],
   functionMd "ASIN" .double [⟨valuesSyn [("n", .double)], none⟩],
   functionMd "ATN" .double [⟨valuesSyn [("n", .double)], none⟩],
   functionMd "CINT" .integer [⟨valuesSyn [("expr", .double)], none⟩],
   functionMd "COS" .double [⟨valuesSyn [("angle", .double)], none⟩],
   commandMd "DEG" ⟨[], none⟩,
   functionMd "EXP" .double [⟨valuesSyn [("expr", .double)], none⟩],
   functionMd "FIX" .integer [⟨valuesSyn [("expr", .double)], none⟩],
   functionMd "INT" .integer [⟨valuesSyn [("expr", .double)], none⟩],
   functionMd "LOG" .double [⟨valuesSyn [("num", .double)], none⟩],
   functionMd "PI" .double [⟨[], none⟩],
   commandMd "RAD" ⟨[], none⟩,
   ("RANDOMIZE".toList, ⟨"RANDOMIZE".toList, none, false, seedSyn "seed", false⟩),
   functionMd "RND" .double (seedSyn "n"),
   functionMd "ROUND" .double [⟨valuesSyn [("expr", .double)], none⟩, ⟨valuesSyn [("expr", .double), ("decimals", .integer)], none⟩],
   functionMd "SGN" .integer [⟨valuesSyn [("n", .double)], none⟩],
   functionMd "SIN" .double [⟨valuesSyn [("angle", .double)], none⟩],
   functionMd "SQR" .double [⟨valuesSyn [("num", .double)], none⟩],
   functionMd "TAN" .double [⟨valuesSyn [("angle", .double)], none⟩],
   commandMd "CLS" ⟨[], none⟩,
   commandsMd "COLOR" false colorSyn,
   ("INKEY".toList, ⟨"INKEY".toList, some .text, true, [⟨[], none⟩], false⟩),
   commandsMd "INPUT" true inputSyn,
   commandMd "LOCATE" (intsSyn ["column", "row"]),
   functionMd "SCRCOLS" .integer [⟨[], none⟩],
   functionMd "SCRROWS" .integer [⟨[], none⟩],
   commandMd "GFX_CIRCLE" (intsSyn ["x", "y", "r"]),
   commandMd "GFX_CIRCLEF" (intsSyn ["x", "y", "r"]),
   commandMd "GFX_FILL" (intsSyn ["x", "y"]),
   functionMd "GFX_HEIGHT" .integer [⟨[], none⟩],
   commandMd "GFX_LINE" (intsSyn ["x1", "y1", "x2", "y2"]),
   functionMd "GFX_PEEK" .integer [intsSyn ["x", "y"]],
   commandMd "GFX_PIXEL" (intsSyn ["x", "y"]),
   commandMd "GFX_RECT" (intsSyn ["x1", "y1", "x2", "y2"]),
   commandMd "GFX_RECTF" (intsSyn ["x1", "y1", "x2", "y2"]),
   commandsMd "GFX_SYNC" false [⟨[], none⟩, ⟨valuesSyn [("enabled", .boolean)], none⟩],
   commandMd "GFX_TRI" (intsSyn ["x1", "y1", "x2", "y2", "x3", "y3"]),
   commandMd "GFX_TRIF" (intsSyn ["x1", "y1", "x2", "y2", "x3", "y3"]),
   functionMd "GFX_WIDTH" .integer [⟨[], none⟩]]

end EB
