import Verif.Model.Strings
import Verif.Model.Library
import Verif.Model.Readline
/-!
# Built-in callables, as the machine calls them

Models `Scope` (core/src/callable.rs 906-1043), which gives a built-in callable access to its arguments in
registers, and on top of it the callables of the console (std/src/console/cmds.rs), those for graphics
(std/src/gfx/mod.rs) but for `GFX_POLY` and `GFX_POLYF`, the string functions (std/src/strings.rs), `LBOUND` and `UBOUND`
(std/src/arrays.rs), `READ` and `RESTORE` (std/src/data.rs) and the numerical functions and commands
(std/src/numerics.rs).  A panic is `none`.
-/

namespace EB

/-! ## The console -/

/-- The shapes that can be drawn (std/src/gfx/mod.rs): the method of `Console` that is called. -/
inductive Shape where
  | circle | circleFilled | fill | line | pixel | rect | rectFilled | tri | triFilled
  deriving DecidableEq, Repr

/-- What is given to the console: `Console::print` (a line), `write` (a part of it), `clear`, `set_color`, `locate`,
`read_line` (std/src/console/readline.rs), the drawing methods, `show_cursor` or `hide_cursor`, `set_sync` and `sync_now`. -/
inductive Printed where
  | line (text : Str)
  | part (text : Str)
  | cleared
  | colored (fg bg : Option (BitVec 8))
  | moved (column row : Nat)
  | asked (prompt previous : Str)
  | drawn (shape : Shape) (numbers : List Int)
  | cursor (shown : Bool)
  | synced (always : Bool)
  | syncNow
  deriving DecidableEq, Repr

/-- What `read_line` gives: a text, or an error of the kind `InvalidData`. -/
inductive Answer where
  | line (text : Str)
  | garbled (msg : Str)
  deriving DecidableEq, Repr

/-- What these callables take from Rust's standard library. -/
structure StdOps where
  /-- `str::to_lowercase` -/
  lower : Str → Str
  /-- `str::to_uppercase` -/
  upper : Str → Str
  /-- `format!("{}", f64)` -/
  showDouble : BitVec 64 → Str
  /-- `str::parse::<f64>` on the numeric prefix of a string, which cannot fail -/
  parseDouble : Str → BitVec 64
  /-- `f64 < f64` -/
  less : BitVec 64 → BitVec 64 → Bool
  /-- `i32 as f64` -/
  ofInt : I32 → BitVec 64
  /-- `double_to_integer` (std/src/numerics.rs 36-43), with the text of the error -/
  toInt : BitVec 64 → Except Str I32
  /-- `f64 <= f64` -/
  atMost : BitVec 64 → BitVec 64 → Bool
  /-- `f64 * f64` -/
  mul : BitVec 64 → BitVec 64 → BitVec 64
  /-- `f64 / f64` -/
  div : BitVec 64 → BitVec 64 → BitVec 64
  /-- `10f64.powi(i32)` -/
  tenTo : I32 → BitVec 64
  /-- `f64::round` -/
  round : BitVec 64 → BitVec 64
  /-- `f64::floor` -/
  floor : BitVec 64 → BitVec 64
  /-- `f64::trunc` -/
  trunc : BitVec 64 → BitVec 64
  /-- `f64::sqrt` -/
  sqrt : BitVec 64 → BitVec 64
  /-- `f64::exp` -/
  exp : BitVec 64 → BitVec 64
  /-- `f64::ln` -/
  ln : BitVec 64 → BitVec 64
  /-- `f64::sin` -/
  sin : BitVec 64 → BitVec 64
  /-- `f64::cos` -/
  cos : BitVec 64 → BitVec 64
  /-- `f64::tan` -/
  tan : BitVec 64 → BitVec 64
  /-- `f64::asin` -/
  asin : BitVec 64 → BitVec 64
  /-- `f64::acos` -/
  acos : BitVec 64 → BitVec 64
  /-- `f64::atan` -/
  atan : BitVec 64 → BitVec 64
  /-- `f64::to_radians` -/
  toRadians : BitVec 64 → BitVec 64
  /-- `f64::to_degrees` -/
  toDegrees : BitVec 64 → BitVec 64
  /-- `u32 as f64` -/
  ofU32 : BitVec 32 → BitVec 64
  /-- `SmallRng::seed_from_u64`; the state of a generator is given as a number -/
  rngSeed : BitVec 64 → Nat
  /-- `SmallRng::next_u32` -/
  rngNext : Nat → BitVec 32 × Nat
  /-- What `SmallRng::from_entropy` gives when it is called for the first, second, … time -/
  entropy : Nat → Nat
  /-- `str::parse::<f64>` -/
  parseWhole : Str → Option (BitVec 64)
  /-- `Console::size_chars` less one: a console has at least one column and one row, and it keeps its size -/
  lastColumn : Fin 65535
  lastRow : Fin 65535
  /-- `Console::size_pixels` -/
  width : BitVec 16
  height : BitVec 16
  /-- What `Console::poll_key` gives when it is called for the first, second, … time -/
  keys : Nat → Option Key
  /-- What `read_line` gives, one after the other, and the text of the error when there is no more input -/
  answers : List Answer
  endOfInput : Str
  /-- `Console::peek_pixel`, after what was given to the console -/
  peek : List Printed → Int → Int → Option (BitVec 8)

/-- `Scope` (core/src/callable.rs 906-942): `first` is its `fp`. -/
structure CallScope where
  first : Nat
  offset : Nat
  lcs : List LineCol
  regs : Nat → BitVec 64
  heap : Heap
  consts : List ConstantDatum
  data : List (Option ConstantDatum)

/-- The registers and the heap after a call, and its result. -/
abbrev CallRes := (Nat → BitVec 64) × Heap × Except (Option LineCol × Str) Unit

namespace CallScope

/-- The register of an argument. -/
def reg (s : CallScope) (i : Nat) : BitVec 64 := s.regs (s.first + s.offset + i)

/-- `Scope::nargs` (core/src/callable.rs 951-953). -/
def nargs (s : CallScope) : Nat := s.lcs.length

/-- `Scope::get_pos` (core/src/callable.rs 958-960). -/
def getPos (s : CallScope) (i : Nat) : Option LineCol := s.lcs[i]?

/-- `Scope::get_type` (core/src/callable.rs 963-965). -/
def getType (s : CallScope) (i : Nat) : Option VarArgTag := VarArgTag.parse (s.reg i)

/-- `Scope::get_boolean` (core/src/callable.rs 968-970). -/
def getBoolean (s : CallScope) (i : Nat) : Bool := s.reg i != 0#64

/-- `Scope::get_double` (core/src/callable.rs 973-975). -/
def getDouble (s : CallScope) (i : Nat) : BitVec 64 := s.reg i

/-- `Scope::get_integer` (core/src/callable.rs 978-980). -/
def getInteger (s : CallScope) (i : Nat) : I32 := (s.reg i).setWidth 32

/-- `Scope::get_ref` and `Scope::get_mut_ref` (core/src/callable.rs 983-994): the register and the type. -/
def getRef (s : CallScope) (i : Nat) : Option (Nat × ExprType) := taggedRegParse (s.reg i)

/-- `Scope::get_string` (core/src/callable.rs 997-1001). -/
def getString (s : CallScope) (i : Nat) : Option Str :=
  (DatumPtr.ofU64 (s.reg i)).bind fun p => p.resolveString s.consts s.heap

/-- `RegisterRef::array_dimensions` (core/src/callable.rs 760-765). -/
def arrayDimensions (s : CallScope) (index : Nat) : Option (List Nat) :=
  (DatumPtr.ofU64 (s.regs index)).bind fun p => p.heapIndex.bind fun i =>
    match s.heap.data[i]? with
    | some (.array a) => some a.dimensions
    | _ => none

/-- The call succeeds and changes nothing. -/
def done (s : CallScope) : CallRes := (s.regs, s.heap, .ok ())

/-- The call fails with an error that has no position of its own. -/
def fail (s : CallScope) (msg : Str) : CallRes := (s.regs, s.heap, .error (none, msg))

/-- The call fails with `CallError::Syntax` at the position of an argument. -/
def failAt (s : CallScope) (i : Nat) (msg : Str) : Option CallRes :=
  (s.getPos i).map fun p => (s.regs, s.heap, .error (some p, msg))

/-- A register gets a new value. -/
def setReg (s : CallScope) (i : Nat) (x : BitVec 64) : Nat → BitVec 64 := fun j => if j = i then x else s.regs j

/-- The text of `HeapOverflowError` (core/src/mem.rs 216-219). -/
def heapFull : Str := "Out of heap space".toList

/-- `Scope::return_double` (core/src/callable.rs 1021-1024). -/
def returnDouble (s : CallScope) (d : BitVec 64) : CallRes := (s.setReg s.first d, s.heap, .ok ())

/-- `Scope::return_integer` (core/src/callable.rs 1030-1033). -/
def returnInteger (s : CallScope) (i : I32) : CallRes := (s.setReg s.first (ofI32 i), s.heap, .ok ())

/-- `Scope::return_string` (core/src/callable.rs 1039-1042). -/
def returnString (s : CallScope) (t : Str) : CallRes :=
  match s.heap.push (.text t) with
  | some (p, heap) => (s.setReg s.first p, heap, .ok ())
  | none => s.fail heapFull

end CallScope

/-! ## Conversions -/

/-- `format_boolean` (std/src/strings.rs 34-36). -/
def formatBoolean (b : Bool) : Str := if b then "TRUE".toList else "FALSE".toList

/-- `f64::is_nan`: all bits of the exponent are set and some of the mantissa. -/
def isNan (d : BitVec 64) : Bool := d.toNat / 2 ^ 52 % 2 ^ 11 == 2 ^ 11 - 1 && d.toNat % 2 ^ 52 != 0

/-- `format_double` (std/src/strings.rs 51-53). -/
def formatDouble (O : StdOps) (d : BitVec 64) : Str :=
  if !isNan d && d.msb then O.showDouble d else ' ' :: O.showDouble d

/-- `i32::to_string`. -/
def showInteger (i : I32) : Str := (toString i.toInt).toList

/-- `format_integer` (std/src/strings.rs 64-66). -/
def formatInteger (i : I32) : Str := if i.toInt < 0 then showInteger i else ' ' :: showInteger i

/-! ## The state that callables share -/

/-- `Prng` (std/src/numerics.rs 87-90): the state of the generator and the last number; and how often the system was
asked for entropy so far. -/
structure Prng where
  state : Nat
  last : BitVec 32
  asked : Nat
  deriving DecidableEq, Repr

/-- What was given to the console so far, the index of `READ`, whether angles are in degrees (`AngleMode`,
std/src/numerics.rs 46-52), the generator of random numbers, and how often the console was asked for a key and for a line. -/
structure StdState where
  out : List Printed
  index : Nat
  degrees : Bool
  random : Prng
  polls : Nat
  answered : Nat
  deriving DecidableEq, Repr

/-- A callable. -/
abbrev StdCall := StdState → CallScope → Option (StdState × CallRes)

/-- A function, which does not change the state. -/
def pureCall (f : CallScope → Option CallRes) : StdCall := fun st s => (f s).map fun r => (st, r)

/-! ## PRINT -/

/-- `while !text.len().is_multiple_of(14) { text += " " }` (std/src/console/cmds.rs 593-595).  The loop ends after at
most 13 rounds, so 14 stand for all. -/
def padLoop : Nat → Str → Str
  | 0, text => text
  | n + 1, text => if byteLen text % 14 ≠ 0 then padLoop n (text ++ [' ']) else text

/-- What follows a value (std/src/console/cmds.rs 588-602) when it is not the last one. -/
def afterValue (sep : ArgSep) (addSpace : Bool) (text : Str) : Option Str :=
  match sep with
  | .long => some (padLoop 14 (text ++ [' ']))
  | .short => some (if addSpace then text ++ [' '] else text)
  | .end => some text
  | .as => none

/-- The value of an argument as text, and whether a space follows it (std/src/console/cmds.rs 555-575). -/
def printValue (O : StdOps) (s : CallScope) (i : Nat) : ExprType → Option (Str × Bool)
  | .boolean => some (formatBoolean (s.getBoolean i), true)
  | .double => some (formatDouble O (s.getDouble i), true)
  | .integer => some (formatInteger (s.getInteger i), true)
  | .text => (s.getString i).map fun t => (t, false)

/-- The loop of `PRINT` (std/src/console/cmds.rs 548-603): the text and whether it is a whole line.  An argument takes
at least one register, so as many rounds are enough as there are arguments. -/
def printLoop (O : StdOps) (s : CallScope) : Nat → Nat → Str → Option (Str × Bool)
  | 0, _, _ => none
  | n + 1, reg, text =>
    match s.getType reg with
    | some (.immediate sep ty) =>
      match printValue O s (reg + 1) ty with
      | none => none
      | some (t, addSpace) =>
        match afterValue sep addSpace (text ++ t) with
        | none => none
        | some text' => if sep = .end then some (text', true) else printLoop O s n (reg + 2) text'
    | some (.missing sep) =>
      match afterValue sep false text with
      | none => none
      | some text' =>
        if sep = .end then some (text', reg + 1 == 1 && text.isEmpty) else printLoop O s n (reg + 1) text'
    | _ => none

/-- `PRINT` (std/src/console/cmds.rs 544-611).  The console takes everything: its I/O errors are not modelled. -/
def printCall (O : StdOps) : StdCall := fun st s =>
  (printLoop O s (s.nargs + 1) 0 []).map fun (text, nl) =>
    ({ st with out := st.out ++ [if nl then .line text else .part text] }, s.done)

/-! ## String functions -/

/-- A string that a function of `Model/Strings.lean` computes, or its error at an argument. -/
def returnText (s : CallScope) (o : Outcome Str) (i : Nat) (msg : Str) : Option CallRes :=
  match o with
  | .ok t => some (s.returnString t)
  | .error _ => s.failAt i msg
  | .panic => none

/-- An integer that a function of `Model/Strings.lean` computes, or its error at an argument. -/
def returnInt (s : CallScope) (o : Outcome Int) (i : Nat) (msg : Str) : Option CallRes :=
  match o with
  | .ok t => some (s.returnInteger (BitVec.ofInt 32 t))
  | .error _ => s.failAt i msg
  | .panic => none

/-- `ASC` (std/src/strings.rs 181-208). -/
def ascCall (s : CallScope) : Option CallRes :=
  (s.getString 0).bind fun t => returnInt s (ascFn t) 0 ("Input string \"".toList ++ t ++ "\" must be 1-character long".toList)

/-- `CHR` (std/src/strings.rs 247-265). -/
def chrCall (s : CallScope) : Option CallRes :=
  let i := s.getInteger 0
  returnText s (chrFn i.toInt) 0
    (if i.toInt < 0 then "Character code ".toList ++ showInteger i ++ " must be positive".toList
     else "Invalid character code ".toList ++ showInteger i)

/-- `INSTR` (std/src/strings.rs 342-372). -/
def instrCall (s : CallScope) : Option CallRes :=
  let (start, a, b) : Option Int × Nat × Nat := if s.nargs = 2 then (none, 0, 1) else (some (s.getInteger 0).toInt, 1, 2)
  (s.getString a).bind fun t => (s.getString b).bind fun u =>
    returnInt s (instrFn start t u) 0 "start% must be positive".toList

/-- `LCASE` (std/src/strings.rs 407-412). -/
def lcaseCall (O : StdOps) (s : CallScope) : Option CallRes := (s.getString 0).map fun t => s.returnString (O.lower t)

/-- `LEFT` (std/src/strings.rs 461-472). -/
def leftCall (s : CallScope) : Option CallRes :=
  (s.getString 0).bind fun t => returnText s (leftFn t (s.getInteger 1).toInt) 1 "n% cannot be negative".toList

/-- `LEN` (std/src/strings.rs 505-512). -/
def lenCall (s : CallScope) : Option CallRes :=
  (s.getString 0).bind fun t =>
    match lenFn t with
    | .ok n => some (s.returnInteger (BitVec.ofInt 32 n))
    | .error _ => some (s.fail "String too long".toList)
    | .panic => none

/-- `LTRIM` (std/src/strings.rs 545-550). -/
def ltrimCall (s : CallScope) : Option CallRes := (s.getString 0).map fun t => s.returnString (ltrimFn t)

/-- `MID` (std/src/strings.rs 628-656). -/
def midCall (s : CallScope) : Option CallRes :=
  (s.getString 0).bind fun t =>
    let start := (s.getInteger 1).toInt
    let length := if s.nargs = 3 then some (s.getInteger 2).toInt else none
    returnText s (midFn t start length) (if start < 0 then 1 else 2)
      (if start < 0 then "start% cannot be negative".toList else "length% cannot be negative".toList)

/-- `RIGHT` (std/src/strings.rs 705-717). -/
def rightCall (s : CallScope) : Option CallRes :=
  (s.getString 0).bind fun t => returnText s (rightFn t (s.getInteger 1).toInt) 1 "n% cannot be negative".toList

/-- `RTRIM` (std/src/strings.rs 750-755). -/
def rtrimCall (s : CallScope) : Option CallRes := (s.getString 0).map fun t => s.returnString (rtrimFn t)

/-- `SPACE` (std/src/strings.rs 791-800). -/
def spaceCall (s : CallScope) : Option CallRes :=
  returnText s (spaceFn (s.getInteger 0).toInt) 0 "n% cannot be negative".toList

/-- `STR` (std/src/strings.rs 842-867). -/
def strCall (O : StdOps) (s : CallScope) : Option CallRes :=
  match s.getType 0 with
  | some (.immediate _ ty) => (printValue O s 1 ty).map fun t => s.returnString t.1
  | _ => none

/-- `TRIM` (std/src/strings.rs 902-907). -/
def trimCall (s : CallScope) : Option CallRes := (s.getString 0).map fun t => s.returnString (trimFn t)

/-- `UCASE` (std/src/strings.rs 941-946). -/
def ucaseCall (O : StdOps) (s : CallScope) : Option CallRes := (s.getString 0).map fun t => s.returnString (O.upper t)

/-- `VAL` (std/src/strings.rs 984-990) and the end of `parse_numeric_prefix` (99-142). -/
def valCall (O : StdOps) (s : CallScope) : Option CallRes :=
  (s.getString 0).map fun t =>
    s.returnDouble (match numericPrefix t with
      | some p => O.parseDouble p
      | none => 0#64)

/-! ## Arrays -/

/-- `parse_bound_args` (std/src/arrays.rs 33-67), with the texts of the errors. -/
def boundCall (f : List Nat → Option Int → Outcome Int) (s : CallScope) : Option CallRes :=
  (s.getRef 0).bind fun r => (s.arrayDimensions r.1).bind fun dims =>
    if s.nargs = 2 then
      let i := s.getInteger 1
      returnInt s (f dims (some i.toInt)) 1
        (if i.toInt < 0 then "Dimension ".toList ++ showInteger i ++ " must be positive".toList
         else "Array has only ".toList ++ (toString dims.length).toList ++ " dimensions but asked for ".toList ++ showInteger i)
    else returnInt s (f dims none) 0 "Requires a dimension for multidimensional arrays".toList

/-! ## DATA -/

/-- `expr_type_name` (std/src/data.rs 42-49). -/
def typeName : ExprType → Str
  | .boolean => "BOOLEAN".toList
  | .double => "DOUBLE".toList
  | .integer => "INTEGER".toList
  | .text => "STRING".toList

/-- The type of a value in `value_type_name` (std/src/data.rs 51-58). -/
def datumType : ConstantDatum → ExprType
  | .boolean _ => .boolean
  | .double _ => .double
  | .integer _ => .integer
  | .text _ => .text

/-- `assign_datum` (std/src/data.rs 110-153) with `RegisterRefMut::set_*` (core/src/callable.rs 876-900); `i` is the
register of the variable reference. -/
def assignCall (O : StdOps) (s : CallScope) (i : Nat) (d : ConstantDatum) : Option CallRes :=
  (s.getRef i).bind fun r =>
    match r.2, d with
    | .boolean, .boolean b => some (s.setReg r.1 (ofBool b), s.heap, .ok ())
    | .double, .double x => some (s.setReg r.1 x, s.heap, .ok ())
    | .double, .integer n => some (s.setReg r.1 (O.ofInt n), s.heap, .ok ())
    | .integer, .double x =>
      match O.toInt x with
      | .ok n => some (s.setReg r.1 (ofI32 n), s.heap, .ok ())
      | .error msg => s.failAt i msg
    | .integer, .integer n => some (s.setReg r.1 (ofI32 n), s.heap, .ok ())
    | .text, .text t =>
      match s.heap.push (.text t) with
      | some (p, heap) => some (s.setReg r.1 p, heap, .ok ())
      | none => some (s.fail CallScope.heapFull)
    | ty, d => s.failAt i ("Cannot assign value of type ".toList ++ typeName (datumType d) ++ " to variable of type ".toList ++ typeName ty)

/-- The loop of `READ` (std/src/data.rs 157-189), which takes at most as many rounds as there are arguments. -/
def readCallLoop (O : StdOps) : Nat → StdState → CallScope → Nat → Option (StdState × CallRes)
  | 0, _, _, _ => none
  | n + 1, st, s, reg =>
    match s.getType reg with
    | some (.pointer sep) =>
      (s.getRef (reg + 1)).bind fun r =>
        match s.data[st.index]? with
        | none => (s.failAt (reg + 1) "Out of data".toList).map fun x => (st, x)
        | some d =>
          let st := { st with index := st.index + 1 }
          (assignCall O s (reg + 1) (d.getD (defaultDatum r.2))).bind fun x =>
            match x with
            | (regs, heap, .ok ()) =>
              if sep = .end then some (st, regs, heap, .ok ())
              else readCallLoop O n st { s with regs := regs, heap := heap } (reg + 2)
            | x => some (st, x)
    | _ => none

/-- `READ` (std/src/data.rs 107-192). -/
def readCall (O : StdOps) : StdCall := fun st s => readCallLoop O (s.nargs + 1) st s 0

/-- `RESTORE` (std/src/data.rs 228-232). -/
def restoreCall : StdCall := fun st s => some ({ st with index := 0 }, s.done)

/-! ## Numbers -/

/-- `ABS` (std/src/numerics.rs 153-157): `f64::abs` clears the sign. -/
def absCall (s : CallScope) : Option CallRes := some (s.returnDouble (s.getDouble 0 &&& 0x7fffffffffffffff#64))

/-- `MAX` (std/src/numerics.rs 650-659), which starts with `f64::MIN`. -/
def maxCall (O : StdOps) (s : CallScope) : Option CallRes :=
  some (s.returnDouble ((List.range s.nargs).foldl (fun m i => if O.less m (s.getDouble i) then s.getDouble i else m)
    0xffefffffffffffff#64))

/-- `MIN` (std/src/numerics.rs 695-704), which starts with `f64::MAX`. -/
def minCall (O : StdOps) (s : CallScope) : Option CallRes :=
  some (s.returnDouble ((List.range s.nargs).foldl (fun m i => if O.less (s.getDouble i) m then s.getDouble i else m)
    0x7fefffffffffffff#64))

/-- `ACOS` and `ASIN` (std/src/numerics.rs 196-207, 246-257), with the name in the message, and `to_angle` (77-82). -/
def arcCall (O : StdOps) (f : BitVec 64 → BitVec 64) (what : String) (degrees : Bool) (s : CallScope) : Option CallRes :=
  let n := s.getDouble 0
  if !(O.atMost 0xbff0000000000000#64 n && O.atMost n 0x3ff0000000000000#64) then
    s.failAt 0 ("Cannot take ".toList ++ what.toList ++ " of a number outside of [-1, 1]".toList)
  else some (s.returnDouble (if degrees then O.toDegrees (f n) else f n))

/-- `ATN` (std/src/numerics.rs 296-301). -/
def atnCall (O : StdOps) (degrees : Bool) (s : CallScope) : Option CallRes :=
  let n := O.atan (s.getDouble 0)
  some (s.returnDouble (if degrees then O.toDegrees n else n))

/-- `COS`, `SIN` and `TAN` (std/src/numerics.rs 390-393, 1045-1048, 1134-1137), with `get_angle` (66-74). -/
def angleCall (O : StdOps) (f : BitVec 64 → BitVec 64) (degrees : Bool) (s : CallScope) : Option CallRes :=
  let angle := s.getDouble 0
  some (s.returnDouble (f (if degrees then O.toRadians angle else angle)))

/-- A function that looks at the angle mode. -/
def modeCall (f : Bool → CallScope → Option CallRes) : StdCall := fun st s => pureCall (f st.degrees) st s

/-- `CINT`, `FIX` and `INT` (std/src/numerics.rs 341-348, 516-523, 563-570), which differ in what they do to the
number first. -/
def castCall (O : StdOps) (first : BitVec 64 → BitVec 64) (s : CallScope) : Option CallRes :=
  match O.toInt (first (s.getDouble 0)) with
  | .error e => s.failAt 0 e
  | .ok i => some (s.returnInteger i)

/-- `DEG` and `RAD` (std/src/numerics.rs 425-429, 766-770). -/
def modeCommand (degrees : Bool) : StdCall := fun st s => some ({ st with degrees := degrees }, s.done)

/-- `f64::is_finite`: some bit of the exponent is not set. -/
def isFinite (d : BitVec 64) : Bool := d.toNat / 2 ^ 52 % 2 ^ 11 != 2 ^ 11 - 1

/-- `EXP` (std/src/numerics.rs 465-476). -/
def expCall (O : StdOps) (s : CallScope) : Option CallRes :=
  let exp := O.exp (s.getDouble 0)
  if !isFinite exp then
    s.failAt 0 ("Cannot exponentiate ".toList ++ O.showDouble (s.getDouble 0) ++ " due to overflow".toList)
  else some (s.returnDouble exp)

/-- `LOG` (std/src/numerics.rs 603-614). -/
def logCall (O : StdOps) (s : CallScope) : Option CallRes :=
  if O.atMost (s.getDouble 0) 0#64 then s.failAt 0 "Cannot take logarithm of zero or a negative number".toList
  else some (s.returnDouble (O.ln (s.getDouble 0)))

/-- `PI` (std/src/numerics.rs 731-734), with the bits of `std::f64::consts::PI`. -/
def piCall (s : CallScope) : Option CallRes := some (s.returnDouble 0x400921fb54442d18#64)

/-- `ROUND` (std/src/numerics.rs 949-959). -/
def roundCall (O : StdOps) (s : CallScope) : Option CallRes :=
  let value := s.getDouble 0
  if s.nargs = 1 then some (s.returnDouble (O.round value))
  else
    let factor := O.tenTo (s.getInteger 1)
    some (s.returnDouble (O.div (O.round (O.mul value factor)) factor))

/-- `SGN` (std/src/numerics.rs 992-1002). -/
def sgnCall (O : StdOps) (s : CallScope) : Option CallRes :=
  let n := s.getDouble 0
  some (s.returnInteger (if O.less 0#64 n then 1#32 else if O.less n 0#64 then -1#32 else 0#32))

/-- `SQR` (std/src/numerics.rs 1081-1092). -/
def sqrCall (O : StdOps) (s : CallScope) : Option CallRes :=
  if O.less (s.getDouble 0) 0#64 then s.failAt 0 "Cannot take square root of a negative number".toList
  else some (s.returnDouble (O.sqrt (s.getDouble 0)))

namespace Prng

/-- `Prng::last` (std/src/numerics.rs 109-111). -/
def lastDouble (O : StdOps) (r : Prng) : BitVec 64 := O.div (O.ofU32 r.last) (O.ofU32 0xffffffff#32)

/-- `Prng::next` (std/src/numerics.rs 114-117), without the conversion of the number. -/
def next (O : StdOps) (r : Prng) : Prng :=
  let (x, state) := O.rngNext r.state
  { r with state := state, last := x }

/-- `Prng::new_from_entryopy` (std/src/numerics.rs 95-99), in place of an earlier generator. -/
def fromEntropy (O : StdOps) (r : Prng) : Prng :=
  let (x, state) := O.rngNext (O.entropy r.asked)
  { state := state, last := x, asked := r.asked + 1 }

/-- `Prng::new_from_seed` (std/src/numerics.rs 102-106), in place of an earlier generator: `seed as u64` extends the sign. -/
def fromSeed (O : StdOps) (seed : I32) (r : Prng) : Prng :=
  let (x, state) := O.rngNext (O.rngSeed (seed.signExtend 64))
  { state := state, last := x, asked := r.asked }

end Prng

/-- `RANDOMIZE` (std/src/numerics.rs 814-823). -/
def randomizeCall (O : StdOps) : StdCall := fun st s =>
  if s.nargs = 0 then some ({ st with random := st.random.fromEntropy O }, s.done)
  else some ({ st with random := st.random.fromSeed O (s.getInteger 0) }, s.done)

/-- `RND` (std/src/numerics.rs 872-888). -/
def rndCall (O : StdOps) : StdCall := fun st s =>
  let answer := fun (r : Prng) => some ({ st with random := r }, s.returnDouble (r.lastDouble O))
  if s.nargs = 0 then answer (st.random.next O)
  else
    let n := (s.getInteger 0).toInt
    if n = 0 then answer st.random
    else if 0 < n then answer (st.random.next O)
    else answer (st.random.fromSeed O (s.getInteger 0))

/-- The state when the callables are registered (std/src/numerics.rs `add_all` 1141-1144). -/
def StdState.start (O : StdOps) : StdState :=
  { out := [], index := 0, degrees := false, random := Prng.fromEntropy O ⟨0, 0, 0⟩, polls := 0, answered := 0 }

/-! ## Console commands

The console takes everything: its I/O errors are not modelled. -/

/-- Something is given to the console. -/
def StdState.put (st : StdState) (op : Printed) : StdState := { st with out := st.out ++ [op] }

/-- The call fails with `CallError::Syntax`. -/
def CallScope.failWith (s : CallScope) (e : LineCol × Str) : CallRes := (s.regs, s.heap, .error (some e.1, e.2))

/-- A number that is checked: `CallError::Syntax` at its position if it is out of range. -/
def checkedArg {α : Type} (s : CallScope) (i : Nat) (o : Except Str α) : Option (Except (LineCol × Str) α) :=
  match o with
  | .ok a => some (.ok a)
  | .error msg => (s.getPos i).map fun p => .error (p, msg)

/-- `CLS` (std/src/console/cmds.rs 80-84). -/
def clsCall : StdCall := fun st s => some (st.put .cleared, s.done)

/-- `get_color` (std/src/console/cmds.rs 148-155). -/
def getColor (s : CallScope) (i : Nat) : Option (Except (LineCol × Str) (Option (BitVec 8))) :=
  let n := s.getInteger i
  checkedArg s i (if 0 ≤ n.toInt ∧ n.toInt ≤ 255 then .ok (some (n.setWidth 8)) else .error "Color out of range".toList)

/-- A color that may be left out, and the register behind it (std/src/console/cmds.rs 162-193). -/
def optColor (s : CallScope) (reg : Nat) : Option (Except (LineCol × Str) (Option (BitVec 8)) × Nat) :=
  if reg < s.nargs then
    match s.getType reg with
    | some (.immediate _ _) => (getColor s (reg + 1)).map fun c => (c, reg + 2)
    | some (.missing _) => some (.ok none, reg + 1)
    | _ => none
  else some (.ok none, reg + 1)

/-- The colors of `COLOR` (std/src/console/cmds.rs 157-195). -/
def getColors (s : CallScope) : Option (Except (LineCol × Str) (Option (BitVec 8) × Option (BitVec 8))) :=
  if s.nargs = 0 then some (.ok (none, none))
  else if s.nargs = 1 then (getColor s 0).map fun c => c.map fun fg => (fg, none)
  else
    match optColor s 0 with
    | none => none
    | some (.error e, _) => some (.error e)
    | some (.ok fg, reg) => (optColor s reg).map fun c => c.1.map fun bg => (fg, bg)

/-- `COLOR` (std/src/console/cmds.rs 147-199). -/
def colorCall : StdCall := fun st s =>
  (getColors s).map fun c =>
    match c with
    | .ok (fg, bg) => (st.put (.colored fg bg), s.done)
    | .error e => (st, s.failWith e)

/-- The names of keys (std/src/console/cmds.rs 246-269). -/
def keyName : Option Key → Str
  | some .arrowDown => "DOWN".toList
  | some .arrowLeft => "LEFT".toList
  | some .arrowRight => "RIGHT".toList
  | some .arrowUp => "UP".toList
  | some .backspace => "BS".toList
  | some .carriageReturn => "ENTER".toList
  | some (.char x) => [x]
  | some .delete => "DEL".toList
  | some .end => "END".toList
  | some .eofOrDelete => "EOF".toList
  | some .escape => "ESC".toList
  | some .home => "HOME".toList
  | some .interrupt => "INT".toList
  | some .newLine => "ENTER".toList
  | some .pageDown => "PGDOWN".toList
  | some .pageUp => "PGUP".toList
  | some .tab => "TAB".toList
  | some .unknown => "?".toList
  | none => []

/-- `INKEY` (std/src/console/cmds.rs 242-271). -/
def inkeyCall (O : StdOps) : StdCall := fun st s =>
  some ({ st with polls := st.polls + 1 }, s.returnString (keyName (O.keys st.polls)))

/-- `parse_boolean` (std/src/strings.rs 39-48). -/
def parseTruth (O : StdOps) (s : Str) : Except Str Bool :=
  let raw := O.upper s
  if raw = "TRUE".toList ∨ raw = "YES".toList ∨ raw = "Y".toList then .ok true
  else if raw = "FALSE".toList ∨ raw = "NO".toList ∨ raw = "N".toList then .ok false
  else .error ("Invalid boolean literal ".toList ++ s)

/-- The loop of `i32::from_str`: digits are added to (or, with a minus sign, subtracted from) ten times the number so far,
with checks for overflow. -/
def digitsLoop (minus : Bool) : Int → Str → Option Int
  | n, [] => some n
  | n, c :: rest =>
    if '0' ≤ c ∧ c ≤ '9' then
      let d : Int := ((c.toNat - '0'.toNat : Nat) : Int)
      let m := n * 10
      if m < -2147483648 ∨ 2147483647 < m then none
      else
        let m := if minus then m - d else m + d
        if m < -2147483648 ∨ 2147483647 < m then none else digitsLoop minus m rest
    else none

/-- `i32::from_str`: a sign is not a number. -/
def i32FromStr : Str → Option Int
  | [] => none
  | '-' :: rest => if rest.isEmpty then none else digitsLoop true 0 rest
  | '+' :: rest => if rest.isEmpty then none else digitsLoop false 0 rest
  | s => digitsLoop false 0 s

/-- `parse_integer` (std/src/strings.rs 69-74). -/
def parseInteger (s : Str) : Except Str I32 :=
  match i32FromStr s with
  | some n => .ok (BitVec.ofInt 32 n)
  | none => .error ("Invalid integer literal ".toList ++ s)

/-- `parse_double` (std/src/strings.rs 56-61). -/
def parseDouble (O : StdOps) (s : Str) : Except Str (BitVec 64) :=
  match O.parseWhole s with
  | some d => .ok d
  | none => .error ("Invalid double-precision floating point literal ".toList ++ s)

/-- The value of an answer for a variable (std/src/console/cmds.rs 376-406). -/
def parseAnswer (O : StdOps) (ty : ExprType) (s : Str) : Except Str ConstantDatum :=
  match ty with
  | .boolean => (parseTruth O s).map .boolean
  | .double => (parseDouble O s).map .double
  | .integer => (parseInteger s).map .integer
  | .text => .ok (.text s)

/-- The loop of `INPUT` (std/src/console/cmds.rs 372-417), on the lines that are still to come. -/
def inputLoop (O : StdOps) (ty : ExprType) (prompt : Str) : List Answer → Str → StdState → StdState × Except Str ConstantDatum
  | [], previous, st => (st.put (.asked prompt previous), .error O.endOfInput)
  | a :: rest, previous, st =>
    let st := { st.put (.asked prompt previous) with answered := st.answered + 1 }
    match a with
    | .garbled msg => inputLoop O ty prompt rest previous (st.put (.line ("Retry input: ".toList ++ msg)))
    | .line answer =>
      match parseAnswer O ty (rtrimFn answer) with
      | .ok d => (st, .ok d)
      | .error msg => inputLoop O ty prompt rest answer (st.put (.line ("Retry input: ".toList ++ msg)))

/-- The prompt of `INPUT` and the register of its variable (std/src/console/cmds.rs 342-367). -/
def inputPrompt (s : CallScope) : Option (Str × Nat) :=
  if s.nargs = 1 then some ([], 0)
  else
    match s.getType 0 with
    | some (.immediate sep _) => (s.getString 1).bind fun t =>
      match sep with
      | .long => some (t, 2)
      | .short => some (t ++ "? ".toList, 2)
      | _ => none
    | some (.missing sep) =>
      match sep with
      | .long => some ([], 1)
      | .short => some ("? ".toList, 1)
      | _ => none
    | _ => none

/-- `INPUT` (std/src/console/cmds.rs 341-419): the assignment is that of `READ`, where the types agree. -/
def inputCall (O : StdOps) : StdCall := fun st s =>
  (inputPrompt s).bind fun (prompt, reg) => (s.getRef reg).bind fun r =>
    match inputLoop O r.2 prompt (O.answers.drop st.answered) [] st with
    | (st, .ok d) => (assignCall O s reg d).map fun x => (st, x)
    | (st, .error msg) => some (st, s.fail msg)

/-- `get_coord` (std/src/console/cmds.rs 459-467). -/
def getCoord (s : CallScope) (i : Nat) (name : String) : Option (Except (LineCol × Str) Nat) :=
  let n := (s.getInteger i).toInt
  checkedArg s i (if 0 ≤ n ∧ n ≤ 65535 then .ok n.toNat else .error (name.toList ++ " out of range".toList))

/-- `LOCATE` (std/src/console/cmds.rs 458-491). -/
def locateCall (O : StdOps) : StdCall := fun st s =>
  match getCoord s 0 "Column" with
  | none => none
  | some (.error e) => some (st, s.failWith e)
  | some (.ok column) =>
    match getCoord s 1 "Row" with
    | none => none
    | some (.error e) => some (st, s.failWith e)
    | some (.ok row) =>
      if O.lastColumn.val + 1 ≤ column then
        (s.failAt 0 ("Column ".toList ++ (toString column).toList ++ " exceeds visible range of ".toList ++
          (toString O.lastColumn.val).toList)).map fun x => (st, x)
      else if O.lastRow.val + 1 ≤ row then
        (s.failAt 1 ("Row ".toList ++ (toString row).toList ++ " exceeds visible range of ".toList ++
          (toString O.lastRow.val).toList)).map fun x => (st, x)
      else some (st.put (.moved column row), s.done)

/-- `SCRCOLS` and `SCRROWS` (std/src/console/cmds.rs 644-648, 682-686), `GFX_WIDTH` and `GFX_HEIGHT` (std/src/gfx/mod.rs
1137-1141, 385-389). -/
def sizeCall (n : Nat) (s : CallScope) : Option CallRes := some (s.returnInteger (BitVec.ofNat 32 n))

/-! ## Graphics -/

/-- The numbers that drawing methods take: a coordinate is an `i16`, a radius a `u16`. -/
inductive Measure where
  | coordinate | radius
  deriving DecidableEq, Repr

/-- The arguments of the drawing commands (std/src/gfx/mod.rs 226-235, 289-298, 347-355, 449-458, 564-572, 788-795, 858-865, 949-955,
1032-1038), which are checked from left to right. -/
def Shape.measures : Shape → List Measure
  | .circle | .circleFilled => [.coordinate, .coordinate, .radius]
  | .fill | .pixel => [.coordinate, .coordinate]
  | .line | .rect | .rectFilled => [.coordinate, .coordinate, .coordinate, .coordinate]
  | .tri | .triFilled => [.coordinate, .coordinate, .coordinate, .coordinate, .coordinate, .coordinate]

/-- `parse_coordinate` (std/src/gfx/mod.rs 41-51) and `parse_radius` (160-169). -/
def getMeasure (s : CallScope) (i : Nat) (m : Measure) : Option (Except (LineCol × Str) Int) :=
  let n := s.getInteger i
  checkedArg s i (match m with
    | .coordinate =>
      if -32768 ≤ n.toInt ∧ n.toInt ≤ 32767 then .ok n.toInt
      else .error ("Coordinate ".toList ++ showInteger n ++ " out of range".toList)
    | .radius =>
      if 0 ≤ n.toInt ∧ n.toInt ≤ 65535 then .ok n.toInt
      else if n.toInt < 0 then .error ("Radius ".toList ++ showInteger n ++ " must be positive".toList)
      else .error ("Radius ".toList ++ showInteger n ++ " out of range".toList))

/-- The arguments of a drawing command. -/
def getMeasures (s : CallScope) : Nat → List Measure → Option (Except (LineCol × Str) (List Int))
  | _, [] => some (.ok [])
  | i, m :: ms =>
    match getMeasure s i m with
    | none => none
    | some (.error e) => some (.error e)
    | some (.ok n) => (getMeasures s (i + 1) ms).map fun r => r.map (n :: ·)

/-- The drawing commands (std/src/gfx/mod.rs, lines as for `Shape.measures`). -/
def drawCall (shape : Shape) : StdCall := fun st s =>
  (getMeasures s 0 shape.measures).map fun r =>
    match r with
    | .ok l => (st.put (.drawn shape l), s.done)
    | .error e => (st, s.failWith e)

/-- `GFX_PEEK` (std/src/gfx/mod.rs 508-513). -/
def peekCall (O : StdOps) : StdCall := fun st s =>
  match getMeasures s 0 [.coordinate, .coordinate] with
  | some (.ok [x, y]) =>
    some (st, s.returnInteger (match O.peek st.out x y with
      | some c => c.setWidth 32
      | none => -1#32))
  | some (.error e) => some (st, s.failWith e)
  | _ => none

/-- `GFX_SYNC` (std/src/gfx/mod.rs 1088-1105). -/
def syncCall : StdCall := fun st s =>
  if s.nargs = 0 then some (st.put .syncNow, s.done)
  else some ((st.put (.cursor (s.getBoolean 0))).put (.synced (s.getBoolean 0)), s.done)

/-! ## The table -/

/-- The callables by name, with whether they are functions. -/
def stdCalls (O : StdOps) : List (Str × Bool × StdCall) :=
  [("PRINT".toList, false, printCall O),
   ("READ".toList, false, readCall O),
   ("RESTORE".toList, false, restoreCall),
   ("ABS".toList, true, pureCall absCall),
   ("ASC".toList, true, pureCall ascCall),
   ("CHR".toList, true, pureCall chrCall),
   ("INSTR".toList, true, pureCall instrCall),
   ("LBOUND".toList, true, pureCall (boundCall lboundFn)),
   ("LCASE".toList, true, pureCall (lcaseCall O)),
   ("LEFT".toList, true, pureCall leftCall),
   ("LEN".toList, true, pureCall lenCall),
   ("LTRIM".toList, true, pureCall ltrimCall),
   ("MAX".toList, true, pureCall (maxCall O)),
   ("MID".toList, true, pureCall midCall),
   ("MIN".toList, true, pureCall (minCall O)),
   ("RIGHT".toList, true, pureCall rightCall),
   ("RTRIM".toList, true, pureCall rtrimCall),
   ("SPACE".toList, true, pureCall spaceCall),
   ("STR".toList, true, pureCall (strCall O)),
   ("TRIM".toList, true, pureCall trimCall),
   ("UBOUND".toList, true, pureCall (boundCall uboundFn)),
   ("UCASE".toList, true, pureCall (ucaseCall O)),
   ("VAL".toList, true, pureCall (valCall O)),
   ("ACOS".toList, true, modeCall (arcCall O O.acos "arc-cosine")),
   ("ASIN".toList, true, modeCall (arcCall O O.asin "arc-sine")),
   ("ATN".toList, true, modeCall (atnCall O)),
   ("CINT".toList, true, pureCall (castCall O id)),
   ("COS".toList, true, modeCall (angleCall O O.cos)),
   ("DEG".toList, false, modeCommand true),
   ("EXP".toList, true, pureCall (expCall O)),
   ("FIX".toList, true, pureCall (castCall O O.trunc)),
   ("INT".toList, true, pureCall (castCall O O.floor)),
   ("LOG".toList, true, pureCall (logCall O)),
   ("PI".toList, true, pureCall piCall),
   ("RAD".toList, false, modeCommand false),
   ("RANDOMIZE".toList, false, randomizeCall O),
   ("RND".toList, true, rndCall O),
   ("ROUND".toList, true, pureCall (roundCall O)),
   ("SGN".toList, true, pureCall (sgnCall O)),
   ("SIN".toList, true, modeCall (angleCall O O.sin)),
   ("SQR".toList, true, pureCall (sqrCall O)),
   ("TAN".toList, true, modeCall (angleCall O O.tan)),
   ("CLS".toList, false, clsCall),
   ("COLOR".toList, false, colorCall),
   ("INKEY".toList, true, inkeyCall O),
   ("INPUT".toList, false, inputCall O),
   ("LOCATE".toList, false, locateCall O),
   ("SCRCOLS".toList, true, pureCall (sizeCall (O.lastColumn.val + 1))),
   ("SCRROWS".toList, true, pureCall (sizeCall (O.lastRow.val + 1))),
   ("GFX_CIRCLE".toList, false, drawCall .circle),
   ("GFX_CIRCLEF".toList, false, drawCall .circleFilled),
   ("GFX_FILL".toList, false, drawCall .fill),
   ("GFX_HEIGHT".toList, true, pureCall (sizeCall O.height.toNat)),
   ("GFX_LINE".toList, false, drawCall .line),
   ("GFX_PEEK".toList, true, peekCall O),
   ("GFX_PIXEL".toList, false, drawCall .pixel),
   ("GFX_RECT".toList, false, drawCall .rect),
   ("GFX_RECTF".toList, false, drawCall .rectFilled),
   ("GFX_SYNC".toList, false, syncCall),
   ("GFX_TRI".toList, false, drawCall .tri),
   ("GFX_TRIF".toList, false, drawCall .triFilled),
   ("GFX_WIDTH".toList, true, pureCall (sizeCall O.width.toNat))]

/-- The standard library as a host: `prepare_upcall` (core/src/vm/mod.rs 148-165) makes the scope of a callable; a
function finds its arguments behind the register of its result.  A panic leaves everything as it is and fails with
a text that no callable uses. -/
def stdHost (O : StdOps) : Host StdState where
  exec := fun idx first lcs regs heap _ img st =>
    let crash := (st, regs, heap, Except.error (none, "panic".toList))
    match img.upcalls[idx.toNat]? with
    | none => crash
    | some k =>
      match (stdCalls O).find? (·.1 = k) with
      | none => crash
      | some (_, isFn, call) =>
        (call st ⟨first, if isFn then 1 else 0, lcs, regs, heap, img.constants, img.data⟩).getD crash

end EB
