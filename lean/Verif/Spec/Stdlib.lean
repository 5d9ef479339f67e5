import Verif.Spec.Eval
import Verif.Model.Stdlib
/-!
# What the built-in callables mean

Values in, values out: what `PRINT` and the other callables of the console do, what the string functions, `LBOUND`,
`UBOUND` and the numerical functions return, what `READ` and `INPUT` assign, and the errors.  No registers, no heap.
`StdOps` (operations of Rust's standard library, and what comes from the keyboard) and `StdState` (what was given to the
console, how many items were read, how angles are measured, the generator of random numbers, how much was typed) are
shared with the model.
-/

namespace EB.Spec

/-! ## Values as text -/

/-- The sign position: numbers that are not negative start with a space. -/
def signed (negative : Bool) (digits : Str) : Str := if negative then digits else ' ' :: digits

/-- A double that is not a number. -/
def NotANumber (d : BitVec 64) : Prop := d.extractLsb' 52 11 = BitVec.allOnes 11 ∧ d.extractLsb' 0 52 ≠ 0#52

instance (d : BitVec 64) : Decidable (NotANumber d) := inferInstanceAs (Decidable (_ ∧ _))

/-- A value as `STR$` and `PRINT` show it. -/
def shownVal (O : StdOps) : Val → Str
  | .bool true => "TRUE".toList
  | .bool false => "FALSE".toList
  | .int i => signed (decide (i.toInt < 0)) (toString i.toInt).toList
  | .dbl d => signed (d.getLsbD 63 && decide (¬ NotANumber d)) (O.showDouble d)
  | .text s => s

/-! ## PRINT -/

/-- Spaces after a value, which ends in some column: up to the next multiple of 14, but at least one; or one after values
that are not strings. -/
def spacesAfter (sep : ArgSep) (isText : Bool) (column : Nat) : Nat :=
  match sep with
  | .long => 14 - column % 14
  | .short => if isText then 0 else 1
  | _ => 0

/-- The text that is printed, after some text.  `width` measures texts. -/
def layout (O : StdOps) (width : Str → Nat) : Str → List (ArgSep × Option Val) → Str
  | line, [] => line
  | line, (sep, v) :: rest =>
    let line := line ++ (v.map (shownVal O)).getD []
    let isText := match v with
      | some (.text _) | none => true
      | _ => false
    layout O width (line ++ List.replicate (spacesAfter sep isText (width line)) ' ') rest

/-- The arguments of `PRINT`: values, some of them left out, and the separators behind them. -/
def printed : List (Arg × LineCol) → Option (List (ArgSep × Option Val))
  | [] => some []
  | (.opt sep v, _) :: rest => (printed rest).map ((sep, some v) :: ·)
  | (.missing sep, _) :: rest => (printed rest).map ((sep, none) :: ·)
  | _ => none

/-- All but the last one are followed by a separator. -/
def Separated : List (ArgSep × Option Val) → Prop
  | [] => False
  | [(sep, _)] => sep = .end
  | (sep, _) :: rest => (sep = .short ∨ sep = .long) ∧ Separated rest

instance : ∀ l, Decidable (Separated l)
  | [] => isFalse id
  | [_] => inferInstanceAs (Decidable (_ = _))
  | (sep, _) :: b :: rest =>
    have := instDecidableSeparated (b :: rest)
    inferInstanceAs (Decidable ((sep = .short ∨ sep = .long) ∧ Separated (b :: rest)))

/-- The end of the line follows, unless the last value is left out behind a separator. -/
def wholeLine (items : List (ArgSep × Option Val)) : Bool :=
  items.length = 1 || (items.getLast?.bind (·.2)).isSome

/-- What `PRINT` writes. -/
def printedText (O : StdOps) (width : Str → Nat) (items : List (ArgSep × Option Val)) : Printed :=
  if wholeLine items then .line (layout O width [] items) else .part (layout O width [] items)

/-! ## Answers -/

/-- A function returns a value.  The empty string is free, others take room. -/
def gives (room : Nat) (v : Val) : Reply :=
  match v with
  | .text (_ :: _) =>
    if room = 0 then ⟨.error (none, "Out of heap space".toList), [], 0⟩ else ⟨.ok (some v), [], 1⟩
  | _ => ⟨.ok (some v), [], 0⟩

/-- A callable fails, at the position of an argument or (`none`) of the call. -/
def fails (pos : Option LineCol) (msg : Str) : Reply := ⟨.error (pos, msg), [], 0⟩

/-- What a callable does in a state and with some room; `none` is unspecified. -/
abbrev Meaning := StdState → Nat → Request → Option Reply

/-- Arguments that are all values. -/
def values : List (Arg × LineCol) → Option (List (Val × LineCol))
  | [] => some []
  | (.val v, pos) :: rest => (values rest).map ((v, pos) :: ·)
  | _ => none

/-- A function that takes values. -/
def function (ret : ExprType) (f : Nat → List (Val × LineCol) → Option Reply) : Meaning := fun _ room q =>
  if q.ret = some ret then
    (values q.args).bind (f room)
  else none

/-- A function that takes values, and that depends on the state. -/
def functionIn (ret : ExprType) (f : StdState → Nat → List (Val × LineCol) → Option Reply) : Meaning := fun st => function ret (f st) st

/-- A command that always succeeds, with arguments as given. -/
def command (ok : List (Arg × LineCol) → Prop) [∀ args, Decidable (ok args)] : Meaning := fun _ _ q =>
  if q.ret = none ∧ ok q.args then some ⟨.ok none, [], 0⟩ else none

namespace Builtin

/-! ## String functions -/

/-- The first position from `start` on at which `t` occurs in `s`, counted from 1; 0 if there is none. -/
def firstFrom (start : Nat) (s t : Str) : Nat :=
  ((List.range (s.length + 2)).find? fun p => decide (start ≤ p ∧ 1 ≤ p) && t.isPrefixOf (s.drop (p - 1)) && decide (p ≤ s.length + 1)).getD 0

/-- An integer as a value. -/
def ofNat (n : Nat) : Val := .int (BitVec.ofNat 32 n)

/-- `ASC` -/
def asc : Nat → List (Val × LineCol) → Option Reply
  | room, [(.text [c], _)] => some (gives room (ofNat c.toNat))
  | _, [(.text s, pos)] => some (fails (some pos) ("Input string \"".toList ++ s ++ "\" must be 1-character long".toList))
  | _, _ => none

/-- `CHR` -/
def chr : Nat → List (Val × LineCol) → Option Reply
  | room, [(.int i, pos)] =>
    if i.toInt < 0 then some (fails (some pos) ("Character code ".toList ++ (toString i.toInt).toList ++ " must be positive".toList))
    else if i.toInt.toNat.isValidChar then some (gives room (.text [Char.ofNat i.toInt.toNat]))
    else some (fails (some pos) ("Invalid character code ".toList ++ (toString i.toInt).toList))
  | _, _ => none

/-- `INSTR`, for strings of less than 2^31 - 1 characters. -/
def instr : Nat → List (Val × LineCol) → Option Reply
  | room, [(.text s, _), (.text t, _)] =>
    if s.length + 1 < 2 ^ 31 then some (gives room (ofNat (firstFrom 1 s t))) else none
  | room, [(.int i, pos), (.text s, _), (.text t, _)] =>
    if i.toInt ≤ 0 then some (fails (some pos) "start% must be positive".toList)
    else if s.length + 1 < 2 ^ 31 then some (gives room (ofNat (firstFrom i.toInt.toNat s t))) else none
  | _, _ => none

/-- Functions from strings to strings. -/
def ofText (f : Str → Str) : Nat → List (Val × LineCol) → Option Reply
  | room, [(.text s, _)] => some (gives room (.text (f s)))
  | _, _ => none

/-- `LEFT` -/
def left : Nat → List (Val × LineCol) → Option Reply
  | room, [(.text s, _), (.int n, pos)] =>
    if n.toInt < 0 then some (fails (some pos) "n% cannot be negative".toList)
    else some (gives room (.text (s.take n.toInt.toNat)))
  | _, _ => none

/-- `RIGHT` -/
def right : Nat → List (Val × LineCol) → Option Reply
  | room, [(.text s, _), (.int n, pos)] =>
    if n.toInt < 0 then some (fails (some pos) "n% cannot be negative".toList)
    else some (gives room (.text (s.drop (s.length - n.toInt.toNat))))
  | _, _ => none

/-- `MID`, with positions counted from 0 (the documentation counts from 1: finding F3). -/
def mid : Nat → List (Val × LineCol) → Option Reply
  | room, [(.text s, _), (.int i, pos)] =>
    if i.toInt < 0 then some (fails (some pos) "start% cannot be negative".toList)
    else some (gives room (.text (s.drop i.toInt.toNat)))
  | room, [(.text s, _), (.int i, pos), (.int n, pos')] =>
    if i.toInt < 0 then some (fails (some pos) "start% cannot be negative".toList)
    else if n.toInt < 0 then some (fails (some pos') "length% cannot be negative".toList)
    else some (gives room (.text ((s.drop i.toInt.toNat).take n.toInt.toNat)))
  | _, _ => none

/-- `LEN` -/
def len : Nat → List (Val × LineCol) → Option Reply
  | room, [(.text s, _)] =>
    if s.length < 2 ^ 31 then some (gives room (ofNat s.length)) else some (fails none "String too long".toList)
  | _, _ => none

/-- `SPACE` -/
def space : Nat → List (Val × LineCol) → Option Reply
  | room, [(.int n, pos)] =>
    if n.toInt < 0 then some (fails (some pos) "n% cannot be negative".toList)
    else some (gives room (.text (List.replicate n.toInt.toNat ' ')))
  | _, _ => none

/-- `STR` -/
def str (O : StdOps) : Meaning := fun _ room q =>
  match q.ret, q.args with
  | some .text, [(.opt _ v, _)] => some (gives room (.text (shownVal O v)))
  | _, _ => none

/-- `VAL`; what the numeric prefix is is C53. -/
def val (O : StdOps) : Nat → List (Val × LineCol) → Option Reply
  | room, [(.text s, _)] => some (gives room (.dbl (((numericPrefix s).map O.parseDouble).getD 0#64)))
  | _, _ => none

/-! ## Numbers -/

/-- `ABS`: without the sign. -/
def abs : Nat → List (Val × LineCol) → Option Reply
  | room, [(.dbl d, _)] => some (gives room (.dbl (0#1 ++ d.extractLsb' 0 63)))
  | _, _ => none

/-- The last of the values that replace the one before, by a test. -/
def best (better : BitVec 64 → BitVec 64 → Bool) : BitVec 64 → List (Val × LineCol) → Option (BitVec 64)
  | m, [] => some m
  | m, (.dbl d, _) :: rest => best better (if better d m then d else m) rest
  | _, _ => none

/-- `MAX` and `MIN`: from the smallest (largest) finite double on. -/
def extreme (better : BitVec 64 → BitVec 64 → Bool) (start : BitVec 64) (room : Nat) (args : List (Val × LineCol)) : Option Reply :=
  (best better start args).map fun d => gives room (.dbl d)

/-- A double that is neither infinite nor not a number. -/
def Finite (d : BitVec 64) : Prop := d.extractLsb' 52 11 ≠ BitVec.allOnes 11

instance (d : BitVec 64) : Decidable (Finite d) := inferInstanceAs (Decidable (¬ _))

/-- A number in the unit in which angles are measured, from radians. -/
def fromRadians (O : StdOps) (st : StdState) (d : BitVec 64) : BitVec 64 :=
  match st.degrees with
  | true => O.toDegrees d
  | false => d

/-- A number in radians, from the unit in which angles are measured. -/
def inRadians (O : StdOps) (st : StdState) (d : BitVec 64) : BitVec 64 :=
  match st.degrees with
  | true => O.toRadians d
  | false => d

/-- Functions of one number, with an error for some. -/
def ofDouble (f : BitVec 64 → Except Str Val) : Nat → List (Val × LineCol) → Option Reply
  | room, [(.dbl d, pos)] =>
    match f d with
    | .ok v => some (gives room v)
    | .error msg => some (fails (some pos) msg)
  | _, _ => none

/-- `ACOS` and `ASIN`: for numbers from -1 to 1. -/
def arc (O : StdOps) (f : BitVec 64 → BitVec 64) (what : String) (st : StdState) (d : BitVec 64) : Except Str Val :=
  if O.atMost 0xbff0000000000000#64 d ∧ O.atMost d 0x3ff0000000000000#64 then .ok (.dbl (fromRadians O st (f d)))
  else .error ("Cannot take ".toList ++ what.toList ++ " of a number outside of [-1, 1]".toList)

/-- `EXP`: if the result is finite. -/
def exp (O : StdOps) (d : BitVec 64) : Except Str Val :=
  if Finite (O.exp d) then .ok (.dbl (O.exp d))
  else .error ("Cannot exponentiate ".toList ++ O.showDouble d ++ " due to overflow".toList)

/-- `LOG`: of numbers that are not 0 or less. -/
def log (O : StdOps) (d : BitVec 64) : Except Str Val :=
  if O.atMost d 0#64 then .error "Cannot take logarithm of zero or a negative number".toList else .ok (.dbl (O.ln d))

/-- `SQR`: of numbers that are not negative. -/
def sqr (O : StdOps) (d : BitVec 64) : Except Str Val :=
  if O.less d 0#64 then .error "Cannot take square root of a negative number".toList else .ok (.dbl (O.sqrt d))

/-- `SGN` -/
def sgn (O : StdOps) (d : BitVec 64) : Except Str Val :=
  .ok (.int (if O.less 0#64 d then 1 else if O.less d 0#64 then -1 else 0))

/-- `PI` -/
def pi : Nat → List (Val × LineCol) → Option Reply
  | room, [] => some (gives room (.dbl 0x400921fb54442d18#64))
  | _, _ => none

/-- `ROUND`: to an integer, or to a number of decimals. -/
def rounded (O : StdOps) : Nat → List (Val × LineCol) → Option Reply
  | room, [(.dbl d, _)] => some (gives room (.dbl (O.round d)))
  | room, [(.dbl d, _), (.int n, _)] => some (gives room (.dbl (O.div (O.round (O.mul d (O.tenTo n))) (O.tenTo n))))
  | _, _ => none

/-! ## Random numbers -/

/-- The generator gives a number, which is its last one then. -/
def draw (O : StdOps) (r : Prng) : Prng := ⟨(O.rngNext r.state).2, (O.rngNext r.state).1, r.asked⟩

/-- The generator starts again and gives its first number. -/
def seeded (O : StdOps) (seed : I32) (r : Prng) : Prng := draw O { r with state := O.rngSeed (BitVec.ofInt 64 seed.toInt) }

/-- The generator starts again somewhere and gives its first number. -/
def seededBySystem (O : StdOps) (r : Prng) : Prng := draw O { r with state := O.entropy r.asked, asked := r.asked + 1 }

/-- What `RND` does to the generator: without an argument and with a positive one there is a new number, with 0 the last one
is given again, with a negative one the generator starts again. -/
def afterRnd (O : StdOps) (args : List (Arg × LineCol)) (r : Prng) : Prng :=
  match args with
  | [(.val (.int n), _)] => if n.toInt = 0 then r else if n.toInt < 0 then seeded O n r else draw O r
  | _ => draw O r

/-- What `RANDOMIZE` does to the generator. -/
def afterRandomize (O : StdOps) (args : List (Arg × LineCol)) (r : Prng) : Prng :=
  match args with
  | [(.val (.int n), _)] => seeded O n r
  | _ => seededBySystem O r

/-- Nothing, or an integer. -/
def NoneOrInteger (args : List (Arg × LineCol)) : Prop :=
  (args.length = 0) ∨ ((values args).map fun vs => vs.map (·.1.ty)) = some [.integer]

instance (args : List (Arg × LineCol)) : Decidable (NoneOrInteger args) := inferInstanceAs (Decidable (_ ∨ _))

/-- `RND`: a number from 0 to 1. -/
def rnd (O : StdOps) : Meaning := fun st room q =>
  if q.ret = some .double ∧ NoneOrInteger q.args then
    some (gives room (.dbl (O.div (O.ofU32 (afterRnd O q.args st.random).last) (O.ofU32 (BitVec.allOnes 32)))))
  else none

/-! ## Arrays -/

/-- `LBOUND` and `UBOUND`: the bound of a dimension (numbered from 1) is a function of its size. -/
def bound (f : Nat → Nat) : Meaning := fun _ room q =>
  match q.ret, q.args, q.vars with
  | some .integer, [(.ref (.array _ _) _, pos)], [some (.arr _ dims _)] =>
    match dims with
    | [d] => if 0 < d then some (gives room (ofNat (f d))) else none
    | _ :: _ :: _ => some (fails (some pos) "Requires a dimension for multidimensional arrays".toList)
    | [] => none
  | some .integer, [(.ref (.array _ _) _, _), (.val (.int i), pos)], [some (.arr _ dims _), _] =>
    if i.toInt < 0 then some (fails (some pos) ("Dimension ".toList ++ (toString i.toInt).toList ++ " must be positive".toList))
    else if dims.length < i.toInt.toNat then
      some (fails (some pos) ("Array has only ".toList ++ (toString dims.length).toList ++ " dimensions but asked for ".toList ++
        (toString i.toInt).toList))
    else
      match i.toInt.toNat with
      | 0 => none
      | k + 1 => (dims[k]?).bind fun d => if 0 < d then some (gives room (ofNat (f d))) else none
  | _, _, _ => none

end Builtin

/-! ## READ -/

/-- The name of a type in messages. -/
def nameOf : ExprType → Str
  | .boolean => "BOOLEAN".toList
  | .double => "DOUBLE".toList
  | .integer => "INTEGER".toList
  | .text => "STRING".toList

/-- The value of a literal. -/
def literal : ConstantDatum → Val
  | .boolean b => .bool b
  | .double d => .dbl d
  | .integer i => .int i
  | .text s => .text s

/-- The value of an item that is left out. -/
def omitted : ExprType → Val
  | .boolean => .bool false
  | .double => .dbl 0
  | .integer => .int 0
  | .text => .text []

/-- A value for a variable of some type: only numbers are converted. -/
def suited (O : StdOps) (t : ExprType) (v : Val) : Except Str Val :=
  match t, v with
  | .double, .int i => .ok (.dbl (O.ofInt i))
  | .integer, .dbl d => (O.toInt d).map .int
  | t, v =>
    if v.ty = t then .ok v
    else .error ("Cannot assign value of type ".toList ++ nameOf v.ty ++ " to variable of type ".toList ++ nameOf t)

/-- A value that takes room. -/
def takesRoom : Val → Bool
  | .text (_ :: _) => true
  | _ => false

/-- The variables get the next items, one after the other. -/
def readInto (O : StdOps) : Nat → List (Option ConstantDatum) → List (ExprType × Place × LineCol) → Reply
  | _, _, [] => ⟨.ok none, [], 0⟩
  | _, [], (_, _, pos) :: _ => fails (some pos) "Out of data".toList
  | room, d :: items, (t, p, pos) :: rest =>
    match suited O t ((d.map literal).getD (omitted t)) with
    | .error msg => fails (some pos) msg
    | .ok v =>
      if takesRoom v then
        match room with
        | 0 => fails none "Out of heap space".toList
        | room + 1 =>
          let r := readInto O room items rest
          ⟨r.result, (p, v) :: r.writes, r.used + 1⟩
      else
        let r := readInto O room items rest
        ⟨r.result, (p, v) :: r.writes, r.used⟩

/-- The arguments of `READ`: variables with their types. -/
def targets : List (Arg × LineCol) → Option (List (ExprType × Place × LineCol))
  | [] => none
  | (.optRef sep (.scalar t) p, pos) :: rest =>
    if sep = .end then (if rest.length = 0 then some [(t, p, pos)] else none) else (targets rest).map ((t, p, pos) :: ·)
  | _ => none

/-- How many items a `READ` took.  An item that could not be assigned is taken too. -/
def taken (left : Nat) (r : Reply) : Nat :=
  min left (match r.result with
    | .ok _ => r.writes.length
    | .error _ => r.writes.length + 1)

/-! ## The console -/

/-- A command that checks its arguments, and that gives something to the console if they are right; the check is `none` for
arguments that are not specified. -/
abbrev Order := List (Arg × LineCol) → Option (Except (LineCol × Str) (List Printed))

/-- What such a command answers. -/
def ordered (order : Order) : Meaning := fun _ _ q =>
  if q.ret = none then
    (order q.args).map fun c =>
      match c with
      | .ok _ => ⟨.ok none, [], 0⟩
      | .error e => fails (some e.1) e.2
  else none

namespace Orders

/-- `CLS` -/
def cls : Order
  | [] => some (.ok [.cleared])
  | _ => none

/-- A color: an integer from 0 to 255. -/
def color (n : I32) (pos : LineCol) : Except (LineCol × Str) (Option (BitVec 8)) :=
  if 0 ≤ n.toInt ∧ n.toInt < 256 then .ok (some (BitVec.ofInt 8 n.toInt)) else .error (pos, "Color out of range".toList)

/-- A color that may be left out. -/
def mayColor : Arg × LineCol → Option (Except (LineCol × Str) (Option (BitVec 8)))
  | (.opt _ (.int n), pos) => some (color n pos)
  | (.missing _, _) => some (.ok none)
  | _ => none

/-- `COLOR`: what is left out is the default. -/
def colors : Order
  | [] => some (.ok [.colored none none])
  | [(.val (.int n), pos)] => some ((color n pos).map fun fg => [.colored fg none])
  | [a, b] => (mayColor a).bind fun fg => (mayColor b).map fun bg => fg.bind fun fg => bg.map fun bg => [.colored fg bg]
  | _ => none

/-- A column or a row: first of all a number from 0 to 65535. -/
def coord (name : String) (n : I32) (pos : LineCol) : Except (LineCol × Str) Nat :=
  if 0 ≤ n.toInt ∧ n.toInt < 2 ^ 16 then .ok n.toInt.toNat else .error (pos, name.toList ++ " out of range".toList)

/-- … and then one that can be seen. -/
def visible (name : String) (last : Nat) (n : Nat) (pos : LineCol) : Except (LineCol × Str) Unit :=
  if n ≤ last then .ok ()
  else .error (pos, name.toList ++ ' ' :: ((toString n).toList ++ " exceeds visible range of ".toList ++ (toString last).toList))

/-- `LOCATE` -/
def locate (O : StdOps) : Order
  | [(.val (.int x), pos), (.val (.int y), pos')] => some do
    let column ← coord "Column" x pos
    let row ← coord "Row" y pos'
    visible "Column" O.lastColumn.val column pos
    visible "Row" O.lastRow.val row pos'
    return [.moved column row]
  | _ => none

/-- `GFX_SYNC` -/
def sync : Order
  | [] => some (.ok [.syncNow])
  | [(.val (.bool b), _)] => some (.ok [.cursor b, .synced b])
  | _ => none

/-- A coordinate is a number of 16 bits with a sign, a radius one without. -/
def measured : Measure → I32 → LineCol → Except (LineCol × Str) Int
  | .coordinate, n, pos =>
    if -2 ^ 15 ≤ n.toInt ∧ n.toInt < 2 ^ 15 then .ok n.toInt
    else .error (pos, "Coordinate ".toList ++ (toString n.toInt).toList ++ " out of range".toList)
  | .radius, n, pos =>
    if n.toInt < 0 then .error (pos, "Radius ".toList ++ (toString n.toInt).toList ++ " must be positive".toList)
    else if n.toInt < 2 ^ 16 then .ok n.toInt
    else .error (pos, "Radius ".toList ++ (toString n.toInt).toList ++ " out of range".toList)

/-- The first argument that is out of range is the one that is complained about. -/
def allMeasured : List Measure → List (Arg × LineCol) → Option (Except (LineCol × Str) (List Int))
  | [], [] => some (.ok [])
  | m :: ms, (.val (.int n), pos) :: rest => (allMeasured ms rest).map fun ns => (measured m n pos).bind fun n => ns.map (n :: ·)
  | _, _ => none

/-- A point is a pair of coordinates. -/
def point : List Measure := [.coordinate, .coordinate]

/-- What shapes are given by: one point, two, or three; circles by a point and a radius. -/
def parts : Shape → List Measure
  | .circle | .circleFilled => point ++ [.radius]
  | .fill | .pixel => point
  | .line | .rect | .rectFilled => point ++ point
  | .tri | .triFilled => point ++ point ++ point

/-- The drawing commands. -/
def draw (shape : Shape) : Order := fun args => (allMeasured (parts shape) args).map fun r => r.map fun ns => [.drawn shape ns]

end Orders

open Orders in
/-- The commands that give something to the console and do nothing else. -/
def orders (O : StdOps) : List (Str × Order) :=
  [("CLS".toList, cls), ("COLOR".toList, colors), ("LOCATE".toList, locate O), ("GFX_SYNC".toList, sync),
   ("GFX_CIRCLE".toList, draw .circle), ("GFX_CIRCLEF".toList, draw .circleFilled), ("GFX_FILL".toList, draw .fill),
   ("GFX_LINE".toList, draw .line), ("GFX_PIXEL".toList, draw .pixel), ("GFX_RECT".toList, draw .rect),
   ("GFX_RECTF".toList, draw .rectFilled), ("GFX_TRI".toList, draw .tri), ("GFX_TRIF".toList, draw .triFilled)]

/-- The keys that have a name. -/
def keyNames : List (Key × String) :=
  [(.arrowUp, "UP"), (.arrowDown, "DOWN"), (.arrowLeft, "LEFT"), (.arrowRight, "RIGHT"), (.home, "HOME"), (.end, "END"),
   (.pageUp, "PGUP"), (.pageDown, "PGDOWN"), (.backspace, "BS"), (.delete, "DEL"), (.carriageReturn, "ENTER"), (.newLine, "ENTER"),
   (.escape, "ESC"), (.tab, "TAB"), (.eofOrDelete, "EOF"), (.interrupt, "INT"), (.unknown, "?")]

/-- A key as a text: characters are themselves. -/
def keyText : Key → Str
  | .char c => [c]
  | k => ((keyNames.lookup k).getD "").toList

/-- `INKEY`: the next key if there is one, or nothing. -/
def inkey (O : StdOps) : Meaning := fun st room q =>
  if q.ret = some .text ∧ q.args.length = 0 then some (gives room (.text (((O.keys st.polls).map keyText).getD []))) else none

/-- A function without arguments that gives a number. -/
def constantly (n : Nat) : Nat → List (Val × LineCol) → Option Reply
  | room, [] => some (gives room (Builtin.ofNat n))
  | _, _ => none

/-- `GFX_PEEK`: the color of a pixel, or -1. -/
def peek (O : StdOps) (st : StdState) (room : Nat) : List (Val × LineCol) → Option Reply
  | [(.int x, pos), (.int y, pos')] =>
    match Orders.measured .coordinate x pos, Orders.measured .coordinate y pos' with
    | .error e, _ => some (fails (some e.1) e.2)
    | .ok _, .error e => some (fails (some e.1) e.2)
    | .ok x, .ok y => some (gives room (.int (((O.peek st.out x y).map fun c => BitVec.ofNat 32 c.toNat).getD (-1))))
  | _ => none

/-! ## INPUT -/

/-- The value of a decimal digit. -/
def digit (c : Char) : Option Nat := if '0'.toNat ≤ c.toNat ∧ c.toNat ≤ '9'.toNat then some (c.toNat - '0'.toNat) else none

/-- The value of decimal digits, of which there is at least one. -/
def digits (s : Str) : Option Nat :=
  if s = [] then none else (s.mapM digit).map fun ds => ds.foldl (fun n d => 10 * n + d) 0

/-- The value of a decimal number, which may have a sign. -/
def decimal : Str → Option Int
  | '-' :: s => (digits s).map fun n => -(n : Int)
  | '+' :: s => (digits s).map fun n => (n : Int)
  | s => (digits s).map fun n => (n : Int)

/-- A text as a value of some type, or why it is none. -/
def valueOfText (O : StdOps) (s : Str) : ExprType → Except Str Val
  | .text => .ok (.text s)
  | .boolean =>
    if O.upper s ∈ ["TRUE".toList, "YES".toList, "Y".toList] then .ok (.bool true)
    else if O.upper s ∈ ["FALSE".toList, "NO".toList, "N".toList] then .ok (.bool false)
    else .error ("Invalid boolean literal ".toList ++ s)
  | .integer =>
    match decimal s with
    | some n =>
      if -2 ^ 31 ≤ n ∧ n < 2 ^ 31 then .ok (.int (BitVec.ofInt 32 n)) else .error ("Invalid integer literal ".toList ++ s)
    | none => .error ("Invalid integer literal ".toList ++ s)
  | .double =>
    match O.parseWhole s with
    | some d => .ok (.dbl d)
    | none => .error ("Invalid double-precision floating point literal ".toList ++ s)

/-- What an answer is taken for: blanks at its end do not count. -/
def taking (O : StdOps) (t : ExprType) : Answer → Except Str Val
  | .line s => valueOfText O (s.reverse.dropWhile isWhite).reverse t
  | .garbled msg => .error msg

/-- The text that is offered for correction: the last one that was given before, if there is one. -/
def offered (before : List Answer) : Str :=
  (before.reverse.findSome? fun a =>
    match a with
    | .line s => some s
    | .garbled _ => none).getD []

/-- What the console gets: questions, and complaints about the answers that are refused. -/
def conversation (O : StdOps) (t : ExprType) (prompt : Str) : List Answer → List Answer → List Printed
  | before, [] => [.asked prompt (offered before)]
  | before, a :: rest =>
    match taking O t a with
    | .ok _ => [.asked prompt (offered before)]
    | .error why =>
      .asked prompt (offered before) :: .line ("Retry input: ".toList ++ why) :: conversation O t prompt (before ++ [a]) rest

/-- The first answer that can be taken counts. -/
def firstTaken (O : StdOps) (t : ExprType) (answers : List Answer) : Option Val := answers.findSome? fun a => (taking O t a).toOption

/-- How many answers are used up. -/
def usedUp (O : StdOps) (t : ExprType) (answers : List Answer) : Nat :=
  match answers.findIdx? fun a => (taking O t a).toOption.isSome with
  | some n => n + 1
  | none => answers.length

/-- The separator behind the prompt decides whether a question mark follows. -/
def questionMark (prompt : Str) : ArgSep → Option Str
  | .long => some prompt
  | .short => some (prompt ++ "? ".toList)
  | _ => none

/-- The arguments of `INPUT`: the prompt, and the variable with its type. -/
def asking : List (Arg × LineCol) → Option (Str × ExprType × Place)
  | [(.ref (.scalar t) p, _)] => some ([], t, p)
  | [(.opt sep (.text s), _), (.ref (.scalar t) p, _)] => (questionMark s sep).map fun prompt => (prompt, t, p)
  | [(.missing sep, _), (.ref (.scalar t) p, _)] => (questionMark [] sep).map fun prompt => (prompt, t, p)
  | _ => none

/-- A variable gets a value. -/
def stores (room : Nat) (p : Place) (v : Val) : Reply :=
  if takesRoom v then (if room = 0 then fails none "Out of heap space".toList else ⟨.ok none, [(p, v)], 1⟩)
  else ⟨.ok none, [(p, v)], 0⟩

/-- `INPUT` -/
def input (O : StdOps) : Meaning := fun st room q =>
  if q.ret = none then
    (asking q.args).map fun (_, t, p) =>
      match firstTaken O t (O.answers.drop st.answered) with
      | some v => stores room p v
      | none => fails none O.endOfInput
  else none

/-- What `INPUT` changes, besides the variable. -/
def afterInput (O : StdOps) (st : StdState) (args : List (Arg × LineCol)) : StdState :=
  match asking args with
  | some (prompt, t, _) =>
    let answers := O.answers.drop st.answered
    { st with out := st.out ++ conversation O t prompt [] answers, answered := st.answered + usedUp O t answers }
  | none => st

/-- What the callables of the console change. -/
def consoleAfter (O : StdOps) (st : StdState) (q : Request) : StdState :=
  match (orders O).find? (·.1 = q.name) with
  | some order =>
    match order.2 q.args with
    | some (.ok ops) => { st with out := st.out ++ ops }
    | _ => st
  | none =>
    if q.name = "INKEY".toList then { st with polls := st.polls + 1 }
    else if q.name = "INPUT".toList then afterInput O st q.args
    else st

/-! ## The library -/

open Builtin in
/-- The callables by name. -/
def stdMeanings (O : StdOps) (data : List (Option ConstantDatum)) : List (Str × Meaning) :=
  [("PRINT".toList, fun _ _ q => if q.ret = none then
      (printed q.args).bind fun items => if Separated items then some ⟨.ok none, [], 0⟩ else none
    else none),
   ("READ".toList, fun st room q => if q.ret = none then (targets q.args).map (readInto O room (data.drop st.index)) else none),
   ("RESTORE".toList, fun _ _ q => if q.ret = none ∧ q.args.length = 0 then some ⟨.ok none, [], 0⟩ else none),
   ("ABS".toList, function .double abs),
   ("ASC".toList, function .integer asc),
   ("CHR".toList, function .text chr),
   ("INSTR".toList, function .integer instr),
   ("LBOUND".toList, bound fun _ => 0),
   ("LCASE".toList, function .text (ofText O.lower)),
   ("LEFT".toList, function .text left),
   ("LEN".toList, function .integer len),
   ("LTRIM".toList, function .text (ofText (·.dropWhile isWhite))),
   ("MAX".toList, function .double (extreme (fun d m => O.less m d) 0xffefffffffffffff#64)),
   ("MID".toList, function .text mid),
   ("MIN".toList, function .double (extreme (fun d m => O.less d m) 0x7fefffffffffffff#64)),
   ("RIGHT".toList, function .text right),
   ("RTRIM".toList, function .text (ofText fun s => (s.reverse.dropWhile isWhite).reverse)),
   ("SPACE".toList, function .text space),
   ("STR".toList, str O),
   ("TRIM".toList, function .text (ofText fun s => ((s.dropWhile isWhite).reverse.dropWhile isWhite).reverse)),
   ("UBOUND".toList, bound fun d => d - 1),
   ("UCASE".toList, function .text (ofText O.upper)),
   ("VAL".toList, function .double (val O)),
   ("ACOS".toList, functionIn .double fun st => ofDouble (arc O O.acos "arc-cosine" st)),
   ("ASIN".toList, functionIn .double fun st => ofDouble (arc O O.asin "arc-sine" st)),
   ("ATN".toList, functionIn .double fun st => ofDouble fun d => .ok (.dbl (fromRadians O st (O.atan d)))),
   ("CINT".toList, function .integer (ofDouble fun d => (O.toInt d).map .int)),
   ("COS".toList, functionIn .double fun st => ofDouble fun d => .ok (.dbl (O.cos (inRadians O st d)))),
   ("DEG".toList, command (·.length = 0)),
   ("EXP".toList, function .double (ofDouble (exp O))),
   ("FIX".toList, function .integer (ofDouble fun d => (O.toInt (O.trunc d)).map .int)),
   ("INT".toList, function .integer (ofDouble fun d => (O.toInt (O.floor d)).map .int)),
   ("LOG".toList, function .double (ofDouble (log O))),
   ("PI".toList, function .double pi),
   ("RAD".toList, command (·.length = 0)),
   ("RANDOMIZE".toList, command NoneOrInteger),
   ("RND".toList, rnd O),
   ("ROUND".toList, function .double (rounded O)),
   ("SGN".toList, function .integer (ofDouble (sgn O))),
   ("SIN".toList, functionIn .double fun st => ofDouble fun d => .ok (.dbl (O.sin (inRadians O st d)))),
   ("SQR".toList, function .double (ofDouble (sqr O))),
   ("TAN".toList, functionIn .double fun st => ofDouble fun d => .ok (.dbl (O.tan (inRadians O st d)))),
   ("CLS".toList, ordered Orders.cls),
   ("COLOR".toList, ordered Orders.colors),
   ("INKEY".toList, inkey O),
   ("INPUT".toList, input O),
   ("LOCATE".toList, ordered (Orders.locate O)),
   ("SCRCOLS".toList, function .integer (constantly (O.lastColumn.val + 1))),
   ("SCRROWS".toList, function .integer (constantly (O.lastRow.val + 1))),
   ("GFX_CIRCLE".toList, ordered (Orders.draw .circle)),
   ("GFX_CIRCLEF".toList, ordered (Orders.draw .circleFilled)),
   ("GFX_FILL".toList, ordered (Orders.draw .fill)),
   ("GFX_HEIGHT".toList, function .integer (constantly O.height.toNat)),
   ("GFX_LINE".toList, ordered (Orders.draw .line)),
   ("GFX_PEEK".toList, functionIn .integer (peek O)),
   ("GFX_PIXEL".toList, ordered (Orders.draw .pixel)),
   ("GFX_RECT".toList, ordered (Orders.draw .rect)),
   ("GFX_RECTF".toList, ordered (Orders.draw .rectFilled)),
   ("GFX_SYNC".toList, ordered Orders.sync),
   ("GFX_TRI".toList, ordered (Orders.draw .tri)),
   ("GFX_TRIF".toList, ordered (Orders.draw .triFilled)),
   ("GFX_WIDTH".toList, function .integer (constantly O.width.toNat))]

/-- What a call changes: what was given to the console (in `width` of characters), how many items were read, how angles are
measured, the generator of random numbers, and how much was typed. -/
def stdAfter (O : StdOps) (width : Str → Nat) (data : List (Option ConstantDatum)) (st : StdState) (e : Request × Reply) : StdState :=
  if e.1.name = "PRINT".toList then
    { st with out := st.out ++ ((printed e.1.args).map (printedText O width)).toList }
  else if e.1.name = "READ".toList then { st with index := st.index + taken (data.length - st.index) e.2 }
  else if e.1.name = "RESTORE".toList then { st with index := 0 }
  else if e.1.name = "DEG".toList then { st with degrees := true }
  else if e.1.name = "RAD".toList then { st with degrees := false }
  else if e.1.name = "RANDOMIZE".toList then { st with random := Builtin.afterRandomize O e.1.args st.random }
  else if e.1.name = "RND".toList then { st with random := Builtin.afterRnd O e.1.args st.random }
  else consoleAfter O st e.1

/-- The state after some calls. -/
def stdState (O : StdOps) (width : Str → Nat) (data : List (Option ConstantDatum)) (events : List (Request × Reply)) : StdState :=
  events.foldl (stdAfter O width data)
    { out := [], index := 0, degrees := false, random := Builtin.seededBySystem O ⟨0, 0, 0⟩, polls := 0, answered := 0 }

/-- The library: what is unspecified is answered in a way that no callable can. -/
def stdLib (O : StdOps) (width : Str → Nat) (data : List (Option ConstantDatum)) : Lib := fun l room q =>
  (((stdMeanings O data).find? (·.1 = q.name)).bind fun m => m.2 (stdState O width data l.events) room q).getD ⟨.ok none, [], room + 1⟩

end EB.Spec
