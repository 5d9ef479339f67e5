import Verif.Model.Strings
import Verif.Model.Vm
/-!
# Small library commands: LBOUND/UBOUND, READ/RESTORE, paragraph refilling and the pager

Models std/src/arrays.rs, std/src/data.rs, std/src/console/format.rs and std/src/console/pager.rs.
-/

namespace EB

/-! ## LBOUND and UBOUND -/

/-- `parse_bound_args` (std/src/arrays.rs 33-67): the dimension number to use; `dim` is `none` when
only the array is given. -/
def boundDim (dims : List Nat) (dim : Option Int) : Outcome Nat :=
  match dim with
  | some i =>
    if i < 0 then .error "Dimension must be positive"
    else if i.toNat > dims.length then .error "Array has not that many dimensions"
    else .ok i.toNat
  | none =>
    if dims.length > 1 then .error "Requires a dimension for multidimensional arrays" else .ok 1

/-- `LBOUND` (std/src/arrays.rs 131-134). -/
def lboundFn (dims : List Nat) (dim : Option Int) : Outcome Int :=
  match boundDim dims dim with
  | .ok _ => .ok 0
  | .error e => .error e
  | .panic => .panic

/-- `UBOUND` (std/src/arrays.rs 199-202).  `dim - 1` underflows and `dimensions[..]` fails for
dimension 0; `dimensions[dim - 1] - 1` underflows for an empty dimension. -/
def uboundFn (dims : List Nat) (dim : Option Int) : Outcome Int :=
  match boundDim dims dim with
  | .ok 0 => .panic
  | .ok (k + 1) =>
    match dims[k]? with
    | some 0 => .panic
    | some (d + 1) => .ok (asI32 d)
    | none => .panic
  | .error e => .error e
  | .panic => .panic

/-! ## READ and RESTORE -/

/-- `assign_datum` (std/src/data.rs 110-153): the value stored in a variable of type `ty`.
`double_to_integer` is `FloatOps.toInt`.  A full heap while storing a string is not modelled. -/
def assignDatum (F : FloatOps) (ty : ExprType) (d : ConstantDatum) : Except String ConstantDatum :=
  match ty, d with
  | .boolean, .boolean b => .ok (.boolean b)
  | .double, .double x => .ok (.double x)
  | .double, .integer i => .ok (.double (F.ofInt i))
  | .integer, .double x =>
    match F.toInt x with
    | some i => .ok (.integer i)
    | none => .error "Cannot cast to integer"
  | .integer, .integer i => .ok (.integer i)
  | .text, .text s => .ok (.text s)
  | _, _ => .error "Cannot assign value"

/-- The value used for an empty DATA item (std/src/data.rs 173-178). -/
def defaultDatum : ExprType → ConstantDatum
  | .boolean => .boolean false
  | .double => .double 0
  | .integer => .integer 0
  | .text => .text []

/-- The loop of `READ` (std/src/data.rs 155-189) over the types of the variables.  Returns the new
index, the values assigned (one per variable, up to the first failure) and the failure. -/
def readLoop (F : FloatOps) (data : List (Option ConstantDatum)) (index : Nat) :
    List ExprType → Nat × List ConstantDatum × Option String
  | [] => (index, [], none)
  | ty :: tys =>
    match data[index]? with
    | none => (index, [], some "Out of data")
    | some d =>
      match assignDatum F ty (d.getD (defaultDatum ty)) with
      | .error e => (index + 1, [], some e)
      | .ok v =>
        let (i, vs, e) := readLoop F data (index + 1) tys
        (i, v :: vs, e)

/-- Commands that affect the DATA index. -/
inductive DataOp where
  | read (tys : List ExprType)
  | restore
  | clear

/-- `READ`, `RESTORE` (std/src/data.rs 211-215) and `CLEAR` (33-37) on the shared index. -/
def dataOp (F : FloatOps) (data : List (Option ConstantDatum)) (index : Nat) :
    DataOp → Nat × List ConstantDatum × Option String
  | .read tys => readLoop F data index tys
  | .restore => (0, [], none)
  | .clear => (0, [], none)

/-! ## Refilling paragraphs -/

/-- `str::split_whitespace`, with the word being scanned in `cur` (reversed). -/
def splitWords (cur : Str) : Str → List Str
  | [] => if cur.isEmpty then [] else [cur.reverse]
  | c :: s =>
    if isWhite c then
      if cur.isEmpty then splitWords [] s else cur.reverse :: splitWords [] s
    else splitWords (c :: cur) s

/-- `char::to_ascii_uppercase` (also used for identifiers). -/
def asciiUpper (c : Char) : Char := if 'a' ≤ c ∧ c ≤ 'z' then Char.ofNat (c.toNat - 32) else c

/-- Number of spaces between the end of `line` and `word` (std/src/console/format.rs 38-43). -/
def spacesBetween (line word : Str) : Nat :=
  if line.getLast? = some '.' then
    match word with
    | [] => 1
    | c :: _ => if c = asciiUpper c then 2 else 1
  else 1

/-- The loop of `refill` (std/src/console/format.rs 33-55) with the line being built. -/
def refillLoop (width : Nat) (line : Str) : List Str → List Str
  | [] => if line.isEmpty then [] else [line]
  | word :: rest =>
    if line.isEmpty then refillLoop width word rest
    else
      let spaces := spacesBetween line word
      if byteLen line + byteLen word + spaces ≥ width then line :: refillLoop width word rest
      else refillLoop width (line ++ List.replicate spaces ' ' ++ word) rest

/-- `refill` (std/src/console/format.rs 25-62). -/
def refill (paragraph : Str) (width : Nat) : List Str :=
  if paragraph.isEmpty then [[]] else refillLoop width [] (splitWords [] paragraph)

/-- The body of the loop of `refill_many` (std/src/console/format.rs 75-101) for one paragraph;
`none` is the overflow of the subtraction. -/
def refillOne (indent : Str) (width : Nat) (paragraph : Str) : Option (List Str) :=
  let extra := (paragraph.takeWhile isWhite).map fun _ => ' '
  if width < 4 + byteLen indent + byteLen extra then none
  else some ((refill paragraph (width - 4 - byteLen indent - byteLen extra)).map fun line =>
    if line.isEmpty then [] else indent ++ extra ++ line)

/-! ## The pager -/

/-- `Pager` (std/src/console/pager.rs 30-48): sizes and counters. -/
structure Pager where
  x : Nat
  y : Nat
  curColumns : Nat
  curLines : Nat
  deriving DecidableEq, Repr

/-- What reaches the console. -/
inductive PagerOut where
  | print (text : Str)
  | write (text : Str)
  | more
  deriving DecidableEq, Repr

/-- Requests to the pager. -/
inductive PagerOp where
  | print (text : Str)
  | write (text : Str)
  deriving DecidableEq, Repr

/-- Answer to the prompt: `Key::Escape`/`Key::Interrupt` or any other key. -/
inductive PagerKey where
  | stop
  | go
  deriving DecidableEq, Repr

/-- `Pager::print` and `Pager::write` (std/src/console/pager.rs 83-117) on an interactive console.
`usize::from(self.size.y) - 1` and the division panic for empty consoles, which do not occur
(the theorems assume `0 < x` and `0 < y`).  Returns the output, the new pager and whether the user
interrupted; `key` is the answer if there is a prompt. -/
def Pager.op (p : Pager) (key : PagerKey) : PagerOp → List PagerOut × Pager × Bool
  | .write text => ([.write text], { p with curColumns := p.curColumns + byteLen text }, false)
  | .print text =>
    let cols := p.curColumns + byteLen text
    let lines := p.curLines + cols / p.x + 1
    if lines ≥ p.y - 1 then
      match key with
      | .stop => ([.print text, .more], { p with curColumns := cols, curLines := lines }, true)
      | .go => ([.print text, .more], { p with curColumns := 0, curLines := 0 }, false)
    else ([.print text], { p with curColumns := 0, curLines := lines }, false)

/-- A command that sends `ops` to the pager and stops when interrupted; `keys n` is the answer to
the prompt of operation `n`. -/
def Pager.run (p : Pager) (keys : Nat → PagerKey) : Nat → List PagerOp → List PagerOut × Bool
  | _, [] => ([], false)
  | n, o :: os =>
    let (out, p', stopped) := p.op (keys n) o
    if stopped then (out, true)
    else
      let (out', st) := p'.run keys (n + 1) os
      (out ++ out', st)

end EB
