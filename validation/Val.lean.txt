import Verif
open EB

def fb (v : BitVec 64) : Float := Float.ofBits (UInt64.ofNat v.toNat)
def bf (f : Float) : BitVec 64 := BitVec.ofNat 64 f.toBits.toNat

def fmodF (a b : Float) : Float :=
  if b == 0 then 0/0 else
  -- exact enough for the tests
  let q := a / b
  let t := if q < 0 then q.ceil else q.floor
  a - t * b

def FO : FloatOps where
  add a b := bf (fb a + fb b)
  sub a b := bf (fb a - fb b)
  mul a b := bf (fb a * fb b)
  div a b := bf (fb a / fb b)
  rem a b := bf (fmodF (fb a) (fb b))
  pow a b := bf (Float.pow (fb a) (fb b))
  neg a := bf (- fb a)
  eq a b := fb a == fb b
  lt a b := fb a < fb b
  le a b := fb a ≤ fb b
  ofInt i := bf (Float.ofInt i.toInt)
  toInt v :=
    let r := (fb v).round
    if r.isNaN then some 0
    else if r ≥ -2147483648.0 && r ≤ 2147483647.0 then
      some (BitVec.ofInt 32 (if r < 0 then -(Int.ofNat (-r).toUInt64.toNat) else Int.ofNat r.toUInt64.toNat))
    else none

def dbl (v : BitVec 64) : String := "\x01" ++ toString v.toNat ++ "\x01"

def pDouble (s : Str) : BitVec 64 :=
  let ip := s.takeWhile (· != '.')
  let fp := (s.dropWhile (· != '.')).drop 1
  let m := (ip ++ fp).foldl (fun a c => a * 10 + (c.toNat - 48)) 0
  bf (Float.ofScientific m true fp.length)

def TO : TextOps where
  alnum c := c.isAlphanum || c.toNat ≥ 128
  numeric c := c.isDigit
  upper c := [c.toUpper]
  parseDouble := pDouble
  showDouble v := (dbl v).toList

def S (s : String) : Str := s.toList
def O (s : Str) : String := String.ofList s

def ann : ExprType → String | .boolean => "?" | .double => "#" | .integer => "%" | .text => "$"
def tyName : ExprType → String | .boolean => "BOOLEAN" | .double => "DOUBLE" | .integer => "INTEGER" | .text => "STRING"

def binName : EB.BinOp → String
  | .addD => "ADDD" | .addI => "ADDI" | .bitAnd => "AND" | .bitOr => "OR" | .bitXor => "XOR" | .concat => "CONCAT"
  | .divD => "DIVD" | .divI => "DIVI" | .eqB => "CMPEQB" | .eqD => "CMPEQD" | .eqI => "CMPEQI" | .eqS => "CMPEQS"
  | .gtD => "CMPGTD" | .geD => "CMPGED" | .geI => "CMPGEI" | .geS => "CMPGES" | .gtI => "CMPGTI" | .gtS => "CMPGTS"
  | .ltD => "CMPLTD" | .leD => "CMPLED" | .leI => "CMPLEI" | .leS => "CMPLES" | .ltI => "CMPLTI" | .ltS => "CMPLTS"
  | .modD => "MODD" | .modI => "MODI" | .mulD => "MULD" | .mulI => "MULI"
  | .neB => "CMPNEB" | .neD => "CMPNED" | .neI => "CMPNEI" | .neS => "CMPNES" | .powD => "POWD" | .powI => "POWI"
  | .shl => "SHL" | .shr => "SHR" | .subD => "SUBD" | .subI => "SUBI"
def unName : EB.UnOp → String | .bitNot => "NOT" | .dtoi => "DTOI" | .itod => "ITOD" | .negD => "NEGD" | .negI => "NEGI"

def padTo (n : Nat) (s : String) : String := s ++ String.ofList (List.replicate (n - s.length) ' ')
def R (r : Reg) : String := "R" ++ toString r.toNat
def N (n : U16) : String := toString n.toNat

def fmtI (i : Instr) : String :=
  let f (n : String) (l : List String) := if l.isEmpty then n else padTo 11 n ++ " " ++ ", ".intercalate l
  match i with
  | .bin op d l r => f (binName op) [R d, R l, R r]
  | .un op r => f (unName op) [R r]
  | .alloc d t => f "ALLOC" [R d, tyName t]
  | .allocArray d p r => f "ALLOCA" [R d, "[" ++ toString p.ndims ++ "]" ++ (p.subtype.elim "!" ann), R r]
  | .call r t => f "CALL" [R r, N t]
  | .gosub t => f "GOSUB" [N t]
  | .jump t => f "JUMP" [N t]
  | .jumpIfFalse r t => f "JMPF" [R r, N t]
  | .loadArray a b c => f "LOADA" [R a, R b, R c]
  | .loadConst d i => f "LOADC" [R d, N i]
  | .loadInt d i => f "LOADI" [R d, N i]
  | .loadRegPtr d t s => f "LOADRP" [R d, tyName t, R s]
  | .move d s => f "MOVE" [R d, R s]
  | .nop => f "NOP" []
  | .ret => f "RETURN" []
  | .setErrorHandler m t => f "SETEH" [match m with | .none => "NONE" | .jump => "JUMP" | .resumeNext => "RESUME_NEXT", N t]
  | .storeArray a b c => f "STOREA" [R a, R b, R c]
  | .end r => f "END" [R r]
  | .upcall i r => f "UPCALL" [N i, R r]
  | .upcallAsync i r => f "UPCALLA" [N i, R r]
  | .eof => f "EOF" []

def lc (p : LineCol) : String := toString p.line ++ ":" ++ toString p.col

def showC : ConstantDatum → String
  | .boolean b => toString b | .double d => dbl d | .integer i => toString i.toInt
  | .text s => "\"" ++ O s ++ "\""

def pad4 (n : Nat) : String := let s := toString n; String.ofList (List.replicate (4 - s.length) '0') ++ s

def disasm (img : Image) : List String := Id.run do
  let mut out := []
  let mut i := 0
  for (ins, m) in img.code.zip img.instrs do
    match img.callables.find? (·.1 == i) with
    | some (_, k, true) => out := (";; " ++ O k ++ " (BEGIN)") :: "" :: out
    | some (_, k, false) => out := "" :: (";; " ++ O k ++ " (END)") :: out
    | none => pure ()
    let mut line := padTo 40 (pad4 i ++ ":   " ++ fmtI ins) ++ "; " ++ lc m.linecol
    match ins with
    | .call _ t => line := line ++ ", " ++ ((img.callables.find? (·.1 == t.toNat)).elim "??" (fun x => O x.2.1))
    | .upcall t _ | .upcallAsync t _ => line := line ++ ", " ++ O (img.upcalls.getD t.toNat (S "??"))
    | .loadConst _ t => line := line ++ ", " ++ ((img.constants[t.toNat]?).elim "??" showC)
    | _ => pure ()
    out := line :: out
    i := i + 1
  return out.reverse

def vr (v : VarRef) : String := O (VarRef.show v)

def cerr : CErr → String
  | .alreadyDefined p v => s!"{lc p}: Cannot redefine {vr v}"
  | .arrayUsedAsScalar p v => s!"{lc p}: {vr v} is an array and requires subscripts"
  | .binaryOpType p o l r => s!"{lc p}: Cannot {o} {tyName l} and {tyName r}"
  | .callableSyntax p n => s!"{lc p}: {O n} expected "
  | .cannotNest p => s!"{lc p}: Cannot nest FUNCTION or SUB declarations nor definitions"
  | .duplicateLabel p n => s!"{lc p}: Duplicate label {O n}"
  | .incompatibleAnnotation p v => s!"{lc p}: Incompatible type annotation in {vr v} reference"
  | .incompatibleTypes p a b => s!"{lc p}: Cannot assign value of type {tyName a} to variable of type {tyName b}"
  | .invalidEndCode p => s!"{lc p}: Exit code must be in the 0..127 range"
  | .io p => s!"{lc p}: I/O error during compilation"
  | .notAFunction p v => s!"{lc p}: {vr v} is not an array nor a function"
  | .misplacedExit p w => s!"{lc p}: EXIT {w} outside of {w}"
  | .notAnArray p v => s!"{lc p}: {vr v} is not an array"
  | .notANumber p t => s!"{lc p}: {tyName t} is not a number"
  | .outOfConstants p => s!"{lc p}: Out of constants"
  | .outOfRegisters p s => s!"{lc p}: Out of {match s with | .global => "global" | .local => "local" | .temp => "temp"} registers"
  | .outOfUpcalls p => s!"{lc p}: Out of upcalls"
  | .parse p m => s!"{lc p}: {O m}"
  | .targetTooFar p n => s!"{lc p}: Jump/call target is {n} which is too far"
  | .tooManyDims p n => s!"{lc p}: Array cannot have {n} dimensions"
  | .typeMismatch p a e => s!"{lc p}: Expected {tyName e} but found {tyName a}"
  | .undefinedSymbol p v => s!"{lc p}: Undefined symbol {vr v}"
  | .unknownLabel p n => s!"{lc p}: Unknown label {O n}"
  | .wrongSubscripts p e a => s!"{lc p}: Array requires {e} subscripts but got {a}"
  | .panic => "PANIC"

def rterr : RtErr → String
  | .integerOverflow => "Integer overflow" | .integerUnderflow => "Integer underflow"
  | .divisionByZero => "Division by zero" | .moduloByZero => "Modulo by zero"
  | .negativeExponent i => s!"Exponent {i} cannot be negative"
  | .negativeShl i => s!"Number of bits to << ({i}) must be positive"
  | .negativeShr i => s!"Number of bits to >> ({i}) must be positive"
  | .castOverflow d => s!"Cannot cast {dbl d} to integer due to overflow"
  | .badDimension i => s!"Dimension {i} must be positive"
  | .subscript (.negative s) => s!"Subscript {s} cannot be negative"
  | .subscript (.exceeds s d) => s!"Subscript {s} exceeds limit of {d}"
  | .outOfHeap => "Out of heap space"
  | .outOfCallStack => "Out of call stack space"
  | .badExitCode => "Exit code must be in the 0..127 range"
  | .returnWithoutGosub => "RETURN without GOSUB or FUNCTION call"
  | .upcall m => O m

/-! callables -/
open ExprType in
def mds : List Md :=
  let md (n : String) (rt : Option ExprType) (syns : List Syntax) (async := false) : Md := ⟨S n, rt, async, syns, false⟩
  let rv (n : String) (t : ExprType) (sep : SepSyn := .end) : SingSyn := .reqValue (S n) t sep
  let rep (t : RepType) (sep : SepSyn) (one miss : Bool) : Option RepSyn := some ⟨S "arg", t, sep, one, miss⟩
  [ md "ARRAY_NDIMS" (some integer) [⟨[.reqRef (S "array") true false .end], none⟩],
    md "ASYNC_INCREMENT" (some integer) [⟨[rv "arg" integer], none⟩] true,
    md "CONCAT" (some text) [⟨[], rep .anyValue (.exactly .long) false true⟩],
    md "DEFINE_AND_CHANGE_ARGS" none [⟨[], rep .varRef (.oneOf [.long, .short]) true false⟩],
    md "DEFINE_ARG" none [⟨[.reqRef (S "arg") false true .end], none⟩],
    md "GETDATA" none [⟨[], none⟩],
    md "INCREMENT_REQUIRED_INT" none [⟨[.reqRef (S "arg") false false .end], none⟩],
    md "IS_POSITIVE" (some boolean) [⟨[rv "arg" integer], none⟩],
    md "LAST_ERROR" (some text) [⟨[], none⟩],
    md "MAX_DOUBLES" (some double) [⟨[], rep (.typed double) (.exactly .long) true false⟩],
    md "MEANING_OF_LIFE" (some integer) [⟨[], none⟩],
    md "OUT_ANY_VALUE" none [⟨[.anyValue (S "arg") false .end], none⟩],
    md "OUT_ANY_VALUE_OPTIONAL" none [⟨[], none⟩, ⟨[.anyValue (S "arg") true .end], none⟩],
    md "OUT" none [⟨[], rep .anyValue (.oneOf [.as, .long, .short]) false true⟩],
    md "OUT_OPTIONAL" none [⟨[], none⟩, ⟨[.optValue (S "arg") text .end], none⟩],
    md "OUT_POSITIONAL" none [⟨[.anyValue (S "arg1") true (.oneOf [.long, .short]), rv "arg2" integer (.exactly .as), .anyValue (S "arg3") false .end], none⟩],
    md "OUT_REQUIRED_VALUE" none [⟨[rv "arg" integer], none⟩],
    md "OUT_SEP_END" none [⟨[.anyValue (S "arg1") true (.oneOf [.long, .short]), .anyValue (S "arg2") false .end], none⟩],
    md "OUT_TYPED_INTS" none [⟨[], rep (.typed integer) (.oneOf [.long, .short]) true false⟩],
    md "RAISE" none [⟨[rv "arg" text], none⟩, ⟨[rv "arg" text (.exactly .long), rv "arg2" integer], none⟩],
    md "RAISEF" (some boolean) [⟨[rv "arg" text], none⟩, ⟨[rv "arg" text (.exactly .long), rv "arg2" integer], none⟩],
    md "SUM_DOUBLES" (some double) [⟨[], rep .anyValue (.exactly .long) false true⟩],
    md "SUM_INTEGERS" (some integer) [⟨[], rep .anyValue (.exactly .long) false true⟩],
    md "SUM_MIXED" (some double) [⟨[rv "first" double (.exactly .long)], rep (.typed integer) (.exactly .long) false false⟩],
    md "SUM_TYPED_INTS" (some integer) [⟨[], rep (.typed integer) (.exactly .long) false false⟩] ]

def upcallMap : FMap Str Md := mds.map fun m => (m.name, m)

structure HS where
  out : String
  pc : Nat

abbrev Regs := Nat → BitVec 64

def str (regs : Regs) (heap : Heap) (img : Image) (i : Nat) : String :=
  match (DatumPtr.ofU64 (regs i)).bind (fun p => p.resolveString img.constants heap) with
  | some s => O s | none => "<PANIC>"

def fmtArg (regs : Regs) (heap : Heap) (img : Image) (i : Nat) : ExprType → String
  | .boolean => toString (decide (regs i ≠ 0)) | .double => dbl (regs i) | .integer => toString (toI32 (regs i)).toInt
  | .text => str regs heap img i

def sepS : ArgSep → String | .end => "<END OF STATEMENT>" | .short => ";" | .long => "," | .as => "AS"

def refS (v : BitVec 64) : String := match taggedRegParse v with | some (i, t) => s!"&[R{i}]{tyName t}" | none => "PANIC"

/-- (text, present, sep) -/
def fmtVar (regs : Regs) (heap : Heap) (img : Image) (i : Nat) : String × Bool × ArgSep :=
  match VarArgTag.parse (regs i) with
  | some (.immediate sep t) => (fmtArg regs heap img (i+1) t ++ ann t, true, sep)
  | some (.missing sep) => ("()", false, sep)
  | some (.pointer sep) => (refS (regs (i+1)), true, sep)
  | none => ("PANIC", false, .end)

def pushS (heap : Heap) (s : String) : Option (BitVec 64 × Heap) := heap.push (.text (S s))

def hostEx : Host HS where
  exec idx first regs heap le img st :=
    let name := O (img.upcalls.getD idx.toNat [])
    let lcs := ((img.instrs[st.pc]?).map (·.argLinecols)).getD []
    let isFn := (mds.find? (·.name == S name)).any (·.returnType.isSome)
    let a := if isFn then first + 1 else first
    let ok (o : String) := (({st with out := st.out ++ o} : HS), regs, heap, (Except.ok () : Except (Option LineCol × Str) Unit))
    let ret (v : BitVec 64) := (st, setAt regs first v, heap, (Except.ok () : Except (Option LineCol × Str) Unit))
    let err (m : String) := (st, regs, heap, (Except.error (none, S m) : Except (Option LineCol × Str) Unit))
    let errAt (p : LineCol) (m : String) := (st, regs, heap, (Except.error (some p, S m) : Except (Option LineCol × Str) Unit))
    let retS (s : String) := match pushS heap s with
      | some (p, h) => (st, setAt regs first p, h, (Except.ok () : Except (Option LineCol × Str) Unit))
      | none => err "Out of heap space"
    -- varargs as list of (tag, reg)
    let rec args (n : Nat) (r : Nat) : List (VarArgTag × Nat) := match n with
      | 0 => []
      | n+1 => match VarArgTag.parse (regs r) with
        | some (.missing .end) => [(.missing .end, r)]
        | some (.missing s) => (.missing s, r) :: args n (r+1)
        | some (.immediate .end t) => [(.immediate .end t, r+1)]
        | some (.immediate s t) => (.immediate s t, r+1) :: args n (r+2)
        | some (.pointer .end) => [(.pointer .end, r+1)]
        | some (.pointer s) => (.pointer s, r+1) :: args n (r+2)
        | none => []
    let sepOf : VarArgTag → ArgSep | .missing s => s | .immediate s _ => s | .pointer s => s
    match name with
    | "ARRAY_NDIMS" => match taggedRegParse (regs a) with
      | some (i, _) => match ((DatumPtr.ofU64 (regs i)).bind (·.heapIndex)).bind (heap.data[·]?) with
        | some (.array d) => ret (BitVec.ofNat 64 d.dimensions.length)
        | _ => err "PANIC"
      | none => err "PANIC"
    | "ASYNC_INCREMENT" => ret (ofI32 (toI32 (regs a) + 1))
    | "CONCAT" =>
      if (args 100 a).all (fun x => match x.1 with | .immediate _ .text => true | _ => false)
      then retS (String.join ((args 100 a).map fun x => str regs heap img x.2))
      else err "Only accepts string values"
    | "DEFINE_AND_CHANGE_ARGS" =>
      let res := (args 100 a).foldl (fun (acc : Option (Regs × Heap)) x => acc.bind fun (regs, heap) =>
        match taggedRegParse (regs x.2) with
        | some (i, .boolean) => some (setAt regs i (if regs i = 0 then 1 else 0), heap)
        | some (i, .double) => some (setAt regs i (bf (fb (regs i) + 0.6)), heap)
        | some (i, .integer) => some (setAt regs i (ofI32 (toI32 (regs i) + 1)), heap)
        | some (i, .text) => (pushS heap (str regs heap img i ++ ".")).map fun (p, h) => (setAt regs i p, h)
        | none => none) (some (regs, heap))
      match res with
      | some (r, h) => (st, r, h, .ok ())
      | none => err "Out of heap space"
    | "DEFINE_ARG" => ok ""
    | "GETDATA" => ok (" ".intercalate ((img.data.zipIdx).map fun (d, i) => s!"{i}=" ++ match d with
        | none => "()"
        | some (.boolean b) => s!"{b}?" | some (.double d) => dbl d ++ "#"
        | some (.integer i) => s!"{i.toInt}%" | some (.text s) => O s ++ "$") ++ "\n")
    | "INCREMENT_REQUIRED_INT" => match taggedRegParse (regs a) with
      | some (i, .integer) => (st, setAt regs i (ofI32 (toI32 (regs i) + 1)), heap, .ok ())
      | _ => err "Invalid type in argument"
    | "IS_POSITIVE" => ret (ofBool ((toI32 (regs a)).toInt > 0))
    | "LAST_ERROR" => retS (match le with | some (p, e) => lc p ++ ": " ++ rterr e | none => "")
    | "MAX_DOUBLES" => ret (bf ((List.range lcs.length).foldl (fun m i => let d := fb (regs (a+i)); if d > m then d else m) (-1.7976931348623157e308)))
    | "MEANING_OF_LIFE" => ret 42
    | "OUT_ANY_VALUE" | "OUT_ANY_VALUE_OPTIONAL" | "OUT_OPTIONAL" => ok ((fmtVar regs heap img a).1 ++ "\n")
    | "OUT" =>
      ok (String.join ((args 300 a).zipIdx.map fun ((t, r), i) =>
        (match t with
         | .immediate _ ty => s!"{i}=" ++ fmtArg regs heap img r ty ++ ann ty
         | .missing _ => s!"{i}=()"
         | .pointer _ => s!"{i}=" ++ refS (regs r)) ++
        (if sepOf t = .end then "" else " " ++ sepS (sepOf t) ++ " ")) ++ "\n")
    | "OUT_POSITIONAL" =>
      let (s, pr, _) := fmtVar regs heap img a
      let i := if pr then a + 2 else a + 1
      ok (s ++ "\n" ++ fmtArg regs heap img i .integer ++ "\n" ++ (fmtVar regs heap img (i+1)).1 ++ "\n")
    | "OUT_REQUIRED_VALUE" => ok (fmtArg regs heap img a .integer ++ "\n")
    | "OUT_SEP_END" =>
      let (s, pr, sep) := fmtVar regs heap img a
      ok (s ++ (if pr then " " ++ sepS sep ++ " " else "") ++ "\n" ++ (fmtVar regs heap img (a+2)).1 ++ "\n")
    | "OUT_TYPED_INTS" =>
      if (args 300 a).all (fun x => match x.1 with | .immediate _ .integer => true | _ => false)
      then ok (String.join ((args 300 a).map fun (t, r) => s!"{(toI32 (regs r)).toInt}%" ++
        (if sepOf t = .end then "" else " " ++ sepS (sepOf t) ++ " ")) ++ "\n")
      else err "Only accepts integer values"
    | "RAISE" | "RAISEF" => match str regs heap img a with
      | "argument" => err "Bad argument" | "eval" => err "Some eval error" | "internal" => err "Some internal error"
      | "io" => err "Some I/O error"
      | "syntax" | "syntax0" => errAt (lcs.getD 0 ⟨0,0⟩) "Some syntax error"
      | "syntax1" => errAt (lcs.getD 1 ⟨0,0⟩) "Some syntax error"
      | _ => err "Invalid arguments"
    | "SUM_DOUBLES" =>
      if (args 300 a).all (fun x => match x.1 with | .immediate _ .integer => true | .immediate _ .double => true | _ => false)
      then ret (bf ((args 300 a).foldl (fun acc x => match x.1 with
        | .immediate _ .double => acc + fb (regs x.2) | _ => acc + Float.ofInt (toI32 (regs x.2)).toInt) 0.0))
      else err "Only accepts numerical values"
    | "SUM_INTEGERS" =>
      if (args 300 a).all (fun x => match x.1 with | .immediate _ .integer => true | _ => false)
      then ret (ofI32 ((args 300 a).foldl (fun acc x => acc + toI32 (regs x.2)) 0))
      else err "Only accepts integer values"
    | "SUM_MIXED" => ret (bf ((List.range (lcs.length - 1)).foldl (fun acc i => acc + Float.ofInt (toI32 (regs (a+1+i))).toInt) (fb (regs a))))
    | "SUM_TYPED_INTS" => ret (ofI32 ((List.range lcs.length).foldl (fun acc i => acc + toI32 (regs (a+i))) 0))
    | _ => err ("UNKNOWN " ++ name)

inductive RR | exit (n : Nat) | err (s : String)
  deriving Inhabited

instance : Inhabited (Vm HS) := ⟨⟨Mach.new 4096 128, none, none, ⟨"", 0⟩⟩⟩
partial def runVm (img : Image) (vm : Vm HS) (n : Nat := 0) : RR × Vm HS :=
  if n > 3000000 then (.err "TIMEOUT", vm) else
  let vm : Vm HS := { vm with host := { vm.host with pc := vm.mach.pc } }
  match vmStep FO hostEx img vm with
  | .panic => (.err "PANIC", vm)
  | .cont vm => runVm img vm (n+1)
  | .stop (.end c) vm => (.exit c.toNat, vm)
  | .stop .eof vm => (.exit 0, vm)
  | .stop (.exception p e) vm => (.err (lc p ++ ": " ++ rterr e), vm)
  | .stop .yield vm => runVm img vm (n+1)
  | .stop .upcallAsync vm =>
    let vm : Vm HS := { vm with host := { vm.host with pc := (vm.pending.map (·.2.2)).getD 0 } }
    match invokePending hostEx img vm with
    | .panic => (.err "PANIC", vm)
    | .cont vm => runVm img vm (n+1)
    | .stop (.exception p e) vm => (.err (lc p ++ ": " ++ rterr e), vm)
    | .stop _ vm => (.err "??", vm)

/-- Materialise registers to keep lookups cheap. -/
def main (args : List String) : IO Unit := do
  let data ← IO.FS.readFile args.head!
  -- tests separated by \x02, sources by \x03
  let tests := data.splitOn "\x02"
  for t in tests do
    let parts := t.splitOn "\x03"
    let srcs := parts.drop 1
    let multi := srcs.length > 1
    IO.print ("# Test: " ++ parts.head! ++ "\n")
    let mut ctx ← match Compiler.new upcallMap [] with
      | .ok c => pure c
      | .error _ => throw (IO.userError "new")
    let mut img := Image.default
    let mut vm : Vm HS := ⟨Mach.new 4096 128, none, none, ⟨"", 0⟩⟩
    let p (s : String) := if multi then s ++ " (partial)" else s
    for s in srcs do
      IO.print ("\n" ++ p "## Source" ++ "\n\n```basic\n" ++ (if s.isEmpty then "" else s ++ "\n") ++ "```\n")
      match compileMore (parseText TO FO (S s)) ctx img with
      | (.error e, _, _) =>
        IO.print ("\n" ++ (if multi then "## Compiler errors (partial)" else "## Compilation errors") ++ "\n\n```plain\n" ++ cerr e ++ "\n```\n")
      | (.ok (), c', img') =>
        ctx := c'
        img := img'
        IO.print ("\n" ++ (if multi then "## Disassembly (full)" else "## Disassembly") ++ "\n\n```asm\n" ++ String.join ((disasm img).map (· ++ "\n")) ++ "```\n")
        vm := { vm with host := ⟨"", 0⟩ }
        let (r, vm') := runVm img vm
        vm := vm'
        match r with
        | .exit 0 => pure ()
        | .exit n => IO.print ("\n" ++ p "## Exit code" ++ s!"\n\n```plain\n{n}\n```\n")
        | .err e => IO.print ("\n" ++ p "## Runtime errors" ++ s!"\n\n```plain\n{e}\n```\n")
        if !vm.host.out.isEmpty then
          IO.print ("\n" ++ p "## Output" ++ "\n\n```plain\n" ++ vm.host.out ++ "```\n")
    IO.print "\n"
