import Verif.Model.Codegen
/-!
# Console specifications (std/src/console/spec.rs)
-/

namespace EB

/-- `Resolution` (std/src/console/spec.rs 47-56). -/
inductive Resolution where
  | fullScreenDesktop
  | fullScreen (width height : Nat)
  | windowed (width height : Nat)
  deriving DecidableEq, Repr

/-- The errors of `NonZeroU32::from_str` (Rust's `IntErrorKind`). -/
inductive NumErr where
  | empty | invalidDigit | overflow | zero
  deriving DecidableEq, Repr

/-- The `Display` of those errors in Rust's library. -/
def NumErr.text : NumErr → String
  | .empty => "cannot parse integer from empty string"
  | .invalidDigit => "invalid digit found in string"
  | .overflow => "number too large to fit in target type"
  | .zero => "number would be zero for non-zero type"

/-- The digit loop of Rust's `u32::from_str`. -/
def parseU32Digits (acc : Nat) : Str → Except NumErr Nat
  | [] => .ok acc
  | c :: cs =>
    if '0' ≤ c ∧ c ≤ '9' then
      let n := acc * 10 + (c.toNat - '0'.toNat)
      if n < 2 ^ 32 then parseU32Digits n cs else .error .overflow
    else .error .invalidDigit

/-- A plus sign before something else is skipped (Rust's `u32::from_str`). -/
def stripPlus : Str → Str
  | '+' :: c :: cs => c :: cs
  | s => s

/-- Rust's `NonZeroU32::from_str`: an optional plus sign and digits. -/
def parseNonZero (s : Str) : Except NumErr Nat :=
  if stripPlus s = [] then .error .empty
  else match parseU32Digits 0 (stripPlus s) with
    | .error e => .error e
    | .ok n => if n = 0 then .error .zero else .ok n

/-- Rust's `str::split_once` with a character. -/
def splitOnce (sep : Char) : Str → Option (Str × Str)
  | [] => none
  | c :: cs => if c = sep then some ([], cs) else (splitOnce sep cs).map fun p => (c :: p.1, p.2)

/-- Rust's `str::split` with a character. -/
def splitOn (sep : Char) : Str → List Str
  | [] => [[]]
  | c :: cs =>
    if c = sep then [] :: splitOn sep cs
    else match splitOn sep cs with
      | [] => [[c]]
      | x :: xs => (c :: x) :: xs

/-- Rust's `str::strip_suffix`. -/
def stripSuffix (suffix s : Str) : Option Str :=
  if suffix.length ≤ s.length ∧ s.drop (s.length - suffix.length) = suffix then
    some (s.take (s.length - suffix.length))
  else none

/-- The errors of the parser (the texts of std/src/console/spec.rs 71-87, 176, 190-194 are these with their arguments). -/
inductive SpecErr where
  | width (width resolution : Str) (e : NumErr)
  | height (height resolution : Str) (e : NumErr)
  | form (resolution : Str)
  | flag (key : Str) (e : SpecErr)
  | unknown (driver : Str) (flags : List Str)
  deriving DecidableEq, Repr

/-- `parse_resolution` (std/src/console/spec.rs 59-89). -/
def parseResolution (resolution : Str) : Except SpecErr Resolution :=
  if resolution = "fs".toList then .ok .fullScreenDesktop
  else
    let (dimensions, fullscreen) := match stripSuffix "fs".toList resolution with
      | some prefx => (prefx, true)
      | none => (resolution, false)
    match splitOnce 'x' dimensions with
    | some (w, h) =>
      match parseNonZero w with
      | .error e => .error (.width w resolution e)
      | .ok width =>
        match parseNonZero h with
        | .error e => .error (.height h resolution e)
        | .ok height => if fullscreen then .ok (.fullScreen width height) else .ok (.windowed width height)
    | none => .error (.form resolution)

/-- `ConsoleSpec` (std/src/console/spec.rs 108-119).  The set of flags is a list without duplicates. -/
structure ConsoleSpec where
  driver : Str
  flags : List Str
  keyed : FMap Str Str
  deriving Repr

/-- The body of the loop in `ConsoleSpec::init` (std/src/console/spec.rs 133-146). -/
def ConsoleSpec.addFlag (c : ConsoleSpec) (pair : Str) : ConsoleSpec :=
  if pair = [] then c
  else match splitOnce '=' pair with
    | none => { c with flags := if pair ∈ c.flags then c.flags else pair :: c.flags }
    | some (k, v) => { c with keyed := c.keyed.insert k v }

/-- `ConsoleSpec::init` (std/src/console/spec.rs 126-149); `none` is the failed assertion. -/
def ConsoleSpec.init (s : Str) : Option ConsoleSpec :=
  if s = [] then none
  else
    let (driver, rest) := (splitOnce ':' s).getD (s, [])
    some ((splitOn ',' rest).foldl ConsoleSpec.addFlag ⟨driver, [], []⟩)

/-- `ConsoleSpec::take_flag` (std/src/console/spec.rs 154-156). -/
def ConsoleSpec.takeFlag (c : ConsoleSpec) (flag : Str) : Bool × ConsoleSpec :=
  (decide (flag ∈ c.flags), { c with flags := c.flags.filter (· ≠ flag) })

/-- `ConsoleSpec::take_keyed_flag_str` (std/src/console/spec.rs 160-162). -/
def ConsoleSpec.takeKeyed (c : ConsoleSpec) (key : Str) : Option Str × ConsoleSpec :=
  (c.keyed.get? key, { c with keyed := c.keyed.erase key })

/-- `ConsoleSpec::take_keyed_flag` (std/src/console/spec.rs 168-179) for resolutions. -/
def ConsoleSpec.takeResolution (c : ConsoleSpec) (key : Str) : Except SpecErr (Option Resolution) × ConsoleSpec :=
  let (v, c') := c.takeKeyed key
  match v with
  | none => (.ok none, c')
  | some v => match parseResolution v with
    | .ok r => (.ok (some r), c')
    | .error e => (.error (.flag key e), c')

/-- The order of Rust's strings: UTF-8 keeps the order of the code points. -/
def strLe : Str → Str → Bool
  | [], _ => true
  | _ :: _, [] => false
  | a :: as, b :: bs => a < b || (a == b && strLe as bs)

/-- `ConsoleSpec::finish` (std/src/console/spec.rs 182-196). -/
def ConsoleSpec.finish (c : ConsoleSpec) : Except SpecErr Unit :=
  if c.flags = [] ∧ c.keyed = [] then .ok ()
  else .error (.unknown c.driver ((c.flags ++ c.keyed.map (·.1)).mergeSort strLe))

end EB
