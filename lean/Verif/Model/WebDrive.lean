import Verif.Model.Storage
/-!
# The drive of the web interface

Models `WebDrive` of web/src/store.rs on the local storage of a browser.  The functions of the local storage do not fail, assertions for debugging
are left out as in a release, and times and JSON are left out: an entry is its content, and a value that is no entry is one.
-/

namespace EB

/-- A value of the local storage: an `Entry` (web/src/store.rs 90-100) or any other text. -/
inductive WebValue where
  | entry (content : List UInt8)
  | other (text : Str)
  deriving DecidableEq, Repr

/-- The local storage. -/
abbrev WebStore := FMap Str WebValue

/-- `Key::PREFIX` (web/src/store.rs 49). -/
def webPrefix : Str := "endbasic-program:".toList

/-- `Key::for_name` and, on the name, `Key::canonical` (web/src/store.rs 54-65). -/
def webKey (name : Str) : Str := webPrefix ++ name.map asciiUpper

/-- `Key::parse` and `Key::name` (web/src/store.rs 72-83): the name. -/
def webParse (raw : Str) : Option Str :=
  if webPrefix.isPrefixOf raw && ".BAS".toList.isSuffixOf (raw.map asciiUpper) then some (raw.drop webPrefix.length) else none

/-- The loop of `fixup_names` with `rename` (web/src/store.rs 147-203); `order` is the order of the keys of the browser. -/
def fixupLoop (order : WebStore → List Str) : Nat → Nat → WebStore → Outcome WebStore
  | 0, _, m => .ok m
  | k + 1, i, m =>
    match (order m)[i]? with
    | none => .error "Entry vanished"
    | some raw =>
      match webParse raw with
      | none => fixupLoop order k (i + 1) m
      | some name =>
        if raw ≠ webKey name then
          match m.get? raw with
          | none => .error "File not found"
          | some v => fixupLoop order k (i + 1) ((m.insert (webKey name) v).erase raw)
        else fixupLoop order k (i + 1) m

/-- `WebDrive::from_window` (web/src/store.rs 134-141), with its `unwrap`. -/
def webOpen (order : WebStore → List Str) (m : WebStore) : Outcome WebStore :=
  match fixupLoop order m.length 0 m with
  | .ok m => .ok m
  | _ => .panic

/-- `get` and `get_entry` (web/src/store.rs 206-227, 284-287). -/
def webGet (m : WebStore) (name : Str) : Outcome (List UInt8) :=
  match m.get? (webKey name) with
  | none => .error "NotFound"
  | some (.entry c) => .ok c
  | some (.other _) => .error "InvalidData"

/-- `put` (web/src/store.rs 289-305). -/
def webPut (m : WebStore) (name : Str) (content : List UInt8) : WebStore := m.insert (webKey name) (.entry content)

/-- `delete` (web/src/store.rs 232-254). -/
def webDelete (m : WebStore) (name : Str) : Outcome WebStore :=
  match m.get? (webKey name) with
  | none => .error "NotFound"
  | some _ => .ok (m.erase (webKey name))

/-- `enumerate` (web/src/store.rs 256-282): names and sizes. -/
def webEnumerate : WebStore → Outcome (List (Str × Nat))
  | [] => .ok []
  | (raw, v) :: m =>
    match webParse raw with
    | none => webEnumerate m
    | some name =>
      match v with
      | .other _ => .error "InvalidData"
      | .entry c =>
        match webEnumerate m with
        | .ok l => .ok ((name, c.length) :: l)
        | e => e

end EB
