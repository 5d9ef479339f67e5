import Verif.Model.Storage
import Verif.Model.ConsoleSpec
import Verif.Model.Lexer
/-!
# The commands for files

Models std/src/storage/cmds.rs on in-memory drives: `CD`, `COPY`, `DIR`, `KILL`, `MOUNT`, `PWD` and `UNMOUNT`.  What is printed is a list of
lines; `DIR` hands them to the pager, which is modelled in `Library`.  In-memory drives have no quota, so that `DIR` has no line about
free space, and no system location.
-/

namespace EB

/-- The place of a new key in a `BTreeMap`. -/
def placeKey {V : Type} (e : Str × V) : FMap Str V → FMap Str V
  | [] => [e]
  | f :: m => if strLe e.1 f.1 then e :: f :: m else f :: placeKey e m

/-- A `BTreeMap` in the order in which it is gone through. -/
def inOrder {V : Type} (m : FMap Str V) : FMap Str V := m.foldr placeKey []

/-- The format `{:6}` of a number. -/
def padded6 (n : Nat) : Str := List.replicate (6 - (showNat n).length) ' ' ++ showNat n

/-- The lines that `show_dir` prints (std/src/storage/cmds.rs 71-111).  `date` is what the format of the time of each file gives. -/
def dirLines (narrow : Bool) (date : Str → Str) (place : Str) (files : FMap Str Nat) : List Str :=
  let files := inOrder files
  [[], "    Directory of ".toList ++ place, []] ++
  (if narrow then
    files.map (fun f => "    ".toList ++ f.1) ++ (if files.length > 0 then [[]] else []) ++
    ["    ".toList ++ showNat files.length ++ " file(s)".toList]
  else
    ["    Modified              Size    Name".toList] ++
    files.map (fun f => "    ".toList ++ date f.1 ++ "    ".toList ++ padded6 f.2 ++ "    ".toList ++ f.1) ++
    (if files.length > 0 then [[]] else []) ++
    ["    ".toList ++ showNat files.length ++ " file(s), ".toList ++ showNat (files.foldl (fun n f => n + f.2) 0) ++ " bytes".toList]) ++
  [[]]

/-- `show_dir` (std/src/storage/cmds.rs 58-113). -/
def showDir (C : CaseOps) (st : Storage) (narrow : Bool) (date : Str → Str) (path : Str) : Outcome (List Str) :=
  match st.makeCanonical C path with
  | .ok place =>
    match st.enumerate C path with
    | .ok files => .ok (dirLines narrow date place files)
    | .error e => .error e
    | .panic => .panic
  | .error e => .error e
  | .panic => .panic

/-- `Storage::mounted` (std/src/storage/mod.rs 503-509). -/
def Storage.mounted (st : Storage) : FMap Str Str := inOrder (st.drives.map fun d => (d.1, d.2.uri))

/-- `show_drives` (std/src/storage/cmds.rs 116-132); `none` is a panic of the subtraction. -/
def showDrives (st : Storage) : Option (List Str) :=
  let info := st.mounted
  let max := info.foldl (fun m d => Nat.max m (byteLen d.1)) (byteLen "Name".toList)
  let filler (name : Str) : Option Str := if byteLen name ≤ max then some (List.replicate (max - byteLen name) ' ') else none
  match filler "Name".toList, info.mapM (fun d => (filler d.1).map fun f => "    ".toList ++ d.1 ++ f ++ "    ".toList ++ d.2) with
  | some f, some lines =>
    some ([[], "    Name".toList ++ f ++ "    Target".toList] ++ lines ++
      [[], "    ".toList ++ showNat info.length ++ " drive(s)".toList, []])
  | _, _ => none

/-- `Storage::system_path` (std/src/storage/mod.rs 675-681), which gives `None` for in-memory drives. -/
def Storage.systemPath (C : CaseOps) (st : Storage) (loc : Str) : Outcome (Option Str) :=
  match Location.new C loc with
  | .ok l =>
    match st.getDrive l with
    | .ok _ => .ok none
    | .error e => .error e
    | .panic => .panic
  | .error e => .error e
  | .panic => .panic

/-- The commands. -/
inductive FilesCmd where
  | cd (path : Str)
  | copy (src dest : Str)
  | dir (path : Option Str)
  | kill (path : Str)
  | drives
  | mount (target name : Str)
  | pwd
  | unmount (name : Str)

/-- What a command did: the lines that it printed, if it succeeded. -/
inductive FilesAnswer where
  | printed (lines : List Str)
  | failed
  | crash
  deriving DecidableEq, Repr

/-- A change of the storage. -/
def filesChange (st : Storage) : Outcome Storage → FilesAnswer × Storage
  | .ok st' => (.printed [], st')
  | .error _ => (.failed, st)
  | .panic => (.crash, st)

/-- `exec` and `async_exec` of the commands (std/src/storage/cmds.rs 166-173, 226-235, 285-302, 345-352, 409-421, 456-473, 514-521), on a
console that is narrow or not. -/
def filesExec (C : CaseOps) (narrow : Bool) (date : Str → Str) (st : Storage) : FilesCmd → FilesAnswer × Storage
  | .cd path => filesChange st (st.cd C path)
  | .copy src dest => filesChange st (st.copy C src dest)
  | .dir path =>
    match showDir C st narrow date (path.getD []) with
    | .ok lines => (.printed lines, st)
    | .error _ => (.failed, st)
    | .panic => (.crash, st)
  | .kill path => filesChange st (st.delete C path)
  | .drives =>
    match showDrives st with
    | some lines => (.printed lines, st)
    | none => (.crash, st)
  | .mount target name => filesChange st (st.mount C name target)
  | .pwd =>
    match st.systemPath C st.cwd with
    | .ok p => (.printed [[], "    Working directory: ".toList ++ st.cwd,
        match p with
        | some path => "    System location: ".toList ++ path
        | none => "    No system location available".toList, []], st)
    | _ => (.crash, st)
  | .unmount name => filesChange st (st.unmount C name)

end EB
