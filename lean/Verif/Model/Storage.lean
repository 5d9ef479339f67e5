import Verif.Model.Library
/-!
# The storage subsystem

Models std/src/storage/mod.rs and std/src/storage/mem.rs (in-memory drives) and the use of file
names in std/src/storage/fs.rs (directory drives).

Simplifications: errors carry their `io::ErrorKind` only, not the message; file dates and the fake
disk quota are left out; `HashMap`/`BTreeMap`/`HashSet` are association lists / lists, observed only
through lookups; the only registered drive factory is "memory".
-/

namespace EB

/-! ## Maps -/

/-- A finite map (`HashMap`, `BTreeMap`). -/
abbrev FMap (K V : Type) := List (K × V)

namespace FMap
variable {K V : Type} [DecidableEq K]

/-- `HashMap::get`. -/
def get? (m : FMap K V) (k : K) : Option V :=
  match m with
  | [] => none
  | (k', v) :: m => if k' = k then some v else get? m k

/-- `HashMap::remove`. -/
def erase (m : FMap K V) (k : K) : FMap K V := m.filter fun e => decide (e.1 ≠ k)

/-- `HashMap::insert`. -/
def insert (m : FMap K V) (k : K) (v : V) : FMap K V := (k, v) :: erase m k

end FMap

/-! ## Letter case -/

/-- Unicode case conversions used by the storage code: `up` is what `str::to_uppercase` does with
each character, `low` is `str::to_lowercase`. -/
structure CaseOps where
  up : Char → Str
  low : Str → Str

/-- ASCII case conversions. -/
def asciiCase : CaseOps where
  up c := [asciiUpper c]
  low s := s.map fun c => if 'A' ≤ c ∧ c ≤ 'Z' then Char.ofNat (c.toNat + 32) else c

/-! ## Paths -/

/-- `DriveKey::is_valid` (std/src/storage/mod.rs 201-203). -/
def driveValid (s : Str) : Bool :=
  !s.isEmpty && !s.any fun c => c == ':' || c == '\\' || c == '/' || c == '.'

/-- `DriveKey::new` (std/src/storage/mod.rs 189-198). -/
def driveKey (C : CaseOps) (s : Str) : Outcome Str :=
  if !driveValid s then .error "InvalidInput" else .ok (s.flatMap C.up)

/-- `Location` (std/src/storage/mod.rs 217-220). -/
structure Location where
  drive : Option Str
  path : Str
  deriving DecidableEq, Repr

/-- `str::split` by one character. -/
def splitChar (c : Char) : Str → List Str
  | [] => [[]]
  | d :: s =>
    if d = c then [] :: splitChar c s
    else
      match splitChar c s with
      | [] => [[d]]
      | f :: fs => (d :: f) :: fs

/-- `Location::is_path_valid` (std/src/storage/mod.rs 269-271). -/
def pathValid (s : Str) : Bool := !s.isEmpty && !s.any fun c => c == ':' || c == '\\'

/-- The checks of the path part in `Location::new` (std/src/storage/mod.rs 238-259). -/
def checkPath (path : Str) : Outcome Str :=
  if path.isEmpty then .ok ['/']
  else if !pathValid path || path == ['.'] || path == ['.', '.'] || path == ['/', '.'] || path == ['/', '.', '.'] then
    .error "InvalidInput"
  else
    let slashes := path.foldl (fun a c => if c = '/' then a + 1 else a) 0
    if (slashes = 1 ∧ path.head? ≠ some '/') ∨ slashes > 1 then .error "InvalidInput"
    else .ok path

/-- `Location::new` (std/src/storage/mod.rs 224-262). -/
def Location.new (C : CaseOps) (s : Str) : Outcome Location :=
  match splitChar ':' s with
  | [drive, path] =>
    match driveKey C drive with
    | .ok d =>
      match checkPath path with
      | .ok p => .ok ⟨some d, p⟩
      | .error e => .error e
      | .panic => .panic
    | .error e => .error e
    | .panic => .panic
  | [path] =>
    match checkPath path with
    | .ok p => .ok ⟨none, p⟩
    | .error e => .error e
    | .panic => .panic
  | _ => .error "InvalidInput"

/-- `Location::leaf_name` (std/src/storage/mod.rs 274-282). -/
def Location.leaf (l : Location) : Option Str :=
  if l.path = ['/'] then none
  else if l.path.head? = some '/' then some (l.path.drop 1)
  else some l.path

/-- `Location::set_leaf_name` (std/src/storage/mod.rs 285-294). -/
def Location.setLeaf (l : Location) (name : Str) : Location :=
  if l.path.head? = some '/' then { l with path := '/' :: name } else { l with path := name }

/-- `char::is_ascii_lowercase`. -/
def isAsciiLower (c : Char) : Bool := 'a' ≤ c && c ≤ 'z'

/-- `Location::set_extension` (std/src/storage/mod.rs 300-330). -/
def Location.setExtension (l : Location) (ext : Str) : Location :=
  match l.leaf with
  | none => l
  | some name =>
    if name.isEmpty then l
    else if name.contains '.' then l
    else
      let upper := !name.any isAsciiLower
      { l with path := l.path ++ '.' :: (if upper then ext.map asciiUpper else ext) }

/-- `Location::fmt` (std/src/storage/mod.rs 333-340). -/
def Location.toStr (l : Location) : Str :=
  match l.drive with
  | some d => d ++ ':' :: l.path
  | none => l.path

/-! ## In-memory drives -/

/-- Contents of a file and the principals that can read it (std/src/storage/mem.rs 27). -/
structure MemFile where
  content : List UInt8
  readers : List Str
  deriving DecidableEq, Repr

/-- `InMemoryDrive` (std/src/storage/mem.rs 24-35). -/
abbrev MemDrive := FMap Str MemFile

/-- `delete` (std/src/storage/mem.rs 39-44). -/
def MemDrive.delete (d : MemDrive) (name : Str) : Outcome MemDrive :=
  match d.get? name with
  | some _ => .ok (d.erase name)
  | none => .error "NotFound"

/-- `enumerate` (std/src/storage/mem.rs 46-54): names and sizes, in no particular order. -/
def MemDrive.enumerate (d : MemDrive) : FMap Str Nat := d.map fun e => (e.1, e.2.content.length)

/-- `get` (std/src/storage/mem.rs 56-61). -/
def MemDrive.get (d : MemDrive) (name : Str) : Outcome (List UInt8) :=
  match d.get? name with
  | some f => .ok f.content
  | none => .error "NotFound"

/-- `get_acls` (std/src/storage/mem.rs 63-74), unsorted. -/
def MemDrive.getAcls (d : MemDrive) (name : Str) : Outcome (List Str) :=
  match d.get? name with
  | some f => .ok f.readers
  | none => .error "NotFound"

/-- `put` (std/src/storage/mem.rs 76-83). -/
def MemDrive.put (d : MemDrive) (name : Str) (content : List UInt8) : MemDrive :=
  match d.get? name with
  | some f => d.insert name { f with content := content }
  | none => d.insert name ⟨content, []⟩

/-- `update_acls` (std/src/storage/mem.rs 85-102). -/
def MemDrive.updateAcls (d : MemDrive) (name : Str) (add remove : List Str) : Outcome MemDrive :=
  match d.get? name with
  | none => .error "NotFound"
  | some f =>
    let r := remove.foldl (fun r x => r.filter (· ≠ x)) f.readers
    let r := add.foldl (fun r x => if x ∈ r then r else x :: r) r
    .ok (d.insert name { f with readers := r })

/-! ## Storage -/

/-- `MountedDrive` (std/src/storage/mod.rs 361-364). -/
structure Mounted where
  uri : Str
  drive : MemDrive

/-- `Storage` (std/src/storage/mod.rs 370-379), without the factories. -/
structure Storage where
  drives : FMap Str Mounted
  current : Str

/-- `Storage::default` (std/src/storage/mod.rs 381-395). -/
def Storage.init (C : CaseOps) : Storage :=
  let key := "MEMORY".toList.flatMap C.up
  { drives := [(key, ⟨"memory://".toList, []⟩)], current := key }

/-- Position of the first occurrence of `"://"` (`str::find`), splitting the text there. -/
def splitUriAux : Str → Option (Str × Str)
  | [] => none
  | c :: s =>
    match c, s with
    | ':', '/' :: '/' :: rest => some ([], rest)
    | _, _ => (splitUriAux s).map fun p => (c :: p.1, p.2)

/-- `split_uri` (std/src/storage/mod.rs 350-358). -/
def splitUri (uri : Str) : Outcome (Str × Str) :=
  match splitUriAux uri with
  | some (s, p) => if s.isEmpty then .error "InvalidInput" else .ok (s, p)
  | none => .error "InvalidInput"

/-- `InMemoryDriveFactory::create` (std/src/storage/mem.rs 109-119). -/
def memoryFactory (target : Str) : Outcome MemDrive :=
  if target.isEmpty then .ok [] else .error "InvalidInput"

/-- `Storage::attach` (std/src/storage/mod.rs 445-456). -/
def Storage.attach (C : CaseOps) (st : Storage) (name uri : Str) (d : MemDrive) : Outcome Storage :=
  match driveKey C name with
  | .ok key =>
    match st.drives.get? key with
    | some _ => .error "AlreadyExists"
    | none => .ok { st with drives := st.drives.insert key ⟨uri, d⟩ }
  | .error e => .error e
  | .panic => .panic

/-- `Storage::mount` (std/src/storage/mod.rs 461-473). -/
def Storage.mount (C : CaseOps) (st : Storage) (name uri : Str) : Outcome Storage :=
  match splitUri uri with
  | .ok (scheme, path) =>
    if C.low scheme = "memory".toList then
      match memoryFactory path with
      | .ok d => st.attach C name uri d
      | .error e => .error e
      | .panic => .panic
    else .error "InvalidInput"
  | .error e => .error e
  | .panic => .panic

/-- `Storage::unmount` (std/src/storage/mod.rs 479-499), with its assertion. -/
def Storage.unmount (C : CaseOps) (st : Storage) (name : Str) : Outcome Storage :=
  match driveKey C name with
  | .ok key =>
    match st.drives.get? key with
    | none => .error "NotFound"
    | some _ =>
      if st.current = key then .error "AlreadyExists"
      else if st.drives.length > 1 then .ok { st with drives := st.drives.erase key }
      else .panic
  | .error e => .error e
  | .panic => .panic

/-- `Storage::cd` (std/src/storage/mod.rs 515-534). -/
def Storage.cd (C : CaseOps) (st : Storage) (loc : Str) : Outcome Storage :=
  match Location.new C loc with
  | .ok l =>
    match l.leaf with
    | some _ => .error "InvalidInput"
    | none =>
      match l.drive with
      | some d =>
        match st.drives.get? d with
        | none => .error "AlreadyExists"
        | some _ => .ok { st with current := d }
      | none => .ok st
  | .error e => .error e
  | .panic => .panic

/-- `Storage::cwd` (std/src/storage/mod.rs 537-539, 265-267). -/
def Storage.cwd (st : Storage) : Str := Location.toStr ⟨some st.current, ['/']⟩

/-- `get_drive` and `get_drive_mut` (std/src/storage/mod.rs 542-576): the key of the drive and the
drive. -/
def Storage.getDrive (st : Storage) (l : Location) : Outcome (Str × Mounted) :=
  match l.drive with
  | some key =>
    match st.drives.get? key with
    | some m => .ok (key, m)
    | none => .error "NotFound"
  | none =>
    match st.drives.get? st.current with
    | some m => .ok (st.current, m)
    | none => .panic

/-- Shared shape of the file operations: check that the location has a file name, find the drive,
and operate on it. -/
def Storage.withFile {α : Type} (st : Storage) (l : Location) (k : Str → Mounted → Str → Outcome α) : Outcome α :=
  match l.leaf with
  | some name =>
    match st.getDrive l with
    | .ok (key, m) => k key m name
    | .error e => .error e
    | .panic => .panic
  | none => .error "NotFound"

/-- Stores a modified drive back. -/
def Storage.setDrive (st : Storage) (key : Str) (m : Mounted) (d : MemDrive) : Storage :=
  { st with drives := st.drives.insert key { m with drive := d } }

/-- `Storage::delete` (std/src/storage/mod.rs 579-588). -/
def Storage.delete (C : CaseOps) (st : Storage) (loc : Str) : Outcome Storage :=
  match Location.new C loc with
  | .ok l => st.withFile l fun key m name =>
    match m.drive.delete name with
    | .ok d => .ok (st.setDrive key m d)
    | .error e => .error e
    | .panic => .panic
  | .error e => .error e
  | .panic => .panic

/-- `Storage::enumerate` (std/src/storage/mod.rs 591-600). -/
def Storage.enumerate (C : CaseOps) (st : Storage) (loc : Str) : Outcome (FMap Str Nat) :=
  match Location.new C loc with
  | .ok l =>
    match l.leaf with
    | some _ => .error "NotFound"
    | none =>
      match st.getDrive l with
      | .ok (_, m) => .ok m.drive.enumerate
      | .error e => .error e
      | .panic => .panic
  | .error e => .error e
  | .panic => .panic

/-- `Storage::get_location` (std/src/storage/mod.rs 604-612). -/
def Storage.getLocation (st : Storage) (l : Location) : Outcome (List UInt8) :=
  st.withFile l fun _ m name => m.drive.get name

/-- `Storage::get` (std/src/storage/mod.rs 615-618). -/
def Storage.get (C : CaseOps) (st : Storage) (loc : Str) : Outcome (List UInt8) :=
  match Location.new C loc with
  | .ok l => st.getLocation l
  | .error e => .error e
  | .panic => .panic

/-- `Storage::get_acls` (std/src/storage/mod.rs 621-630). -/
def Storage.getAcls (C : CaseOps) (st : Storage) (loc : Str) : Outcome (List Str) :=
  match Location.new C loc with
  | .ok l => st.withFile l fun _ m name => m.drive.getAcls name
  | .error e => .error e
  | .panic => .panic

/-- `Storage::put_location` (std/src/storage/mod.rs 634-647). -/
def Storage.putLocation (st : Storage) (l : Location) (content : List UInt8) : Outcome Storage :=
  st.withFile l fun key m name => .ok (st.setDrive key m (m.drive.put name content))

/-- `Storage::put` (std/src/storage/mod.rs 650-653). -/
def Storage.put (C : CaseOps) (st : Storage) (loc : Str) (content : List UInt8) : Outcome Storage :=
  match Location.new C loc with
  | .ok l => st.putLocation l content
  | .error e => .error e
  | .panic => .panic

/-- `Storage::update_acls` (std/src/storage/mod.rs 657-671). -/
def Storage.updateAcls (C : CaseOps) (st : Storage) (loc : Str) (add remove : List Str) : Outcome Storage :=
  match Location.new C loc with
  | .ok l => st.withFile l fun key m name =>
    match m.drive.updateAcls name add remove with
    | .ok d => .ok (st.setDrive key m d)
    | .error e => .error e
    | .panic => .panic
  | .error e => .error e
  | .panic => .panic

/-- `Storage::copy` (std/src/storage/mod.rs 683-704). -/
def Storage.copy (C : CaseOps) (st : Storage) (src dest : Str) : Outcome Storage :=
  match Location.new C src with
  | .ok s =>
    match s.leaf with
    | none => .error "NotFound"
    | some srcName =>
      match Location.new C dest with
      | .ok d =>
        let d := if d.leaf.isNone then d.setLeaf srcName else d
        match st.getLocation s with
        | .ok content => st.putLocation d content
        | .error e => .error e
        | .panic => .panic
      | .error e => .error e
      | .panic => .panic
  | .error e => .error e
  | .panic => .panic

/-- `Storage::make_canonical` (std/src/storage/mod.rs 411-417). -/
def Storage.makeCanonical (C : CaseOps) (st : Storage) (loc : Str) : Outcome Str :=
  match Location.new C loc with
  | .ok l => .ok (Location.toStr { l with drive := some (l.drive.getD st.current) })
  | .error e => .error e
  | .panic => .panic

/-- `Storage::make_canonical_with_extension` (std/src/storage/mod.rs 423-440). -/
def Storage.makeCanonicalExt (C : CaseOps) (st : Storage) (loc ext : Str) : Outcome Str :=
  match Location.new C loc with
  | .ok l =>
    let l := { l with drive := some (l.drive.getD st.current) }
    match l.leaf with
    | none => .error "NotFound"
    | some _ => .ok (l.setExtension ext).toStr
  | .error e => .error e
  | .panic => .panic

/-- Storage commands, as a program or the REPL issues them. -/
inductive StorageCmd where
  | put (loc : Str) (content : List UInt8)
  | get (loc : Str)
  | delete (loc : Str)
  | copy (src dest : Str)
  | enumerate (loc : Str)
  | getAcls (loc : Str)
  | updateAcls (loc : Str) (add remove : List Str)
  | mount (name uri : Str)
  | unmount (name : Str)
  | cd (loc : Str)
  | cwd

/-- What the user gets back. -/
inductive StorageResult where
  | done
  | content (bytes : List UInt8)
  | files (list : FMap Str Nat)
  | readers (list : List Str)
  | path (p : Str)
  | failed
  | crash

/-- Commands that modify the storage: on failure the old storage stays. -/
def updateResult (st : Storage) : Outcome Storage → StorageResult × Storage
  | .ok st' => (.done, st')
  | .error _ => (.failed, st)
  | .panic => (.crash, st)

/-- Commands that read. -/
def queryResult {α : Type} (st : Storage) (f : α → StorageResult) : Outcome α → StorageResult × Storage
  | .ok a => (f a, st)
  | .error _ => (.failed, st)
  | .panic => (.crash, st)

/-- Executes one command. -/
def storageStep (C : CaseOps) (st : Storage) : StorageCmd → StorageResult × Storage
  | .put loc c => updateResult st (st.put C loc c)
  | .get loc => queryResult st .content (st.get C loc)
  | .delete loc => updateResult st (st.delete C loc)
  | .copy s d => updateResult st (st.copy C s d)
  | .enumerate loc => queryResult st .files (st.enumerate C loc)
  | .getAcls loc => queryResult st .readers (st.getAcls C loc)
  | .updateAcls loc a r => updateResult st (st.updateAcls C loc a r)
  | .mount n u => updateResult st (st.mount C n u)
  | .unmount n => updateResult st (st.unmount C n)
  | .cd loc => updateResult st (st.cd C loc)
  | .cwd => (.path st.cwd, st)

/-- Executes a list of commands and collects their results. -/
def storageRun (C : CaseOps) (st : Storage) : List StorageCmd → List StorageResult × Storage
  | [] => ([], st)
  | c :: cs =>
    let (r, st') := storageStep C st c
    let (rs, st'') := storageRun C st' cs
    (r :: rs, st'')

end EB
