import Verif.Model.Storage
/-!
# Specification of the storage subsystem

Files are a map from a drive and a name to contents and readers.  `u` is what upper-casing does with
each character, `low` is lower-casing.  Only the types of commands and results come from the model.
-/

namespace EB.Spec

/-- Names that a drive can be asked for: they denote an entry directly inside a directory. -/
def FileName (n : Str) : Prop :=
  n ≠ [] ∧ (∀ c ∈ n, c ≠ '/' ∧ c ≠ '\\' ∧ c ≠ ':') ∧ n ≠ ['.'] ∧ n ≠ ['.', '.']

/-- Valid drive names. -/
def DriveName (d : Str) : Prop :=
  d ≠ [] ∧ ∀ c ∈ d, c ≠ ':' ∧ c ≠ '\\' ∧ c ≠ '/' ∧ c ≠ '.'

/-- Upper-cased text. -/
def upper (u : Char → Str) (s : Str) : Str := s.flatMap u

/-- The part of a path after the drive: the root or a file, with an optional leading slash. -/
inductive PathPart : Str → Option Str → Prop where
  | empty : PathPart [] none
  | root : PathPart ['/'] none
  | file (n : Str) : FileName n → PathPart n (some n)
  | rooted (n : Str) : FileName n → PathPart ('/' :: n) (some n)

/-- Paths: `part` or `drive:part`. -/
inductive Path (u : Char → Str) : Str → Option Str → Option Str → Prop where
  | relative (p : Str) (leaf : Option Str) : PathPart p leaf → Path u p none leaf
  | absolute (d p : Str) (leaf : Option Str) : DriveName d → PathPart p leaf →
      Path u (d ++ ':' :: p) (some (upper u d)) leaf

/-- Contents and readers of a file. -/
abbrev File := List UInt8 × (Str → Prop)

/-- Abstract storage: mounted drives with their files, and the current drive. -/
structure FS where
  cur : Str
  drives : Str → Option (Str → Option File)

/-- `p` is a path to file `n` of drive `d`. -/
def Denotes (u : Char → Str) (fs : FS) (p d n : Str) : Prop :=
  ∃ dr, Path u p dr (some n) ∧ d = dr.getD fs.cur

/-- `p` is a path to drive `d`. -/
def DenotesDrive (u : Char → Str) (fs : FS) (p d : Str) : Prop :=
  ∃ dr, Path u p dr none ∧ d = dr.getD fs.cur

/-- The file system with file `n` of drive `d` replaced. -/
def FS.set (fs : FS) (d n : Str) (v : Option File) : FS :=
  { fs with drives := fun d' =>
      if d' = d then (fs.drives d).map fun g n' => if n' = n then v else g n'
      else fs.drives d' }

/-- The file system with drive `d` replaced. -/
def FS.setDrive (fs : FS) (d : Str) (v : Option (Str → Option File)) : FS :=
  { fs with drives := fun d' => if d' = d then v else fs.drives d' }

/-- Nobody. -/
def noReaders : Str → Prop := fun _ => False

/-- The URI of an in-memory drive: `scheme://` with the scheme in any case, where `://` appears for
the first time. -/
def MemoryUri (low : Str → Str) (uri : Str) : Prop :=
  ∃ s, s ≠ [] ∧ uri = s ++ [':', '/', '/'] ∧ low s = "memory".toList ∧
    ∀ s' t, uri = s' ++ [':', '/', '/'] ++ t → s.length ≤ s'.length

/-- `p` is an acceptable place to copy a file named `n` to. -/
def CopyTarget (u : Char → Str) (fs : FS) (p n d' n' : Str) : Prop :=
  Denotes u fs p d' n' ∨ DenotesDrive u fs p d' ∧ n' = n

/-- What each command does. -/
inductive FsStep (u : Char → Str) (low : Str → Str) : FS → StorageCmd → StorageResult → FS → Prop where
  | put (fs : FS) (p : Str) (c : List UInt8) (d n : Str) (g : Str → Option File) :
      Denotes u fs p d n → fs.drives d = some g →
      FsStep u low fs (.put p c) .done (fs.set d n (some (c, ((g n).map (·.2)).getD noReaders)))
  | put_fails (fs : FS) (p : Str) (c : List UInt8) :
      (∀ d n g, Denotes u fs p d n → fs.drives d ≠ some g) →
      FsStep u low fs (.put p c) .failed fs
  | get (fs : FS) (p : Str) (d n : Str) (g : Str → Option File) (f : File) :
      Denotes u fs p d n → fs.drives d = some g → g n = some f →
      FsStep u low fs (.get p) (.content f.1) fs
  | get_fails (fs : FS) (p : Str) :
      (∀ d n g f, Denotes u fs p d n → fs.drives d = some g → g n ≠ some f) →
      FsStep u low fs (.get p) .failed fs
  | delete (fs : FS) (p : Str) (d n : Str) (g : Str → Option File) (f : File) :
      Denotes u fs p d n → fs.drives d = some g → g n = some f →
      FsStep u low fs (.delete p) .done (fs.set d n none)
  | delete_fails (fs : FS) (p : Str) :
      (∀ d n g f, Denotes u fs p d n → fs.drives d = some g → g n ≠ some f) →
      FsStep u low fs (.delete p) .failed fs
  | copy (fs : FS) (p q : Str) (d n d' n' : Str) (g g' : Str → Option File) (f : File) :
      Denotes u fs p d n → fs.drives d = some g → g n = some f →
      CopyTarget u fs q n d' n' → fs.drives d' = some g' →
      FsStep u low fs (.copy p q) .done (fs.set d' n' (some (f.1, ((g' n').map (·.2)).getD noReaders)))
  | copy_fails (fs : FS) (p q : Str) :
      (∀ d n d' n' g g' f, Denotes u fs p d n → fs.drives d = some g → g n = some f →
        CopyTarget u fs q n d' n' → fs.drives d' ≠ some g') →
      FsStep u low fs (.copy p q) .failed fs
  | enumerate (fs : FS) (p : Str) (d : Str) (g : Str → Option File) (l : FMap Str Nat) :
      DenotesDrive u fs p d → fs.drives d = some g →
      (∀ n k, (n, k) ∈ l ↔ ∃ f, g n = some f ∧ f.1.length = k) →
      FsStep u low fs (.enumerate p) (.files l) fs
  | enumerate_fails (fs : FS) (p : Str) :
      (∀ d g, DenotesDrive u fs p d → fs.drives d ≠ some g) →
      FsStep u low fs (.enumerate p) .failed fs
  | getAcls (fs : FS) (p : Str) (d n : Str) (g : Str → Option File) (f : File) (l : List Str) :
      Denotes u fs p d n → fs.drives d = some g → g n = some f → (∀ x, x ∈ l ↔ f.2 x) →
      FsStep u low fs (.getAcls p) (.readers l) fs
  | getAcls_fails (fs : FS) (p : Str) :
      (∀ d n g f, Denotes u fs p d n → fs.drives d = some g → g n ≠ some f) →
      FsStep u low fs (.getAcls p) .failed fs
  | updateAcls (fs : FS) (p : Str) (add remove : List Str) (d n : Str) (g : Str → Option File) (f : File) :
      Denotes u fs p d n → fs.drives d = some g → g n = some f →
      FsStep u low fs (.updateAcls p add remove) .done
        (fs.set d n (some (f.1, fun x => x ∈ add ∨ f.2 x ∧ x ∉ remove)))
  | updateAcls_fails (fs : FS) (p : Str) (add remove : List Str) :
      (∀ d n g f, Denotes u fs p d n → fs.drives d = some g → g n ≠ some f) →
      FsStep u low fs (.updateAcls p add remove) .failed fs
  | mount (fs : FS) (name uri : Str) :
      DriveName name → MemoryUri low uri → fs.drives (upper u name) = none →
      FsStep u low fs (.mount name uri) .done (fs.setDrive (upper u name) (some fun _ => none))
  | mount_fails (fs : FS) (name uri : Str) :
      ¬ (DriveName name ∧ MemoryUri low uri ∧ fs.drives (upper u name) = none) →
      FsStep u low fs (.mount name uri) .failed fs
  | unmount (fs : FS) (name : Str) :
      DriveName name → fs.drives (upper u name) ≠ none → upper u name ≠ fs.cur →
      FsStep u low fs (.unmount name) .done (fs.setDrive (upper u name) none)
  | unmount_fails (fs : FS) (name : Str) :
      ¬ (DriveName name ∧ fs.drives (upper u name) ≠ none ∧ upper u name ≠ fs.cur) →
      FsStep u low fs (.unmount name) .failed fs
  | cd (fs : FS) (p d : Str) :
      DenotesDrive u fs p d → fs.drives d ≠ none →
      FsStep u low fs (.cd p) .done { fs with cur := d }
  | cd_fails (fs : FS) (p : Str) :
      (∀ d, DenotesDrive u fs p d → fs.drives d = none) →
      FsStep u low fs (.cd p) .failed fs
  | cwd (fs : FS) : FsStep u low fs .cwd (.path (fs.cur ++ [':', '/'])) fs

/-- Histories. -/
inductive FsTrace (u : Char → Str) (low : Str → Str) : FS → List StorageCmd → List StorageResult → FS → Prop where
  | nil (fs : FS) : FsTrace u low fs [] [] fs
  | cons (fs fs' fs'' : FS) (c : StorageCmd) (r : StorageResult) (cs : List StorageCmd) (rs : List StorageResult) :
      FsStep u low fs c r fs' → FsTrace u low fs' cs rs fs'' → FsTrace u low fs (c :: cs) (r :: rs) fs''

/-- The initial storage: one empty drive. -/
def FS.init (u : Char → Str) : FS :=
  { cur := upper u "MEMORY".toList,
    drives := fun d => if d = upper u "MEMORY".toList then some fun _ => none else none }

/-- Facts about upper-casing that the claims about letter case rely on (true of Unicode and of
ASCII). -/
structure UpperOk (u : Char → Str) : Prop where
  nonempty : ∀ c, u c ≠ []
  stable : ∀ c, ∀ d ∈ u c, u d = [d]
  separators : ∀ c, ∀ d ∈ u c, d = ':' ∨ d = '\\' ∨ d = '/' ∨ d = '.' → d = c

/-- What a path means to the operating system, relative to a directory given by its components
(the text up to the next slash is in `cur`, reversed). -/
def resolveAux (dir : List Str) (cur : Str) : Str → List Str
  | [] => enter dir cur.reverse
  | '/' :: s => resolveAux (enter dir cur.reverse) [] s
  | c :: s => resolveAux dir (c :: cur) s
where
  enter (dir : List Str) (comp : Str) : List Str :=
    if comp = [] ∨ comp = ['.'] then dir
    else if comp = ['.', '.'] then dir.dropLast
    else dir ++ [comp]

/-- Joining a directory with a relative or absolute name, as the operating system resolves it. -/
def resolve (dir : List Str) : Str → List Str
  | '/' :: s => resolveAux [] [] s
  | s => resolveAux dir [] s

end EB.Spec
