import Verif.Model.Files
import Verif.Spec.Storage
/-!
# What the commands for files show
-/

namespace EB.Spec

/-- Each name comes before those that are greater in the order of the dictionary, and none comes twice. -/
def Dictionary (names : List Str) : Prop := names.Pairwise (List.Lex (· < ·))

/-- The files of a drive with their sizes, in order. -/
def ListOf (g : Str → Option File) (files : List (Str × Nat)) : Prop :=
  Dictionary (files.map (·.1)) ∧ ∀ n k, (n, k) ∈ files ↔ ∃ f, g n = some f ∧ f.1.length = k

/-- An empty line between the files and the summary. -/
def gap {α : Type} (l : List α) : List Str := if l.isEmpty then [] else [[]]

/-- The listing of a drive on a wide console. -/
def wideListing (date : Str → Str) (drive : Str) (files : List (Str × Nat)) : List Str :=
  [[], "    Directory of ".toList ++ drive ++ ":/".toList, [], "    Modified              Size    Name".toList] ++
  files.map (fun f => "    ".toList ++ date f.1 ++ "    ".toList ++ padded6 f.2 ++ "    ".toList ++ f.1) ++ gap files ++
  ["    ".toList ++ showNat files.length ++ " file(s), ".toList ++ showNat (files.map (·.2)).sum ++ " bytes".toList, []]

/-- The listing of a drive on a narrow console. -/
def narrowListing (drive : Str) (files : List (Str × Nat)) : List Str :=
  [[], "    Directory of ".toList ++ drive ++ ":/".toList, []] ++ files.map (fun f => "    ".toList ++ f.1) ++ gap files ++
  ["    ".toList ++ showNat files.length ++ " file(s)".toList, []]

/-- What a drive points to, after a history of commands and their results: what the last successful `MOUNT` said. -/
def target (u : Char → Str) : List (StorageCmd × StorageResult) → (Str → Option Str) → Str → Option Str
  | [], t => t
  | (.mount name uri, .done) :: h, t => target u h fun d => if d = upper u name then some uri else t d
  | (.unmount name, .done) :: h, t => target u h fun d => if d = upper u name then none else t d
  | _ :: h, t => target u h t

/-- In the beginning there is one drive. -/
def firstTarget (u : Char → Str) : Str → Option Str :=
  fun d => if d = upper u "MEMORY".toList then some "memory://".toList else none

/-- The list of drives: the targets are in a column, which is right of all names. -/
def driveListing (width : Nat) (drives : List (Str × Str)) : List Str :=
  let row (name target : Str) : Str := "    ".toList ++ name ++ List.replicate (width - byteLen name) ' ' ++ "    ".toList ++ target
  [[], row "Name".toList "Target".toList] ++ drives.map (fun d => row d.1 d.2) ++
  [[], "    ".toList ++ showNat drives.length ++ " drive(s)".toList, []]

end EB.Spec
