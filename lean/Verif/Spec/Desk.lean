import Verif.Model.Desk
import Verif.Spec.Storage
import Verif.Spec.Editor
/-!
# Specification of the stored program
-/

namespace EB.Spec

/-- Answers that mean yes. -/
def Yes (u : Char → Str) (a : Str) : Prop :=
  upper u a = "TRUE".toList ∨ upper u a = "YES".toList ∨ upper u a = "Y".toList

/-- The same text, where a program without lines is the same as one with an empty line. -/
def SameText (a b : Str) : Prop := a = b ∨ (a = [] ∨ a = ['\n']) ∧ (b = [] ∨ b = ['\n'])

/-- The text of the program when it was last loaded, created or saved, given the text before a command and how the
command ended. -/
def kept (before : Str) (c : DeskCmd) (r : DeskResult) (after : Str) : Str :=
  match c, r with
  | .load _ _, .done => after
  | .new _, .done => after
  | .save _, .done => after
  | _, _ => before

/-- The name of the file of a program: names without an extension get one, in upper case if they have no lower case
letter. -/
def basName (n : Str) : Str :=
  open Classical in
  if '.' ∈ n then n else if ∃ c ∈ n, 'a' ≤ c ∧ c ≤ 'z' then n ++ ".bas".toList else n ++ ".BAS".toList

/-- `n` as typed names the file `f` of the mounted drive `d`, whose files are `g`. -/
def Names (u : Char → Str) (fs : FS) (n d f : Str) (g : Str → Option File) : Prop :=
  ∃ n', Denotes u fs n d n' ∧ f = basName n' ∧ fs.drives d = some g

/-- `p` names the file `f` of drive `d` whatever the current drive is. -/
def FullName (u : Char → Str) (p d f : Str) : Prop := ∀ fs, Denotes u fs p d f

/-- The bytes of a text. -/
def utf8 (t : Str) : List UInt8 := t.flatMap String.utf8EncodeChar

end EB.Spec

namespace EB

/-- The objects when the interpreter starts. -/
def Desk.fresh (C : CaseOps) : Desk := ⟨.default, .init C, []⟩

/-- A history, with the text of the program when it was last loaded, created or saved. -/
def Desk.history (C : CaseOps) (cs : List DeskCmd) : Desk × Str :=
  cs.foldl (fun p c => ((p.1.step C c).2, Spec.kept p.2 c (p.1.step C c).1 (p.1.step C c).2.program.text)) (.fresh C, [])

end EB
