import Verif.Model.Help
import Verif.Spec.Files
/-!
# What `HELP` finds

The topics are the sections of the language reference, a topic which lists them, the callables and the categories of callables.
-/

namespace EB.Spec

/-- A name in capitals, which is how names are compared. -/
def capitals (s : Str) : Str := s.map Char.toUpper

/-- The name of a command, or of a function with the sign of its type. -/
def shownName (i : HelpItem) : Str :=
  i.name ++ match i.returns with
    | none => []
    | some .boolean => ['?']
    | some .double => ['#']
    | some .integer => ['%']
    | some .text => ['$']

/-- The topic that lists the sections of the language reference. -/
def reference : Str := "LANGUAGE REFERENCE".toList

/-- The callables have different names, which are in capitals and without signs of types; callables of categories with the same title are of
the same category; the names of all topics are different. -/
structure Manual (lang : List HelpSection) (cs : List HelpItem) : Prop where
  sections : (lang.map fun s => capitals s.title).Nodup
  names : (cs.map (·.name)).Nodup
  words : ∀ i ∈ cs, capitals i.name = i.name ∧ ∀ c ∈ i.name, c ∉ ['?', '#', '%', '$']
  categories : ∀ i ∈ cs, ∀ j ∈ cs, capitals i.category.1 = capitals j.category.1 → i.category = j.category
  apart : ∀ s ∈ lang, capitals s.title ≠ reference ∧
    ∀ i ∈ cs, capitals s.title ≠ shownName i ∧ capitals s.title ≠ capitals i.category.1
  apart' : ∀ i ∈ cs, shownName i ≠ reference ∧ capitals i.category.1 ≠ reference ∧
    ∀ j ∈ cs, shownName i ≠ capitals j.category.1

/-- An index: names in the order of the dictionary, each with a line about it. -/
def IndexOf (entries : Str → Str → Prop) (index : List (Str × Str)) : Prop :=
  Dictionary (index.map (·.1)) ∧ ∀ n b, (n, b) ∈ index ↔ entries n b

/-- The topics, each with its name in capitals. -/
inductive IsTopic (lang : List HelpSection) (cs : List HelpItem) : Str → Topic → Prop
  | language {s} : s ∈ lang → IsTopic lang cs (capitals s.title) (.language s)
  | reference {index} : IndexOf (fun n b => ∃ s ∈ lang, s.title = n ∧ s.first = b) index →
      IsTopic lang cs reference (.category "Language reference".toList ["General language topics".toList] index)
  | callable {i} : i ∈ cs → IsTopic lang cs (shownName i) (.callable (shownName i) i)
  | category {i index} : i ∈ cs → IndexOf (fun n b => ∃ j ∈ cs, j.category = i.category ∧ shownName j = n ∧ j.blurb = b) index →
      IsTopic lang cs (capitals i.category.1) (.category i.category.1 (i.category.1 :: i.category.2) index)

/-- The text of the language reference with lines that end with `eol`: an introduction and sections. -/
def referenceText (eol intro : Str) (sections : List (Str × Str)) : Str :=
  intro ++ sections.flatMap (fun s => eol ++ eol ++ "# ".toList ++ s.1 ++ eol ++ eol ++ s.2) ++ eol

/-- Only the sections begin with a `#` after an empty line, and titles are in one line. -/
structure GoodText (eol intro : Str) (sections : List (Str × Str)) : Prop where
  ends : eol = "\n".toList ∨ eol = "\r\n".toList
  plain : eol = "\n".toList → '\r' ∉ intro ∧ ∀ s ∈ sections, '\r' ∉ s.1 ∧ '\r' ∉ s.2
  start : ¬ (eol ++ eol ++ "# ".toList) <:+: intro
  titles : ∀ s ∈ sections, '\n' ∉ s.1 ∧ '\r' ∉ s.1
  bodies : ∀ s ∈ sections, ¬ (eol ++ eol ++ "# ".toList) <:+: (eol ++ eol ++ s.2)

end EB.Spec
