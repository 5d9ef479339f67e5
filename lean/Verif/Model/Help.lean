import Verif.Model.Files
import Verif.Model.Codegen
/-!
# The topics of the help

Models the index of the topics of `HELP` and how a topic is found (std/src/help.rs).  How the text of a topic is broken into lines and shown
page by page is modelled in `Library`; the layout of the topics is not modelled.
-/

namespace EB

/-- `ExprType::annotation` (core/src/ast.rs 235-242). -/
def typeMark : ExprType → Char
  | .boolean => '?'
  | .double => '#'
  | .integer => '%'
  | .text => '$'

/-- What follows each of the matches of `str::match_indices`.  The texts that are looked for do not overlap with themselves. -/
def afterEach (p : Str) : Str → List Str
  | [] => []
  | c :: cs => if p.isPrefixOf (c :: cs) then (c :: cs).drop p.length :: afterEach p cs else afterEach p cs

/-- What is before and after the match of `str::find`, of a text that is not empty. -/
def splitFirst (p : Str) : Str → Option (Str × Str)
  | [] => none
  | c :: cs => if p.isPrefixOf (c :: cs) then some ([], (c :: cs).drop p.length) else (splitFirst p cs).map fun (a, b) => (c :: a, b)

/-- A turn of the loop of `parse_lang_reference`; `none` is a panic. -/
def parseSection (lineEnd sectionStart bodyStart sec : Str) : Option (Str × Str) :=
  match splitFirst bodyStart sec with
  | none => none
  | some (title, rest) =>
    match splitFirst sectionStart rest with
    | some (content, _) => some (title, content)
    | none => some (title, if lineEnd.isSuffixOf rest then rest.take (rest.length - lineEnd.length) else rest)

/-- `parse_lang_reference` (std/src/help.rs 264-303). -/
def parseLangReference (md : Str) : Option (List (Str × Str)) :=
  if (splitFirst "\r\n".toList md).isSome then
    (afterEach "\r\n\r\n# ".toList md).mapM (parseSection "\r\n".toList "\r\n\r\n# ".toList "\r\n\r\n".toList)
  else
    (afterEach "\n\n# ".toList md).mapM (parseSection "\n".toList "\n\n# ".toList "\n\n".toList)

/-- What the help needs of `CallableMetadata`: the category is its first line and the others, and `blurb` is the first line of the description.
Both have a first line: `CallableMetadata` of the standard library always have them. -/
structure HelpItem where
  name : Str
  returns : Option ExprType
  category : Str × List Str
  blurb : Str
  deriving DecidableEq, Repr

/-- A section of the language reference: its title, its first line and its other lines (`LanguageTopic`, std/src/help.rs 217-220). -/
structure HelpSection where
  title : Str
  first : Str
  rest : List Str
  deriving DecidableEq, Repr

/-- A `Topic` (std/src/help.rs 56-70, 73-76, 161-165, 217-220).  The index of a category is a `BTreeMap`, which is kept in order. -/
inductive Topic where
  | language (section_ : HelpSection)
  | category (name : Str) (description : List Str) (index : FMap Str Str)
  | callable (name : Str) (item : HelpItem)
  deriving DecidableEq, Repr

/-- The name with the annotation of the type (std/src/help.rs 149-152, 344-347). -/
def helpName (i : HelpItem) : Str :=
  match i.returns with
  | none => i.name
  | some t => i.name ++ [typeMark t]

/-- The loop of `callables_to_index`; `none` is the assertion that names are unique. -/
def indexItems (m : FMap Str Str) : List HelpItem → Option (FMap Str Str)
  | [] => some m
  | i :: is =>
    match m.get? (helpName i) with
    | some _ => none
    | none => indexItems (m.insert (helpName i) i.blurb) is

/-- `callables_to_index` (std/src/help.rs 139-158). -/
def callablesToIndex (l : List HelpItem) : Option (FMap Str Str) := (indexItems [] l).map inOrder

/-- A new entry of `categories` (std/src/help.rs 341-342). -/
def addCategory (m : FMap Str (List HelpItem)) (i : HelpItem) : FMap Str (List HelpItem) :=
  m.insert i.category.1 ((m.get? i.category.1).getD [] ++ [i])

/-- The loop over the categories (std/src/help.rs 351-355); `none` is a panic. -/
def addCategories (t : FMap Str Topic) : FMap Str (List HelpItem) → Option (FMap Str Topic)
  | [] => some t
  | (name, items) :: cs =>
    match items, callablesToIndex items with
    | i :: _, some index => addCategories (t.insert (symKey name) (.category name (i.category.1 :: i.category.2) index)) cs
    | _, _ => none

/-- `Topics::new` (std/src/help.rs 312-358).  `lang` is what `parse_lang_reference` gives, `callables` are the values of a hash map in the order
in which it gives them and `shuffle` is the order in which the hash map of the categories gives its entries.  The trie is a map from the keys
to the topics. -/
def topicsNew (lang : List HelpSection) (callables : List HelpItem)
    (shuffle : FMap Str (List HelpItem) → FMap Str (List HelpItem)) : Option (FMap Str Topic) :=
  let t := lang.foldl (fun m s => FMap.insert m (symKey s.title) (.language s)) ([] : FMap Str Topic)
  let index := lang.foldl (fun m s => FMap.insert m s.title s.first) ([] : FMap Str Str)
  let t := FMap.insert t (symKey "Language reference".toList)
    (.category "Language reference".toList ["General language topics".toList] (inOrder index))
  let t := callables.foldl (fun m i => FMap.insert m (symKey (helpName i)) (.callable (helpName i) i)) t
  addCategories t (shuffle (callables.foldl addCategory []))

/-- What `Topics::find` gives. -/
inductive HelpFound where
  | shown (topic : Topic)
  | ambiguous (candidates : List Str)
  | unknown
  deriving DecidableEq, Repr

/-- `Topics::find` (std/src/help.rs 364-396).  `get_raw_descendant` gives the part of the trie with the keys that begin with `key`, if there
are any, and the trie gives them in order.  The trie is never empty. -/
def helpFind (t : FMap Str Topic) (name : Str) : HelpFound :=
  let key := symKey name
  match t.get? key with
  | some topic => .shown topic
  | none =>
    match inOrder (t.filter fun e => key.isPrefixOf e.1) with
    | [] => .unknown
    | [e] => .shown e.2
    | es => .ambiguous (es.map (·.1))

/-- The titles of the topics that `HelpCommand::summary` lists (std/src/help.rs 463-472 with `show_in_summary`). -/
def helpSummary (t : FMap Str Topic) : List Str :=
  (inOrder t).filterMap fun e =>
    match e.2 with
    | .category name _ _ => some name
    | _ => none

end EB
