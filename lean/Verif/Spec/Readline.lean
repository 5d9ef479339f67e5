import Verif.Model.Readline
/-!
# What editing a line means, and what a row of the screen shows
-/

namespace EB.Spec

/-- A line being edited: the text before and after the cursor, the lines above (nearest first) and below in the
history, and what the history holds for this line. -/
structure Editor where
  before : Str
  after : Str
  above : List Str
  below : List Str
  entry : Str
  deriving DecidableEq

/-- The line. -/
def Editor.text (e : Editor) : Str := e.before ++ e.after

/-- Up and down in the history: the line is put back where it was, and the cursor goes to the end of the other. -/
def Editor.up (e : Editor) : Editor :=
  match e.above with
  | [] => e
  | l :: ls => ⟨l, [], ls, e.text :: e.below, l⟩

/-- See `Editor.up`. -/
def Editor.down (e : Editor) : Editor :=
  match e.below with
  | [] => e
  | l :: ls => ⟨l, [], e.text :: e.above, ls, l⟩

/-- The editing keys. -/
def Editor.press (e : Editor) : Key → Editor
  | .char c => { e with before := e.before ++ [c] }
  | .backspace => { e with before := e.before.dropLast }
  | .delete | .eofOrDelete => { e with after := e.after.tail }
  | .arrowLeft => { e with before := e.before.dropLast, after := e.before.getLast?.toList ++ e.after }
  | .arrowRight => { e with before := e.before ++ e.after.head?.toList, after := e.after.tail }
  | .home => { e with before := [], after := e.text }
  | .end => { e with before := e.text, after := [] }
  | .arrowUp => e.up
  | .arrowDown => e.down
  | _ => e

/-- The history if the line is entered now: the last place is for the new line; empty lines are not kept. -/
def Editor.entered (e : Editor) : List Str :=
  (e.above.reverse ++ e.entry :: e.below).dropLast ++ (if e.text = [] then [] else [e.text])

/-- How the editing of a line ends. -/
inductive Editing where
  | waiting (e : Editor)
  | line (e : Editor)
  | eof (e : Editor)
  | interrupted (e : Editor)

/-- The keys one after the other. -/
def Editor.run (e : Editor) : List Key → Editing
  | [] => .waiting e
  | .newLine :: _ | .carriageReturn :: _ => .line e
  | .interrupt :: _ => .interrupted e
  | .eofOrDelete :: ks => if e.text = [] then .eof e else (e.press .eofOrDelete).run ks
  | k :: ks => (e.press k).run ks

/-- A row of the screen: its characters, the column of the cursor, and whether the cursor is shown. -/
structure Row where
  text : Nat → Char
  col : Nat
  visible : Bool

/-- An operation on the row of a screen with `w` columns.  `none`: the cursor would leave the row. -/
def Row.exec (w : Nat) (s : Row) : ConOp → Option Row
  | .hideCursor => some { s with visible := false }
  | .showCursor => some { s with visible := true }
  | .write t =>
    if s.col + t.length < w then
      some { s with text := fun c => if s.col ≤ c ∧ c < s.col + t.length then (t[c - s.col]?).getD ' ' else s.text c,
                    col := s.col + t.length }
    else none
  | .moveWithinLine off =>
    if 0 ≤ s.col + off ∧ s.col + off < w then some { s with col := (s.col + off).toNat } else none
  | .print _ => none
  | .syncNow => some s

/-- Operations one after the other. -/
def Row.execAll (w : Nat) (s : Row) : List ConOp → Option Row
  | [] => some s
  | o :: os => (s.exec w o).bind fun s' => s'.execAll w os

/-- The prompt as it is shown on a console of `w` columns: as it is if it leaves room for a character and the
cursor; else its beginning and three dots; nothing on a console of less than five columns. -/
inductive Prompt (w : Nat) (prompt : Str) : Str → Prop where
  | whole : byteLen prompt + 1 < w → Prompt w prompt prompt
  | cut {t u : Str} : 5 ≤ w → w ≤ byteLen prompt → prompt = t ++ u → byteLen t = w - 5 →
      Prompt w prompt (t ++ ['.', '.', '.'])
  | none : 2 ≤ w → w < 5 → w ≤ byteLen prompt → Prompt w prompt []

/-- A line about to be edited: the cursor is at its end, under the history. -/
def Editor.start (previous : Str) (history : Option (List Str)) : Editor :=
  ⟨previous, [], (history.getD []).reverse, [], previous⟩

/-- All the lines, with the one being edited in its place. -/
def Editor.lines (e : Editor) : List Str := e.above.reverse ++ e.text :: e.below

/-- The line never has more than 32767 characters, whichever of the keys are pressed. -/
def Editor.Short (e : Editor) (ks : List Key) : Prop :=
  ∀ ks' e', ks' <+: ks → e.run ks' = .waiting e' → e'.text.length ≤ 32767

/-- A line as it is shown: itself, or asterisks. -/
def masked (echo : Bool) (line : Str) : Str := line.map fun c => if echo then c else '*'

/-- A row that shows a prompt and, in a field of `width` columns after it, the part of the line around the cursor,
on top of what was there before. -/
def Displays (prompt : Str) (echo : Bool) (width : Nat) (e : Editor) (row0 : Nat → Char) (s : Row) : Prop :=
  ∃ first, first ≤ e.before.length ∧ e.before.length ≤ first + width ∧
    (∀ c, s.text c =
      if c < prompt.length then prompt.getD c ' '
      else if c < prompt.length + width then (((masked echo e.text).drop first).take width).getD (c - prompt.length) ' '
      else row0 c) ∧
    s.col = prompt.length + (e.before.length - first) ∧ s.visible = true

/-- Without a terminal, the only editing key is backspace: what has been typed after some keys. -/
def typed : List Key → Str
  | [] => []
  | ks => go [] ks
where
  /-- The characters so far, the last one first. -/
  go (sofar : Str) : List Key → Str
  | [] => sofar.reverse
  | .char c :: ks => go (c :: sofar) ks
  | .unknown :: ks => go ('?' :: sofar) ks
  | .backspace :: ks => go sofar.tail ks
  | _ :: ks => go sofar ks

/-- The keys that end a line without a terminal. -/
def Ending : Key → Bool
  | .carriageReturn | .newLine | .eofOrDelete | .interrupt => true
  | _ => false

end EB.Spec
