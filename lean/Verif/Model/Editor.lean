import Verif.Model.Readline
/-!
# The full-screen editor (repl/src/editor.rs)

As in the line editor, the console is a sink of operations that do not fail (`EdOp`), a `LineBuffer` is its text, and
`none` is a panic.  Numbers of lines and columns of the file do not overflow.
-/

namespace EB.Edit

/-- `ClearType` (std/src/console/mod.rs 113-127). -/
inductive Clear where
  | all | currentLine | previousChar | untilNewLine
  deriving DecidableEq, Repr

/-- Foreground and background, as in `Console::set_color` (std/src/console/mod.rs 208-214). -/
abbrev Tint := Option Nat × Option Nat

/-- The operations of `Console` that the editor uses (std/src/console/mod.rs 200-340). -/
inductive EdOp where
  | hideCursor
  | showCursor
  | setColor (t : Tint)
  | clear (how : Clear)
  | locate (x y : Nat)
  | write (s : Str)
  | print (s : Str)
  | syncNow
  deriving DecidableEq, Repr

/-- `TEXT_COLOR` (repl/src/editor.rs 27); `AnsiColor::White` is 7 (std/src/console/colors.rs). -/
def textColor : Tint := (some 7, none)

/-- `STATUS_COLOR` (repl/src/editor.rs 30-31): `BrightWhite` on `Blue`. -/
def statusColor : Tint := (some 15, some 4)

/-- `INDENT_WIDTH` (repl/src/editor.rs 34). -/
def indentWidth : Nat := 4

/-- `KEYS_SUMMARY` (repl/src/editor.rs 37). -/
def keysSummary : Str := " ESC Exit ".toList

/-- `copy_indent` (repl/src/editor.rs 40-49). -/
def copyIndent (line : Str) : Str := line.takeWhile isWhite

/-- `find_indent_end` (repl/src/editor.rs 53-62). -/
def findIndentEnd (line : Str) : Nat := (line.takeWhile (· == ' ')).length

/-- `RefreshKind` (repl/src/editor.rs 80-84). -/
inductive Refresh where
  | none | currentLine | full
  deriving DecidableEq, Repr

/-- `RefreshKind::upgrade` (repl/src/editor.rs 88-92). -/
def Refresh.upgrade : Refresh → Refresh → Refresh
  | .full, _ => .full
  | _, .full => .full
  | .currentLine, _ => .currentLine
  | .none, r => r

/-- `Editor` (repl/src/editor.rs 98-118). -/
structure State where
  name : Option Str
  content : List Str
  dirty : Bool
  viewLine : Nat
  viewCol : Nat
  line : Nat
  col : Nat
  insertCol : Nat
  deriving DecidableEq, Repr

/-- `Editor::default` (repl/src/editor.rs 120-132). -/
def State.default : State := ⟨none, [], false, 0, 0, 0, 0, 0⟩

/-- `Vec::remove`. -/
def removeLine (content : List Str) (i : Nat) : Option (Str × List Str) :=
  match content[i]? with
  | none => none
  | some l => some (l, content.take i ++ content.drop (i + 1))

/-- `Vec::insert`. -/
def insertLine (content : List Str) (i : Nat) (l : Str) : Option (List Str) :=
  if i ≤ content.length then some (content.take i ++ l :: content.drop i) else none

/-- `Editor::join_next_line_into` (repl/src/editor.rs 135-139). -/
def State.joinNextLineInto (e : State) (line : Nat) : Option State := do
  let (next, content) ← removeLine e.content (line + 1)
  let l ← content[line]?
  pure { e with content := content.set line (l ++ next), dirty := true }

/-- The text of the status line (repl/src/editor.rs 148-176).  Its parts are padded by bytes; the last `truncate` is
on bytes. -/
def State.status (e : State) (width : Nat) : Option Str :=
  let long := " | ".toList ++ e.name.getD "<NO NAME>".toList ++ (if e.dirty then "*".toList else []) ++ " | Ln ".toList ++
    (Nat.repr (e.line + 1)).toList ++ ", Col ".toList ++ (Nat.repr (e.col + 1)).toList ++ " ".toList
  if byteLen keysSummary + byteLen long ≥ width then
    let short := " ".toList ++ (Nat.repr (e.line + 1)).toList ++ ":".toList ++ (Nat.repr (e.col + 1)).toList ++ " ".toList
    let status := List.replicate (width - byteLen short) ' ' ++ short
    if byteLen status ≤ width then some status else takeBytes status width
  else
    some (keysSummary ++ List.replicate (width - byteLen long - byteLen keysSummary) ' ' ++ long)

/-- `Editor::refresh_status` (repl/src/editor.rs 147-182), on a console of `W` columns and `H` rows. -/
def State.refreshStatus (e : State) (W H : Nat) : Option (List EdOp) := do
  let status ← e.status W
  let y ← subUsize H 1
  pure [.locate 0 y, .setColor statusColor, .write status]

/-- What is printed of a line in `Editor::refresh` (repl/src/editor.rs 200-207). -/
def State.printLine (e : State) (W : Nat) (line : Str) : EdOp :=
  if line.length > e.viewCol then .print (lineRange line e.viewCol (e.viewCol + W)) else .print []

/-- `Editor::refresh` (repl/src/editor.rs 189-213).  The loop ends with the file or after `H - 1` rows. -/
def State.refresh (e : State) (W H : Nat) : Option (List EdOp) := do
  let status ← e.refreshStatus W H
  let rows ← subUsize H 1
  pure ([.setColor textColor, .clear .all] ++ status ++ [.setColor textColor, .locate 0 0] ++
    ((e.content.drop e.viewLine).take rows).map (e.printLine W))

/-- `Editor::refresh_current_line` (repl/src/editor.rs 216-245), with its debug assertions. -/
def State.refreshCurrentLine (e : State) (W H : Nat) : Option (List EdOp) := do
  let rows ← subUsize H 1
  if e.viewLine ≤ e.line ∧ e.line < e.viewLine + rows then
    let line ← e.content[e.line]?
    pure ([.setColor textColor, .locate 0 (e.line - e.viewLine), .clear .currentLine] ++
      (if line.length > e.viewCol then [.write (lineRange line e.viewCol (e.viewCol + W))] else []))
  else none

/-- `Editor::move_down` (repl/src/editor.rs 249-258). -/
def State.moveDown (e : State) (nlines : Nat) : Option State := do
  let line ← (if e.line + nlines < e.content.length then some (e.line + nlines) else subUsize e.content.length 1)
  let l ← e.content[line]?
  pure { e with line, col := min e.insertCol l.length }

/-- `Editor::move_up` (repl/src/editor.rs 262-271). -/
def State.moveUp (e : State) (nlines : Nat) : Option State := do
  let line := if e.line > nlines then e.line - nlines else 0
  let l ← e.content[line]?
  pure { e with line, col := min e.insertCol l.length }

/-- The adjustment of the viewport to the rows (repl/src/editor.rs 285-296). -/
def State.adjustLine (e : State) (H : Nat) (r : Refresh) : Option (State × Refresh) :=
  if e.line < e.viewLine then some ({ e with viewLine := e.line }, r.upgrade .full)
  else do
    let last ← subUsize (e.viewLine + H) 2
    if e.line > last then
      let n ← subUsize H 2
      pure ({ e with viewLine := if e.line > n then e.line - n else 0 }, r.upgrade .full)
    else pure (e, r)

/-- The adjustment of the viewport to the columns (repl/src/editor.rs 298-304). -/
def State.adjustCol (e : State) (W : Nat) (r : Refresh) : State × Refresh :=
  if e.col < e.viewCol then ({ e with viewCol := e.col }, r.upgrade .full)
  else if e.col ≥ e.viewCol + W then ({ e with viewCol := e.col - W + 1 }, r.upgrade .full)
  else (e, r)

/-- The part of the loop before a key is read (repl/src/editor.rs 283-338). -/
def State.show (e : State) (W H : Nat) (r : Refresh) : Option (State × List EdOp) := do
  let (e, r) ← e.adjustLine H r
  let (e, r) := e.adjustCol W r
  let ops ← match r with
    | .full => e.refresh W H
    | .currentLine => do
      let a ← e.refreshStatus W H
      let b ← e.refreshCurrentLine W H
      pure (a ++ b)
    | .none => do
      let a ← e.refreshStatus W H
      pure (a ++ [.setColor textColor])
  let x ← subUsize e.col e.viewCol
  let y ← subUsize e.line e.viewLine
  if x < 65536 ∧ y < 65536 then
    pure (e, [.hideCursor] ++ ops ++ [.locate x y, .showCursor, .syncNow])
  else none

/-- What a key leads to. -/
structure Step where
  state : State
  refresh : Refresh
  ops : List EdOp

/-- The backspace key (repl/src/editor.rs 361-405). -/
def State.backspace (e : State) : Option Step :=
  if e.col > 0 then do
    let line ← e.content[e.line]?
    let isIndent := findIndentEnd line ≥ e.col
    let newPos := if e.col ≥ indentWidth then (e.col - 1) / indentWidth * indentWidth else 0
    let nremove := if isIndent then e.col - newPos else 1
    let (r, ops) : Refresh × List EdOp :=
      if e.col = line.length then
        (.none, (if nremove > 0 then [.hideCursor] else []) ++ List.replicate nremove (.clear .previousChar) ++
          (if nremove > 0 then [.showCursor] else []))
      else (.currentLine, [])
    let p := Nat.repeat (fun p : Str × Nat => (lineRemove p.1 (p.2 - 1), p.2 - 1)) nremove (line, e.col)
    pure ⟨{ e with content := e.content.set e.line p.1, col := p.2, dirty := if nremove > 0 then true else e.dirty,
                   insertCol := p.2 }, r, ops⟩
  else if e.line > 0 then do
    let previous ← e.content[e.line - 1]?
    let e1 ← { e with col := previous.length }.joinNextLineInto (e.line - 1)
    pure ⟨{ e1 with line := e1.line - 1, insertCol := e1.col }, .full, []⟩
  else some ⟨{ e with insertCol := e.col }, .none, []⟩

/-- The delete key (repl/src/editor.rs 407-423). -/
def State.delete (e : State) : Option Step := do
  let line ← e.content[e.line]?
  if e.col < line.length then
    let line' := lineRemove line e.col
    let e' := { e with content := e.content.set e.line line', dirty := true }
    if e.col < line'.length then pure ⟨e', .full, []⟩
    else pure ⟨e', .none, [.hideCursor, .clear .untilNewLine, .showCursor]⟩
  else if e.line + 1 < e.content.length then
    let e' ← e.joinNextLineInto e.line
    pure ⟨e', .full, []⟩
  else pure ⟨e, .none, []⟩

/-- A character (repl/src/editor.rs 425-442). -/
def State.char (e : State) (W : Nat) (c : Char) : Option Step := do
  let line ← e.content[e.line]?
  let r := if e.col < line.length then Refresh.currentLine else .none
  let x ← subUsize e.col e.viewCol
  let last ← subUsize W 1
  pure ⟨{ e with content := e.content.set e.line (lineInsert line e.col c), col := e.col + 1, insertCol := e.col + 1,
                 dirty := true }, r, if x < last ∧ r = .none then [.write [c]] else []⟩

/-- The home key (repl/src/editor.rs 449-457). -/
def State.home (e : State) : Option Step := do
  let line ← e.content[e.line]?
  let col := if e.col = findIndentEnd line then 0 else findIndentEnd line
  pure ⟨{ e with col, insertCol := col }, .none, []⟩

/-- The enter key (repl/src/editor.rs 459-479). -/
def State.newLine (e : State) : Option Step := do
  let line ← e.content[e.line]?
  let indent := copyIndent line
  let appending := e.line + 1 = e.content.length ∧ e.col = line.length
  let content ← insertLine (e.content.set e.line (line.take e.col)) (e.line + 1) (indent ++ line.drop e.col)
  pure ⟨{ e with content, col := byteLen indent, line := e.line + 1, insertCol := byteLen indent, dirty := true },
    if appending then .none else .full, []⟩

/-- The tab key (repl/src/editor.rs 485-503). -/
def State.tab (e : State) : Option Step := do
  let line ← e.content[e.line]?
  let newPos := (e.col + indentWidth) / indentWidth * indentWidth
  let text := List.replicate (newPos - e.col) ' '
  pure ⟨{ e with content := e.content.set e.line (line.take e.col ++ text ++ line.drop e.col), col := newPos,
                 insertCol := newPos, dirty := true },
    if e.col < line.length then .currentLine else .none, if e.col < line.length then [] else [.write text]⟩

/-- A key (repl/src/editor.rs 340-507); keys that end the editor are not handled here. -/
def State.press (e : State) (W H : Nat) (k : Key) : Option Step :=
  let go := fun x : Option State => x.map fun e' => (⟨e', .none, []⟩ : Step)
  match k with
  | .arrowUp => go (e.moveUp 1)
  | .arrowDown => go (e.moveDown 1)
  | .arrowLeft => go (some (if e.col > 0 then { e with col := e.col - 1, insertCol := e.col - 1 } else e))
  | .arrowRight => go ((e.content[e.line]?).map fun l =>
      if e.col < l.length then { e with col := e.col + 1, insertCol := e.col + 1 } else e)
  | .backspace => e.backspace
  | .delete | .eofOrDelete => e.delete
  | .char c => e.char W c
  | .end => go ((e.content[e.line]?).map fun l => { e with col := l.length, insertCol := l.length })
  | .home => e.home
  | .newLine | .carriageReturn => e.newLine
  | .pageDown => (subUsize H 2).bind fun n => go (e.moveDown n)
  | .pageUp => (subUsize H 2).bind fun n => go (e.moveUp n)
  | .tab => e.tab
  | .escape | .interrupt | .unknown => some ⟨e, .none, []⟩

/-- The loop (repl/src/editor.rs 281-508): the state after some keys, what was sent to the console until the next key
is read, and whether the editor has ended.  Keys after the end are not read. -/
def State.loop (e : State) (W H : Nat) (r : Refresh) : List Key → Option (State × List EdOp × Bool)
  | [] => (e.show W H r).map fun p => (p.1, p.2, false)
  | k :: ks => do
    let (e, ops) ← e.show W H r
    if k = .escape ∨ k = .interrupt then pure (e, ops, true)
    else
      let s ← e.press W H k
      let (e', ops', ended) ← s.state.loop W H s.refresh ks
      pure (e', ops ++ s.ops ++ ops', ended)

/-- `edit_interactively` (repl/src/editor.rs 274-511). -/
def State.edit (e : State) (W H : Nat) (ks : List Key) : Option (State × List EdOp × Bool) :=
  { e with content := if e.content = [] then [[]] else e.content }.loop W H .full ks

/-- A line with its terminator removed (`str::lines`). -/
def stripEol (l : Str) : Str :=
  if l.getLast? = some '\n' then
    if l.dropLast.getLast? = some '\r' then l.dropLast.dropLast else l.dropLast
  else l

/-- `str::split_inclusive('\n')`, with the line so far in `cur` (reversed). -/
def splitInclusive (cur : Str) : Str → List Str
  | [] => if cur = [] then [] else [cur.reverse]
  | c :: s => if c = '\n' then (c :: cur).reverse :: splitInclusive [] s else splitInclusive (c :: cur) s

/-- `str::lines`. -/
def textLines (s : Str) : List Str := (splitInclusive [] s).map stripEol

/-- `Editor::load` (repl/src/editor.rs 529-536). -/
def State.load (_ : State) (name : Option Str) (text : Str) : State :=
  ⟨name, textLines text, false, 0, 0, 0, 0, 0⟩

/-- `Editor::set_name` (repl/src/editor.rs 542-545). -/
def State.setName (e : State) (name : Str) : State := { e with name := some name, dirty := false }

/-- `Editor::text` (repl/src/editor.rs 547-551). -/
def State.text (e : State) : Str := e.content.foldl (fun contents line => contents ++ line ++ ['\n']) []

end EB.Edit
