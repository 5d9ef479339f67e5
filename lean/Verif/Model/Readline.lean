import Verif.Model.Strings
/-!
# The line editor (std/src/console/readline.rs and std/src/console/linebuffer.rs)

The console is a sink of operations that do not fail (`ConOp`); every handler returns the operations it made.  A
`LineBuffer` is its text: its functions are `take` and `drop` on the characters (std/src/console/linebuffer.rs
36-135).  `none` is a panic: an overflow, an index out of range or a failed debug assertion.
-/

namespace EB

/-- `Key` (std/src/console/mod.rs 52-111). -/
inductive Key where
  | arrowDown | arrowLeft | arrowRight | arrowUp | backspace | carriageReturn
  | char (c : Char)
  | delete | «end» | eofOrDelete | escape | interrupt | home | newLine | pageDown | pageUp | tab | unknown
  deriving DecidableEq, Repr

/-- The operations of `Console` that the line editor uses (std/src/console/mod.rs 187-263). -/
inductive ConOp where
  | hideCursor
  | showCursor
  | write (s : Str)
  | moveWithinLine (off : Int)
  | print (s : Str)
  | syncNow
  deriving DecidableEq, Repr

/-- Rust's `as i16` on a `usize`. -/
def asI16 (n : Nat) : Int := (BitVec.ofNat 16 n).toInt

/-- Rust's negation of an `i16`. -/
def negI16 (x : Int) : Option Int := if x = -32768 then none else some (-x)

/-- Rust's subtraction of `i16` numbers. -/
def subI16 (x y : Int) : Option Int := if -32768 ≤ x - y ∧ x - y ≤ 32767 then some (x - y) else none

/-- Rust's subtraction of `usize` numbers. -/
def subUsize (x y : Nat) : Option Nat := if y ≤ x then some (x - y) else none

/-- `LineBuffer::range` (std/src/console/linebuffer.rs 66-69). -/
def lineRange (line : Str) (start «end» : Nat) : Str := (line.drop start).take («end» - start)

/-- `LineBuffer::remove` (std/src/console/linebuffer.rs 86-88). -/
def lineRemove (line : Str) (pos : Nat) : Str := line.take pos ++ line.drop (pos + 1)

/-- `LineBuffer::insert` (std/src/console/linebuffer.rs 94-102). -/
def lineInsert (line : Str) (pos : Nat) (c : Char) : Str := line.take pos ++ c :: line.drop pos

/-- `Readline` (std/src/console/readline.rs 33-44).  `rendered_len` is the length of `rendered`. -/
structure Rl where
  history : Option (List Str)
  echo : Bool
  width : Nat
  line : Str
  pos : Nat
  viewStart : Nat
  rendered : Str
  historyPos : Nat
  deriving DecidableEq, Repr

namespace Rl

/-- `Readline::adjust_view` (std/src/console/readline.rs 48-58). -/
def adjustView (r : Rl) (pos viewStart : Nat) : Nat :=
  if r.width = 0 then 0
  else if pos < viewStart then pos
  else if pos > viewStart + r.width then pos - r.width
  else viewStart

/-- `Readline::current_pos` (std/src/console/readline.rs 61-63). -/
def currentPos (r : Rl) : Option Nat := subUsize r.pos r.viewStart

/-- `Readline::render_line` (std/src/console/readline.rs 66-74). -/
def renderLine (r : Rl) (viewStart : Nat) : Option Str :=
  if viewStart ≤ r.line.length then
    some (if r.echo then lineRange r.line viewStart (viewStart + r.width)
      else List.replicate (min (r.line.length - viewStart) r.width) '*')
  else none

/-- `Readline::sync_rendered` (std/src/console/readline.rs 77-80). -/
def syncRendered (r : Rl) : Option Rl := (r.renderLine r.viewStart).map fun s => { r with rendered := s }

/-- `Readline::reset_view_to_end` (std/src/console/readline.rs 83-87). -/
def resetViewToEnd (r : Rl) : Option Rl :=
  { r with viewStart := if r.width = 0 then 0 else r.pos - r.width }.syncRendered

/-- The move of the cursor to the left by some characters. -/
def moveLeft (n : Nat) : Option (List ConOp) :=
  if n > 0 then (negI16 (asI16 n)).map fun d => [.moveWithinLine d] else some []

/-- `Readline::redraw_line` (std/src/console/readline.rs 90-109). -/
def redrawLine (r : Rl) (oldPos clearLen newPos : Nat) : Option (List ConOp) := do
  let left ← moveLeft oldPos
  let writtenLen := max r.rendered.length clearLen
  if newPos ≤ writtenLen then
    let back ← moveLeft (writtenLen - newPos)
    pure ([.hideCursor] ++ left ++ (if r.rendered = [] then [] else [.write r.rendered]) ++
      (if r.rendered.length < clearLen then [.write (List.replicate (clearLen - r.rendered.length) ' ')] else []) ++
      back ++ [.showCursor])
  else none

/-- `Readline::erase_at` (std/src/console/readline.rs 112-132). -/
def eraseAt (r : Rl) (cursorPos removePos : Nat) : Option (Rl × List ConOp) := do
  if removePos < r.line.length ∧ removePos ≤ cursorPos then
    let left ← moveLeft (cursorPos - removePos)
    let tailLen := r.line.length - removePos - 1
    let back ← negI16 (asI16 (tailLen + 1))
    pure ({ r with line := lineRemove r.line removePos },
      [.hideCursor] ++ left ++ [.write (if r.echo then r.line.drop (removePos + 1) else List.replicate tailLen '*')] ++
      [.write [' '], .moveWithinLine back, .showCursor])
  else none

/-- `Readline::do_backspace` (std/src/console/readline.rs 135-154). -/
def doBackspace (r : Rl) : Option (Rl × List ConOp) := do
  if r.pos = 0 then pure (r, [])
  else if r.viewStart = 0 ∧ r.line.length ≤ r.width then
    let (r1, ops) ← r.eraseAt r.pos (r.pos - 1)
    let r2 ← { r1 with pos := r1.pos - 1 }.syncRendered
    pure (r2, ops)
  else
    let oldPos ← r.currentPos
    let clearLen := r.rendered.length
    let r1 := { r with line := lineRemove r.line (r.pos - 1), pos := r.pos - 1 }
    let r2 ← { r1 with viewStart := r1.adjustView r1.pos r1.viewStart }.syncRendered
    let newPos ← r2.currentPos
    let ops ← r2.redrawLine oldPos clearLen newPos
    pure (r2, ops)

/-- `Readline::do_char` (std/src/console/readline.rs 171-212). -/
def doChar (r : Rl) (c : Char) : Option (Rl × List ConOp) := do
  if r.width = 0 then pure (r, [])
  else
    let newViewStart := r.adjustView (r.pos + 1) r.viewStart
    if newViewStart = r.viewStart ∧ r.line.length < r.width then
      if r.pos < r.line.length then
        let back ← negI16 (asI16 (r.line.length - r.pos))
        let r2 ← { r with line := lineInsert r.line r.pos c, pos := r.pos + 1 }.syncRendered
        pure (r2, [.hideCursor] ++ (if r.echo then [.write [c], .write (r.line.drop r.pos)]
            else [.write (List.replicate (r.line.length - r.pos + 1) '*')]) ++ [.moveWithinLine back, .showCursor])
      else
        let r2 ← { r with line := lineInsert r.line r.line.length c, pos := r.pos + 1 }.syncRendered
        pure (r2, [.write (if r.echo then [c] else ['*'])])
    else
      let oldPos ← r.currentPos
      let clearLen := r.rendered.length
      let r2 ← { r with line := lineInsert r.line r.pos c, pos := r.pos + 1, viewStart := newViewStart }.syncRendered
      let newPos ← r2.currentPos
      let ops ← r2.redrawLine oldPos clearLen newPos
      pure (r2, ops)

/-- `Readline::do_delete` (std/src/console/readline.rs 215-232). -/
def doDelete (r : Rl) : Option (Rl × List ConOp) := do
  if r.pos ≥ r.line.length then pure (r, [])
  else if r.viewStart = 0 ∧ r.line.length ≤ r.width then
    let (r1, ops) ← r.eraseAt r.pos r.pos
    let r2 ← r1.syncRendered
    pure (r2, ops)
  else
    let oldPos ← r.currentPos
    let clearLen := r.rendered.length
    let r1 := { r with line := lineRemove r.line r.pos }
    let r2 ← { r1 with viewStart := r1.adjustView r1.pos r1.viewStart }.syncRendered
    let newPos ← r2.currentPos
    let ops ← r2.redrawLine oldPos clearLen newPos
    pure (r2, ops)

/-- `Readline::do_move_to` (std/src/console/readline.rs 264-283). -/
def doMoveTo (r : Rl) (newPos : Nat) : Option (Rl × List ConOp) := do
  if newPos = r.pos then pure (r, [])
  else
    let oldPos ← r.currentPos
    let newViewStart := r.adjustView newPos r.viewStart
    if newViewStart = r.viewStart then
      let delta ← subI16 (asI16 newPos) (asI16 r.pos)
      pure ({ r with pos := newPos }, [.moveWithinLine delta])
    else
      let clearLen := r.rendered.length
      let r2 ← { r with pos := newPos, viewStart := newViewStart }.syncRendered
      let newCur ← r2.currentPos
      let ops ← r2.redrawLine oldPos clearLen newCur
      pure (r2, ops)

/-- `Readline::do_up_down` (std/src/console/readline.rs 292-323); `up` is a negative `delta`. -/
def doUpDown (r : Rl) (up : Bool) : Option (Rl × List ConOp) := do
  match r.history with
  | none => pure (r, [])
  | some history =>
    if up ∧ r.historyPos = 0 then pure (r, [])
    else if ¬ up ∧ history.length = 0 then none
    else if ¬ up ∧ r.historyPos = history.length - 1 then pure (r, [])
    else
      let newHistoryPos := if up then r.historyPos - 1 else r.historyPos + 1
      if r.historyPos < history.length then
        let history' := history.set r.historyPos r.line
        let newLine ← history'[newHistoryPos]?
        let oldPos ← r.currentPos
        let clearLen := r.rendered.length
        let r2 ← { r with history := some history', historyPos := newHistoryPos, line := newLine, pos := newLine.length }.resetViewToEnd
        let newPos ← r2.currentPos
        let ops ← r2.redrawLine oldPos clearLen newPos
        pure (r2, ops)
      else none

/-- `Readline::finish` (std/src/console/readline.rs 326-336): the history, and the line. -/
def finish (r : Rl) : Option (Option (List Str) × Str) :=
  match r.history with
  | none => some (none, r.line)
  | some history =>
    if r.line = [] then some (some history.dropLast, r.line)
    else if history = [] then none
    else some (some (history.set (history.length - 1) r.line), r.line)

/-- The prompt that is shown (std/src/console/readline.rs 351-361). -/
def fitPrompt (consoleWidth : Nat) (prompt : Str) : Option Str :=
  if byteLen prompt ≥ consoleWidth then
    if consoleWidth ≥ 5 then (takeBytes prompt (consoleWidth - 5)).map (· ++ "...".toList)
    else some []
  else some prompt

/-- `Readline::new` (std/src/console/readline.rs 339-402), for a console of `consoleWidth` columns. -/
def new (consoleWidth : Nat) (prompt previous : Str) (history : Option (List Str)) (echo : Bool) :
    Option (Rl × List ConOp) := do
  let prompt ← fitPrompt consoleWidth prompt
  let width ← subUsize consoleWidth (byteLen prompt)
  let width := width - 1
  let r : Rl := { history := history.map (· ++ [previous]), echo, width, line := previous, pos := previous.length,
                  viewStart := if width = 0 then 0 else previous.length - width, rendered := [],
                  historyPos := (history.map List.length).getD 0 }
  let r ← { r with viewStart := r.adjustView r.pos r.viewStart }.syncRendered
  pure (r, if prompt ≠ [] ∨ r.rendered ≠ [] then [.write (prompt ++ r.rendered), .syncNow] else [])

/-- What a key leads to. -/
inductive Act where
  | go (r : Rl) (ops : List ConOp)
  | submit (ops : List ConOp)
  | eof
  | interrupted

/-- The dispatch of one key (std/src/console/readline.rs 407-426), with `do_carriage_return` (157-168, on systems
other than Windows), `do_end` (235-237), `do_eof_or_delete` (240-246), `do_home` (249-251), `do_ignore` (254-256),
`do_interrupt` (259-261) and `do_newline` (286-289). -/
def press (r : Rl) (k : Key) : Option Act :=
  let go := fun x : Option (Rl × List ConOp) => x.map fun p => Act.go p.1 p.2
  match k with
  | .arrowDown => go (r.doUpDown false)
  | .arrowLeft => go (r.doMoveTo (r.pos - 1))
  | .arrowRight => go (r.doMoveTo (min (r.pos + 1) r.line.length))
  | .arrowUp => go (r.doUpDown true)
  | .backspace => go r.doBackspace
  | .carriageReturn => some (.submit [.print []])
  | .char c => go (r.doChar c)
  | .delete => go r.doDelete
  | .end => go (r.doMoveTo r.line.length)
  | .eofOrDelete => if r.line = [] then some .eof else go r.doDelete
  | .escape => some (.go r [])
  | .home => go (r.doMoveTo 0)
  | .interrupt => some .interrupted
  | .newLine => some (.submit [.print []])
  | .pageDown | .pageUp | .tab | .unknown => some (.go r [])

/-- How a session stands after some keys. -/
inductive Result where
  | waiting (r : Rl)
  | line (history : Option (List Str)) (text : Str)
  | eof (history : Option (List Str))
  | interrupted (history : Option (List Str))

/-- `Readline::run` (std/src/console/readline.rs 405-433): the state after some keys, and what was sent to the console.
Keys after the end of the session are not read. -/
def run (r : Rl) : List Key → Option (Result × List ConOp)
  | [] => some (.waiting r, [])
  | k :: ks =>
    match r.press k with
    | none => none
    | some (.go r' ops) => (run r' ks).map fun p => (p.1, ops ++ p.2)
    | some (.submit ops) => r.finish.map fun p => (.line p.1 p.2, ops)
    | some .eof => some (.eof r.history, [])
    | some .interrupted => some (.interrupted r.history, [])

end Rl

/-- `read_line_raw` (std/src/console/readline.rs 448-479), on systems other than Windows: the line, or `none` for
the two errors (end of file and interrupt, by the flag), or that more keys are needed. -/
inductive RawResult where
  | waiting (line : Str)
  | line (line : Str)
  | eof
  | interrupted
  deriving DecidableEq, Repr

/-- The loop of `read_line_raw` (std/src/console/readline.rs 448-479). -/
def readLineRaw (line : Str) : List Key → RawResult
  | [] => .waiting line
  | k :: ks => match k with
    | .backspace => readLineRaw (if line ≠ [] then line.dropLast else line) ks
    | .carriageReturn | .newLine => .line line
    | .char c => readLineRaw (line ++ [c]) ks
    | .eofOrDelete => .eof
    | .interrupt => .interrupted
    | .unknown => readLineRaw (line ++ ['?']) ks
    | _ => readLineRaw line ks

end EB
