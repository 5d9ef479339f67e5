import Verif.Model.Editor
import Verif.Model.Machine
import Verif.Model.Storage
/-!
# The stored program and the commands on it

Models std/src/program.rs with the editor of repl/src/editor.rs as the program, and the loop of the interpreter in
repl/src/lib.rs.  Errors of the console when it prints are not modelled.
-/

namespace EB

/-- Why `read_line` fails (`io::ErrorKind`). -/
inductive ReadErr where
  | interrupted
  | eof
  | other
  deriving DecidableEq, Repr

/-- `parse_boolean` (std/src/strings.rs 39-48); `none` is its error. -/
def parseBoolean (C : CaseOps) (s : Str) : Option Bool :=
  let raw := s.flatMap C.up
  if raw = "TRUE".toList ∨ raw = "YES".toList ∨ raw = "Y".toList then some true
  else if raw = "FALSE".toList ∨ raw = "NO".toList ∨ raw = "N".toList then some false
  else none

/-- `continue_if_modified` (std/src/program.rs 116-130); `answer` is what `read_line` returns if it is called.  The
messages are left out. -/
def continueIfModified (C : CaseOps) (p : Edit.State) (answer : Except ReadErr Str) : Except ReadErr Bool :=
  if !p.dirty then .ok true
  else
    match answer with
    | .error e => .error e
    | .ok a => .ok ((parseBoolean C a).getD false)

/-- `String::as_bytes`. -/
def utf8Bytes (s : Str) : List UInt8 := s.flatMap String.utf8EncodeChar

/-- `String::from_utf8`. -/
def utf8Text (b : List UInt8) : Option Str := (ByteArray.utf8Decode? b.toByteArray).map Array.toList

/-- The objects that the commands share: the program (std/src/program.rs 58-81), the storage and the queue of actions. -/
structure Desk where
  program : Edit.State
  storage : Storage
  actions : List MachineAction

/-- What is done: the commands of std/src/program.rs (those that only print are left out) with the keys that are pressed
in the editor on a console of that size and the answer to the question, and the commands of the storage. -/
inductive DeskCmd where
  | edit (W H : Nat) (keys : List Key)
  | load (name : Str) (answer : Except ReadErr Str)
  | new (answer : Except ReadErr Str)
  | run
  | save (name : Option Str)
  | storage (c : StorageCmd)

/-- How it ends. -/
inductive DeskResult where
  | done
  | aborted
  | failed
  | crash
  deriving DecidableEq, Repr

/-- `EditCommand::async_exec` (std/src/program.rs 248-256) with `Editor::edit` (repl/src/editor.rs 520-527), which fails
when there are no more keys. -/
def Desk.edit (d : Desk) (W H : Nat) (keys : List Key) : DeskResult × Desk :=
  match d.program.edit W H keys with
  | none => (.crash, d)
  | some (e, _, ended) => (if ended then .done else .failed, { d with program := e })

/-- `LoadCommand::async_exec` (std/src/program.rs 360-391). -/
def Desk.load (C : CaseOps) (d : Desk) (name : Str) (answer : Except ReadErr Str) : DeskResult × Desk :=
  match continueIfModified C d.program answer with
  | .error _ => (.failed, d)
  | .ok false => (.aborted, d)
  | .ok true =>
    match d.storage.makeCanonicalExt C name "bas".toList with
    | .panic => (.crash, d)
    | .error _ => (.failed, d)
    | .ok full =>
      match d.storage.get C full with
      | .panic => (.crash, d)
      | .error _ => (.failed, d)
      | .ok content =>
        match utf8Text content with
        | none => (.failed, d)
        | some text => (.done, { d with program := d.program.load (some full) text, actions := d.actions ++ [.clear] })

/-- `NewCommand::async_exec` (std/src/program.rs 438-451). -/
def Desk.new (C : CaseOps) (d : Desk) (answer : Except ReadErr Str) : DeskResult × Desk :=
  match continueIfModified C d.program answer with
  | .error _ => (.failed, d)
  | .ok false => (.aborted, d)
  | .ok true => (.done, { d with program := d.program.load none [], actions := d.actions ++ [.clear] })

/-- `RunCommand::async_exec` (std/src/program.rs 489-496). -/
def Desk.run (d : Desk) : DeskResult × Desk := (.done, { d with actions := d.actions ++ [.run d.program.text] })

/-- `SaveCommand::async_exec` (std/src/program.rs 552-577). -/
def Desk.save (C : CaseOps) (d : Desk) (name : Option Str) : DeskResult × Desk :=
  match name.or d.program.name with
  | none => (.failed, d)
  | some name =>
    match d.storage.makeCanonicalExt C name "bas".toList with
    | .panic => (.crash, d)
    | .error _ => (.failed, d)
    | .ok full =>
      match d.storage.put C full (utf8Bytes d.program.text) with
      | .panic => (.crash, d)
      | .error _ => (.failed, d)
      | .ok st => (.done, { d with program := d.program.setName full, storage := st })

/-- A command. -/
def Desk.step (C : CaseOps) (d : Desk) : DeskCmd → DeskResult × Desk
  | .edit W H keys => d.edit W H keys
  | .load name answer => d.load C name answer
  | .new answer => d.new C answer
  | .run => d.run
  | .save name => d.save C name
  | .storage c =>
    match storageStep C d.storage c with
    | (.failed, st) => (.failed, { d with storage := st })
    | (.crash, st) => (.crash, { d with storage := st })
    | (_, st) => (.done, { d with storage := st })

/-! ## The loop of the interpreter -/

/-- The result of `Machine::compile` and `Machine::exec` for a line, as far as the loop distinguishes them. -/
inductive LineResult where
  | eof
  | exit (code : Nat)
  | failed
  deriving DecidableEq, Repr

/-- What an iteration of the loop does. -/
inductive ReplStep (S : Type) where
  | again (s : S)
  | leave (code : Nat) (s : S)
  | fail (e : ReadErr) (s : S)

/-- An iteration of `run_repl_loop` (repl/src/lib.rs 213-272).  `exec` compiles and executes a line, `program` is the
stored program; `line` is the line that is read and `answer` the answer to the question if it is asked. -/
def replTurn {S : Type} (C : CaseOps) (exec : S → Str → LineResult × S) (program : S → Edit.State) (s : S)
    (line answer : Except ReadErr Str) : ReplStep S :=
  match line with
  | .ok line =>
    match exec s line with
    | (.eof, s) => .again s
    | (.exit code, s) =>
      match continueIfModified C (program s) answer with
      | .error e => .fail e s
      | .ok true => .leave code s
      | .ok false => .again s
    | (.failed, s) => .again s
  | .error .interrupted => .again s
  | .error .eof => .leave 0 s
  | .error .other => .leave 1 s

/-- The loop (repl/src/lib.rs 216-273), until there are no more inputs. -/
def replLoop {S : Type} (C : CaseOps) (exec : S → Str → LineResult × S) (program : S → Edit.State) (s : S) :
    List (Except ReadErr Str × Except ReadErr Str) → ReplStep S
  | [] => .again s
  | (line, answer) :: rest =>
    match replTurn C exec program s line answer with
    | .again s => replLoop C exec program s rest
    | r => r

end EB
