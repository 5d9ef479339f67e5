import Verif.Model.Account
/-!
# What runs when the interpreter starts

Models `try_load_autoexec` and `run_from_cloud` of repl/src/lib.rs on the model of the drives.  The machine is any function from programs to how
they end; the console does not fail.
-/

namespace EB

/-- How a program ends: `Machine::exec` (repl/src/lib.rs 164-187), with errors of compilation and execution. -/
inductive GuestEnd where
  | eof
  | exit (code : Int)
  | stopped
  | error (msg : Str)
  deriving DecidableEq, Repr

/-- What `try_load_autoexec` printed and the code that it ran. -/
structure AutoexecAnswer where
  lines : List Str
  ran : List (List UInt8)
  deriving DecidableEq, Repr

/-- `try_load_autoexec` (repl/src/lib.rs 84-117).  `shown` is how errors of the drive are shown. -/
def tryAutoexec (C : CaseOps) (shown : String → Str) (machine : List UInt8 → GuestEnd) (st : Storage) : Outcome AutoexecAnswer :=
  match st.get C "AUTOEXEC.BAS".toList with
  | .panic => .panic
  | .error e =>
    if e = "NotFound" then .ok ⟨[], []⟩
    else .ok ⟨["AUTOEXEC.BAS exists but cannot be read: ".toList ++ shown e], []⟩
  | .ok code =>
    match machine code with
    | .stopped => .ok ⟨["AUTOEXEC.BAS failed: Break".toList], [code]⟩
    | .error e => .ok ⟨["AUTOEXEC.BAS failed: ".toList ++ e], [code]⟩
    | _ => .ok ⟨[], [code]⟩

/-- What `run_from_cloud` left behind: the drives, the program that was loaded and run, with its path, and the code or the error it returns. -/
structure CloudRun where
  st : Storage
  program : Option (Str × Str)
  code : Outcome Int

/-- The exit code (repl/src/lib.rs 169-187). -/
def guestCode : GuestEnd → Int
  | .eof => 0
  | .exit code => code
  | .stopped => 130
  | .error _ => 1

/-- `run_from_cloud` (repl/src/lib.rs 121-205).  `files` are the files of each user of the service that can be read; the messages are left out. -/
def runFromCloud (C : CaseOps) (files : Str → MemDrive) (machine : Str → GuestEnd) (st : Storage) (arg : Str) : CloudRun :=
  match splitOnce '/' arg with
  | none => ⟨st, none, .ok 1⟩
  | some (username, path) =>
    match cloudFactory username with
    | .error e => ⟨st, none, .error e⟩
    | .panic => ⟨st, none, .panic⟩
    | .ok _ =>
      match st.attach C "AUTORUN".toList ("cloud://".toList ++ username) (files username) with
      | .error e => ⟨st, none, .error e⟩
      | .panic => ⟨st, none, .panic⟩
      | .ok st =>
        match st.cd C "AUTORUN:/".toList with
        | .error e => ⟨st, none, .error e⟩
        | .panic => ⟨st, none, .panic⟩
        | .ok st =>
          match st.get C ("AUTORUN:/".toList ++ path) with
          | .error e => ⟨st, none, .error e⟩
          | .panic => ⟨st, none, .panic⟩
          | .ok content =>
            match utf8Text content with
            | none => ⟨st, none, .ok 1⟩
            | some text => ⟨st, some ("AUTORUN:/".toList ++ path, text), .ok (guestCode (machine text))⟩

end EB
