import Verif.Model.Share
import Verif.Model.Desk
/-!
# Accounts of the cloud service

Models `LOGIN`, `LOGOUT` and `SIGNUP` of client/src/cmds.rs.  The service is any function that answers requests.  The console does not fail, except
that there may be no more lines to read; the message of the day and the explanations of `SIGNUP` are left out.
-/

namespace EB

/-- The user who has logged in (client/src/cloud.rs 225-231) and the drives.  The files of cloud drives are not modelled. -/
structure Account where
  user : Option Str
  st : Storage

/-- How `LOGIN` and `LOGOUT` end. -/
inductive AccountEnd where
  | ok (lines : List Str)
  | error (msg : String)
  | panic

/-- `CloudDriveFactory::create` (client/src/drive.rs 102-111), with no files. -/
def cloudFactory (target : Str) : Outcome MemDrive := if target ≠ [] then .ok [] else .error "InvalidInput"

/-- `LoginCommand::async_exec` and `do_login` (client/src/cmds.rs 114-160; client/src/cloud.rs 173-201; `Storage::mount`,
std/src/storage/mod.rs 461-473, with the scheme of the cloud).  `password` is `none` if it cannot be read; `server` gives the error if it
refuses. -/
def loginExec (C : CaseOps) (server : Str → Str → Option String) (a : Account) (name : Str) (password : Option Str) :
    Account × AccountEnd :=
  if a.user.isSome then (a, .error "Cannot LOGIN again before LOGOUT")
  else
    match password with
    | none => (a, .error "Cannot read")
    | some p =>
      match server name p with
      | some e => (a, .error e)
      | none =>
        let a := { a with user := some name }
        match cloudFactory name with
        | .error e => (a, .error e)
        | .panic => (a, .panic)
        | .ok d =>
          match a.st.attach C "CLOUD".toList ("cloud://".toList ++ name) d with
          | .error e => (a, .error e)
          | .panic => (a, .panic)
          | .ok st => ({ a with st := st }, .ok [])

/-- `LogoutCommand::async_exec` (client/src/cmds.rs 202-243; client/src/cloud.rs 203-223).  `server` is the error if it refuses. -/
def logoutExec (C : CaseOps) (server : Option String) (a : Account) : Account × AccountEnd :=
  if a.user.isNone then (a, .error "Must LOGIN first")
  else
    let k (a : Account) (unmounted : Bool) : Account × AccountEnd :=
      match server with
      | some e => (a, .error e)
      | none =>
        ({ a with user := none },
          .ok ([[]] ++ (if unmounted then ["    Unmounted CLOUD drive".toList] else []) ++ ["    Good bye!".toList, []]))
    match a.st.unmount C "CLOUD".toList with
    | .ok st => k { a with st := st } true
    | .panic => (a, .panic)
    | .error e =>
      if e = "NotFound" then k a false
      else if e = "AlreadyExists" then (a, .error "Cannot log out while the CLOUD drive is active")
      else (a, .error e)

/-! ## `SIGNUP` -/

/-- `SignupRequest` (client/src/lib.rs). -/
structure SignupForm where
  username : Str
  password : Str
  email : Str
  promotional : Bool
  deriving DecidableEq, Repr

/-- `str::trim_end`. -/
def cutBlanks (s : Str) : Str := (s.reverse.dropWhile isWhite).reverse

/-- `SignupCommand::read_bool` (client/src/cmds.rs 468-482) on the lines that are typed: the answer and the lines that are left, or `none` if
reading fails because there are no more. -/
def askBool (C : CaseOps) (default : Bool) : List Str → Option (Bool × List Str)
  | [] => none
  | s :: lines =>
    if s = [] then some (default, lines)
    else
      match parseBoolean C (cutBlanks s) with
      | some b => some (b, lines)
      | none => askBool C default lines

/-- `SignupCommand::read_password` (client/src/cmds.rs 485-506) on the lines that are typed. -/
def askPassword (alphabetic numeric : Char → Bool) : List Str → Option (Str × List Str)
  | [] => none
  | [p] => if (validatePassword alphabetic numeric p).isSome then askPassword alphabetic numeric [] else none
  | p :: q :: lines =>
    if (validatePassword alphabetic numeric p).isSome then askPassword alphabetic numeric (q :: lines)
    else if q ≠ p then askPassword alphabetic numeric lines
    else some (p, lines)

/-- What `SIGNUP` asked of the service, the answers it showed for review and if it ended without an error. -/
structure SignupAnswer where
  requests : List SignupForm
  review : List Str
  ok : Bool
  deriving DecidableEq, Repr

/-- `SignupCommand::async_exec` (client/src/cmds.rs 510-587) on the lines that are typed.  `server` says if it accepts. -/
def signupExec (C : CaseOps) (alphabetic numeric : Char → Bool) (server : SignupForm → Bool) (lines : List Str) : SignupAnswer :=
  match lines with
  | [] => ⟨[], [], false⟩
  | username :: lines =>
    match askPassword alphabetic numeric lines with
    | none => ⟨[], [], false⟩
    | some (password, lines) =>
      match lines with
      | [] => ⟨[], [], false⟩
      | email :: lines =>
        match askBool C false lines with
        | none => ⟨[], [], false⟩
        | some (promotional, lines) =>
          let review := ["Username: ".toList ++ username, "Email address: ".toList ++ email,
            "Promotional email: ".toList ++ if promotional then "yes".toList else "no".toList]
          match askBool C false lines with
          | none => ⟨[], review, false⟩
          | some (proceed, _) =>
            if !proceed then ⟨[], review, true⟩
            else
              let form : SignupForm := ⟨username, password, email, promotional⟩
              ⟨[form], review, server form⟩

end EB
