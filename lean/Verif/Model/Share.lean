import Verif.Model.Storage
import Verif.Model.Strings
import Verif.Model.ConsoleSpec
/-!
# Sharing files and choosing passwords

Models `SHARE` and the check of passwords of `SIGNUP` in client/src/cmds.rs.  The drive is any function that answers requests; what it does with
them is not modelled here.  The text after a file was made public is modelled as the paragraphs that are given to `refill_and_print`.
-/

namespace EB

/-- The two `FileAcls` of `async_exec` (client/src/cmds.rs 364-365; std/src/storage/mod.rs 51-79). -/
structure AclLists where
  add : List Str
  remove : List Str
  deriving DecidableEq, Repr

/-- `ShareCommand::parse_acl` (client/src/cmds.rs 309-327).  `split_off` panics if the text cannot be cut there. -/
def parseAcl (acl : Str) (l : AclLists) : Outcome AclLists :=
  let parts : Option (Str × Str) :=
    if byteLen acl < 3 then some (acl, [])
    else
      match takeBytes acl (byteLen acl - 2), dropBytes acl (byteLen acl - 2) with
      | some a, some b => some (a, b)
      | _, _ => none
  match parts with
  | none => .panic
  | some (username, change) =>
    if change = ['+', 'r'] ∧ username ≠ [] then .ok { l with add := l.add ++ [username] }
    else if change = ['+', 'R'] ∧ username ≠ [] then .ok { l with add := l.add ++ [username] }
    else if change = ['-', 'r'] ∧ username ≠ [] then .ok { l with remove := l.remove ++ [username] }
    else if change = ['-', 'R'] ∧ username ≠ [] then .ok { l with remove := l.remove ++ [username] }
    else .error "Invalid ACL"

/-- `ShareCommand::has_public_acl` (client/src/cmds.rs 330-337).  Lower case is that of ASCII: no other character has one of the letters of
"public" alone as its lower case in Unicode. -/
def hasPublicAcl (readers : List Str) : Bool := readers.any fun r => asciiCase.low r == "public".toList

/-- What `SHARE` asks of the storage. -/
inductive ShareRequest where
  | get (file : Str)
  | update (file : Str) (add remove : List Str)
  deriving DecidableEq, Repr

/-- How `SHARE` ends. -/
inductive ShareEnd where
  | done
  /-- A syntax error at an argument. -/
  | syntaxError (arg : Nat)
  | failed (msg : String)
  | panic
  deriving DecidableEq, Repr

/-- What `SHARE` asked, the lines it printed and how it ended. -/
structure ShareAnswer where
  requests : List ShareRequest
  lines : List Str
  ending : ShareEnd
  deriving DecidableEq, Repr

/-- The storage, the user who has logged in and the site of the web interface. -/
structure ShareWorld where
  get : Str → Except String (List Str)
  update : Str → List Str → List Str → Except String Unit
  user : Option Str
  base : Str

/-- The loop over the arguments (client/src/cmds.rs 366-370). -/
def parseAcls : List Str → Nat → AclLists → Except ShareEnd AclLists
  | [], _, l => .ok l
  | a :: as, i, l =>
    match parseAcl a l with
    | .ok l => parseAcls as (i + 1) l
    | .error _ => .error (.syntaxError i)
    | .panic => .error .panic

/-- `ShareCommand::show_acls` (client/src/cmds.rs 340-354). -/
def showAcls (W : ShareWorld) (file : Str) : ShareAnswer :=
  match W.get file with
  | .error e => ⟨[.get file], [], .failed e⟩
  | .ok readers =>
    if readers = [] then ⟨[.get file], [[], "    No ACLs on ".toList ++ file, []], .done⟩
    else
      ⟨[.get file], [] :: ("    Reader ACLs on ".toList ++ file ++ [':']) :: readers.map ("    ".toList ++ ·) ++ [[]], .done⟩

/-- The path of the file in the link (client/src/cmds.rs 384-387). -/
def linkPath (file : Str) : Str :=
  match splitOnce '/' file with
  | some (_, path) => path
  | none => file

/-- `ShareCommand::async_exec` (client/src/cmds.rs 361-413). -/
def shareExec (W : ShareWorld) (file : Str) (args : List Str) : ShareAnswer :=
  match parseAcls args 1 ⟨[], []⟩ with
  | .error e => ⟨[], [], e⟩
  | .ok l =>
    if l.add = [] ∧ l.remove = [] then showAcls W file
    else
      match W.update file l.add l.remove with
      | .error e => ⟨[.update file l.add l.remove], [], .failed e⟩
      | .ok () =>
        if hasPublicAcl l.add then
          match W.user with
          | none => ⟨[.update file l.add l.remove], [[]], .panic⟩
          | some u =>
            ⟨[.update file l.add l.remove],
              [[], ("You have made the file publicly readable.  As a result, other people can now " ++
                "auto-run your public file by visiting:").toList,
                W.base ++ "?run=".toList ++ u ++ ['/'] ++ linkPath file, []], .done⟩
        else ⟨[.update file l.add l.remove], [], .done⟩

/-- The loop of `validate_password_complexity` (client/src/cmds.rs 421-429), on any tables of letters and numbers. -/
def passwordLoop (alphabetic numeric : Char → Bool) : Str → Bool × Bool → Bool × Bool
  | [], r => r
  | c :: cs, (a, n) =>
    passwordLoop alphabetic numeric cs (if alphabetic c then (true, n) else if numeric c then (a, true) else (a, n))

/-- `validate_password_complexity` (client/src/cmds.rs 416-436): the message if the password is refused. -/
def validatePassword (alphabetic numeric : Char → Bool) (p : Str) : Option String :=
  if byteLen p < 8 then some "Must be at least 8 characters long"
  else
    let (a, n) := passwordLoop alphabetic numeric p (false, false)
    if !a || !n then some "Must contain letters and numbers" else none

end EB
