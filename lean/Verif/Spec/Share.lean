import Verif.Model.Share
/-!
# What `SHARE` is told
-/

namespace EB.Spec

/-- A change to the users who may read a file. -/
inductive AclChange where
  | allow (user : Str)
  | forbid (user : Str)

/-- The argument "username+r" allows a user to read and "username-r" no longer allows them to, with `r` in any case. -/
inductive AclSays : Str → AclChange → Prop
  | allow {u : Str} {r : Char} (hu : u ≠ []) (hr : r = 'r' ∨ r = 'R') : AclSays (u ++ ['+', r]) (.allow u)
  | forbid {u : Str} {r : Char} (hu : u ≠ []) (hr : r = 'r' ∨ r = 'R') : AclSays (u ++ ['-', r]) (.forbid u)

/-- The users who are to be allowed, in order. -/
def allowed : List AclChange → List Str
  | [] => []
  | .allow u :: cs => u :: allowed cs
  | .forbid _ :: cs => allowed cs

/-- The users who are no longer to be allowed, in order. -/
def forbidden : List AclChange → List Str
  | [] => []
  | .allow _ :: cs => forbidden cs
  | .forbid u :: cs => u :: forbidden cs

/-- Everyone: "public", with letters in any case. -/
def Everyone (u : Str) : Prop := u.map Char.toLower = "public".toList

/-- The text is short, or a character ends before its last two bytes. -/
def CutsCleanly (s : Str) : Prop := byteLen s < 3 ∨ ∃ a b, s = a ++ b ∧ byteLen b = 2

end EB.Spec
