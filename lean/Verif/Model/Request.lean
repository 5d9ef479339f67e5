import Verif.Model.Desk
/-!
# Addresses of the files of the cloud

Models how client/src/cloud.rs makes the address of a file, with `Url::set_path` from the documentation of URLs (https://url.spec.whatwg.org, the
state "path" of the parser): tabs and ends of lines are dropped, and the characters of a set are written as `%` and two digits for each of their
bytes.  The set is a parameter; `%` is not in it.  Segments `.` and `..`, which are no names of files, and backslashes are not modelled.
-/

namespace EB

/-- A digit of base 16. -/
def hexDigit (n : Nat) : Char := ("0123456789ABCDEF".toList)[n]?.getD '0'

/-- A byte as `%XX`. -/
def percentByte (b : UInt8) : Str := ['%', hexDigit (b.toNat / 16), hexDigit (b.toNat % 16)]

/-- A character of a path. -/
def percentChar (encoded : Char → Bool) (c : Char) : Str :=
  if c = '\t' ∨ c = '\n' ∨ c = '\r' then []
  else if encoded c then (String.utf8EncodeChar c).flatMap percentByte
  else [c]

/-- `CloudService::make_url` (client/src/cloud.rs 118-124), the part after the address of the service. -/
def makeUrl (encoded : Char → Bool) (path : Str) : Str := '/' :: path.flatMap (percentChar encoded)

/-- The address of a file in `get_file`, `get_file_acls`, `patch_file_content`, `patch_file_acls` and `delete_file` (client/src/cloud.rs
252-380). -/
def fileUrl (encoded : Char → Bool) (username filename : Str) : Str :=
  makeUrl encoded ("api/users/".toList ++ username ++ "/files/".toList ++ filename)

end EB
