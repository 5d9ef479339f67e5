/-!
# Basic types of the language

Models the scalar types and argument separators of `core/src/ast.rs`.
-/

namespace EB

/-- `ExprType` (core/src/ast.rs, `enum ExprType`): the four scalar types of the language. -/
inductive ExprType where
  | boolean | double | integer | text
  deriving DecidableEq, Repr, Inhabited

/-- `ExprType as u8` (core/src/ast.rs, discriminants 0..3). -/
def ExprType.toNat : ExprType → Nat
  | .boolean => 0
  | .double => 1
  | .integer => 2
  | .text => 3

/-- `ExprType::try_from(u8)` (core/src/ast.rs) and the checked transmute of
`RawValue for ExprType` (core/src/bytecode.rs 304-313); `none` models the error / the failed
assertion. -/
def ExprType.ofNat? : Nat → Option ExprType
  | 0 => some .boolean
  | 1 => some .double
  | 2 => some .integer
  | 3 => some .text
  | _ => none

/-- `ArgSep` (core/src/ast.rs, `enum ArgSep`). -/
inductive ArgSep where
  | «end» | short | long | as
  deriving DecidableEq, Repr, Inhabited

/-- `ArgSep as u8` (core/src/ast.rs). -/
def ArgSep.toNat : ArgSep → Nat
  | .end => 0
  | .short => 1
  | .long => 2
  | .as => 3

/-- `ArgSep::try_from(u8)` (core/src/ast.rs). -/
def ArgSep.ofNat? : Nat → Option ArgSep
  | 0 => some .end
  | 1 => some .short
  | 2 => some .long
  | 3 => some .as
  | _ => none

/-- Equality of results is decidable (used to evaluate examples). -/
instance decEqExcept {ε α : Type} [DecidableEq ε] [DecidableEq α] : DecidableEq (Except ε α)
  | .ok a, .ok b => if h : a = b then isTrue (by rw [h]) else isFalse (by simpa using h)
  | .error a, .error b => if h : a = b then isTrue (by rw [h]) else isFalse (by simpa using h)
  | .ok _, .error _ => isFalse (by simp)
  | .error _, .ok _ => isFalse (by simp)

/-- Source text and strings are lists of characters (Rust `String` as a sequence of `char`). -/
abbrev Str := List Char

/-- `LineCol` (core/src/reader.rs, `struct LineCol`): a 1-based source position. -/
structure LineCol where
  line : Nat
  col : Nat
  deriving DecidableEq, Repr, Inhabited

end EB
