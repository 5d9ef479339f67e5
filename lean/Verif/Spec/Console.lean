import Verif.Model.ConsoleSpec
/-!
# The documented form of console specifications
-/

namespace EB.Spec

/-- Only decimal digits. -/
def Decimal (s : Str) : Prop := ∀ c ∈ s, c ∈ "0123456789".toList

/-- The number that decimal digits denote. -/
def decimalValue (s : Str) : Nat := s.foldl (fun n c => n * 10 + "0123456789".toList.idxOf c) 0

/-- A size: digits, with an optional plus sign, for a positive 32-bit number. -/
def Size (s : Str) (n : Nat) : Prop :=
  ∃ ds, (s = ds ∨ s = '+' :: ds) ∧ ds ≠ [] ∧ Decimal ds ∧ n = decimalValue ds ∧ 0 < n ∧ n < 2 ^ 32

/-- `[WIDTHxHEIGHT][fs]`. -/
inductive Resolves : Str → Resolution → Prop
  | desktop : Resolves "fs".toList .fullScreenDesktop
  | windowed {a b : Str} {w h : Nat} : Size a w → Size b h → Resolves (a ++ 'x' :: b) (.windowed w h)
  | full {a b : Str} {w h : Nat} : Size a w → Size b h → Resolves (a ++ 'x' :: (b ++ "fs".toList)) (.fullScreen w h)

/-- A console specification: the driver, and items separated with commas after a colon. -/
def Describes (s driver : Str) (items : List Str) : Prop :=
  ':' ∉ driver ∧ (∀ i ∈ items, ',' ∉ i) ∧
    ((s = driver ∧ items = []) ∨ (items ≠ [] ∧ s = driver ++ ':' :: List.intercalate [','] items))

/-- A plain flag of the specification. -/
def Plain (items : List Str) (f : Str) : Prop := f ∈ items ∧ f ≠ [] ∧ '=' ∉ f

/-- A flag with a value. -/
def Keyed (items : List Str) (k v : Str) : Prop := '=' ∉ k ∧ k ++ '=' :: v ∈ items

/-- The value that counts: the last one. -/
def LastValue (items : List Str) (k v : Str) : Prop :=
  '=' ∉ k ∧ ∃ before after, items = before ++ (k ++ '=' :: v) :: after ∧ ∀ v', k ++ '=' :: v' ∉ after

/-- What a driver asks for. -/
inductive Query where
  | flag (f : Str)
  | keyed (k : Str)
  deriving DecidableEq

end EB.Spec
