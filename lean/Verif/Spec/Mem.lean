import Verif.Model.Types
/-!
# What arrays should do

Specification of arrays, independent of how elements are laid out.
-/

namespace EB.Spec

/-- A subscript list is in bounds when it has one subscript per dimension and each lies between 0
and the size of its dimension minus one. -/
def InBounds : List Nat → List Int → Prop
  | [], [] => True
  | d :: ds, s :: ss => 0 ≤ s ∧ s < d ∧ InBounds ds ss
  | _, _ => False

instance instDecidableInBounds : (ds : List Nat) → (ss : List Int) → Decidable (InBounds ds ss)
  | [], [] => isTrue trivial
  | d :: ds, s :: ss =>
    have := instDecidableInBounds ds ss
    inferInstanceAs (Decidable (0 ≤ s ∧ s < d ∧ InBounds ds ss))
  | [], _ :: _ => isFalse id
  | _ :: _, [] => isFalse id

/-- Number of elements of an array: the product of the dimensions. -/
def size : List Nat → Nat
  | [] => 1
  | d :: ds => d * size ds

/-- The value an element holds after a history of writes (oldest first): the value last written to
exactly these subscripts, or `dflt`. -/
def lastWrite {α : Type} (dflt : α) (subs : List Int) : List (List Int × α) → α
  | [] => dflt
  | (s, v) :: rest =>
    lastWrite (if s = subs then v else dflt) subs rest

end EB.Spec
