import Verif.Model.Account
/-!
# Conversations of `SIGNUP`
-/

namespace EB.Spec

/-- The words for yes and no, in capital letters. -/
def yesNoWords : Bool → List Str
  | true => ["TRUE".toList, "YES".toList, "Y".toList]
  | false => ["FALSE".toList, "NO".toList, "N".toList]

/-- The line says yes or no: one of the words, in any case, with blanks after it. -/
def SaysYesNo (C : CaseOps) (line : Str) (b : Bool) : Prop :=
  ∃ w blanks, line = w ++ blanks ∧ (∀ c ∈ blanks, isWhite c = true) ∧ (∀ c, w.getLast? = some c → isWhite c = false) ∧
    w.flatMap C.up ∈ yesNoWords b

/-- The lines that are typed until a question is answered: an empty line says no, and lines that make no sense are asked again. -/
inductive YesNoTalk (C : CaseOps) : List Str → Bool → Prop
  | enter : YesNoTalk C [[]] false
  | answer {line : Str} {b : Bool} (hn : line ≠ []) (h : SaysYesNo C line b) : YesNoTalk C [line] b
  | again {line : Str} {lines : List Str} {b : Bool} (hn : line ≠ []) (h : ∀ b, ¬ SaysYesNo C line b) (ht : YesNoTalk C lines b) :
      YesNoTalk C (line :: lines) b

/-- The lines that are typed until a good password was typed twice in a row. -/
inductive PasswordTalk (good : Str → Prop) : List Str → Str → Prop
  | twice {p : Str} (h : good p) : PasswordTalk good [p, p] p
  | weak {w p : Str} {lines : List Str} (h : ¬ good w) (ht : PasswordTalk good lines p) : PasswordTalk good (w :: lines) p
  | mistyped {p q r : Str} {lines : List Str} (h : good p) (hq : q ≠ p) (ht : PasswordTalk good lines r) :
      PasswordTalk good (p :: q :: lines) r

end EB.Spec
