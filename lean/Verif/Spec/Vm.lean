import Verif.Model.Bytecode
/-!
# Specification of control flow: calls, subroutines and error handling

Independent of the machine: only the sequence of observable events of an execution.
-/

namespace EB.Spec

/-- What one step of an execution does, seen from outside. -/
inductive Ev where
  /-- a GOSUB or a call of a user-defined procedure was entered -/
  | enter
  /-- a RETURN, or the end of a user-defined procedure -/
  | leave
  /-- an ON ERROR statement was executed -/
  | arm (mode : ErrorHandlerMode) (target : Nat)
  /-- a runtime error was raised -/
  | error
  /-- anything else -/
  | other
  deriving DecidableEq, Repr

/-- Event sequences in which every entry is matched by its own exit. -/
inductive Balanced : List Ev → Prop where
  | nil : Balanced []
  | skip (e : Ev) (l : List Ev) : e ≠ .enter → e ≠ .leave → Balanced l → Balanced (e :: l)
  | call (l l' : List Ev) : Balanced l → Balanced l' → Balanced (.enter :: (l ++ .leave :: l'))

/-- Number of entries not yet matched by an exit. -/
def depth : List Ev → Int
  | [] => 0
  | .enter :: l => depth l + 1
  | .leave :: l => depth l - 1
  | _ :: l => depth l

/-- What to do when an error happens. -/
inductive Policy where
  /-- ON ERROR GOTO 0, and the initial state -/
  | abort
  /-- ON ERROR GOTO label, with whether the handler has been entered already -/
  | goto (target : Nat) (used : Bool)
  /-- ON ERROR RESUME NEXT -/
  | resumeNext
  deriving DecidableEq, Repr

/-- How an event changes the policy: ON ERROR sets it, and an error uses up a GOTO handler. -/
def Policy.after (p : Policy) : Ev → Policy
  | .arm .none _ => .abort
  | .arm .jump t => .goto t false
  | .arm .resumeNext _ => .resumeNext
  | .error => match p with
    | .goto t _ => .goto t true
    | p => p
  | _ => p

end EB.Spec
