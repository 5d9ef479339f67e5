import Verif.Model.Gpio
/-!
# GPIO: what programs rely on

Everything is said about a history: the commands that were executed, each with what it gave, the latest at the end.
-/

namespace EB.Spec

/-- In a history there is something of the kind `P`, and nothing of the kind `Q` after it. -/
def Latest {α : Type} (P Q : α → Prop) (h : List α) : Prop :=
  ∃ before e after, h = before ++ e :: after ∧ P e ∧ ∀ e' ∈ after, ¬ Q e'

/-- The number of a pin. -/
def IsPin (i : I32) (p : GpioPin) : Prop := i.toInt = p.toNat

/-- The name of a mode; it may be written in small letters too. -/
def modeName : GpioMode → String
  | .input => "IN"
  | .inputPullDown => "IN-PULL-DOWN"
  | .inputPullUp => "IN-PULL-UP"
  | .output => "OUT"

def IsMode (t : Str) (m : GpioMode) : Prop := t.map Char.toUpper = (modeName m).toList

/-- The step of a history that configures a pin. -/
def Configures (p : GpioPin) (m : GpioMode) (e : GpioCmd × GpioAnswer) : Prop :=
  ∃ i t, e = (.setup i t, .done) ∧ IsPin i p ∧ IsMode t m

/-- The steps of a history after which the earlier configuration of a pin is gone: the pin is cleared or all are, `CLEAR` or
`RUN` is executed, or it is configured anew (or that is tried and fails). -/
def Forgets (p : GpioPin) (e : GpioCmd × GpioAnswer) : Prop :=
  e.1 = .reset ∨ e.1 = .clearAll ∨ (∃ i, e.1 = .clear i ∧ IsPin i p) ∨ ∃ i t m, e.1 = .setup i t ∧ IsPin i p ∧ IsMode t m

/-- A pin is configured for a mode, after a history. -/
def Configured (h : List (GpioCmd × GpioAnswer)) (p : GpioPin) (m : GpioMode) : Prop := Latest (Configures p m) (Forgets p) h

/-- The step of a history that writes to a pin. -/
def WritesPin (p : GpioPin) (v : Bool) (e : GpioCmd × GpioAnswer) : Prop := ∃ i, e = (.write i v, .done) ∧ IsPin i p

/-- A level was written to a pin, it is the last one, and since then the configuration of the pin is not gone. -/
def Written (h : List (GpioCmd × GpioAnswer)) (p : GpioPin) (v : Bool) : Prop :=
  Latest (WritesPin p v) (fun e => Forgets p e ∨ ∃ w, WritesPin p w e) h

/-- What a pin is used for, after a history. -/
inductive LineIs (h : List (GpioCmd × GpioAnswer)) (p : GpioPin) : GpioLine → Prop where
  | free : (∀ m, ¬ Configured h p m) → LineIs h p .free
  | floating : Configured h p .input → LineIs h p (.input false false)
  | pullDown : Configured h p .inputPullDown → LineIs h p (.input true false)
  | pullUp : Configured h p .inputPullUp → LineIs h p (.input false true)
  | silent : Configured h p .output → (∀ v, ¬ Written h p v) → LineIs h p (.output none)
  | driven (v : Bool) : Configured h p .output → Written h p v → LineIs h p (.output (some v))

/-- An error is reported. -/
def Rejected (a : GpioAnswer) : Prop := (∃ n e, a = .badArg n e) ∨ ∃ e, a = .failed e

/-- What a command may give on a board, after a history. -/
def Answers (B : Board) (h : List (GpioCmd × GpioAnswer)) : GpioCmd → GpioAnswer → Prop
  | .write i _, a => (a = .done ↔ ∃ p, IsPin i p ∧ Configured h p .output) ∧ (a ≠ .done → Rejected a)
  | .read i, a =>
    (∀ b, a = .level b ↔ ∃ p m, IsPin i p ∧ Configured h p m ∧ m ≠ .output ∧ b = B.level h.length p) ∧
    ((∀ b, a ≠ .level b) → Rejected a)
  | .setup i t, a =>
    (a = .done → ∃ p m, IsPin i p ∧ IsMode t m) ∧
    (∀ p m, IsPin i p → IsMode t m → B.opens h.length = none → B.gets h.length p = none → a = .done) ∧
    (a ≠ .done → Rejected a)
  | .clear i, a => (a = .done ↔ ∃ p, IsPin i p) ∧ (a ≠ .done → Rejected a)
  | .clearAll, a => a = .done
  | .reset, a => a = .done

/-- The argument of a command that is wrong, the first one if both are: 0 is the pin, and 1 is the mode. -/
def WrongArg : GpioCmd → Nat → Prop
  | .setup i t, n => n = 0 ∧ (∀ p, ¬ IsPin i p) ∨ n = 1 ∧ (∃ p, IsPin i p) ∧ ∀ m, ¬ IsMode t m
  | .clear i, n | .read i, n | .write i _, n => n = 0 ∧ ∀ p, ¬ IsPin i p
  | .clearAll, _ | .reset, _ => False

/-! ## The mock -/

/-- What was done with the pins of the mock. -/
inductive Performed where
  | setup (p : GpioPin) (m : GpioMode)
  | clear (p : GpioPin)
  | clearAll
  | read (p : GpioPin) (high : Bool)
  | write (p : GpioPin) (high : Bool)
  deriving DecidableEq

/-- The step of a history in which it was done. -/
inductive Performs : MockCmd × GpioAnswer → Performed → Prop where
  | setup {i t p m} : IsPin i p → IsMode t m → Performs (.gpio (.setup i t), .done) (.setup p m)
  | clear {i p} : IsPin i p → Performs (.gpio (.clear i), .done) (.clear p)
  | clearAll : Performs (.gpio .clearAll, .done) .clearAll
  | reset : Performs (.gpio .reset, .done) .clearAll
  | read {i p b} : IsPin i p → Performs (.gpio (.read i), .level b) (.read p b)
  | write {i p b} : IsPin i p → Performs (.gpio (.write i b), .done) (.write p b)

/-- All that was done in a history, in the order in which it was done. -/
inductive AllPerformed : List (MockCmd × GpioAnswer) → List Performed → Prop where
  | nil : AllPerformed [] []
  | yes {h d e o} : AllPerformed h d → Performs e o → AllPerformed (h ++ [e]) (d ++ [o])
  | no {h d e} : AllPerformed h d → (∀ o, ¬ Performs e o) → AllPerformed (h ++ [e]) d

/-- The number that stands in the trace for what was done. -/
def traceCode : Performed → Int
  | .setup p .input => 100 * p.toNat + 1
  | .setup p .inputPullDown => 100 * p.toNat + 2
  | .setup p .inputPullUp => 100 * p.toNat + 3
  | .setup p .output => 100 * p.toNat + 4
  | .clear p => 100 * p.toNat + 5
  | .clearAll => -1
  | .read p high => 100 * p.toNat + (if high then 11 else 10)
  | .write p high => 100 * p.toNat + (if high then 21 else 20)

/-- The levels that were injected in a history, with their pins. -/
def injected (h : List (MockCmd × GpioAnswer)) : List (GpioPin × Bool) :=
  h.filterMap fun e =>
    match e with
    | (.inject i b, .done) => some (BitVec.ofInt 8 i.toInt, b)
    | _ => none

/-- How often a pin was read, or that was tried, in a history. -/
def readCount (h : List (MockCmd × GpioAnswer)) : Nat :=
  h.countP fun e =>
    match e.1 with
    | .gpio (.read i) => decide (0 ≤ i.toInt ∧ i.toInt ≤ 255)
    | _ => false

end EB.Spec
