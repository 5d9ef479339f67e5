/-!
# Commands that take time

Models `SLEEP` (std/src/datetime.rs) and `SOUND` (std/src/sound/cmds.rs).  Doubles are given by their bits.  `Duration::from_secs_f64` of the Rust
library is modelled from its documentation: it panics for durations that are negative, not finite or too long, and otherwise rounds to the nearest
nanosecond, ties to even.
-/

namespace EB

/-- The bits of the exponent. -/
def expBits (b : BitVec 64) : Nat := (b.toNat / 2 ^ 52) % 2048
/-- The bits of the mantissa. -/
def fracBits (b : BitVec 64) : Nat := b.toNat % 2 ^ 52

/-- `n < 0.0`: false for zero with a sign and for what is not a number. -/
def below0 (b : BitVec 64) : Bool :=
  b.msb && !(expBits b == 2047 && fracBits b != 0) && !(expBits b == 0 && fracBits b == 0)

/-- A number of the form `m * 2 ^ k` as a number of nanoseconds, if its integral part fits in 64 bits. -/
def roundNanos (m : Nat) (k : Int) : Option Nat :=
  if k ≥ 0 then if m * 2 ^ k.toNat < 2 ^ 64 then some (m * 2 ^ k.toNat * 1000000000) else none
  else
    let den := 2 ^ (-k).toNat
    let num := m * 1000000000
    let q := num / den
    let r := num % den
    if m / den < 2 ^ 64 then some (if 2 * r > den ∨ (2 * r = den ∧ q % 2 = 1) then q + 1 else q) else none

/-- `Duration::from_secs_f64` in nanoseconds; `none` is a panic. -/
def fromSecs (b : BitVec 64) : Option Nat :=
  if below0 b then none
  else if expBits b = 2047 then none
  else if expBits b = 0 then roundNanos (fracBits b) (-1074)
  else roundNanos (2 ^ 52 + fracBits b) ((expBits b : Int) - 1075)

/-- What a command did: it failed at an argument, or it waited or played and perhaps was told of an error. -/
inductive TimedAnswer where
  | badArg (arg : Nat)
  | slept (nanos : Nat) (failed : Bool)
  | played (pitch nanos : Nat) (failed : Bool)
  | crash
  deriving DecidableEq, Repr

/-- `SleepCommand::async_exec` (std/src/datetime.rs 145-161); `host` says whether sleeping for so long fails. -/
def sleepExec (host : Nat → Bool) (n : BitVec 64) : TimedAnswer :=
  if below0 n then .badArg 0
  else
    match fromSecs n with
    | none => .crash
    | some d => .slept d (host d)

/-- `SoundCommand::async_exec` (std/src/sound/cmds.rs 122-147); `host` says whether playing the tone fails. -/
def soundExec (host : Nat → Nat → Bool) (pitch : BitVec 32) (duration : BitVec 64) : TimedAnswer :=
  if pitch.toInt ≤ 0 then .badArg 0
  else if below0 duration then .badArg 1
  else
    match fromSecs duration with
    | none => .crash
    | some d => .played pitch.toNat d (host pitch.toNat d)

end EB
