import Verif.Model.Mem
/-!
# Checked integer arithmetic of the VM

Models core/src/vm/context.rs 89-162 and the integer opcodes.  `i32` is `BitVec 32` in two's
complement.
-/

namespace EB

/-- Error messages the VM raises (core/src/vm/context.rs); one constructor per message. -/
inductive RtErr where
  | integerOverflow            -- "Integer overflow"
  | integerUnderflow           -- "Integer underflow"
  | divisionByZero             -- "Division by zero"
  | moduloByZero               -- "Modulo by zero"
  | negativeExponent (i : Int) -- "Exponent {} cannot be negative"
  | negativeShl (i : Int)      -- "Number of bits to << ({}) must be positive"
  | negativeShr (i : Int)      -- "Number of bits to >> ({}) must be positive"
  | castOverflow (d : BitVec 64) -- "Cannot cast {} to integer due to overflow"
  | badDimension (i : Nat)     -- "Dimension {} must be positive"
  | subscript (e : SubscriptError)
  | outOfHeap                  -- "Out of heap space"
  | outOfCallStack             -- "Out of call stack space"
  | badExitCode                -- InvalidExitCodeError
  | returnWithoutGosub         -- "RETURN without GOSUB or FUNCTION call"
  | upcall (msg : Str)         -- an error returned by a built-in callable
  deriving DecidableEq, Repr

/-- `i32`. -/
abbrev I32 := BitVec 32

/-- `i32::MIN`. -/
def I32.min : I32 := 0x80000000#32

/-- `checked_add_integer` (core/src/vm/context.rs 91-93); `i32::checked_add` detects signed
overflow of the two's complement sum. -/
def checkedAdd (l r : I32) : Except RtErr I32 :=
  if l.saddOverflow r then .error .integerOverflow else .ok (l + r)

/-- `checked_and_integer` (core/src/vm/context.rs 97-99). -/
def checkedAnd (l r : I32) : Except RtErr I32 := .ok (l &&& r)

/-- `checked_div_integer` (core/src/vm/context.rs 103-105); `i32::checked_div` fails only for
`MIN / -1`. -/
def checkedDiv (l r : I32) : Except RtErr I32 :=
  if r = 0#32 then .error .divisionByZero
  else if l = I32.min ∧ r = -1#32 then .error .integerUnderflow
  else .ok (l.sdiv r)

/-- `checked_mod_integer` (core/src/vm/context.rs 109-111); `i32::checked_rem` fails only for
`MIN % -1`. -/
def checkedMod (l r : I32) : Except RtErr I32 :=
  if r = 0#32 then .error .moduloByZero
  else if l = I32.min ∧ r = -1#32 then .error .integerUnderflow
  else .ok (l.srem r)

/-- `i32::checked_mul` (Rust core). -/
def mulChecked (l r : I32) : Option I32 :=
  if l.smulOverflow r then none else some (l * r)

/-- `checked_mul_integer` (core/src/vm/context.rs 115-117). -/
def checkedMul (l r : I32) : Except RtErr I32 :=
  match mulChecked l r with
  | some v => .ok v
  | none => .error .integerOverflow

/-- `checked_or_integer` (core/src/vm/context.rs 121-123). -/
def checkedOr (l r : I32) : Except RtErr I32 := .ok (l ||| r)

/-- The loop of `i32::checked_pow` (Rust core library, square and multiply), for `exp > 0`. -/
def powLoop (base acc : I32) (exp : Nat) : Option I32 :=
  if exp = 0 then none -- not reached: the caller passes exp > 0 and the loop keeps it so
  else if exp % 2 = 1 then
    match mulChecked acc base with
    | none => none
    | some acc' =>
      if exp = 1 then some acc'
      else match mulChecked base base with
        | none => none
        | some base' => powLoop base' acc' (exp / 2)
  else match mulChecked base base with
    | none => none
    | some base' => powLoop base' acc (exp / 2)
termination_by exp
decreasing_by all_goals omega

/-- `i32::checked_pow` (Rust core library). -/
def powChecked (l : I32) (exp : Nat) : Option I32 :=
  if exp = 0 then some 1#32 else powLoop l 1#32 exp

/-- `do_power_integer` with `checked_pow_integer` (core/src/vm/context.rs 1029-1049, 127-129). -/
def checkedPow (l r : I32) : Except RtErr I32 :=
  if r.toInt < 0 then .error (.negativeExponent r.toInt)
  else match powChecked l r.toNat with
    | some v => .ok v
    | none => .error .integerOverflow

/-- `checked_shl_integer` (core/src/vm/context.rs 133-138); `i32::checked_shl` fails for 32 or more
bits. -/
def checkedShl (l r : I32) : Except RtErr I32 :=
  if r.toInt < 0 then .error (.negativeShl r.toInt)
  else if r.toNat < 32 then .ok (l <<< r.toNat) else .ok 0#32

/-- `checked_shr_integer` (core/src/vm/context.rs 142-151); arithmetic shift. -/
def checkedShr (l r : I32) : Except RtErr I32 :=
  if r.toInt < 0 then .error (.negativeShr r.toInt)
  else if r.toNat < 32 then .ok (l.sshiftRight r.toNat)
  else if l.toInt < 0 then .ok (-1#32) else .ok 0#32

/-- `checked_sub_integer` (core/src/vm/context.rs 154-156). -/
def checkedSub (l r : I32) : Except RtErr I32 :=
  if l.ssubOverflow r then .error .integerUnderflow else .ok (l - r)

/-- `checked_xor_integer` (core/src/vm/context.rs 160-162). -/
def checkedXor (l r : I32) : Except RtErr I32 := .ok (l ^^^ r)

/-- `do_negate_integer` (core/src/vm/context.rs 974-986); `i32::checked_neg` fails for `MIN`. -/
def checkedNeg (v : I32) : Except RtErr I32 :=
  if v = I32.min then .error .integerOverflow else .ok (-v)

/-- Reading an integer register: `get_reg(r) as i32`. -/
def toI32 (v : BitVec 64) : I32 := v.setWidth 32

/-- Writing an integer result: `result as u64` (sign extension). -/
def ofI32 (i : I32) : BitVec 64 := i.signExtend 64

end EB
