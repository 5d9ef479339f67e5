import Verif.Model.Stdlib
import Verif.Model.Lexer
/-!
# GPIO

Models the GPIO commands (std/src/gpio/mod.rs), the pins of a Raspberry Pi (rpi/src/gpio.rs) and the mock and the missing
pins (std/src/gpio/fakes.rs).
-/

namespace EB

/-- `Pin` (std/src/gpio/mod.rs 41-42). -/
abbrev GpioPin := BitVec 8

/-- `PinMode` (std/src/gpio/mod.rs 57-71). -/
inductive GpioMode where
  | input | inputPullDown | inputPullUp | output
  deriving DecidableEq, Repr

/-- `Pin::from_i32` (std/src/gpio/mod.rs 46-54). -/
def gpioPin (i : I32) : Except Str GpioPin :=
  if i.toInt < 0 then .error ("Pin number ".toList ++ showInteger i ++ " must be positive".toList)
  else if i.toInt > 255 then .error ("Pin number ".toList ++ showInteger i ++ " is too large".toList)
  else .ok (i.setWidth 8)

/-- `PinMode::parse` (std/src/gpio/mod.rs 75-83). -/
def gpioMode (s : Str) : Except Str GpioMode :=
  let u := s.map asciiUpper
  if u = "IN".toList then .ok .input
  else if u = "IN-PULL-UP".toList then .ok .inputPullUp
  else if u = "IN-PULL-DOWN".toList then .ok .inputPullDown
  else if u = "OUT".toList then .ok .output
  else .error ("Unknown pin mode ".toList ++ u)

/-- The statements and the function of std/src/gpio/mod.rs with the values of their arguments (`GPIO_SETUP`, `GPIO_CLEAR`
without and with a pin, `GPIO_READ`, `GPIO_WRITE`); `reset` is `PinsClearable::reset_state`, which `CLEAR` and `RUN` call. -/
inductive GpioCmd where
  | setup (pin : I32) (mode : Str)
  | clearAll
  | clear (pin : I32)
  | read (pin : I32)
  | write (pin : I32) (high : Bool)
  | reset
  deriving DecidableEq, Repr

/-- What a command gives: nothing, a level, an error at an argument, or an error of the pins. -/
inductive GpioAnswer where
  | done
  | level (high : Bool)
  | badArg (arg : Nat) (msg : Str)
  | failed (msg : Str)
  deriving DecidableEq, Repr

/-- `trait Pins` (std/src/gpio/mod.rs 95-120) but for the casts: what each method does with the pins, and its `io::Result`,
an error being its text. -/
structure GpioPins (σ : Type) where
  setup : GpioPin → GpioMode → σ → σ × Except Str Unit
  clear : GpioPin → σ → σ × Except Str Unit
  clearAll : σ → σ × Except Str Unit
  read : GpioPin → σ → σ × Except Str Bool
  write : GpioPin → Bool → σ → σ × Except Str Unit

/-- An `io::Result<()>` as the result of a command (`map_err(CallError::from)?; Ok(())`). -/
def gpioDone {σ : Type} (r : σ × Except Str Unit) : σ × GpioAnswer :=
  (r.1, match r.2 with
    | .ok () => .done
    | .error e => .failed e)

/-- `exec` of `GpioSetupCommand` (std/src/gpio/mod.rs 192-199), `GpioClearCommand` (244-255), `GpioReadFunction` (296-302),
`GpioWriteCommand` (351-358), and `PinsClearable::reset_state` (135-137), with `parse_pin` (86-88) and `parse_pin_mode`
(90-92). -/
def gpioExec {σ : Type} (P : GpioPins σ) : GpioCmd → σ → σ × GpioAnswer
  | .setup i t, s =>
    match gpioPin i with
    | .error e => (s, .badArg 0 e)
    | .ok p =>
      match gpioMode t with
      | .error e => (s, .badArg 1 e)
      | .ok m => gpioDone (P.setup p m s)
  | .clearAll, s => gpioDone (P.clearAll s)
  | .clear i, s =>
    match gpioPin i with
    | .error e => (s, .badArg 0 e)
    | .ok p => gpioDone (P.clear p s)
  | .read i, s =>
    match gpioPin i with
    | .error e => (s, .badArg 0 e)
    | .ok p =>
      match P.read p s with
      | (s, .ok b) => (s, .level b)
      | (s, .error e) => (s, .failed e)
  | .write i v, s =>
    match gpioPin i with
    | .error e => (s, .badArg 0 e)
    | .ok p => gpioDone (P.write p v s)
  | .reset, s => ((P.clearAll s).1, .done)

/-! ## No pins -/

/-- `NoopPins` (std/src/gpio/fakes.rs 27-55). -/
def noPins : GpioPins Unit where
  setup _ _ _ := ((), .error "GPIO backend not compiled in".toList)
  clear _ _ := ((), .error "GPIO backend not compiled in".toList)
  clearAll _ := ((), .error "GPIO backend not compiled in".toList)
  read _ _ := ((), .error "GPIO backend not compiled in".toList)
  write _ _ _ := ((), .error "GPIO backend not compiled in".toList)

/-! ## The pins of a Raspberry Pi -/

/-- What a pin of the board is used for. -/
inductive GpioLine where
  /-- as it was when the program started -/
  | free
  | input (pullDown pullUp : Bool)
  /-- an output, and the level that was written to it -/
  | output (level : Option Bool)
  deriving DecidableEq, Repr

/-- What the library rppal and the board do: not modelled but arbitrary.  They may be different at any time, which is how many
commands there were before. -/
structure Board where
  /-- `gpio::Gpio::new`: the text of an error -/
  opens : Nat → Option Str
  /-- `Gpio::get`: the text of an error -/
  gets : Nat → GpioPin → Option Str
  /-- `InputPin::read` -/
  level : Nat → GpioPin → Bool

/-- `RppalPins` (rpi/src/gpio.rs 24-30): of the maps only the keys are kept, and the pins that they own are in `lines`. -/
structure PiPins where
  chip : Bool
  inputs : GpioPin → Bool
  outputs : GpioPin → Bool
  lines : GpioPin → GpioLine

/-- `RppalPins::default` (rpi/src/gpio.rs 25), on a board of which nothing is in use. -/
def PiPins.new : PiPins := ⟨false, fun _ => false, fun _ => false, fun _ => .free⟩

/-- `RppalPins::get_chip` (rpi/src/gpio.rs 49-54). -/
def PiPins.getChip (B : Board) (now : Nat) (s : PiPins) : PiPins × Except Str Unit :=
  if s.chip then (s, .ok ())
  else match B.opens now with
    | some e => (s, .error e)
    | none => ({ s with chip := true }, .ok ())

/-- `RppalPins::clear` (rpi/src/gpio.rs 87-91); a pin that is dropped is made again what it was. -/
def PiPins.clear (p : GpioPin) (s : PiPins) : PiPins :=
  { s with
    inputs := fun q => if q = p then false else s.inputs q
    outputs := fun q => if q = p then false else s.outputs q
    lines := fun q => if q = p ∧ (s.inputs p || s.outputs p) then .free else s.lines q }

/-- `Gpio::get` of rppal, with `gpio_error_to_io_error` (rpi/src/gpio.rs 33-45): a pin that is in use is not available. -/
def PiPins.get (B : Board) (now : Nat) (p : GpioPin) (s : PiPins) : Except Str Unit :=
  if s.inputs p || s.outputs p then .error ("Unknown pin number ".toList ++ showNat p.toNat)
  else match B.gets now p with
    | some e => .error e
    | none => .ok ()

/-- `RppalPins::setup` (rpi/src/gpio.rs 66-85). -/
def PiPins.setup (B : Board) (now : Nat) (p : GpioPin) (m : GpioMode) (s : PiPins) : PiPins × Except Str Unit :=
  let s := s.clear p
  match s.getChip B now with
  | (s, .error e) => (s, .error e)
  | (s, .ok ()) =>
    match s.get B now p with
    | .error e => (s, .error e)
    | .ok () =>
      let line (l : GpioLine) : GpioPin → GpioLine := fun q => if q = p then l else s.lines q
      let input (d u : Bool) : PiPins := { s with inputs := fun q => if q = p then true else s.inputs q, lines := line (.input d u) }
      match m with
      | .input => (input false false, .ok ())
      | .inputPullDown => (input true false, .ok ())
      | .inputPullUp => (input false true, .ok ())
      | .output => ({ s with outputs := fun q => if q = p then true else s.outputs q, lines := line (.output none) }, .ok ())

/-- `RppalPins::clear_all` (rpi/src/gpio.rs 93-97). -/
def PiPins.clearAll (s : PiPins) : PiPins :=
  { s with inputs := fun _ => false, outputs := fun _ => false,
           lines := fun q => if s.inputs q || s.outputs q then .free else s.lines q }

/-- `RppalPins::read` (rpi/src/gpio.rs 99-111). -/
def PiPins.read (B : Board) (now : Nat) (p : GpioPin) (s : PiPins) : PiPins × Except Str Bool :=
  if !s.inputs p || s.outputs p then (s, .error "Pin not configured for read; use GPIO_SETUP first".toList)
  else (s, .ok (B.level now p))

/-- `RppalPins::write` (rpi/src/gpio.rs 113-127). -/
def PiPins.write (p : GpioPin) (v : Bool) (s : PiPins) : PiPins × Except Str Unit :=
  if s.inputs p || !s.outputs p then (s, .error "Pin not configured for write; use GPIO_SETUP first".toList)
  else ({ s with lines := fun q => if q = p then .output (some v) else s.lines q }, .ok ())

/-- `impl Pins for RppalPins` (rpi/src/gpio.rs 57-128). -/
def piPins (B : Board) (now : Nat) : GpioPins PiPins where
  setup := PiPins.setup B now
  clear p s := (s.clear p, .ok ())
  clearAll s := (s.clearAll, .ok ())
  read := PiPins.read B now
  write := PiPins.write

/-- What a program does with the pins of a Raspberry Pi, from its beginning: the commands, and what each of them gave. -/
def piRun (B : Board) (cmds : List GpioCmd) : PiPins × List (GpioCmd × GpioAnswer) :=
  cmds.foldl (fun (s, h) c =>
    let r := gpioExec (piPins B h.length) c s
    (r.1, h ++ [(c, r.2)])) (.new, [])

/-! ## The mock -/

/-- `MockPins` (std/src/gpio/fakes.rs 87-96). -/
structure MockPins where
  reads : List (GpioPin × Bool)
  trace : List I32

/-- `MockOp` (std/src/gpio/fakes.rs 59-73) but for `ClearAll`. -/
inductive MockOp where
  | setupIn | setupInPullDown | setupInPullUp | setupOut | clear | readLow | readHigh | writeLow | writeHigh

/-- The number of a `MockOp` (std/src/gpio/fakes.rs 59-73). -/
def MockOp.code : MockOp → Nat
  | .setupIn => 1 | .setupInPullDown => 2 | .setupInPullUp => 3 | .setupOut => 4
  | .clear => 5
  | .readLow => 10 | .readHigh => 11
  | .writeLow => 20 | .writeHigh => 21

/-- `MockOp::encode` (std/src/gpio/fakes.rs 77-80). -/
def MockOp.encode (p : GpioPin) (op : MockOp) : I32 := p.setWidth 32 * 100#32 + BitVec.ofNat 32 op.code

/-- `impl Pins for MockPins` (std/src/gpio/fakes.rs 110-163). -/
def mockPins : GpioPins MockPins where
  setup p m s :=
    let datum := match m with
      | .input => MockOp.encode p .setupIn
      | .inputPullDown => MockOp.encode p .setupInPullDown
      | .inputPullUp => MockOp.encode p .setupInPullUp
      | .output => MockOp.encode p .setupOut
    ({ s with trace := s.trace ++ [datum] }, .ok ())
  clear p s := ({ s with trace := s.trace ++ [MockOp.encode p .clear] }, .ok ())
  clearAll s := ({ s with trace := s.trace ++ [-1#32] }, .ok ())
  read p s :=
    match s.reads with
    | (q, high) :: rest =>
      if q = p then
        ({ reads := rest, trace := s.trace ++ [MockOp.encode p (if high then .readHigh else .readLow)] }, .ok high)
      else
        ({ s with reads := rest }, .error ("Want to read pin ".toList ++ showNat p.toNat ++
          " but next mock read is for pin ".toList ++ showNat q.toNat))
    | [] => (s, .error ("No mock read available for pin ".toList ++ showNat p.toNat))
  write p v s := ({ s with trace := s.trace ++ [MockOp.encode p (if v then .writeHigh else .writeLow)] }, .ok ())

/-- A command for the mock: one of those above, or `GPIO_MOCK_INJECT`. -/
inductive MockCmd where
  | gpio (c : GpioCmd)
  | inject (pin : I32) (high : Bool)
  deriving DecidableEq, Repr

/-- `exec` of a command; that of `GpioMockInjectCommand` is std/src/gpio/mod.rs 408-420, with `MockPins::inject_read`
(std/src/gpio/fakes.rs 100-102). -/
def mockExec : MockCmd → MockPins → MockPins × GpioAnswer
  | .gpio c, s => gpioExec mockPins c s
  | .inject i high, s =>
    match gpioPin i with
    | .error e => (s, .badArg 0 e)
    | .ok p => ({ s with reads := s.reads ++ [(p, high)] }, .done)

/-- `exec` of `GpioMockTraceFunction` (std/src/gpio/mod.rs 454-461): the text that `GPIO_MOCK_TRACE` gives. -/
def mockTrace (s : MockPins) : Str := List.intercalate " ".toList (s.trace.map showInteger)

/-- What a program does with the mock, from its beginning: the commands, and what each of them gave. -/
def mockRun (cmds : List MockCmd) : MockPins × List (MockCmd × GpioAnswer) :=
  cmds.foldl (fun (s, h) c =>
    let r := mockExec c s
    (r.1, h ++ [(c, r.2)])) (⟨[], []⟩, [])

end EB
