import Verif.Lemmas.SettledMain
import Verif.Lemmas.Outcome
import Verif.Lemmas.SettledStd
import Verif.Props.Stdlib
import Verif.Props.Valid
/-!
# C67: what programs of a class do is settled by their text

The theorems about compiled programs (`program_partial`, `C54_calls_partial`, `C65_program_partial`, …) say nothing about
programs to which the interpreter gives no meaning.  Here: the interpreter gives a meaning to all programs of the class
`Settled`, in any run.
-/

namespace EB
open Spec

/-- **C67** The interpreter gives a meaning to each accepted program of the class `Settled`, whatever is computed in the
run and however long it is, if the built-in callables answer. -/
theorem C67_specified {up : FMap Str Md} (hup : ∀ k md, up.get? k = some md → md.userDefined = false) {src : Source} {img : Image}
    (h : compileProgram up [] src = .ok img) {U : Sure} {lib : Lib} (hrep : Replies up U lib) (hs : Settled U up src.stmts = true)
    (F : FloatOps) (n maxStack maxHeap : Nat) :
    run F n maxStack lib (builtins up) src.stmts (fresh maxHeap) ≠ .stuck :=
  Settle.program_good hup (C58_program_accepted hup h).2 hrep hs n maxStack (fresh maxHeap) rfl

/-- **C67** Such a program comes to its end, stops at `END` or fails as the interpreter says, or it is still running; in
each case the host is in the state that belongs to the calls that the interpreter says. -/
theorem C67_program {H : Type} {up : FMap Str Md} (hup : ∀ k md, up.get? k = some md → md.userDefined = false) {src : Source}
    {img : Image} (h : compileProgram up [] src = .ok img) {U : Sure} {lib : Lib} (hrep : Replies up U lib)
    (hs : Settled U up src.stmts = true) (F : FloatOps) {host : Host H} {state : List (Request × Reply) → H}
    (hprov : Provides host img lib state) (n maxStack maxHeap : Nat) (hmax : maxStack ≤ 2 ^ 24) :
    (∃ w vm, run F n maxStack lib (builtins up) src.stmts (fresh maxHeap) = .done w ∧
      Reaches F host img (Vm.start maxStack maxHeap (state [])) vm ∧ vmStep F host img vm = .stop .eof vm ∧ vm.host = state w.log.events) ∨
    (∃ code w vm, run F n maxStack lib (builtins up) src.stmts (fresh maxHeap) = .ended code w ∧
      Reaches F host img (Vm.start maxStack maxHeap (state [])) vm ∧ EndsWith F host img vm code ∧ vm.host = state w.log.events) ∨
    (∃ pos e w vm vm', run F n maxStack lib (builtins up) src.stmts (fresh maxHeap) = .err pos e w ∧
      Reaches F host img (Vm.start maxStack maxHeap (state [])) vm ∧ Raises F host img vm pos e vm' ∧ vm'.host = state w.log.events) ∨
    (∃ l vm, run F n maxStack lib (builtins up) src.stmts (fresh maxHeap) = .going l ∧
      Reaches F host img (Vm.start maxStack maxHeap (state [])) vm ∧ vm.host = state l.events) := by
  have hne := C67_specified hup h hrep hs F n maxStack maxHeap
  have hp := program_partial hup h F hprov n maxStack maxHeap hmax
  have hc := C54_calls_partial hup h F hprov n maxStack maxHeap hmax
  cases hr : run F n maxStack lib (builtins up) src.stmts (fresh maxHeap) with
  | done w =>
    obtain ⟨vm, h1⟩ := hc.1 w hr
    exact .inl ⟨w, vm, rfl, h1⟩
  | ended code w =>
    obtain ⟨vm, h1⟩ := hc.2.1 code w hr
    exact .inr (.inl ⟨code, w, vm, rfl, h1⟩)
  | err pos e w =>
    obtain ⟨vm, vm', h1⟩ := hc.2.2.1 pos e w hr
    exact .inr (.inr (.inl ⟨pos, e, w, vm, vm', rfl, h1⟩))
  | going l =>
    obtain ⟨vm, h1⟩ := hc.2.2.2 l hr
    exact .inr (.inr (.inr ⟨l, vm, rfl, h1⟩))
  | stuck => exact absurd hr hne
  | exitDo => rw [hr] at hp; exact hp.elim
  | exitFor => rw [hr] at hp; exact hp.elim
  | leave => rw [hr] at hp; exact hp.elim
  | jump => rw [hr] at hp; exact hp.elim
  | back => rw [hr] at hp; exact hp.elim

/-- **C67** The machine stops in a way if and only if the interpreter says so for some number of rounds: neither does a
program stop that goes on for the interpreter nor the other way round. -/
theorem C67_stops {H : Type} {up : FMap Str Md} (hup : ∀ k md, up.get? k = some md → md.userDefined = false) {src : Source}
    {img : Image} (h : compileProgram up [] src = .ok img) {U : Sure} {lib : Lib} (hrep : Replies up U lib)
    (hs : Settled U up src.stmts = true) (F : FloatOps) {host : Host H} {state : List (Request × Reply) → H}
    (hprov : Provides host img lib state) (maxStack maxHeap : Nat) (hmax : maxStack ≤ 2 ^ 24) (o : Finale) :
    (∃ vm, Reaches F host img (Vm.start maxStack maxHeap (state [])) vm ∧ Stops F host img vm o) ↔
    ∃ n, (run F n maxStack lib (builtins up) src.stmts (fresh maxHeap)).outcome = some o := by
  constructor
  · rintro ⟨vm, h1, h2⟩
    obtain ⟨j, h1⟩ := h1.in
    exact ⟨j + 1, outcome_of_stops hup h hprov hmax h1 h2 (C67_specified hup h hrep hs F _ maxStack maxHeap)⟩
  · rintro ⟨n, hn⟩
    exact stops_of_outcome hup h hprov hmax hn

/-- **C67** It never crashes, however long it runs. -/
theorem C67_no_crash {H : Type} {up : FMap Str Md} (hup : ∀ k md, up.get? k = some md → md.userDefined = false) {src : Source}
    {img : Image} (h : compileProgram up [] src = .ok img) {U : Sure} {lib : Lib} (hrep : Replies up U lib)
    (hs : Settled U up src.stmts = true) (F : FloatOps) {host : Host H} {state : List (Request × Reply) → H}
    (hprov : Provides host img lib state) (maxStack maxHeap : Nat) (hmax : maxStack ≤ 2 ^ 24) {vm : Vm H}
    (hr : Reaches F host img (Vm.start maxStack maxHeap (state [])) vm) :
    vmStep F host img vm ≠ .panic ∧
    ∀ vm1, vmStep F host img vm = .stop .upcallAsync vm1 → invokePending host img vm1 ≠ .panic := by
  have : ¬ Stops F host img vm .crashed := by
    intro hc
    obtain ⟨n, hn⟩ := (C67_stops hup h hrep hs F hprov maxStack maxHeap hmax .crashed).1 ⟨vm, hr, hc⟩
    revert hn
    cases run F n maxStack lib (builtins up) src.stmts (fresh maxHeap) <;> intro hn <;> cases hn
  exact ⟨fun h => this (.inl h), fun vm1 h h' => this (.inr ⟨vm1, h, h'⟩)⟩

/-- **C67** It runs for ever if and only if the interpreter never comes to an end. -/
theorem C67_for_ever {H : Type} {up : FMap Str Md} (hup : ∀ k md, up.get? k = some md → md.userDefined = false) {src : Source}
    {img : Image} (h : compileProgram up [] src = .ok img) {U : Sure} {lib : Lib} (hrep : Replies up U lib)
    (hs : Settled U up src.stmts = true) (F : FloatOps) {host : Host H} {state : List (Request × Reply) → H}
    (hprov : Provides host img lib state) (maxStack maxHeap : Nat) (hmax : maxStack ≤ 2 ^ 24) :
    (∀ n, ∃ vm, ReachesIn F host img n (Vm.start maxStack maxHeap (state [])) vm) ↔
    ∀ n, ∃ l, run F n maxStack lib (builtins up) src.stmts (fresh maxHeap) = .going l := by
  constructor
  · intro hall n
    have hno : (run F n maxStack lib (builtins up) src.stmts (fresh maxHeap)).outcome = none := by
      cases ho : (run F n maxStack lib (builtins up) src.stmts (fresh maxHeap)).outcome with
      | none => rfl
      | some o =>
        obtain ⟨vm, h1, h2⟩ := stops_of_outcome (F := F) hup h hprov hmax ho
        obtain ⟨j, h1⟩ := h1.in
        obtain ⟨vm', h3⟩ := hall (j + 1)
        have := stops_last h1 h2 h3
        omega
    rcases C67_program hup h hrep hs F hprov n maxStack maxHeap hmax with ⟨w, _, hr, _⟩ | ⟨c, w, _, hr, _⟩ | ⟨p, e, w, _, _, hr, _⟩ | ⟨l, _, hr, _⟩
    · rw [hr] at hno; cases hno
    · rw [hr] at hno; cases hno
    · rw [hr] at hno; cases hno
    · exact ⟨l, hr⟩
  · intro hall n
    obtain ⟨l, hl⟩ := hall n
    exact goes_on_of_going hup h hprov hmax hl

/-- **C67** The same with the callables of the model (`stdTable`), if `INSTR` is not called and `LBOUND` and `UBOUND` are
called with one argument. -/
theorem C67_std (O : StdOps) {src : Source} {img : Image} (h : compileProgram stdTable [] src = .ok img) {shared : List Place}
    (hs : Settled (stdSure shared) stdTable src.stmts = true) (F : FloatOps) (n maxStack maxHeap : Nat) (hmax : maxStack ≤ 2 ^ 24) :
    let lib := stdLib O byteLen (Stmts.items src.stmts)
    let state := stdState O byteLen (Stmts.items src.stmts)
    (∃ w vm, run F n maxStack lib (builtins stdTable) src.stmts (fresh maxHeap) = .done w ∧
      Reaches F (stdHost O) img (Vm.start maxStack maxHeap (state [])) vm ∧ vmStep F (stdHost O) img vm = .stop .eof vm ∧
      vm.host = state w.log.events) ∨
    (∃ code w vm, run F n maxStack lib (builtins stdTable) src.stmts (fresh maxHeap) = .ended code w ∧
      Reaches F (stdHost O) img (Vm.start maxStack maxHeap (state [])) vm ∧ EndsWith F (stdHost O) img vm code ∧
      vm.host = state w.log.events) ∨
    (∃ pos e w vm vm', run F n maxStack lib (builtins stdTable) src.stmts (fresh maxHeap) = .err pos e w ∧
      Reaches F (stdHost O) img (Vm.start maxStack maxHeap (state [])) vm ∧ Raises F (stdHost O) img vm pos e vm' ∧
      vm'.host = state w.log.events) ∨
    (∃ l vm, run F n maxStack lib (builtins stdTable) src.stmts (fresh maxHeap) = .going l ∧
      Reaches F (stdHost O) img (Vm.start maxStack maxHeap (state [])) vm ∧ vm.host = state l.events) := by
  have hi := items_program h
  have hp := std_provides (O := O) img
  rw [hi] at hp
  exact C67_program stdTable_builtin h (Settle.std_replies O byteLen _ shared) hs F hp n maxStack maxHeap hmax

/-- **C67** … it stops as the interpreter says, and never crashes. -/
theorem C67_std_stops (O : StdOps) {src : Source} {img : Image} (h : compileProgram stdTable [] src = .ok img) {shared : List Place}
    (hs : Settled (stdSure shared) stdTable src.stmts = true) (F : FloatOps) (maxStack maxHeap : Nat) (hmax : maxStack ≤ 2 ^ 24) :
    let lib := stdLib O byteLen (Stmts.items src.stmts)
    let start := Vm.start maxStack maxHeap (stdState O byteLen (Stmts.items src.stmts) [])
    (∀ o, (∃ vm, Reaches F (stdHost O) img start vm ∧ Stops F (stdHost O) img vm o) ↔
      ∃ n, (run F n maxStack lib (builtins stdTable) src.stmts (fresh maxHeap)).outcome = some o) ∧
    ∀ vm, Reaches F (stdHost O) img start vm → vmStep F (stdHost O) img vm ≠ .panic ∧
      ∀ vm1, vmStep F (stdHost O) img vm = .stop .upcallAsync vm1 → invokePending (stdHost O) img vm1 ≠ .panic := by
  have hi := items_program h
  have hp := std_provides (O := O) img
  rw [hi] at hp
  have hrep := Settle.std_replies O byteLen (Stmts.items src.stmts) shared
  exact ⟨C67_stops stdTable_builtin h hrep hs F hp maxStack maxHeap hmax,
    fun vm hr => C67_no_crash stdTable_builtin h hrep hs F hp maxStack maxHeap hmax hr⟩

/-! ## Programs in the class, and others -/

/-- Recursion, loops, arrays, a shared variable and most of the built-in callables. -/
def Ex.settled : String := "DIM SHARED calls AS INTEGER
DATA 6, \"abc\", , TRUE
FUNCTION fact%(n%)
calls = calls + 1
IF n < 2 THEN
fact = 1
ELSE
fact = n * fact(n - 1)
END IF
END FUNCTION
SUB show(s$)
IF LEN(s) = 0 THEN EXIT SUB
PRINT UCASE$(s); MID$(s, 1, 1), calls
END SUB
READ n, t$
DIM squares(n + 1) AS DOUBLE
FOR i = 0 TO n
squares(i) = i * i
NEXT
DO UNTIL n = 0
SELECT CASE n
CASE 1, 3 TO 4: show t$
CASE ELSE: PRINT fact(n); squares(n)
END SELECT
n = n - 1
IF n > UBOUND(squares) THEN EXIT DO
LOOP
WHILE n < 3
n = n + 1
WEND
END n"

set_option maxRecDepth 100000 in
/-- It is accepted and in the class. -/
example : (compileProgram stdTable [] (Ex.text Ex.settled)).toOption.isSome = true ∧
    Settled (stdSure [.shared 0]) stdTable (Ex.text Ex.settled).stmts = true := by
  refine ⟨?_, ?_⟩ <;> decide +kernel

set_option maxRecDepth 100000 in
/-- What it does. -/
example : (match run Ex.noFloat 50 50 (stdLib Ex.ops byteLen (Stmts.items (Ex.text Ex.settled).stmts)) (builtins stdTable)
        (Ex.text Ex.settled).stmts (fresh 50) with
    | .ended 3 w => (stdState Ex.ops byteLen (Stmts.items (Ex.text Ex.settled).stmts) w.log.events).out.length == 6
    | _ => false) = true := by
  decide +kernel

set_option maxRecDepth 100000 in
/-- Programs that are not in the class: a variable that may not have been set, and a function that may not have set its
result, which is a double. -/
example : Settled (stdSure []) stdTable (Ex.text "READ n\nIF n = 1 THEN x = 2\nPRINT x").stmts = false ∧
    Settled (stdSure []) stdTable (Ex.text "FUNCTION f#(n%)\nIF n = 1 THEN f = 2\nEND FUNCTION\nPRINT f(2)").stmts = false ∧
    Settled (stdSure []) stdTable (Ex.text "READ n\nIF n = 1 THEN x = 2 ELSE x = 3\nPRINT x").stmts = true ∧
    Settled (stdSure []) stdTable (Ex.text "FUNCTION f#(n%)\nf = 0.5\nIF n = 1 THEN f = 2\nEND FUNCTION\nPRINT f(2)").stmts = true := by
  refine ⟨?_, ?_, ?_, ?_⟩ <;> decide +kernel

set_option maxRecDepth 100000 in
/-- A program that runs for ever, which is in the class. -/
example : (compileProgram stdTable [] (Ex.text "n% = 0\nDO\nn = n + 1\nIF n > 9 THEN n = 0\nLOOP")).toOption.isSome = true ∧
    Settled (stdSure []) stdTable (Ex.text "n% = 0\nDO\nn = n + 1\nIF n > 9 THEN n = 0\nLOOP").stmts = true := by
  refine ⟨?_, ?_⟩ <;> decide +kernel

end EB
