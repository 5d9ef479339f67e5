import Verif.Lemmas.Gpio
/-!
# C74, C75: GPIO
-/

namespace EB

open Spec Wire

theorem piRun_snoc (B : Board) (cmds : List GpioCmd) (c : GpioCmd) :
    piRun B (cmds ++ [c]) = ((gpioExec (piPins B (piRun B cmds).2.length) c (piRun B cmds).1).1,
      (piRun B cmds).2 ++ [(c, (gpioExec (piPins B (piRun B cmds).2.length) c (piRun B cmds).1).2)]) := by
  simp [piRun, List.foldl_append]

theorem piRun_wired (B : Board) (cmds : List GpioCmd) : Wired (piRun B cmds).2 (piRun B cmds).1 := by
  induction cmds using List.reverseRecOn with
  | nil => exact wired_new
  | append_singleton cmds c ih =>
    rw [piRun_snoc]
    exact (answers_of ih c).2

/-- **C74.** Whatever GPIO commands are executed, and whatever a Raspberry Pi does, each pin is used for what the history says
(it is never two things at once), and nothing else is done with it. -/
theorem C74_pins (B : Board) (cmds : List GpioCmd) (p : GpioPin) : LineIs (piRun B cmds).2 p ((piRun B cmds).1.lines p) :=
  (piRun_wired B cmds p).1

/-- **C74.** A pin has one configuration at most. -/
theorem C74_one_mode (h : List (GpioCmd × GpioAnswer)) (p : GpioPin) (m n : GpioMode) (hm : Configured h p m)
    (hn : Configured h p n) : m = n :=
  configured_unique hm hn

/-- **C74.** What the next command gives: `GPIO_WRITE` works for a pin that is configured as an output, and only then;
`GPIO_READ` gives the level of a pin that is configured as an input, and only then. -/
theorem C74_answers (B : Board) (cmds : List GpioCmd) (c : GpioCmd) :
    ∃ a, (piRun B (cmds ++ [c])).2 = (piRun B cmds).2 ++ [(c, a)] ∧ Answers B (piRun B cmds).2 c a :=
  ⟨_, by rw [piRun_snoc], (answers_of (piRun_wired B cmds) c).1⟩

/-- **C74.** A command that is refused because of its arguments, or because of the configuration of the pin, changes nothing. -/
theorem C74_refused (B : Board) (cmds : List GpioCmd) (c : GpioCmd) (a : GpioAnswer)
    (h : (piRun B (cmds ++ [c])).2 = (piRun B cmds).2 ++ [(c, a)]) (hr : Rejected a)
    (hc : (∃ n e, a = .badArg n e) ∨ ∀ i t, c ≠ .setup i t) : (piRun B (cmds ++ [c])).1.lines = (piRun B cmds).1.lines := by
  rw [piRun_snoc] at h ⊢
  simp only [List.append_cancel_left_eq, List.cons.injEq, Prod.mk.injEq, true_and, and_true] at h
  subst h
  generalize (piRun B cmds).2.length = n at *
  generalize (piRun B cmds).1 = s at *
  revert hr hc
  cases c with
  | setup i t =>
    simp only [gpioExec]
    split
    · simp
    · split
      · simp
      · intro _ hc
        rcases hc with ⟨k, e, h⟩ | h
        · simp only [gpioDone] at h; split at h <;> simp at h
        · exact (h i t rfl).elim
  | clearAll => rintro (⟨n, e, h⟩ | ⟨e, h⟩) <;> simp [gpioExec, gpioDone, piPins] at h
  | reset => rintro (⟨n, e, h⟩ | ⟨e, h⟩) <;> simp [gpioExec] at h
  | clear i =>
    simp only [gpioExec]
    split
    · simp
    · rintro (⟨n, e, h⟩ | ⟨e, h⟩) <;> simp [gpioDone, piPins] at h
  | read i =>
    intro _ _
    simp only [gpioExec]
    split
    · rfl
    · simp only [piPins, PiPins.read]
      split <;> rename_i heq <;> split at heq <;> simp only [Prod.mk.injEq] at heq <;> rw [← heq.1]
  | write i v =>
    simp only [gpioExec]
    split
    · simp
    · simp only [piPins, PiPins.write]
      split
      · intros; rfl
      · rintro (⟨n, e, h⟩ | ⟨e, h⟩) <;> simp [gpioDone] at h

/-- **C74.** A wrong argument is reported as such, at its place, with any pins (those of a Raspberry Pi, the mock or none), and nothing else
is; the pins stay as they are. -/
theorem C74_arguments {σ : Type} (P : GpioPins σ) (c : GpioCmd) (s : σ) (n : Nat) :
    ((∃ e, (gpioExec P c s).2 = .badArg n e) ↔ WrongArg c n) ∧ (WrongArg c n → (gpioExec P c s).1 = s) := by
  have pin : ∀ {i : I32} {e : Str}, gpioPin i = .error e → ∀ p, ¬ IsPin i p := fun h => gpioPin_error h
  have done : ∀ (r : σ × Except Str Unit) e, (gpioDone r).2 ≠ .badArg n e := by
    intro r e
    unfold gpioDone
    cases r.2 <;> simp
  cases c with
  | setup i t =>
    simp only [gpioExec, WrongArg]
    cases hp : gpioPin i with
    | error e =>
      have h0 := pin hp
      have h1 : ¬ ∃ p, IsPin i p := fun ⟨p, h⟩ => h0 p h
      simp [h0, eq_comm]
    | ok p =>
      have h0 : IsPin i p := gpioPin_ok.1 hp
      have h1 : ¬ ∀ p, ¬ IsPin i p := fun h => h p h0
      cases hm : gpioMode t with
      | error e =>
        have h2 := gpioMode_error hm
        refine ⟨⟨fun ⟨e', h⟩ => ?_, ?_⟩, fun _ => rfl⟩
        · simp only [GpioAnswer.badArg.injEq] at h
          exact .inr ⟨h.1.symm, ⟨p, h0⟩, h2⟩
        · rintro (⟨rfl, h⟩ | ⟨rfl, -⟩)
          · exact absurd h h1
          · exact ⟨e, rfl⟩
      | ok m =>
        have h2 : IsMode t m := gpioMode_ok.1 hm
        have h3 : ¬ (n = 0 ∧ (∀ p, ¬ IsPin i p) ∨ n = 1 ∧ (∃ p, IsPin i p) ∧ ∀ m, ¬ IsMode t m) := by
          rintro (⟨-, h⟩ | ⟨-, -, h⟩)
          · exact h1 h
          · exact h m h2
        exact ⟨⟨fun ⟨e, h⟩ => absurd h (done _ e), fun h => absurd h h3⟩, fun h => absurd h h3⟩
  | clearAll => exact ⟨⟨fun ⟨e, h⟩ => absurd h (done _ e), fun h => h.elim⟩, fun h => h.elim⟩
  | reset => exact ⟨⟨fun ⟨e, h⟩ => by simp [gpioExec] at h, fun h => h.elim⟩, fun h => h.elim⟩
  | clear i =>
    simp only [gpioExec, WrongArg]
    cases hp : gpioPin i with
    | error e =>
      have h0 := pin hp
      simp [h0, eq_comm]
    | ok p =>
      have h0 : ¬ ∀ p, ¬ IsPin i p := fun h => h p (gpioPin_ok.1 hp)
      exact ⟨⟨fun ⟨e, h⟩ => absurd h (done _ e), fun h => absurd h.2 h0⟩, fun h => absurd h.2 h0⟩
  | write i v =>
    simp only [gpioExec, WrongArg]
    cases hp : gpioPin i with
    | error e =>
      have h0 := pin hp
      simp [h0, eq_comm]
    | ok p =>
      have h0 : ¬ ∀ p, ¬ IsPin i p := fun h => h p (gpioPin_ok.1 hp)
      exact ⟨⟨fun ⟨e, h⟩ => absurd h (done _ e), fun h => absurd h.2 h0⟩, fun h => absurd h.2 h0⟩
  | read i =>
    simp only [gpioExec, WrongArg]
    cases hp : gpioPin i with
    | error e =>
      have h0 := pin hp
      simp [h0, eq_comm]
    | ok p =>
      have h0 : ¬ ∀ p, ¬ IsPin i p := fun h => h p (gpioPin_ok.1 hp)
      rcases hr : P.read p s with ⟨s', _ | b⟩
      · exact ⟨⟨fun ⟨e, h⟩ => by simp [hr] at h, fun h => absurd h.2 h0⟩, fun h => absurd h.2 h0⟩
      · exact ⟨⟨fun ⟨e, h⟩ => by simp [hr] at h, fun h => absurd h.2 h0⟩, fun h => absurd h.2 h0⟩

/-- With a chip, all commands leave it as it is. -/
theorem chip_stays (B : Board) (now : Nat) (c : GpioCmd) (s : PiPins) (h : s.chip = true) : (gpioExec (piPins B now) c s).1.chip = true := by
  cases c with
  | setup i t =>
    simp only [gpioExec]
    split
    · exact h
    · split
      · exact h
      · simp only [gpioDone, piPins, PiPins.setup, PiPins.getChip, PiPins.clear, h, if_true]
        split
        · rfl
        · split <;> rfl
  | clearAll => exact h
  | reset => exact h
  | clear i =>
    simp only [gpioExec]
    split <;> exact h
  | read i =>
    simp only [gpioExec]
    split
    · exact h
    · simp only [piPins, PiPins.read]
      split <;> rename_i heq <;> split at heq <;> simp only [Prod.mk.injEq] at heq <;> rw [← heq.1] <;> exact h
  | write i v =>
    simp only [gpioExec]
    split
    · exact h
    · simp only [gpioDone, piPins, PiPins.write]
      split <;> exact h

theorem chip_opened (B : Board) (now : Nat) (i : I32) (t : Str) (s : PiPins) (h : (gpioExec (piPins B now) (.setup i t) s).2 = .done) :
    (gpioExec (piPins B now) (.setup i t) s).1.chip = true := by
  simp only [gpioExec] at h ⊢
  cases hp : gpioPin i with
  | error e => rw [hp] at h; simp at h
  | ok p =>
    cases hm : gpioMode t with
    | error e => rw [hp, hm] at h; simp at h
    | ok m =>
      rw [hp, hm] at h
      simp only [gpioDone, piPins, PiPins.setup] at h ⊢
      have hchip : ∀ s' r, (s.clear p).getChip B now = (s', r) → r = .ok () → s'.chip = true := by
        intro s' r hg hr
        subst hr
        unfold PiPins.getChip at hg
        split at hg
        · simp only [Prod.mk.injEq] at hg; rw [← hg.1]; assumption
        · split at hg
          · simp at hg
          · simp only [Prod.mk.injEq] at hg; rw [← hg.1]
      cases hg : (s.clear p).getChip B now with
      | mk s' r =>
        cases r with
        | error e => rw [hg] at h; simp at h
        | ok u =>
          have hc := hchip s' _ hg rfl
          rw [hg] at h
          simp only at h ⊢
          split
          · exact hc
          · split <;> exact hc

/-- **C74.** Once a pin was configured, pins that the board has can be configured even if it could not be opened again. -/
theorem C74_opened (B : Board) (cmds : List GpioCmd) (e : GpioCmd × GpioAnswer) (he : e ∈ (piRun B cmds).2) (q : GpioPin) (k : GpioMode)
    (hc : Configures q k e) (i : I32) (t : Str) (p : GpioPin) (m : GpioMode) (hi : IsPin i p) (ht : IsMode t m)
    (hg : B.gets (piRun B cmds).2.length p = none) :
    (piRun B (cmds ++ [.setup i t])).2 = (piRun B cmds).2 ++ [(.setup i t, .done)] := by
  have hchip : (piRun B cmds).1.chip = true := by
    clear hg
    induction cmds using List.reverseRecOn with
    | nil => simp [piRun] at he
    | append_singleton cmds c ih =>
      rw [piRun_snoc] at he ⊢
      rcases List.mem_append.1 he with he | he
      · exact chip_stays _ _ _ _ (ih he)
      · obtain ⟨i', t', rfl, -⟩ := hc
        simp only [List.mem_singleton, Prod.mk.injEq] at he
        obtain ⟨rfl, h2⟩ := he
        exact chip_opened _ _ _ _ _ h2.symm
  rw [piRun_snoc]
  simp only [gpioExec, gpioPin_ok.2 hi, gpioMode_ok.2 ht, gpioDone, piPins, PiPins.setup, PiPins.getChip, PiPins.get, hg]
  have h1 : ((piRun B cmds).1.clear p).chip = true := hchip
  have h2 : ((piRun B cmds).1.clear p).inputs p = false := by simp [PiPins.clear]
  have h3 : ((piRun B cmds).1.clear p).outputs p = false := by simp [PiPins.clear]
  simp only [h1, if_true, h2, h3, Bool.or_self, Bool.false_eq_true, if_false]
  cases m <;> rfl

namespace Ex

/-- A board with the pins 0 to 27, on which the level of a pin is that of the lowest bit of its number. -/
def board : Board where
  opens _ := none
  gets _ p := if p.toNat < 28 then none else some "Unknown pin number".toList
  level _ p := p.getLsbD 0

def gpioProgram : List GpioCmd :=
  [.setup 4#32 "out".toList, .setup 5#32 "IN-pull-up".toList, .write 4#32 true, .read 5#32, .write 5#32 true, .setup 300#32 "IN".toList,
   .clear 6#32, .setup 7#32 "OUT".toList, .write 7#32 false, .setup 7#32 "IN".toList, .setup 90#32 "IN".toList, .read 7#32, .clear 5#32]

end Ex

set_option maxRecDepth 100000 in
/-- A program that configures, writes, reads and clears, with errors of all kinds. -/
example : (piRun Ex.board Ex.gpioProgram).2.map Prod.snd =
      [.done, .done, .done, .level true, .failed "Pin not configured for write; use GPIO_SETUP first".toList,
       .badArg 0 "Pin number 300 is too large".toList, .done, .done, .done, .done, .failed "Unknown pin number".toList, .level true, .done] ∧
    (piRun Ex.board Ex.gpioProgram).1.lines 4#8 = .output (some true) ∧ (piRun Ex.board Ex.gpioProgram).1.lines 5#8 = .free ∧
    (piRun Ex.board Ex.gpioProgram).1.lines 7#8 = .input false false := by
  decide +kernel

/-- The hypotheses of `C74_opened` are met by a board that can be opened at the beginning only. -/
example : (piRun { Ex.board with opens := fun n => if n = 0 then none else some "busy".toList }
    [.setup 4#32 "out".toList, .setup 5#32 "in".toList, .setup 5#32 "inn".toList, .setup (-5#32) "inn".toList]).2.map Prod.snd =
    [.done, .done, .badArg 1 "Unknown pin mode INN".toList, .badArg 0 "Pin number -5 must be positive".toList] := by
  decide +kernel

/-! ## The mock -/

theorem mockRun_snoc (cmds : List MockCmd) (c : MockCmd) :
    mockRun (cmds ++ [c]) = ((mockExec c (mockRun cmds).1).1, (mockRun cmds).2 ++ [(c, (mockExec c (mockRun cmds).1).2)]) := by
  simp [mockRun, List.foldl_append]

theorem mockRun_mocked (cmds : List MockCmd) : Mocked (mockRun cmds).2 (mockRun cmds).1 := by
  induction cmds using List.reverseRecOn with
  | nil => exact ⟨[], .nil, rfl⟩
  | append_singleton cmds c ih =>
    rw [mockRun_snoc]
    exact mocked_step ih c

/-- **C75.** `GPIO_MOCK_TRACE` gives the numbers of all that was done, in the order in which it was done. -/
theorem C75_trace_partial (cmds : List MockCmd) :
    ∃ d, AllPerformed (mockRun cmds).2 d ∧
      mockTrace (mockRun cmds).1 = List.intercalate " ".toList (d.map fun o => (toString (traceCode o)).toList) := by
  obtain ⟨d, h1, h2⟩ := mockRun_mocked cmds
  refine ⟨d, h1, ?_⟩
  unfold mockTrace showInteger
  congr 1
  have := congrArg (List.map fun i : Int => (toString i).toList) h2
  rw [List.map_map, List.map_map] at this
  exact this

/-- **C75.** The text tells what was done: programs with the same text have done the same. -/
theorem C75_trace_readable_partial (cmds cmds' : List MockCmd) (h : mockTrace (mockRun cmds).1 = mockTrace (mockRun cmds').1)
    (d d' : List Performed) (hd : AllPerformed (mockRun cmds).2 d) (hd' : AllPerformed (mockRun cmds').2 d') : d = d' := by
  obtain ⟨x, h1, h2⟩ := C75_trace_partial cmds
  obtain ⟨y, h3, h4⟩ := C75_trace_partial cmds'
  rw [h2, h4] at h
  have hw : ∀ z : List Performed, ∀ w ∈ z.map fun o => (toString (traceCode o)).toList, w ≠ [] ∧ ' ' ∉ w := by
    intro z w hw
    obtain ⟨o, -, rfl⟩ := List.mem_map.1 hw
    exact showInt_word _
  have hxy := words_inj (hw x) (hw y) h
  obtain rfl := allPerformed_unique h1 hd
  obtain rfl := allPerformed_unique h3 hd'
  exact (List.map_inj_right fun o o' h => traceCode_inj (showInt_inj h)).1 hxy

/-- **C75.** As long as there was always a level to be read, the `n`-th time that a pin is read it is compared with the `n`-th
`GPIO_MOCK_INJECT`: its level is given if it is for this pin. -/
theorem C75_reads_partial (cmds : List MockCmd) (hf : ∀ g, g <+: (mockRun cmds).2 → readCount g ≤ (injected g).length)
    (i : I32) (p q : GpioPin) (b : Bool) (hi : IsPin i p) (hq : (injected (mockRun cmds).2)[readCount (mockRun cmds).2]? = some (q, b)) :
    ∃ a, (mockRun (cmds ++ [.gpio (.read i)])).2 = (mockRun cmds).2 ++ [(.gpio (.read i), a)] ∧
      (q = p → a = .level b) ∧ (q ≠ p → Rejected a) := by
  have hs : (mockRun cmds).1.reads = (injected (mockRun cmds).2).drop (readCount (mockRun cmds).2) := by
    clear hq
    induction cmds using List.reverseRecOn with
    | nil => rfl
    | append_singleton cmds c ih =>
      have h1 := hf _ (List.prefix_refl _)
      rw [mockRun_snoc] at hf h1 ⊢
      have hb := fed_before hf
      exact queue_step (ih hb) (hb _ (List.prefix_refl _)) c h1
  refine ⟨_, by rw [mockRun_snoc], ?_⟩
  have hr : (mockRun cmds).1.reads = (q, b) :: (mockRun cmds).1.reads.tail := by
    rw [hs, List.tail_drop]
    exact List.drop_eq_getElem?_toList_append.trans (by rw [hq]; rfl)
  have hp := gpioPin_ok.2 hi
  constructor
  · rintro rfl
    simp only [mockExec, gpioExec, hp, mockPins]
    rw [hr]
    simp
  · intro hne
    simp only [mockExec, gpioExec, hp, mockPins]
    rw [hr]
    simp only [if_neg hne]
    exact .inr ⟨_, rfl⟩

set_option maxRecDepth 100000 in
/-- A program that injects, configures and reads. -/
example : (mockRun [.inject 1#32 true, .inject 2#32 false, .gpio (.setup 1#32 "in".toList), .gpio (.read 1#32), .gpio (.read 2#32),
      .gpio (.write 30#32 true), .gpio .reset]).2.map Prod.snd = [.done, .done, .done, .level true, .level false, .done, .done] ∧
    mockTrace (mockRun [.inject 1#32 true, .inject 2#32 false, .gpio (.setup 1#32 "in".toList), .gpio (.read 1#32), .gpio (.read 2#32),
      .gpio (.write 30#32 true), .gpio .reset]).1 = "101 111 210 3021 -1".toList := by
  decide +kernel

set_option maxRecDepth 100000 in
/-- **C75 does not hold as its help says** (F58): `GPIO_MOCK_INJECT` "pre-seeds the next GPIO_READ call for the given pin%", but a
level that was injected for the pin 1 is lost when the pin 2 is read, and then the pin 1 cannot be read. -/
theorem C75_counterexample_inject :
    (mockRun [.inject 1#32 true, .gpio (.read 2#32), .gpio (.read 1#32)]).2.map Prod.snd =
      [.done, .failed "Want to read pin 2 but next mock read is for pin 1".toList,
       .failed "No mock read available for pin 1".toList] := by
  decide +kernel

set_option maxRecDepth 100000 in
/-- **C75 does not hold as its help says** (F59): `GPIO_MOCK_TRACE` gives the "operations performed since the last reset", but what
was done before a reset is in it too. -/
theorem C75_counterexample_reset :
    mockTrace (mockRun [.gpio (.write 3#32 true), .gpio .reset]).1 = "321 -1".toList := by
  decide +kernel

end EB
