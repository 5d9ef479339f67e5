import Verif.Model.Errmsg
import Verif.Props.Vm
/-!
# C89: ERRMSG tells the last error
-/

namespace EB

/-- The upcall leaves the error that it raised, or else the one that was there. -/
theorem runUpcall_lastError {H : Type} {host : Host H} {img : Image} {vm vm1 : Vm H} {idx : U16} {first : Reg} {pc : Nat}
    (h : (runUpcall host img vm idx first pc).after? = some vm1) :
    vm1.lastError = (upcallError host img vm idx first pc).or vm.lastError := by
  unfold runUpcall at h
  split at h
  · simp [VmStep.after?] at h
  · unfold upcallError
    rcases he : host.exec idx (vm.mach.fp + (first.toNat - maxGlobal)) (img.argPositions pc) vm.mach.regs vm.mach.heap
      vm.lastError img vm.host with ⟨a, b, c, d⟩
    simp only [he] at h ⊢
    rcases d with ⟨p, m⟩ | u
    · cases hi : img.instrs[pc]? with
      | none => simp [hi, VmStep.after?] at h
      | some i =>
        simp only [hi] at h ⊢
        split at h <;> simp [VmStep.after?] at h <;> subst h <;> simp
    · simp [VmStep.after?] at h
      subst h
      simp

/-- One step of the machine. -/
theorem vmStep_lastError {H : Type} {F : FloatOps} {host : Host H} {img : Image} {vm vm1 : Vm H}
    (h : (vmStep F host img vm).after? = some vm1) :
    vm1.lastError = (nextError F host img vm).or vm.lastError := by
  unfold vmStep at h
  unfold nextError
  cases hp : vm.pending with
  | some x =>
    simp [hp, VmStep.after?] at h
    subst h
    simp
  | none =>
    simp only [hp] at h ⊢
    cases hs : step F img vm.mach with
    | panic => simp [hs, VmStep.after?] at h
    | cont m =>
      simp [hs, VmStep.after?] at h
      subst h
      simp
    | stop r m =>
      simp only [hs] at h ⊢
      cases r with
      | exception pc e =>
        simp only at h ⊢
        cases hi : img.instrs[pc]? with
        | none => simp [hi, VmStep.after?] at h
        | some i =>
          simp only [hi] at h ⊢
          split at h <;> simp [VmStep.after?] at h <;> subst h <;> simp
      | upcall idx first pc => exact runUpcall_lastError h
      | _ =>
        simp [VmStep.after?] at h
        subst h
        simp

/-- The invocation of the pending upcall. -/
theorem invoke_lastError {H : Type} {host : Host H} {img : Image} {vm vm1 : Vm H}
    (h : (invokePending host img vm).after? = some vm1) :
    vm1.lastError = (pendingError host img vm).or vm.lastError := by
  unfold invokePending at h
  unfold pendingError
  cases hp : vm.pending with
  | none => simp [hp, VmStep.after?] at h
  | some x =>
    obtain ⟨idx, first, pc⟩ := x
    simp only [hp] at h ⊢
    exact runUpcall_lastError h

/-- The machine keeps the last of the errors. -/
theorem session_lastError {H : Type} {F : FloatOps} {host : Host H} {vm vm' : Vm H} {l : List (LineCol × RtErr)}
    (h : VmSession F host vm l vm') : vm'.lastError = l.getLast?.or vm.lastError := by
  have app : ∀ (o : Option (LineCol × RtErr)) (l : List (LineCol × RtErr)) (x : Option (LineCol × RtErr)),
      l.getLast?.or (o.or x) = (o.toList ++ l).getLast?.or x := by
    intro o l x
    cases o <;> cases hl : l.getLast? <;> simp [List.getLast?_append, List.getLast?_cons, hl]
  induction h with
  | refl vm => simp
  | exec img h1 _ ih => rw [ih, vmStep_lastError h1, app]
  | invoke img h1 _ ih => rw [ih, invoke_lastError h1, app]
  | interrupt img _ ih => simpa [Vm.interrupt] using ih
  | clearHandler _ ih => simpa [Vm.clearErrorHandler] using ih

/-- **C89.** Whatever is run, invoked or interrupted, in whichever order and with whichever built-in callables: if an error was
raised, `ERRMSG` is the position and the message of the last one, whether or not it was handled. -/
theorem C89_last {H : Type} {F : FloatOps} {host : Host H} {vm vm' : Vm H} {l : List (LineCol × RtErr)} {pos : LineCol}
    {e : RtErr} (msg : RtErr → Str) (h : VmSession F host vm (l ++ [(pos, e)]) vm') :
    errmsgText msg vm'.lastError =
      Nat.toDigits 10 pos.line ++ ":".toList ++ Nat.toDigits 10 pos.col ++ ": ".toList ++ msg e := by
  rw [session_lastError h]
  simp [errmsgText, showNat]

/-- **C89.** If none was raised since the machine was cleared, `ERRMSG` is empty. -/
theorem C89_none {H : Type} {F : FloatOps} {host : Host H} {vm vm' : Vm H} (msg : RtErr → Str)
    (h : VmSession F host vm.clear [] vm') : errmsgText msg vm'.lastError = [] := by
  rw [session_lastError h]
  simp [errmsgText, Vm.clear]

/-- **C89.** Without errors, `ERRMSG` stays what it was: handling an error does not forget it. -/
theorem C89_keeps {H : Type} {F : FloatOps} {host : Host H} {vm vm' : Vm H} (msg : RtErr → Str)
    (h : VmSession F host vm [] vm') : errmsgText msg vm'.lastError = errmsgText msg vm.lastError := by
  rw [session_lastError h]
  simp

/-- **C89.** After a program was stopped by an error, `ERRMSG` is the position and the message that were reported. -/
theorem C89_reported {H : Type} {F : FloatOps} {host : Host H} {img : Image} {vm vm' : Vm H} {pos : LineCol} {e : RtErr}
    (msg : RtErr → Str)
    (h : vmStep F host img vm = .stop (.exception pos e) vm' ∨ invokePending host img vm = .stop (.exception pos e) vm') :
    errmsgText msg vm'.lastError =
      Nat.toDigits 10 pos.line ++ ":".toList ++ Nat.toDigits 10 pos.col ++ ": ".toList ++ msg e := by
  have up : ∀ (v : Vm H) (idx : U16) (first : Reg) (pc : Nat),
      runUpcall host img v idx first pc = .stop (.exception pos e) vm' → vm'.lastError = some (pos, e) := by
    intro v idx first pc h
    unfold runUpcall at h
    split at h
    · cases h
    · rcases he : host.exec idx (v.mach.fp + (first.toNat - maxGlobal)) (img.argPositions pc) v.mach.regs v.mach.heap
        v.lastError img v.host with ⟨a, b, c, d⟩
      simp only [he] at h
      rcases d with ⟨p, m⟩ | u
      · cases hi : img.instrs[pc]? with
        | none => simp [hi] at h
        | some i =>
          simp only [hi] at h
          split at h
          · cases h
          · injection h with h1 h2
            injection h1 with h3 h4
            subst h2 h3 h4
            rfl
      · cases h
  have key : vm'.lastError = some (pos, e) := by
    rcases h with h | h
    · unfold vmStep at h
      cases hp : vm.pending with
      | some x => simp [hp] at h
      | none =>
        simp only [hp] at h
        cases hs : step F img vm.mach with
        | panic => simp [hs] at h
        | cont m => simp [hs] at h
        | stop r m =>
          simp only [hs] at h
          cases r with
          | exception pc e' =>
            simp only at h
            cases hi : img.instrs[pc]? with
            | none => simp [hi] at h
            | some i =>
              simp only [hi] at h
              split at h
              · cases h
              · injection h with h1 h2
                injection h1 with h3 h4
                subst h2 h3 h4
                rfl
          | upcall idx first pc => exact up _ _ _ _ h
          | _ => simp at h
    · unfold invokePending at h
      cases hp : vm.pending with
      | none => simp [hp] at h
      | some x =>
        obtain ⟨idx, first, pc⟩ := x
        simp only [hp] at h
        exact up _ _ _ _ h
  rw [key]
  simp [errmsgText, showNat]

/-- A first error that is handled, a second one that stops the program, and an interrupt: there are two errors, and `ERRMSG`
is the last one. -/
example : ∃ vm' : Vm Unit,
    VmSession noFloat noHost (exampleVm 5) ([(⟨1, 1⟩, .returnWithoutGosub)] ++ [(⟨1, 1⟩, .returnWithoutGosub)]) vm' ∧
    errmsgText (fun _ => "RETURN without GOSUB".toList) vm'.lastError = "1:1: RETURN without GOSUB".toList := by
  have h : VmSession noFloat noHost (exampleVm 5) ([(⟨1, 1⟩, .returnWithoutGosub)] ++ [(⟨1, 1⟩, .returnWithoutGosub)]) _ :=
    .exec (vm1 := (runFor handlerExample 1 (exampleVm 5)).2) handlerExample rfl
      (.exec (vm1 := (runFor handlerExample 2 (exampleVm 5)).2) handlerExample rfl
        (.exec (vm1 := ((vmStep noFloat noHost handlerExample (runFor handlerExample 2 (exampleVm 5)).2).after?).getD
            (exampleVm 5)) handlerExample rfl (.interrupt handlerExample (.refl _))))
  exact ⟨_, h, by rw [C89_last _ h]; decide +kernel⟩

/-- A cleared machine that arms a handler: `ERRMSG` is empty, and stays so. -/
example : VmSession noFloat noHost (exampleVm 5).clear [] (runFor handlerExample 1 (exampleVm 5)).2 :=
  .exec (vm1 := (runFor handlerExample 1 (exampleVm 5)).2) handlerExample rfl (.refl _)

/-- A program that is stopped by an error. -/
example : ∃ vm', vmStep noFloat noHost handlerExample (runFor handlerExample 2 (exampleVm 5)).2 =
    .stop (.exception ⟨1, 1⟩ .returnWithoutGosub) vm' := ⟨_, rfl⟩

end EB
