import Verif.Lemmas.SimProg
/-!
# How programs stop

The machine is deterministic, so it stops in one way only; and it takes as many steps as the interpreter was given rounds
if the interpreter has not come to an end.  So the machine stops as the interpreter says, and never if the interpreter
does not come to an end.
-/

namespace EB
open Spec

section
variable {H : Type} {F : FloatOps} {host : Host H} {img : Image}

/-- One step of `ReachesIn`. -/
def next? (F : FloatOps) (host : Host H) (img : Image) (vm : Vm H) : Option (Vm H) :=
  match vmStep F host img vm with
  | .cont vm1 => some vm1
  | .stop .yield vm1 => some vm1
  | .stop .upcallAsync vm1 =>
    match invokePending host img vm1 with
    | .cont vm2 => some vm2
    | _ => none
  | _ => none

theorem reachesIn_succ {n : Nat} {a c : Vm H} (h : ReachesIn F host img (n + 1) a c) :
    ∃ b, next? F host img a = some b ∧ ReachesIn F host img n b c := by
  cases h with
  | cont h1 h2 => exact ⟨_, by simp [next?, h1], h2⟩
  | yield h1 h2 => exact ⟨_, by simp [next?, h1], h2⟩
  | async h1 h2 h3 => exact ⟨_, by simp [next?, h1, h2], h3⟩

theorem reachesIn_zero {a c : Vm H} (h : ReachesIn F host img 0 a c) : c = a := by
  cases h; rfl

theorem next_reaches {a b : Vm H} (h : next? F host img a = some b) : ReachesIn F host img 1 a b := by
  unfold next? at h
  split at h
  next h1 => cases h; exact .cont h1 (.refl _)
  next h1 => cases h; exact .yield h1 (.refl _)
  next h1 =>
    split at h
    next h2 => cases h; exact .async h1 h2 (.refl _)
    · cases h
  · cases h

/-- A machine that stops makes no step. -/
theorem Spec.Stops.last {vm : Vm H} : ∀ {o : Finale}, Stops F host img vm o → next? F host img vm = none
  | .finished, ⟨_, h⟩ => by simp [next?, h]
  | .ended _, ⟨_, _, h, _⟩ => by simp [next?, h]
  | .failed .., ⟨_, h⟩ => by
    rcases h with h | ⟨vm1, h, h'⟩
    · simp [next?, h]
    · simp [next?, h, h']
  | .crashed, h => by
    rcases h with h | ⟨vm1, h, h'⟩
    · simp [next?, h]
    · simp [next?, h, h']

/-- How it stops. -/
def stop? (F : FloatOps) (host : Host H) (img : Image) (vm : Vm H) : Option Finale :=
  match vmStep F host img vm with
  | .panic => some .crashed
  | .stop .eof _ => some .finished
  | .stop (.end c) _ => some (.ended c.toNat)
  | .stop (.exception pos e) _ => some (.failed pos e)
  | .stop .upcallAsync vm1 =>
    match invokePending host img vm1 with
    | .panic => some .crashed
    | .stop (.exception pos e) _ => some (.failed pos e)
    | _ => none
  | _ => none

theorem stops_stop {vm : Vm H} : ∀ {o : Finale}, Stops F host img vm o → stop? F host img vm = some o
  | .finished, ⟨_, h⟩ => by simp [stop?, h]
  | .ended _, ⟨_, _, h, hc⟩ => by simp [stop?, h, hc]
  | .failed .., ⟨_, h⟩ => by
    rcases h with h | ⟨vm1, h, h'⟩
    · simp [stop?, h]
    · simp [stop?, h, h']
  | .crashed, h => by
    rcases h with h | ⟨vm1, h, h'⟩
    · simp [stop?, h]
    · simp [stop?, h, h']

theorem Spec.Stops.unique {vm : Vm H} {o o' : Finale} (h : Stops F host img vm o) (h' : Stops F host img vm o') : o = o' := by
  have := stops_stop h
  rw [stops_stop h'] at this
  exact (Option.some.inj this).symm

/-- It is the last that is reached. -/
theorem stops_last {j k : Nat} {a b c : Vm H} {o : Finale} (h : ReachesIn F host img j a b) (hs : Stops F host img b o)
    (h' : ReachesIn F host img k a c) : k ≤ j := by
  induction j generalizing a k with
  | zero =>
    cases reachesIn_zero h
    cases k with
    | zero => exact Nat.le_refl _
    | succ k =>
      obtain ⟨_, h1, _⟩ := reachesIn_succ h'
      rw [hs.last] at h1
      cases h1
  | succ j ih =>
    cases k with
    | zero => exact Nat.zero_le _
    | succ k =>
      obtain ⟨b1, h1, h2⟩ := reachesIn_succ h
      obtain ⟨b2, h3, h4⟩ := reachesIn_succ h'
      rw [h1] at h3
      cases h3
      exact Nat.succ_le_succ (ih h2 h4)

theorem reachesIn_unique {j : Nat} {a b c : Vm H} (h : ReachesIn F host img j a b) (h' : ReachesIn F host img j a c) : b = c := by
  induction j generalizing a with
  | zero => rw [reachesIn_zero h, reachesIn_zero h']
  | succ j ih =>
    obtain ⟨b1, h1, h2⟩ := reachesIn_succ h
    obtain ⟨b2, h3, h4⟩ := reachesIn_succ h'
    rw [h1] at h3
    cases h3
    exact ih h2 h4

/-- The machine stops in one way only. -/
theorem outcome_unique {a b c : Vm H} {o o' : Finale} (h : Reaches F host img a b) (hs : Stops F host img b o)
    (h' : Reaches F host img a c) (hs' : Stops F host img c o') : o = o' ∧ b = c := by
  obtain ⟨j, h⟩ := h.in
  obtain ⟨k, h'⟩ := h'.in
  have := stops_last h hs h'
  have := stops_last h' hs' h
  obtain rfl : j = k := by omega
  cases reachesIn_unique h h'
  exact ⟨hs.unique hs', rfl⟩

/-- What was reached on the way. -/
theorem reachesIn_less {n k : Nat} {a c : Vm H} (h : ReachesIn F host img n a c) (hk : k ≤ n) : ∃ b, ReachesIn F host img k a b := by
  induction k generalizing n a with
  | zero => exact ⟨a, .refl _⟩
  | succ k ih =>
    obtain ⟨n, rfl⟩ := Nat.exists_eq_succ_of_ne_zero (n := n) (by omega)
    obtain ⟨b1, h1, h2⟩ := reachesIn_succ h
    obtain ⟨b, hb⟩ := ih h2 (by omega)
    have := (next_reaches h1).trans hb
    rw [Nat.add_comm] at this
    exact ⟨b, this⟩

end

section
variable {H : Type} {F : FloatOps} {host : Host H} {lib : Lib} {state : List (Request × Reply) → H}
  {up : FMap Str Md} {src : Source} {img : Image} (hup : ∀ k md, up.get? k = some md → md.userDefined = false)
  (h : compileProgram up [] src = .ok img) (hprov : Provides host img lib state) {maxStack maxHeap : Nat} (hmax : maxStack ≤ 2 ^ 24)
include hup h hprov hmax

/-- The machine stops as the interpreter says. -/
theorem stops_of_outcome {n : Nat} {o : Finale}
    (ho : (run F n maxStack lib (builtins up) src.stmts (fresh maxHeap)).outcome = some o) :
    ∃ vm, Reaches F host img (Vm.start maxStack maxHeap (state [])) vm ∧ Stops F host img vm o := by
  have hp := sim_program (F := F) hup h hprov n maxStack maxHeap hmax
  cases hr : run F n maxStack lib (builtins up) src.stmts (fresh maxHeap) with
  | done w =>
    rw [hr] at hp ho; cases ho
    obtain ⟨vm, h1, h2, _⟩ := hp
    exact ⟨vm, h1, vm, h2⟩
  | ended code w =>
    rw [hr] at hp ho; cases ho
    obtain ⟨vm, h1, h2, _⟩ := hp
    exact ⟨vm, h1, h2⟩
  | err pos e w =>
    rw [hr] at hp ho; cases ho
    obtain ⟨vm, vm', h1, h2, _⟩ := hp
    exact ⟨vm, h1, vm', h2⟩
  | _ => rw [hr] at ho; cases ho

/-- If the machine has stopped after some steps, the interpreter has come to an end after that many rounds, or gives no
meaning to the program. -/
theorem outcome_of_stops {j : Nat} {vm : Vm H} {o : Finale} (hr : ReachesIn F host img j (Vm.start maxStack maxHeap (state [])) vm)
    (hs : Stops F host img vm o) (hne : run F (j + 1) maxStack lib (builtins up) src.stmts (fresh maxHeap) ≠ .stuck) :
    (run F (j + 1) maxStack lib (builtins up) src.stmts (fresh maxHeap)).outcome = some o := by
  obtain ⟨hp, hg⟩ := sim_program_counted (F := F) hup h hprov (j + 1) maxStack maxHeap hmax
  have hq := fun o' => stops_of_outcome (F := F) hup h hprov hmax (maxHeap := maxHeap) (n := j + 1) (o := o')
  revert hne hp hg hq
  generalize run F (j + 1) maxStack lib (builtins up) src.stmts (fresh maxHeap) = r
  intro hne hp hg hq
  have fin : ∀ {o'}, r.outcome = some o' → r.outcome = some o := by
    intro o' ho
    obtain ⟨vm', h1, h2⟩ := hq _ ho
    rw [ho, (outcome_unique h1 h2 hr.reaches hs).1]
  cases r with
  | done w => exact fin rfl
  | ended code w => exact fin rfl
  | err pos e w => exact fin rfl
  | going l =>
    obtain ⟨k, vm', hk, h1, _⟩ := hg l rfl
    have := stops_last hr hs h1
    omega
  | stuck => exact absurd rfl hne
  | _ => exact hp.elim

/-- … never, if the interpreter does not come to an end. -/
theorem goes_on_of_going {n : Nat} {l : Log} (hg : run F n maxStack lib (builtins up) src.stmts (fresh maxHeap) = .going l) :
    ∃ vm, ReachesIn F host img n (Vm.start maxStack maxHeap (state [])) vm := by
  obtain ⟨k, vm', hk, h1, _⟩ := (sim_program_counted (F := F) hup h hprov n maxStack maxHeap hmax).2 l hg
  exact reachesIn_less h1 hk

end

end EB
