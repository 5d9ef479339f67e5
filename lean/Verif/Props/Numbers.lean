import Verif.Props.Stdlib
import Verif.Spec.Numbers
/-!
# C69: random numbers and angles
-/

namespace EB
open Spec

theorem console_random {O : StdOps} {st : StdState} {q : Request} : (consoleAfter O st q).random = st.random := by
  unfold consoleAfter afterInput
  repeat' split
  all_goals rfl

theorem console_degrees {O : StdOps} {st : StdState} {q : Request} : (consoleAfter O st q).degrees = st.degrees := by
  unfold consoleAfter afterInput
  repeat' split
  all_goals rfl

/-- A call that does not start the generator takes a new number or leaves it as it is. -/
theorem after_random {O : StdOps} {width : Str → Nat} {data : List (Option ConstantDatum)} {st : StdState} {e : Request × Reply}
    (h : ¬ e.1.Restarts) : (stdAfter O width data st e).random = if e.1.draws then Builtin.draw O st.random else st.random := by
  obtain ⟨q, r⟩ := e
  unfold Request.Restarts at h
  push Not at h
  obtain ⟨h1, h2⟩ := h
  simp only at h1 h2 ⊢
  by_cases hn : q.name = "RND".toList
  · have hs : (stdAfter O width data st (q, r)).random = Builtin.afterRnd O q.args st.random := by
      simp only [stdAfter, hn]
      rfl
    rw [hs]
    simp only [Request.draws, hn, decide_true, Bool.true_and]
    unfold Builtin.afterRnd
    have h2 := h2 hn
    unfold Request.integer at h2 ⊢
    split
    next n pos hq =>
      rw [hq] at h2 ⊢
      have h2 := h2 _ rfl
      simp only [decide_eq_true_eq]
      by_cases hz : n.toInt = 0
      · rw [if_pos hz, if_neg (by omega)]
      · rw [if_neg hz, if_neg (by omega), if_pos (by omega)]
    next hne =>
      split
      next n hn =>
        split at hn
        next hq => exact absurd hq (hne _ _)
        · cases hn
      · rfl
  · simp only [Request.draws, hn, decide_false, Bool.false_and, Bool.false_eq_true, if_false]
    unfold stdAfter
    simp only [if_neg h1, if_neg hn]
    repeat' split
    all_goals first
      | rfl
      | exact console_random

/-- The generator and its last number after some calls. -/
theorem random_run {O : StdOps} {width : Str → Nat} {data : List (Option ConstantDatum)} {s : Nat} :
    ∀ (between : List (Request × Reply)) (st : StdState) (k : Nat), (∀ e ∈ between, ¬ e.1.Restarts) →
    (st.random.last = nthNumber O s k ∧ ∀ j, nthNumber O st.random.state j = nthNumber O s (k + 1 + j)) →
    let st' := between.foldl (stdAfter O width data) st
    let k' := k + between.countP (·.1.draws)
    st'.random.last = nthNumber O s k' ∧ ∀ j, nthNumber O st'.random.state j = nthNumber O s (k' + 1 + j)
  | [], st, k, _, h => h
  | e :: between, st, k, hb, h => by
    have h1 := after_random (O := O) (width := width) (data := data) (st := st) (hb e List.mem_cons_self)
    simp only [List.foldl_cons, List.countP_cons]
    by_cases hd : e.1.draws = true
    · rw [if_pos hd] at h1
      have := random_run (O := O) (width := width) (data := data) (s := s) between (stdAfter O width data st e) (k + 1)
        (fun e he => hb e (List.mem_cons_of_mem _ he)) (by
          rw [h1]
          refine ⟨h.2 0, fun j => ?_⟩
          have := h.2 (j + 1)
          rw [show k + 1 + (j + 1) = k + 1 + 1 + j by omega] at this
          exact this)
      simp only [hd, if_true] at this ⊢
      rw [show k + (List.countP (fun x => x.1.draws) between + 1) = k + 1 + List.countP (fun x => x.1.draws) between by omega]
      exact this
    · rw [if_neg hd] at h1
      have := random_run (O := O) (width := width) (data := data) (s := s) between (stdAfter O width data st e) k
        (fun e he => hb e (List.mem_cons_of_mem _ he)) (by rw [h1]; exact h)
      simp only [hd, Bool.false_eq_true, if_false] at this ⊢
      exact this

/-- The generator after a call that starts it with a seed. -/
theorem after_seed {O : StdOps} {width : Str → Nat} {data : List (Option ConstantDatum)} {st : StdState} {e : Request × Reply} {n : Int}
    (h : e.1.Seeds n) : ∃ m : I32, m.toInt = n ∧ (stdAfter O width data st e).random = Builtin.seeded O m st.random := by
  obtain ⟨q, r⟩ := e
  obtain ⟨h1, h2⟩ := h
  unfold Request.integer at h1
  simp only at h1 h2
  split at h1
  next m pos hq =>
    cases h1
    refine ⟨m, rfl, ?_⟩
    rcases h2 with h2 | ⟨h2, h3⟩
    · simp only [stdAfter, h2]
      rw [show Builtin.seeded O m st.random = Builtin.afterRandomize O q.args st.random by rw [hq]; rfl]
      rfl
    · have : (stdAfter O width data st (q, r)).random = Builtin.afterRnd O q.args st.random := by
        simp only [stdAfter, h2]
        rfl
      rw [this, hq]
      unfold Builtin.afterRnd
      simp only
      rw [if_neg (by omega), if_pos h3]
  · cases h1

theorem lib_rnd {O : StdOps} {width : Str → Nat} {data : List (Option ConstantDatum)} {l : Log} {room : Nat} {q : Request}
    (hname : q.name = "RND".toList) (hret : q.ret = some .double) (hargs : Builtin.NoneOrInteger q.args) :
    stdLib O width data l room q =
      gives room (fraction O (Builtin.afterRnd O q.args (stdState O width data l.events).random).last) := by
  unfold stdLib
  have hm : (stdMeanings O data).find? (·.1 = "RND".toList) = some ("RND".toList, Builtin.rnd O) := rfl
  rw [hname, hm]
  simp only [Option.bind_some, Builtin.rnd]
  rw [if_pos ⟨hret, hargs⟩]
  rfl

/-- **C69** Random numbers can be repeated: after the generator was started with a seed, whatever happened before and whatever
other callables are called, the numbers that `RND` gives are those of the generator with that seed, one after the other; `RND`
with 0 gives the last of them again. -/
theorem C69_random (O : StdOps) (data : List (Option ConstantDatum)) (l : Log) (room : Nat) (q : Request) {seed : Int}
    {before between : List (Request × Reply)} {e : Request × Reply} (hl : l.events = before ++ e :: between)
    (he : e.1.Seeds seed) (hb : ∀ e ∈ between, ¬ e.1.Restarts) (hname : q.name = "RND".toList) (hret : q.ret = some .double)
    (hargs : q.args = [] ∨ ∃ n pos, q.args = [(.val (.int n), pos)] ∧ 0 ≤ n.toInt) :
    stdLib O byteLen data l room q = gives room (fraction O (nthNumber O (O.rngSeed (BitVec.ofInt 64 seed))
      (between.countP (·.1.draws) + (if q.draws then 1 else 0)))) := by
  have hok : Builtin.NoneOrInteger q.args := by
    rcases hargs with h | ⟨n, pos, h, _⟩
    · exact .inl (by rw [h]; rfl)
    · exact .inr (by rw [h]; rfl)
  rw [lib_rnd hname hret hok]
  obtain ⟨m, hm, hs⟩ := after_seed (O := O) (width := byteLen) (data := data) (st := stdState O byteLen data before) he
  have hrun := random_run (O := O) (width := byteLen) (data := data) (s := O.rngSeed (BitVec.ofInt 64 seed)) between
    (stdAfter O byteLen data (stdState O byteLen data before) e) 0 hb (by
      rw [hs, ← hm]
      exact ⟨rfl, fun j => by rw [show 0 + 1 + j = j + 1 by omega]; rfl⟩)
  simp only at hrun
  have hst : stdState O byteLen data l.events = between.foldl (stdAfter O byteLen data) (stdAfter O byteLen data (stdState O byteLen data before) e) := by
    unfold stdState
    rw [hl, List.foldl_append, List.foldl_cons]
  rw [← hst, Nat.zero_add] at hrun
  obtain ⟨h1, h2⟩ := hrun
  have key : (Builtin.afterRnd O q.args (stdState O byteLen data l.events).random).last =
      if q.draws then nthNumber O (stdState O byteLen data l.events).random.state 0 else (stdState O byteLen data l.events).random.last := by
    unfold Request.draws Request.integer
    rcases hargs with h | ⟨n, pos, h, hn⟩
    · simp only [h, hname, decide_true, Bool.true_and, if_true]
      rfl
    · simp only [h, hname, decide_true, Bool.true_and, Builtin.afterRnd, decide_eq_true_eq]
      by_cases hz : n.toInt = 0
      · rw [if_pos hz, if_neg (by omega)]
      · rw [if_neg hz, if_neg (by omega), if_pos (by omega)]
        rfl
  rw [key]
  by_cases hd : q.draws = true
  · rw [if_pos hd, if_pos hd, h2 0]
  · rw [if_neg hd, if_neg hd, h1]
    rfl

/-- A call for the examples. -/
def Ex.call (name : String) (ret : Option ExprType) (args : List Val) : Request :=
  ⟨name.toList, ret, args.map fun v => (.val v, ⟨1, 1⟩), args.map fun _ => none⟩

/-- `RANDOMIZE 5`, `RND`, `DEG`, `RND(0)`, `RND(3)` and then `RND`: the numbers are 5, 12, 19, 26. -/
example : (stdLib Ex.ops byteLen [] ⟨[(Ex.call "RND" (some .double) [], ⟨.ok none, [], 0⟩), (Ex.call "RANDOMIZE" none [.int 5], ⟨.ok none, [], 0⟩),
      (Ex.call "RND" (some .double) [], ⟨.ok none, [], 0⟩), (Ex.call "DEG" none [], ⟨.ok none, [], 0⟩),
      (Ex.call "RND" (some .double) [.int 0], ⟨.ok none, [], 0⟩), (Ex.call "RND" (some .double) [.int 3], ⟨.ok none, [], 0⟩)], none⟩ 0
      (Ex.call "RND" (some .double) [])).result.toOption = some (some (.dbl 26)) ∧
    (Ex.call "RANDOMIZE" none [.int 5]).Seeds 5 ∧ ¬ (Ex.call "RND" (some .double) [.int 3]).Restarts := by
  refine ⟨by decide +kernel, ⟨rfl, .inl rfl⟩, ?_⟩
  rintro (h | ⟨_, n, h1, h2⟩)
  · exact absurd h (by decide)
  · cases h1
    exact absurd h2 (by decide)

/-- The unit of angles after some calls. -/
theorem degrees_run {O : StdOps} {width : Str → Nat} {data : List (Option ConstantDatum)} :
    ∀ (between : List (Request × Reply)) (st : StdState), (∀ e ∈ between, e.1.name ≠ "DEG".toList ∧ e.1.name ≠ "RAD".toList) →
    (between.foldl (stdAfter O width data) st).degrees = st.degrees
  | [], _, _ => rfl
  | e :: between, st, hb => by
    rw [List.foldl_cons, degrees_run between _ fun e he => hb e (List.mem_cons_of_mem _ he)]
    obtain ⟨h1, h2⟩ := hb e List.mem_cons_self
    unfold stdAfter
    simp only [if_neg h1, if_neg h2]
    repeat' split
    all_goals first
      | rfl
      | exact console_degrees

/-- **C69** Angles are in degrees after `DEG` and in radians after `RAD`, and in radians before any of them, whatever other
callables are called. -/
theorem C69_angles (O : StdOps) (data : List (Option ConstantDatum)) (l : Log) (room : Nat) (q : Request) (d : BitVec 64) (pos : LineCol)
    (hret : q.ret = some .double) (hargs : q.args = [(.val (.dbl d), pos)]) {before between : List (Request × Reply)}
    (hb : ∀ e ∈ between, e.1.name ≠ "DEG".toList ∧ e.1.name ≠ "RAD".toList) (f : BitVec 64 → BitVec 64)
    (hf : (q.name, f) ∈ [("SIN".toList, O.sin), ("COS".toList, O.cos), ("TAN".toList, O.tan)]) :
    (∀ e, l.events = before ++ e :: between → e.1.name = "DEG".toList →
      stdLib O byteLen data l room q = gives room (.dbl (f (O.toRadians d)))) ∧
    (∀ e, l.events = before ++ e :: between → e.1.name = "RAD".toList → stdLib O byteLen data l room q = gives room (.dbl (f d))) ∧
    (l.events = between → stdLib O byteLen data l room q = gives room (.dbl (f d))) := by
  have main : stdLib O byteLen data l room q =
      gives room (.dbl (f (if (stdState O byteLen data l.events).degrees then O.toRadians d else d))) := by
    have hm : (stdMeanings O data).find? (·.1 = q.name) = some (q.name, functionIn .double fun st => Builtin.ofDouble fun d =>
        .ok (.dbl (f (Builtin.inRadians O st d)))) := by
      simp only [List.mem_cons, Prod.mk.injEq, List.not_mem_nil, or_false] at hf
      rcases hf with ⟨h, rfl⟩ | ⟨h, rfl⟩ | ⟨h, rfl⟩ <;> (rw [h]; rfl)
    unfold stdLib
    rw [hm]
    simp only [Option.bind_some, functionIn, function]
    rw [if_pos hret, hargs]
    simp only [values, Option.map_some, Option.bind_some, Builtin.ofDouble, Option.getD_some, Builtin.inRadians]
    cases (stdState O byteLen data l.events).degrees <;> rfl
  have after : ∀ e, l.events = before ++ e :: between → (stdState O byteLen data l.events).degrees =
      (stdAfter O byteLen data (stdState O byteLen data before) e).degrees := by
    intro e h
    unfold stdState
    rw [h, List.foldl_append, List.foldl_cons, degrees_run _ _ hb]
  refine ⟨fun e h hn => ?_, fun e h hn => ?_, fun h => ?_⟩
  · rw [main, after e h, show (stdAfter O byteLen data (stdState O byteLen data before) e).degrees = true by simp only [stdAfter, hn]; rfl]
    rfl
  · rw [main, after e h, show (stdAfter O byteLen data (stdState O byteLen data before) e).degrees = false by simp only [stdAfter, hn]; rfl]
    rfl
  · rw [main, show (stdState O byteLen data l.events).degrees = false by
      unfold stdState
      rw [h, degrees_run _ _ hb]]
    rfl

example : (stdLib Ex.ops byteLen [] ⟨[(Ex.call "DEG" none [], ⟨.ok none, [], 0⟩), (Ex.call "PI" (some .double) [], ⟨.ok none, [], 0⟩)], none⟩ 0
      (Ex.call "SIN" (some .double) [.dbl 8])).result.toOption = some (some (.dbl 9)) := by decide +kernel

/-- A program with numbers. -/
def Ex.sums : String := "RANDOMIZE 5
PRINT INT(RND(1)); SGN(-2.5); CINT(1.5)
DEG
s = SIN(8.5)
ON ERROR RESUME NEXT
PRINT SQR(-1.5)
PRINT ROUND(PI, 2); RND(0) = s"

/-- What is left when it has ended. -/
def Ex.sumsState : StdState :=
  ⟨[.line " 0  0  0".toList, .line " 0.5".toList, .line " 0.5 FALSE".toList], 0, true, ⟨19, 12, 1⟩, 0, 0⟩

set_option maxRecDepth 100000 in
/-- The interpreter and the machine agree. -/
example : (Ex.text Ex.sums).err = none ∧
    (match run Ex.noFloat 50 50 (stdLib Ex.ops byteLen (Stmts.items (Ex.text Ex.sums).stmts)) (builtins stdTable)
        (Ex.text Ex.sums).stmts (fresh 50) with
    | .done w => stdState Ex.ops byteLen (Stmts.items (Ex.text Ex.sums).stmts) w.log.events == Ex.sumsState
    | _ => false) = true ∧
    (match compileProgram stdTable [] (Ex.text Ex.sums) with
    | .ok img =>
      let vm := Ex.driveStd img 1000 (Vm.start 50 50 (StdState.start Ex.ops))
      img.code[vm.mach.pc]? == some .eof && vm.host == Ex.sumsState
    | .error _ => false) = true := by
  refine ⟨?_, ?_, ?_⟩ <;> decide +kernel

end EB
