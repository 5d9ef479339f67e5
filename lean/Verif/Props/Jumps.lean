import Verif.Props.Calls
/-!
# C56: GOTO, GOSUB, RETURN and ON ERROR GOTO in programs

`program_partial` says that compiled programs do what the interpreter of `Spec.Exec` says; that covers jumps to labels
anywhere in the program or, from a function or subroutine, anywhere in its body.  The theorems here say what the
interpreter does with jumps to labels that do not stand in a block, and transfer that to compiled programs.
-/

namespace EB
open Spec

/-- What statements do from a label on that stands between the statements `pre` and `post`: the statements `post`, with
what is declared there. -/
theorem fromStmts_at {F : FloatOps} {n : Nat} {cl : Calls} {k : Str} {name : Str} {pos : LineCol} (hk : symKey name = k) {post : List Stmt} {w : World} :
    ∀ (pre : List Stmt) (Γ : Env), hasLabels k (Stmts.ofList pre) = false →
    fromStmts F n cl Γ k (Stmts.ofList (pre ++ .label name pos :: post)) w =
      execStmts F n cl (afterStmts Γ (Stmts.ofList pre)) (Stmts.ofList post) (forget (afterStmts Γ (Stmts.ofList pre)) w) := by
  intro pre
  induction pre with
  | nil =>
    intro Γ _
    show fromStmts F n cl Γ k (.cons (.label name pos) (Stmts.ofList post)) w = _
    simp only [fromStmts]
    rw [if_pos (by simp [hasLabel, hk])]
    simp only [fromStmt]
    rfl
  | cons s pre ih =>
    intro Γ h
    have h : (hasLabel k s || hasLabels k (Stmts.ofList pre)) = false := h
    rw [Bool.or_eq_false_iff] at h
    show fromStmts F n cl Γ k (.cons s (Stmts.ofList (pre ++ .label name pos :: post))) w = _
    simp only [fromStmts]
    rw [if_neg (by rw [h.1]; exact Bool.false_ne_true), ih _ h.2]
    rfl

/-- **C56** After `GOTO label` the statements behind the label run, in the state in which the `GOTO` was reached (variables
that are only declared behind the label are not known to have a value). -/
theorem C56_goto {F : FloatOps} {n j : Nat} {cl : Calls} {Γ Γ0 : Env} {w : World} {label name : Str} {pos lpos : LineCol}
    {lpre lpost : List Stmt} (hk : symKey name = symKey label) (hno : hasLabels (symKey label) (Stmts.ofList lpre) = false) {Γl : Env}
    (hΓl : Γl = afterStmts Γ0 (Stmts.ofList lpre)) {ss : Stmts} (hss : ss = Stmts.ofList (lpre ++ .label name lpos :: lpost)) :
    follow F n cl Γ0 ss (j + 1) (execStmt F n cl Γ (.goto label pos) w) =
      follow F n cl Γ0 ss j (execStmts F n cl Γl (Stmts.ofList lpost) (forget Γl w)) := by
  subst hss
  show follow F n cl Γ0 _ j (fromStmts F n cl Γ0 (symKey label) _ w) = _
  rw [fromStmts_at hk lpre Γ0 hno, ← hΓl]

/-- **C56** The compiled program: after the statements before a `GOTO` at the top level the machine does what the
statements behind the label do, with `n` more jumps being watched.  (`GOTO` inside of blocks, labels inside of blocks:
`program_partial`.)  Missing: jumps between the program and the bodies of callables, and what `program_partial` leaves
out. -/
theorem C56_goto_partial {H : Type} {up : FMap Str Md} (hup : ∀ k md, up.get? k = some md → md.userDefined = false)
    {pre post lpre lpost : List Stmt} {label name : Str} {pos lpos : LineCol} {ss : Stmts} (hss : ss = Stmts.ofList (pre ++ .goto label pos :: post))
    (hls : ss = Stmts.ofList (lpre ++ .label name lpos :: lpost)) (hk : symKey name = symKey label)
    (hno : hasLabels (symKey label) (Stmts.ofList lpre) = false) {img : Image} (h : compileProgram up [] ⟨ss, none⟩ = .ok img)
    (F : FloatOps) {host : Host H} {lib : Lib} {state : List (Request × Reply) → H} (hprov : Provides host img lib state)
    (n maxStack maxHeap : Nat) (hmax : maxStack ≤ 2 ^ 24) {cl : Calls} (hcl : cl = callsOf F (n + 1) maxStack lib (builtins up) ss) {w : World}
    (hpre : execStmts F (n + 1) cl (builtins up) (Stmts.ofList pre) (fresh maxHeap) = .done w) {Γl : Env}
    (hΓl : Γl = afterStmts (builtins up) (Stmts.ofList lpre)) :
    Follows F host state img (afterStmts (builtins up) ss) (Vm.start maxStack maxHeap (state []))
      (follow F (n + 1) cl (builtins up) ss n (execStmts F (n + 1) cl Γl (Stmts.ofList lpost) (forget Γl w))) := by
  have := program_at_partial hup hss h F hprov (n + 1) maxStack maxHeap hmax hcl rfl hpre
  rw [← C56_goto (n := n + 1) (Γ := afterStmts (builtins up) (Stmts.ofList pre)) (pos := pos) hk hno hΓl hls]
  exact this

/-- **C56** `GOSUB label`, if the call stack has room for `d + 1` more calls, runs the statements behind the label, with
room for `d` more calls.  When they come to a `RETURN` the `GOSUB` is done, in that state; an error, or `END`, there is
an error, or `END`, of the `GOSUB`. -/
theorem C56_gosub {F : FloatOps} {n d : Nat} {lib : Lib} {defs : Str → Option Def} {b : Bool} {Γ Γ0 : Env} {w : World} {label name : Str}
    {pos lpos : LineCol} {lpre lpost : List Stmt} (hk : symKey name = symKey label)
    (hno : hasLabels (symKey label) (Stmts.ofList lpre) = false) {Γl : Env} (hΓl : Γl = afterStmts Γ0 (Stmts.ofList lpre)) {ss : Stmts}
    (hss : ss = Stmts.ofList (lpre ++ .label name lpos :: lpost)) {cl : Calls} (hcl : cl = callsAt F n lib defs d true Γ0 ss) {r : Res}
    (hr : follow F n cl Γ0 ss n (execStmts F n cl Γl (Stmts.ofList lpost) (forget Γl w)) = r) :
    (∀ w1, r = .back w1 → execStmt F n (callsAt F n lib defs (d + 1) b Γ0 ss) Γ (.gosub label pos) w = .done (forget Γ w1)) ∧
    (∀ p e w1, r = .err p e w1 → execStmt F n (callsAt F n lib defs (d + 1) b Γ0 ss) Γ (.gosub label pos) w = .err p e (forget Γ w1)) ∧
    (∀ code w1, r = .ended code w1 →
      execStmt F n (callsAt F n lib defs (d + 1) b Γ0 ss) Γ (.gosub label pos) w = .ended code (forget Γ w1)) := by
  have e : execStmt F n (callsAt F n lib defs (d + 1) b Γ0 ss) Γ (.gosub label pos) w =
      (((gosubResult r).forget Γ).then fun _ w => .done w) := by
    rw [← hr, hΓl, ← fromStmts_at (pos := lpos) hk lpre Γ0 hno, ← hss, hcl]
    rfl
  rw [e]
  refine ⟨fun w1 h => ?_, fun p e w1 h => ?_, fun code w1 h => ?_⟩ <;> (rw [h]; rfl)

/-- **C56** `RETURN` in the statements behind a label that a `GOSUB` has gone to, or in the body of a callable, ends
that; elsewhere it is an error. -/
theorem C56_return {F : FloatOps} {n d : Nat} {lib : Lib} {defs : Str → Option Def} {b : Bool} {Γ Γ0 : Env} {w : World} {ss : Stmts}
    {pos : LineCol} : execStmt F n (callsAt F n lib defs d b Γ0 ss) Γ (.ret pos) w =
      if b then .back w else .err pos .returnWithoutGosub w := by
  cases d <;> rfl

/-- **C56** A `GOSUB` that does not fit in the call stack is an error. -/
theorem C56_gosub_full {F : FloatOps} {n : Nat} {lib : Lib} {defs : Str → Option Def} {b : Bool} {Γ Γ0 : Env} {w : World} {ss : Stmts}
    {label : Str} {pos : LineCol} :
    execStmt F n (callsAt F n lib defs 0 b Γ0 ss) Γ (.gosub label pos) w = .err pos .outOfCallStack (forget Γ w) := rfl

/-- **C56** The compiled program: if the statements behind the label come to a `RETURN`, the machine then goes on behind
the `GOSUB`.  (Other places: `program_partial` with `C56_gosub`.)  Missing: as for `C56_goto_partial`, and `GOSUB`s that
come to the end of the program or leave the callable instead of returning. -/
theorem C56_gosub_partial {H : Type} {up : FMap Str Md} (hup : ∀ k md, up.get? k = some md → md.userDefined = false)
    {pre post lpre lpost : List Stmt} {label name : Str} {pos lpos : LineCol} {ss : Stmts} (hss : ss = Stmts.ofList (pre ++ .gosub label pos :: post))
    (hls : ss = Stmts.ofList (lpre ++ .label name lpos :: lpost)) (hk : symKey name = symKey label)
    (hno : hasLabels (symKey label) (Stmts.ofList lpre) = false) {img : Image} (h : compileProgram up [] ⟨ss, none⟩ = .ok img)
    (F : FloatOps) {host : Host H} {lib : Lib} {state : List (Request × Reply) → H} (hprov : Provides host img lib state)
    (n maxStack maxHeap : Nat) (hmax : maxStack + 1 ≤ 2 ^ 24) {cl : Calls} (hcl : cl = callsOf F n (maxStack + 1) lib (builtins up) ss)
    {Γ : Env} (hΓ : Γ = afterStmts (builtins up) (Stmts.ofList pre)) {w w1 : World}
    (hpre : execStmts F n cl (builtins up) (Stmts.ofList pre) (fresh maxHeap) = .done w) {Γl : Env}
    (hΓl : Γl = afterStmts (builtins up) (Stmts.ofList lpre)) {cl1 : Calls}
    (hcl1 : cl1 = callsAt F n lib (fun k => findDef k (defsStmts (builtins up) ss)) maxStack true (builtins up) ss)
    (hr : follow F n cl1 (builtins up) ss n (execStmts F n cl1 Γl (Stmts.ofList lpost) (forget Γl w)) = .back w1) :
    Follows F host state img (afterStmts (builtins up) ss) (Vm.start (maxStack + 1) maxHeap (state []))
      (follow F n cl (builtins up) ss n (execStmts F n cl Γ (Stmts.ofList post) (forget Γ w1))) := by
  have := program_at_partial hup hss h F hprov n (maxStack + 1) maxHeap hmax hcl hΓ hpre
  rw [hcl] at this ⊢
  rw [show execStmt F n (callsOf F n (maxStack + 1) lib (builtins up) ss) Γ (.gosub label pos) w = .done (forget Γ w1) from
    (C56_gosub hk hno hΓl hls hcl1 hr).1 _ rfl] at this
  exact this

/-- **C56** After `ON ERROR GOTO label`, when a statement fails while no error is being handled, the statements behind the
label run, in the state that the failing statement has left; `ERRMSG` and the like see the error, and the next error
is not handled. -/
theorem C56_handler {F : FloatOps} {n j : Nat} {cl : Calls} {Γ Γ0 : Env} {s : Stmt} {rest : Stmts} {w w1 : World} {pos lpos : LineCol} {e : RtErr}
    {k name : Str} {lpre lpost : List Stmt} (hf : execStmt F n cl Γ s w = .err pos e w1) (htrap : w1.trap = .jump k false)
    (hk : symKey name = k) (hno : hasLabels k (Stmts.ofList lpre) = false) {Γl : Env} (hΓl : Γl = afterStmts Γ0 (Stmts.ofList lpre)) {ss : Stmts}
    (hss : ss = Stmts.ofList (lpre ++ .label name lpos :: lpost)) :
    follow F n cl Γ0 ss (j + 1) (execStmts F n cl Γ (.cons s rest) w) =
      follow F n cl Γ0 ss j (execStmts F n cl Γl (Stmts.ofList lpost)
        (forget Γl { w1 with trap := .jump k true, log := { w1.log with lastError := some (pos, e) } })) := by
  have e1 : execStmts F n cl Γ (.cons s rest) w = .jump k (w1.handled pos e) := by
    show recover s rest _ (execStmt F n cl Γ s w) = _
    rw [hf]
    simp [recover, htrap]
  have e2 : w1.handled pos e = { w1 with trap := .jump k true, log := { w1.log with lastError := some (pos, e) } } := by
    simp [World.handled, htrap]
  rw [e1, e2]
  subst hss
  show follow F n cl Γ0 _ j (fromStmts F n cl Γ0 k _ _) = _
  rw [fromStmts_at hk lpre Γ0 hno, ← hΓl]

/-- **C56** An error while an error is being handled stops the program with it. -/
theorem C56_second_error {F : FloatOps} {n : Nat} {cl : Calls} {Γ : Env} {s : Stmt} {rest : Stmts} {w w1 : World} {pos : LineCol} {e : RtErr}
    {k : Str} (hf : execStmt F n cl Γ s w = .err pos e w1) (htrap : w1.trap = .jump k true) :
    execStmts F n cl Γ (.cons s rest) w = .err pos e w1 := by
  show recover s rest _ (execStmt F n cl Γ s w) = _
  rw [hf]
  simp [recover, htrap]

/-- **C56** The compiled program: after a failing statement the machine goes on behind the label.  Missing: as for
`C56_goto_partial`. -/
theorem C56_handler_partial {H : Type} {up : FMap Str Md} (hup : ∀ k md, up.get? k = some md → md.userDefined = false)
    {pre post lpre lpost : List Stmt} {s : Stmt} {k name : Str} {pos lpos : LineCol} {ss : Stmts} (hss : ss = Stmts.ofList (pre ++ s :: post))
    (hls : ss = Stmts.ofList (lpre ++ .label name lpos :: lpost)) (hk : symKey name = k)
    (hno : hasLabels k (Stmts.ofList lpre) = false) {img : Image} (h : compileProgram up [] ⟨ss, none⟩ = .ok img)
    (F : FloatOps) {host : Host H} {lib : Lib} {state : List (Request × Reply) → H} (hprov : Provides host img lib state)
    (n maxStack maxHeap : Nat) (hmax : maxStack ≤ 2 ^ 24) {cl : Calls} (hcl : cl = callsOf F (n + 1) maxStack lib (builtins up) ss)
    {Γ : Env} (hΓ : Γ = afterStmts (builtins up) (Stmts.ofList pre)) {w w1 : World} {e : RtErr}
    (hpre : execStmts F (n + 1) cl (builtins up) (Stmts.ofList pre) (fresh maxHeap) = .done w)
    (hf : execStmt F (n + 1) cl Γ s w = .err pos e w1) (htrap : w1.trap = .jump k false) {Γl : Env}
    (hΓl : Γl = afterStmts (builtins up) (Stmts.ofList lpre)) :
    Follows F host state img (afterStmts (builtins up) ss) (Vm.start maxStack maxHeap (state []))
      (follow F (n + 1) cl (builtins up) ss n (execStmts F (n + 1) cl Γl (Stmts.ofList lpost)
        (forget Γl { w1 with trap := .jump k true, log := { w1.log with lastError := some (pos, e) } }))) := by
  have := program_at_partial hup hss h F hprov (n + 1) maxStack maxHeap hmax hcl hΓ hpre
  rw [← C56_handler (n := n + 1) (Γ := Γ) (rest := Stmts.ofList post) hf htrap hk hno hΓl hls]
  exact this

/-! ## Examples -/

/-- Jumps backwards, out of a loop and into a branch. -/
def Ex.jumps : String := "a = 0
b = 0
@again
a = a + 1
IF a < 3 THEN
GOTO @again
END IF
WHILE TRUE
b = b + 10
IF b > 25 THEN
GOTO @out
END IF
WEND
@out
GOTO @inside
a = 100
IF a = 5 THEN
@inside
b = b + 1
END IF
c = a + b"

/-- `GOSUB`s, one inside of the other and one in a function. -/
def Ex.gosubs : String := "a = 0
FUNCTION f%(x%)
GOSUB @twice
GOSUB @twice
f% = x%
GOTO @leave
@twice
x% = x% * 2
RETURN
@leave
END FUNCTION
GOSUB @one
b = f%(3)
GOTO @done
@one
a = a + 1
GOSUB @two
a = a + 100
RETURN
@two
a = a + 10
RETURN
@done
c = a"

/-- An error handler; in the second program there is another error in it. -/
def Ex.handlers : String × String := ("a = 0
b = 0
ON ERROR GOTO @failed
FOR i = 1 TO 3
a = 10 / (i - 2)
NEXT
a = 55
@failed
b = 7 + i", "a = 0
ON ERROR GOTO @failed
a = a + 1 / 0
@failed
b = 3
b = b / a")

set_option maxRecDepth 100000 in
example : (Ex.text Ex.jumps).err = none ∧
    Ex.ends [some (.int 3#32), some (.int 31#32), some (.int 34#32)] (Ex.result Ex.jumps) = true ∧
    Ex.vmEnds Ex.jumps [some 3#64, some 31#64, some 34#64] = true := by
  decide +kernel

set_option maxRecDepth 100000 in
example : (Ex.text Ex.gosubs).err = none ∧
    Ex.ends [some (.int 111#32), some (.int 12#32)] (Ex.result Ex.gosubs) = true ∧
    Ex.vmEnds Ex.gosubs [some 111#64, some 12#64, some 111#64] = true := by
  decide +kernel

set_option maxRecDepth 100000 in
example : Ex.vmEnds Ex.handlers.1 [none, some 9#64, some 2#64] = true ∧
    Ex.ends [none, some (.int 9#32)] (Ex.result Ex.handlers.1) = true ∧
    (match Ex.result Ex.handlers.2 with
    | .err pos e w => pos == ⟨6, 7⟩ && e == .divisionByZero && (match w.mem (.local 0) with
        | some (.scalar x) => x == .int 0#32
        | _ => false)
    | _ => false) = true := by
  decide +kernel

/-- A program for the theorems, in parts: an assignment, the jump, another assignment that is jumped over, the label,
and one more. -/
def Ex.overA : Stmt := .assign ⟨"a".toList, none⟩ ⟨1, 1⟩ (.int 1#32 ⟨1, 5⟩)
def Ex.overB : Stmt := .assign ⟨"a".toList, none⟩ ⟨3, 1⟩ (.int 2#32 ⟨3, 5⟩)
def Ex.overC : Stmt := .assign ⟨"b".toList, none⟩ ⟨5, 1⟩ (.bin .add (.sym ⟨"a".toList, none⟩ ⟨5, 5⟩) (.int 5#32 ⟨5, 9⟩) ⟨5, 7⟩)

/-- `a = 1`, `GOTO @x`, `a = 2`, `@x`, `b = a + 5`. -/
def Ex.over : Stmts := Stmts.ofList ([Ex.overA] ++ .goto "x".toList ⟨2, 6⟩ :: [Ex.overB, .label "x".toList ⟨4, 1⟩, Ex.overC])

example : (compileProgram [] [] ⟨Ex.over, none⟩).isOk = true := by decide +kernel

/-- The hypotheses of `C56_goto_partial` can be met: the machine comes to the end with `b = 6`. -/
example {H : Type} (F : FloatOps) {host : Host H} {lib : Lib} {state : List (Request × Reply) → H} {img : Image}
    (himg : compileProgram [] [] ⟨Ex.over, none⟩ = .ok img)
    (hprov : Provides host img lib state) :
    ∃ vm, Reaches F host img (Vm.start 10 10 (state [])) vm ∧ vmStep F host img vm = .stop .eof vm ∧ vm.mach.regs 65 = 6#64 := by
  obtain ⟨vm, h1, h2, _, _, h3, _⟩ := C56_goto_partial (pre := [Ex.overA]) (lpre := [Ex.overA, .goto "x".toList ⟨2, 6⟩, Ex.overB])
    (fun k md h => by cases h) rfl (rfl : Ex.over = Stmts.ofList ([Ex.overA, .goto "x".toList ⟨2, 6⟩, Ex.overB] ++ .label "x".toList ⟨4, 1⟩ :: [Ex.overC])) rfl rfl himg F hprov 0 10 10 (by decide) rfl rfl rfl
  exact ⟨vm, h1, h2, @Models.cells Labels.anywhere _ _ _ _ _ h3 (.local 1) _ rfl⟩

/-! ## Where it goes wrong -/

/-- A subroutine that leaves itself in a `GOSUB`. -/
def Ex.leaving : String := "DIM SHARED n AS INTEGER
SUB s
GOSUB @x
n = n + 1
EXIT SUB
@x
n = n + 10
EXIT SUB
END SUB
s"

/-- A handler that stands in the program for an error in a subroutine. -/
def Ex.unwound : String := "DIM SHARED r AS INTEGER
a = 5
SUB s
x = 1
x = x / 0
END SUB
ON ERROR GOTO @h
s
@h
r = a"

/-- The program with this text is accepted and comes to its end; the first shared variable and the start of the frame
then. -/
def Ex.shared (s : String) : Option (BitVec 64 × Nat) :=
  if (Ex.text s).err.isSome then none else
  match compileProgram [] [] (Ex.text s) with
  | .ok img =>
    let m := (Ex.driveVm img 500 (exampleVm 50)).mach
    if img.code[m.pc]? = some .eof then some (m.regs 0, m.fp) else none
  | .error _ => none

set_option maxRecDepth 100000 in
/-- **C56** The claim is false where the interpreter says nothing: `EXIT SUB` in a `GOSUB` does not leave the subroutine but
only the `GOSUB` (`n` is 11, not 10); and an error in a subroutine whose handler stands in the program runs the
handler with the variables of the subroutine (`r` is 1, not 5, and the frame is not the one of the program). -/
theorem C56_counterexample : Ex.shared Ex.leaving = some (11#64, 64) ∧ Ex.shared Ex.unwound = some (1#64, 65) := by
  decide +kernel

end EB
