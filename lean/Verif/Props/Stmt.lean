import Verif.Lemmas.SimProg
import Verif.Spec.Flow
import Verif.Props.Lexer
import Verif.Model.Parser
import Verif.Props.Names
import Mathlib.Tactic.Ring
/-!
# C10, C11, C12: branches, loops and cases

`program_partial` (and its copies for C11 and C12) says that compiled programs do what the interpreter of `Spec.Exec` says.  The
other theorems say what the interpreter does with each construct, in the words of `Spec.Flow`, and transfer
that to compiled programs in which the construct stands at the top level.
-/

namespace EB
open Spec

/-! ## Programs for the examples -/

/-- The program with this text. -/
def Ex.text (s : String) : Source := parseText asciiText Ex.noFloat s.toList

/-- The result of the interpreter is normal, with that content of the first local variables (`none`: whatever). -/
def Ex.ends (vs : List (Option Val)) : Res → Bool
  | .done w => (vs.zipIdx).all fun (v, i) =>
      match v with
      | none => true
      | some v => match w.mem (.local i) with
        | some (.scalar x) => x == v
        | _ => false
  | _ => false

/-- No built-in callables. -/
def Ex.noLib : Lib := fun _ room _ => ⟨.ok none, [], room + 1⟩

/-- What the interpreter says about a text. -/
def Ex.result (s : String) : Res := run Ex.noFloat 50 50 Ex.noLib (builtins []) (Ex.text s).stmts (fresh 50)

/-! ## Whole programs -/

theorem Stmts.afterStmts_append (a b : List Stmt) : ∀ Γ, afterStmts Γ (Stmts.ofList (a ++ b)) =
    afterStmts (afterStmts Γ (Stmts.ofList a)) (Stmts.ofList b) := by
  induction a with
  | nil => intro Γ; rfl
  | cons s a ih => intro Γ; exact ih _

theorem Stmts.continues_append (a b : List Stmt) (h : Spec.Stmts.continues (Stmts.ofList a) = true) :
    Spec.Stmts.continues (Stmts.ofList (a ++ b)) = true := by
  induction a with
  | nil => cases h
  | cons s a ih =>
    cases s with
    | ifs bs => cases bs <;> exact h
    | _ => first | exact h | exact ih h

/-- If some statements come to their end, the statements behind them come next. -/
theorem Stmts.exec_append (F : FloatOps) (n : Nat) (cl : Calls) (a b : List Stmt) : ∀ Γ w w',
    execStmts F n cl Γ (Stmts.ofList a) w = .done w' →
    execStmts F n cl Γ (Stmts.ofList (a ++ b)) w = execStmts F n cl (afterStmts Γ (Stmts.ofList a)) (Stmts.ofList b) w' := by
  induction a with
  | nil => intro Γ w w' h; injection h with h; subst h; rfl
  | cons s a ih =>
    intro Γ w w' h
    have h : recover s (Stmts.ofList a) (execStmts F n cl (afterStmt Γ s) (Stmts.ofList a)) (execStmt F n cl Γ s w) = .done w' := h
    show recover s (Stmts.ofList (a ++ b)) (execStmts F n cl (afterStmt Γ s) (Stmts.ofList (a ++ b))) (execStmt F n cl Γ s w) = _
    cases hx : execStmt F n cl Γ s w with
    | done w1 => rw [hx] at h; exact ih _ _ _ h
    | err pos e w1 =>
      rw [hx] at h
      simp only [recover] at h ⊢
      cases ht : w1.trap with
      | stop => rw [ht] at h; simp only at h; cases h
      | jump k active => rw [ht] at h; cases active <;> cases h
      | resume =>
        rw [ht] at h
        simp only at h ⊢
        by_cases hc : (Stmt.plain s && Stmts.continues (Stmts.ofList a)) = true
        · rw [if_pos hc] at h
          rw [Bool.and_eq_true] at hc
          rw [if_pos (by rw [hc.1, Stmts.continues_append a b hc.2]; rfl)]
          exact ih _ _ _ h
        · rw [if_neg hc] at h; cases h
    | _ => rw [hx] at h; cases h

/-- What is not a jump stays. -/
theorem follow_other {F : FloatOps} {n : Nat} {cl : Calls} {Γ : Env} {ss : Stmts} {j : Nat} {r : Res} (h : ∀ k w, r ≠ .jump k w) :
    follow F n cl Γ ss j r = r := by
  cases j <;> cases r <;> first | rfl | exact absurd rfl (h _ _)

/-- The calls of a program. -/
def callsOf (F : FloatOps) (n d : Nat) (lib : Lib) (Γ : Env) (ss : Stmts) : Calls :=
  callsAt F n lib (fun k => findDef k (defsStmts Γ ss)) d false Γ ss

/-- **C07, C10, C11, C12, C14, C17, C51** Compiled programs do what the interpreter says: they come to the end of the
program with the variables in that state, stop with that exit code, or raise that error at that position; and they
make the calls of built-in callables, with the arguments, that the interpreter says.  For all programs that the
compiler accepts, all hosts, all limits of the call stack and the heap, and (`n`) runs of any length; a program that
is still going on makes the calls that the interpreter says so far.  Missing: jumps between the program and the
bodies of callables, `GOSUB`s without `RETURN`, and the cases of the findings marked in `Spec.Exec`. -/
theorem program_partial {H : Type} {up : FMap Str Md} (hup : ∀ k md, up.get? k = some md → md.userDefined = false) {src : Source}
    {img : Image} (h : compileProgram up [] src = .ok img) (F : FloatOps) {host : Host H} {lib : Lib}
    {state : List (Request × Reply) → H} (hprov : Provides host img lib state) (n maxStack maxHeap : Nat)
    (hmax : maxStack ≤ 2 ^ 24) :
    Follows F host state img (afterStmts (builtins up) src.stmts) (Vm.start maxStack maxHeap (state []))
      (run F n maxStack lib (builtins up) src.stmts (fresh maxHeap)) :=
  sim_program hup h hprov n maxStack maxHeap hmax

/-- A statement at the top level of a program, when the statements before it have run. -/
theorem program_at_partial {H : Type} {up : FMap Str Md} (hup : ∀ k md, up.get? k = some md → md.userDefined = false)
    {pre post : List Stmt} {s : Stmt} {ss : Stmts} (hss : ss = Stmts.ofList (pre ++ s :: post)) {img : Image}
    (h : compileProgram up [] ⟨ss, none⟩ = .ok img) (F : FloatOps) {host : Host H} {lib : Lib}
    {state : List (Request × Reply) → H} (hprov : Provides host img lib state) (n maxStack maxHeap : Nat)
    (hmax : maxStack ≤ 2 ^ 24) {cl : Calls} (hcl : cl = callsOf F n maxStack lib (builtins up) ss) {Γ : Env}
    (hΓ : Γ = afterStmts (builtins up) (Stmts.ofList pre)) {w : World}
    (hpre : execStmts F n cl (builtins up) (Stmts.ofList pre) (fresh maxHeap) = .done w) :
    Follows F host state img (afterStmts (builtins up) ss) (Vm.start maxStack maxHeap (state []))
      (follow F n cl (builtins up) ss n
        (recover s (Stmts.ofList post) (execStmts F n cl (afterStmt Γ s) (Stmts.ofList post)) (execStmt F n cl Γ s w))) := by
  have := program_partial hup h F hprov n maxStack maxHeap hmax
  have e : run F n maxStack lib (builtins up) ss (fresh maxHeap) =
      follow F n cl (builtins up) ss n
        (recover s (Stmts.ofList post) (execStmts F n cl (afterStmt Γ s) (Stmts.ofList post)) (execStmt F n cl Γ s w)) := by
    show follow F n (callsOf F n maxStack lib (builtins up) ss) _ _ _ (execStmts F n (callsOf F n maxStack lib (builtins up) ss) _ _ _) = _
    rw [← hcl]
    congr 1
    rw [hss, Stmts.exec_append F n cl _ _ _ _ _ hpre, ← hΓ]
    rfl
  rw [← e]
  exact this

/-! ## C10: IF -/

theorem exec_branches {F : FloatOps} {n : Nat} {cl : Calls} {Γ Γ' : Env} {no : List (Expr × Stmts)} {w w' : World}
    (h : AllFalse F cl Γ no w Γ' w') (rest : List (Expr × Stmts)) :
    execBranches F n cl Γ (ifBranches (no ++ rest)) w = execBranches F n cl Γ' (ifBranches rest) w' := by
  induction h with
  | nil => rfl
  | cons hg _ ih =>
    rw [← ih]
    show test _ _ = _
    rw [hg]
    rfl

/-- **C10** If the guards before it are false and this one is true, an `IF` does what the body of this branch does. -/
theorem C10_taken {F : FloatOps} {n : Nat} {cl : Calls} {Γ Γ1 : Env} {no rest : List (Expr × Stmts)} {guard : Expr} {body : Stmts}
    {w w1 w2 : World} (hno : AllFalse F cl Γ no w Γ1 w1) (hg : evalAs F cl Γ1 guard .boolean w1 = .ok (.bool true) w2) :
    execStmt F n cl Γ (.ifs (ifBranches (no ++ (guard, body) :: rest))) w = execStmts F n cl Γ1 body w2 := by
  show execBranches F n cl Γ _ w = _
  rw [exec_branches hno]
  show test _ _ = _
  rw [hg]
  rfl

/-- **C10** If all guards are false, an `IF` does nothing. -/
theorem C10_none {F : FloatOps} {n : Nat} {cl : Calls} {Γ Γ1 : Env} {no : List (Expr × Stmts)}
    {w w1 : World} (hno : AllFalse F cl Γ no w Γ1 w1) : execStmt F n cl Γ (.ifs (ifBranches no)) w = .done w1 := by
  have := exec_branches (n := n) hno []
  rw [List.append_nil] at this
  exact this

/-- **C10** A guard that fails stops the `IF`: no body is run. -/
theorem C10_guard_fails {F : FloatOps} {n : Nat} {cl : Calls} {Γ Γ1 : Env} {no rest : List (Expr × Stmts)} {guard : Expr} {body : Stmts}
    {w w1 w2 : World} {pos : LineCol} {e : RtErr} (hno : AllFalse F cl Γ no w Γ1 w1)
    (hg : evalAs F cl Γ1 guard .boolean w1 = .err pos e w2) :
    execStmt F n cl Γ (.ifs (ifBranches (no ++ (guard, body) :: rest))) w = .err pos e w2 := by
  show execBranches F n cl Γ _ w = _
  rw [exec_branches hno]
  show test _ _ = _
  rw [hg]
  rfl

/-- **C10** `ELSE` is taken if no guard is true. -/
theorem C10_else {F : FloatOps} {n : Nat} {cl : Calls} {Γ Γ1 : Env} {no : List (Expr × Stmts)} {pos : LineCol} {body : Stmts}
    {w w1 : World} (hno : AllFalse F cl Γ no w Γ1 w1) :
    execStmt F n cl Γ (.ifs (ifBranches (no ++ [(.bool true pos, body)]))) w = execStmts F n cl Γ1 body w1 :=
  C10_taken hno rfl

/-- **C10** The compiled program: after the statements before the `IF`, the machine does what the body of the first
true branch does and then goes on behind `END IF`.  (`IF` statements that are not at the top level: `program_partial`
with `C10_taken`.)  Missing: see `program_partial`. -/
theorem C10_taken_partial {H : Type} {up : FMap Str Md} (hup : ∀ k md, up.get? k = some md → md.userDefined = false) {pre post : List Stmt}
    {no rest : List (Expr × Stmts)} {guard : Expr} {body : Stmts} {ss : Stmts}
    (hss : ss = Stmts.ofList (pre ++ .ifs (ifBranches (no ++ (guard, body) :: rest)) :: post)) {img : Image}
    (h : compileProgram up [] ⟨ss, none⟩ = .ok img) (F : FloatOps) {host : Host H} {lib : Lib}
    {state : List (Request × Reply) → H} (hprov : Provides host img lib state) (n maxStack maxHeap : Nat)
    (hmax : maxStack ≤ 2 ^ 24) {cl : Calls} (hcl : cl = callsOf F n maxStack lib (builtins up) ss) {Γ : Env} (hΓ : Γ = afterStmts (builtins up) (Stmts.ofList pre)) {w : World}
    (hpre : execStmts F n cl (builtins up) (Stmts.ofList pre) (fresh maxHeap) = .done w) {Γ1 : Env} {w1 w2 : World}
    (hno : AllFalse F cl Γ no w Γ1 w1) (hg : evalAs F cl Γ1 guard .boolean w1 = .ok (.bool true) w2) :
    Follows F host state img (afterStmts (builtins up) ss) (Vm.start maxStack maxHeap (state []))
      (follow F n cl (builtins up) ss n
        (recover (.ifs (ifBranches (no ++ (guard, body) :: rest))) (Stmts.ofList post)
          (execStmts F n cl (afterBranches Γ (ifBranches (no ++ (guard, body) :: rest))) (Stmts.ofList post))
          (execStmts F n cl Γ1 body w2))) := by
  have := program_at_partial hup hss h F hprov n maxStack maxHeap hmax hcl hΓ hpre
  rw [C10_taken hno hg] at this
  exact this

/-- **C10** … and if no guard is true, it goes on behind `END IF`. -/
theorem C10_none_partial {H : Type} {up : FMap Str Md} (hup : ∀ k md, up.get? k = some md → md.userDefined = false) {pre post : List Stmt}
    {no : List (Expr × Stmts)} {ss : Stmts} (hss : ss = Stmts.ofList (pre ++ .ifs (ifBranches no) :: post)) {img : Image}
    (h : compileProgram up [] ⟨ss, none⟩ = .ok img) (F : FloatOps) {host : Host H} {lib : Lib}
    {state : List (Request × Reply) → H} (hprov : Provides host img lib state) (n maxStack maxHeap : Nat)
    (hmax : maxStack ≤ 2 ^ 24) {cl : Calls} (hcl : cl = callsOf F n maxStack lib (builtins up) ss) {Γ : Env} (hΓ : Γ = afterStmts (builtins up) (Stmts.ofList pre)) {w : World}
    (hpre : execStmts F n cl (builtins up) (Stmts.ofList pre) (fresh maxHeap) = .done w) {Γ1 : Env} {w1 : World}
    (hno : AllFalse F cl Γ no w Γ1 w1) :
    Follows F host state img (afterStmts (builtins up) ss) (Vm.start maxStack maxHeap (state []))
      (follow F n cl (builtins up) ss n
        (execStmts F n cl (afterBranches Γ (ifBranches no)) (Stmts.ofList post) w1)) := by
  have := program_at_partial hup hss h F hprov n maxStack maxHeap hmax hcl hΓ hpre
  rw [C10_none hno] at this
  exact this

/-- A program that is accepted, for which the interpreter has a result, and whose `IF` has a first guard that is
false and a second one that is true. -/
def Ex.ifs : String := "x = 5
IF x = 1 THEN
y = 1
ELSEIF x > 4 THEN
y = 2
ELSEIF x > 3 THEN
y = 3
ELSE
y = 4
END IF
z = y + x"

set_option maxRecDepth 100000 in
example : (Ex.text Ex.ifs).err = none ∧ (compileProgram [] [] (Ex.text Ex.ifs)).isOk = true ∧
    Ex.ends [some (.int 5#32), some (.int 2#32), some (.int 7#32)] (Ex.result Ex.ifs) = true := by
  decide +kernel

/-- What the machine does with a text: it stops at the end with that in the first local variables. -/
def Ex.machine (s : String) (vs : List (Option (BitVec 64))) : Bool :=
  match compileProgram [] [] (Ex.text s) with
  | .ok img =>
    let m := Mach.drive Ex.noFloat img 2000 (Mach.new 50 50)
    img.code[m.pc]? == some .eof && (vs.zipIdx).all fun (v, i) =>
      match v with
      | none => true
      | some v => m.get (BitVec.ofNat 8 (64 + i)) == v
  | .error _ => false

set_option maxRecDepth 100000 in
example : Ex.machine Ex.ifs [some 5#64, some 2#64, some 7#64] = true := by decide +kernel

/-! ## C11: loops -/

section
variable {stop : Bool} {guard : World → Out Val} {body : World → Res}

theorem Spec.Res.Final.not_stuck {r : Res} (hr : r.Final) : r ≠ .stuck := by rintro rfl; exact hr

theorem Spec.Res.Final.not_going {r : Res} (hr : r.Final) {l : Log} : r ≠ .going l := by rintro rfl; exact hr

theorem before_of_rounds {k : Nat} {w w1 : World} {r : Res} (h : Rounds stop guard body k w w1) (hl : LastRound stop guard body w1 r) :
    ∀ n, k < n → before stop guard body n w = r := by
  induction h with
  | zero w =>
    intro n hn
    obtain ⟨n, rfl⟩ : ∃ n', n = n' + 1 := ⟨n - 1, by omega⟩
    cases hl with
    | stops hg => simp [before, test, hg, Out.then]
    | err hg => simp [before, test, hg, Out.then]
    | ended hg => simp [before, test, hg, Out.then]
    | going hg => simp [before, test, hg, Out.then]
    | leaves hg hb hr =>
      simp only [before, test, hg, Out.then, hb]
      rw [if_neg (by cases stop <;> decide)]
      cases r <;> first | rfl | exact absurd rfl (hr _)
  | succ hg hb _ ih =>
    intro n hn
    obtain ⟨n, rfl⟩ : ∃ n', n = n' + 1 := ⟨n - 1, by omega⟩
    simp only [before, test, hg, Out.then, hb]
    rw [if_neg (by cases stop <;> decide)]
    exact ih hl n (by omega)

theorem rounds_of_before : ∀ {n : Nat} {w : World} {r : Res}, r.Final → before stop guard body n w = r →
    ∃ k w1, k < n ∧ Rounds stop guard body k w w1 ∧ LastRound stop guard body w1 r := by
  intro n
  induction n with
  | zero => intro w r hr h; exact (hr.not_going h.symm).elim
  | succ n ih =>
    intro w r hr h
    simp only [before, test] at h
    cases hg : guard w with
    | err pos e w' => rw [hg] at h; subst h; exact ⟨0, w, by omega, .zero w, .err hg⟩
    | ended c w' => rw [hg] at h; subst h; exact ⟨0, w, by omega, .zero w, .ended hg⟩
    | stuck => rw [hg] at h; exact (hr.not_stuck h.symm).elim
    | going l => rw [hg] at h; exact (hr.not_going h.symm).elim
    | ok v w' =>
      rw [hg] at h
      simp only [Out.then] at h
      cases v with
      | bool b =>
        simp only at h
        by_cases hb : b = stop
        · subst hb
          rw [if_pos rfl] at h
          subst h
          exact ⟨0, w, by omega, .zero w, .stops hg⟩
        · rw [if_neg hb] at h
          have hb : b = !stop := by cases b <;> cases stop <;> simp_all
          subst hb
          cases hbd : body w' with
          | done w2 =>
            rw [hbd] at h
            obtain ⟨k, w1, h1, h2, h3⟩ := ih hr h
            exact ⟨k + 1, w1, by omega, .succ hg hbd h2, h3⟩
          | stuck => rw [hbd] at h; exact (hr.not_stuck h.symm).elim
          | _ => rw [hbd] at h; subst h; exact ⟨0, w, by omega, .zero w, .leaves hg hbd (by intro w; simp [Res.bind])⟩
      | _ => exact (hr.not_stuck h.symm).elim

theorem behind_of_rounds {k : Nat} {w w1 : World} {r : Res} (h : RoundsB stop guard body k w w1) (hl : LastRoundB stop guard body w1 r) :
    ∀ n, k < n → behind stop guard body n w = r := by
  induction h with
  | zero w =>
    intro n hn
    obtain ⟨n, rfl⟩ : ∃ n', n = n' + 1 := ⟨n - 1, by omega⟩
    cases hl with
    | stops hb hg => simp [behind, test, hg, hb, Out.then, Res.bind]
    | err hb hg => simp [behind, test, hg, hb, Out.then, Res.bind]
    | ended hb hg => simp [behind, test, hg, hb, Out.then, Res.bind]
    | going hb hg => simp [behind, test, hg, hb, Out.then, Res.bind]
    | leaves hb hr =>
      simp only [behind, hb]
      cases r <;> first | rfl | exact absurd rfl (hr _)
  | succ hb hg _ ih =>
    intro n hn
    obtain ⟨n, rfl⟩ : ∃ n', n = n' + 1 := ⟨n - 1, by omega⟩
    simp only [behind, test, hg, Out.then, hb, Res.bind]
    rw [if_neg (by cases stop <;> decide)]
    exact ih hl n (by omega)

theorem rounds_of_behind : ∀ {n : Nat} {w : World} {r : Res}, r.Final → behind stop guard body n w = r →
    ∃ k w1, k < n ∧ RoundsB stop guard body k w w1 ∧ LastRoundB stop guard body w1 r := by
  intro n
  induction n with
  | zero => intro w r hr h; exact (hr.not_going h.symm).elim
  | succ n ih =>
    intro w r hr h
    simp only [behind, test] at h
    cases hbd : body w with
    | stuck => rw [hbd] at h; exact (hr.not_stuck h.symm).elim
    | done w' =>
      rw [hbd] at h
      simp only [Res.bind] at h
      cases hg : guard w' with
      | err pos e w2 => rw [hg] at h; subst h; exact ⟨0, w, by omega, .zero w, .err hbd hg⟩
      | ended c w2 => rw [hg] at h; subst h; exact ⟨0, w, by omega, .zero w, .ended hbd hg⟩
      | stuck => rw [hg] at h; exact (hr.not_stuck h.symm).elim
      | going l => rw [hg] at h; exact (hr.not_going h.symm).elim
      | ok v w2 =>
        rw [hg] at h
        simp only [Out.then] at h
        cases v with
        | bool b =>
          simp only at h
          by_cases hb : b = stop
          · subst hb
            rw [if_pos rfl] at h
            subst h
            exact ⟨0, w, by omega, .zero w, .stops hbd hg⟩
          · rw [if_neg hb] at h
            have hb : b = !stop := by cases b <;> cases stop <;> simp_all
            subst hb
            obtain ⟨k, w1, h1, h2, h3⟩ := ih hr h
            exact ⟨k + 1, w1, by omega, .succ hbd hg h2, h3⟩
        | _ => exact (hr.not_stuck h.symm).elim
    | _ => rw [hbd] at h; subst h; exact ⟨0, w, by omega, .zero w, .leaves hbd (by intro w; simp [Res.bind])⟩

theorem forever_iff {w : World} {r : Res} {n : Nat} (hr : r.Final) : forever body n w = r ↔
    ∃ k w1, k < n ∧ RoundsF body k w w1 ∧ body w1 = r ∧ ∀ w, r ≠ .done w := by
  constructor
  · induction n generalizing w with
    | zero => intro h; exact (hr.not_going h.symm).elim
    | succ n ih =>
      intro h
      simp only [forever] at h
      cases hbd : body w with
      | stuck => rw [hbd] at h; exact (hr.not_stuck h.symm).elim
      | done w' =>
        rw [hbd] at h
        obtain ⟨k, w1, h1, h2, h3⟩ := ih h
        exact ⟨k + 1, w1, by omega, .succ hbd h2, h3⟩
      | _ => rw [hbd] at h; subst h; exact ⟨0, w, by omega, .zero w, hbd, by intro w; simp [Res.bind]⟩
  · rintro ⟨k, w1, hk, h, hb, hd⟩
    induction h generalizing n with
    | zero w =>
      obtain ⟨n, rfl⟩ : ∃ n', n = n' + 1 := ⟨n - 1, by omega⟩
      simp only [forever, hb]
      cases r <;> first | rfl | exact absurd rfl (hd _)
    | succ hb1 _ ih =>
      obtain ⟨n, rfl⟩ : ∃ n', n = n' + 1 := ⟨n - 1, by omega⟩
      simp only [forever, hb1, Res.bind]
      exact ih (by omega) hb

theorem before_iff {n : Nat} {w : World} {r : Res} (hr : r.Final) : before stop guard body n w = r ↔
    ∃ k w1, k < n ∧ Rounds stop guard body k w w1 ∧ LastRound stop guard body w1 r :=
  ⟨rounds_of_before hr, fun ⟨_, _, hk, h1, h2⟩ => before_of_rounds h1 h2 _ hk⟩

theorem catch_iff {f : Res → Res} (hf : f .stuck = .stuck) (hf' : ∀ l, f (.going l) = .going l) {r x : Res} (hr : r.Final) :
    f x = r ↔ ∃ r', r'.Final ∧ x = r' ∧ r = f r' := by
  constructor
  · intro h
    refine ⟨x, ?_, rfl, h.symm⟩
    cases x with
    | stuck => exact hr.not_stuck (h.symm.trans hf)
    | going l => exact hr.not_going (h.symm.trans (hf' l))
    | _ => trivial
  · rintro ⟨r', -, rfl, rfl⟩; rfl

end

section
variable {F : FloatOps} {n : Nat} {cl : Calls} {Γ : Env} {e : Expr} {body : Stmts} {w : World} {r : Res}

/-- The guard of a loop.  Variables that are declared in the body have no known value when it is evaluated
(see `C09_counterexample`). -/
def loopGuard (F : FloatOps) (cl : Calls) (Γ : Env) (e : Expr) (w : World) : Out Val := evalAs F cl Γ e .boolean (forget Γ w)

/-- **C11** `WHILE`: any number of rounds with the guard true before each, then a last look at the guard. -/
theorem C11_while (hr : r.Final) : execStmt F n cl Γ (.whileLoop e body) w = r ↔
    ∃ k w1, k < n ∧ Rounds false (loopGuard F cl Γ e) (execStmts F n cl Γ body) k w w1 ∧
      LastRound false (loopGuard F cl Γ e) (execStmts F n cl Γ body) w1 r :=
  before_iff hr

/-- **C11** `DO WHILE … LOOP`: the same, and `EXIT DO` ends the loop. -/
theorem C11_do_pre_while (hr : r.Final) : execStmt F n cl Γ (.doLoop (.preWhile e) body) w = r ↔
    ∃ k w1 r', k < n ∧ Rounds false (loopGuard F cl Γ e) (execStmts F n cl Γ body) k w w1 ∧
      LastRound false (loopGuard F cl Γ e) (execStmts F n cl Γ body) w1 r' ∧ r'.Final ∧ r = catchDo r' := by
  refine (catch_iff (f := catchDo) rfl (fun _ => rfl) hr).trans ⟨?_, ?_⟩
  · rintro ⟨r', h, h1, h2⟩
    obtain ⟨k, w1, h3, h4, h5⟩ := (before_iff h).1 h1
    exact ⟨k, w1, r', h3, h4, h5, h, h2⟩
  · rintro ⟨k, w1, r', h3, h4, h5, h, h2⟩
    exact ⟨r', h, (before_iff h).2 ⟨k, w1, h3, h4, h5⟩, h2⟩

/-- **C11** `DO UNTIL … LOOP`: rounds with the guard false before each. -/
theorem C11_do_pre_until (hr : r.Final) : execStmt F n cl Γ (.doLoop (.preUntil e) body) w = r ↔
    ∃ k w1 r', k < n ∧ Rounds true (loopGuard F cl Γ e) (execStmts F n cl Γ body) k w w1 ∧
      LastRound true (loopGuard F cl Γ e) (execStmts F n cl Γ body) w1 r' ∧ r'.Final ∧ r = catchDo r' := by
  refine (catch_iff (f := catchDo) rfl (fun _ => rfl) hr).trans ⟨?_, ?_⟩
  · rintro ⟨r', h, h1, h2⟩
    obtain ⟨k, w1, h3, h4, h5⟩ := (before_iff h).1 h1
    exact ⟨k, w1, r', h3, h4, h5, h, h2⟩
  · rintro ⟨k, w1, r', h3, h4, h5, h, h2⟩
    exact ⟨r', h, (before_iff h).2 ⟨k, w1, h3, h4, h5⟩, h2⟩

/-- The body of a loop that looks at its guard last or never. -/
def loopBody (F : FloatOps) (n : Nat) (cl : Calls) (Γ : Env) (body : Stmts) (w : World) : Res := execStmts F n cl Γ body (forget Γ w)

/-- **C11** `DO … LOOP WHILE`: rounds with the guard true after each. -/
theorem C11_do_post_while (hr : r.Final) : execStmt F n cl Γ (.doLoop (.postWhile e) body) w = r ↔
    ∃ k w1 r', k < n ∧ RoundsB false (evalAs F cl (afterStmts Γ body) e .boolean) (loopBody F n cl Γ body) k w w1 ∧
      LastRoundB false (evalAs F cl (afterStmts Γ body) e .boolean) (loopBody F n cl Γ body) w1 r' ∧ r'.Final ∧
      r = catchDo r' := by
  refine (catch_iff (f := catchDo) rfl (fun _ => rfl) hr).trans ⟨?_, ?_⟩
  · rintro ⟨r', h, h1, h2⟩
    obtain ⟨k, w1, h3, h4, h5⟩ := rounds_of_behind h h1
    exact ⟨k, w1, r', h3, h4, h5, h, h2⟩
  · rintro ⟨k, w1, r', h3, h4, h5, h, h2⟩
    exact ⟨r', h, behind_of_rounds h4 h5 _ h3, h2⟩

/-- **C11** `DO … LOOP UNTIL`: rounds with the guard false after each. -/
theorem C11_do_post_until (hr : r.Final) : execStmt F n cl Γ (.doLoop (.postUntil e) body) w = r ↔
    ∃ k w1 r', k < n ∧ RoundsB true (evalAs F cl (afterStmts Γ body) e .boolean) (loopBody F n cl Γ body) k w w1 ∧
      LastRoundB true (evalAs F cl (afterStmts Γ body) e .boolean) (loopBody F n cl Γ body) w1 r' ∧ r'.Final ∧
      r = catchDo r' := by
  refine (catch_iff (f := catchDo) rfl (fun _ => rfl) hr).trans ⟨?_, ?_⟩
  · rintro ⟨r', h, h1, h2⟩
    obtain ⟨k, w1, h3, h4, h5⟩ := rounds_of_behind h h1
    exact ⟨k, w1, r', h3, h4, h5, h, h2⟩
  · rintro ⟨k, w1, r', h3, h4, h5, h, h2⟩
    exact ⟨r', h, behind_of_rounds h4 h5 _ h3, h2⟩

/-- **C11** `DO … LOOP`: rounds until the body does not end normally. -/
theorem C11_do_forever (hr : r.Final) : execStmt F n cl Γ (.doLoop .infinite body) w = r ↔
    ∃ k w1 r', k < n ∧ RoundsF (loopBody F n cl Γ body) k w w1 ∧ loopBody F n cl Γ body w1 = r' ∧ (∀ w, r' ≠ .done w) ∧
      r'.Final ∧ r = catchDo r' := by
  refine (catch_iff (f := catchDo) rfl (fun _ => rfl) hr).trans ⟨?_, ?_⟩
  · rintro ⟨r', h, h1, h2⟩
    obtain ⟨k, w1, h3, h4, h5, h6⟩ := (forever_iff h).1 h1
    exact ⟨k, w1, r', h3, h4, h5, h6, h, h2⟩
  · rintro ⟨k, w1, r', h3, h4, h5, h6, h, h2⟩
    exact ⟨r', h, (forever_iff h).2 ⟨k, w1, h3, h4, h5, h6⟩, h2⟩

/-- The body of a `FOR`, then the step. -/
def forBody (F : FloatOps) (n : Nat) (cl : Calls) (Γ : Env) (iter : VarRef) (next : Expr) (body : Stmts) (w : World) : Res :=
  (execStmts F n cl Γ body w).bind (assign F cl (afterStmts Γ body) iter next)

/-- **C11** `FOR … NEXT`: the start value is assigned once, then rounds of body and step with the guard true before
each; `EXIT FOR` ends the loop. -/
theorem C11_for {iter : VarRef} {pos : LineCol} {double : Bool} {start stop next : Expr} {w0 : World}
    (hs : assign F cl (forVar Γ iter double) iter start w = .done w0) {Γ' : Env} (hΓ : Γ' = afterAssign (forVar Γ iter double) iter start)
    (hr : r.Final) : execStmt F n cl Γ (.forLoop iter pos double start stop next body) w = r ↔
    ∃ k w1 r', k < n ∧ Rounds false (loopGuard F cl Γ' stop) (forBody F n cl Γ' iter next body) k w0 w1 ∧
      LastRound false (loopGuard F cl Γ' stop) (forBody F n cl Γ' iter next body) w1 r' ∧ r'.Final ∧ r = catchFor r' := by
  subst hΓ
  have e1 : execStmt F n cl Γ (.forLoop iter pos double start stop next body) w =
      catchFor (before false (loopGuard F cl (afterAssign (forVar Γ iter double) iter start) stop)
        (forBody F n cl (afterAssign (forVar Γ iter double) iter start) iter next body) n w0) := by
    show (assign F cl (forVar Γ iter double) iter start w).bind _ = _
    rw [hs]
    rfl
  rw [e1]
  refine (catch_iff (f := catchFor) rfl (fun _ => rfl) hr).trans ⟨?_, ?_⟩
  · rintro ⟨r', h, h1, h2⟩
    obtain ⟨k, w1, h3, h4, h5⟩ := (before_iff h).1 h1
    exact ⟨k, w1, r', h3, h4, h5, h, h2⟩
  · rintro ⟨k, w1, r', h3, h4, h5, h, h2⟩
    exact ⟨r', h, (before_iff h).2 ⟨k, w1, h3, h4, h5⟩, h2⟩

/-- **C11** If the start value of a `FOR` fails, so does the loop. -/
theorem C11_for_start_fails {iter : VarRef} {pos : LineCol} {double : Bool} {start stop next : Expr}
    {r : Res} (hs : assign F cl (forVar Γ iter double) iter start w = r) (hr : ∀ w, r ≠ .done w) :
    execStmt F n cl Γ (.forLoop iter pos double start stop next body) w = r := by
  show (assign F cl (forVar Γ iter double) iter start w).bind _ = _
  rw [hs]
  cases r <;> first | rfl | exact absurd rfl (hr _)

/-- **C11** `EXIT DO` ends the `DO` loop around it, after any number of rounds, and goes through a `WHILE`; `EXIT FOR`
goes through both.  (For `FOR`: `C11_exit_for`.) -/
theorem C11_exit_do {k : Nat} {w1 w2 w' : World} (hk : k < n)
    (hrd : Rounds false (loopGuard F cl Γ e) (execStmts F n cl Γ body) k w w1) (hg : loopGuard F cl Γ e w1 = .ok (.bool true) w2) :
    (execStmts F n cl Γ body w2 = .exitDo w' → execStmt F n cl Γ (.doLoop (.preWhile e) body) w = .done w' ∧
      execStmt F n cl Γ (.whileLoop e body) w = .exitDo w') ∧
    (execStmts F n cl Γ body w2 = .exitFor w' → execStmt F n cl Γ (.doLoop (.preWhile e) body) w = .exitFor w' ∧
      execStmt F n cl Γ (.whileLoop e body) w = .exitFor w') := by
  refine ⟨fun hb => ⟨?_, ?_⟩, fun hb => ⟨?_, ?_⟩⟩
  · exact (C11_do_pre_while (by trivial)).2 ⟨k, w1, _, hk, hrd, .leaves hg hb (by simp), by trivial, rfl⟩
  · exact (C11_while (by trivial)).2 ⟨k, w1, hk, hrd, .leaves hg hb (by simp)⟩
  · exact (C11_do_pre_while (by trivial)).2 ⟨k, w1, _, hk, hrd, .leaves hg hb (by simp), by trivial, rfl⟩
  · exact (C11_while (by trivial)).2 ⟨k, w1, hk, hrd, .leaves hg hb (by simp)⟩

/-- **C11** `EXIT FOR` ends the `FOR` loop around it, without another step, and `EXIT DO` goes through it. -/
theorem C11_exit_for {iter : VarRef} {pos : LineCol} {double : Bool} {start stop next : Expr} {w0 : World}
    (hs : assign F cl (forVar Γ iter double) iter start w = .done w0) {Γ' : Env} (hΓ : Γ' = afterAssign (forVar Γ iter double) iter start)
    {k : Nat} {w1 w2 w' : World} (hk : k < n) (hrd : Rounds false (loopGuard F cl Γ' stop) (forBody F n cl Γ' iter next body) k w0 w1)
    (hg : loopGuard F cl Γ' stop w1 = .ok (.bool true) w2) :
    (execStmts F n cl Γ' body w2 = .exitFor w' →
      execStmt F n cl Γ (.forLoop iter pos double start stop next body) w = .done w') ∧
    (execStmts F n cl Γ' body w2 = .exitDo w' →
      execStmt F n cl Γ (.forLoop iter pos double start stop next body) w = .exitDo w') := by
  refine ⟨fun hb => ?_, fun hb => ?_⟩
  · exact (C11_for hs hΓ (by trivial)).2 ⟨k, w1, .exitFor w', hk, hrd, .leaves hg (by unfold forBody; rw [hb]; rfl) (by simp), by trivial, rfl⟩
  · exact (C11_for hs hΓ (by trivial)).2 ⟨k, w1, .exitDo w', hk, hrd, .leaves hg (by unfold forBody; rw [hb]; rfl) (by simp), by trivial, rfl⟩

/-- **C11** The values of an integer variable in a `FOR`: in round `j` (counted from 0) it is `a + j * step`, and the round
takes place exactly if that is not beyond the end.  The body must not assign to the variable. -/
theorem C11_for_values {iter : VarRef} {pos : LineCol} {stop next : Expr} {w0 : World} {p : Place} {op : SrcBin}
    {lim step : Expr} {a b s : I32} {ep : LineCol}
    (hv : nameRef Γ.locals Γ.shared iter = .var p (.scalar .integer))
    (hv' : nameRef (afterStmts Γ body).locals (afterStmts Γ body).shared iter = .var p (.scalar .integer))
    (hstop : stop = .bin op (.sym iter pos) lim ep) (hnext : next = .bin .add (.sym iter pos) step ep)
    (hlim : ∀ w, eval F cl Γ lim w = .ok (.int b) w) (hstep : ∀ w, eval F cl (afterStmts Γ body) step w = .ok (.int s) w)
    (hop : op = .le ∧ 0 < s.toInt ∨ op = .ge ∧ s.toInt < 0)
    (hkeep : ∀ w w', execStmts F n cl Γ body w = .done w' → w'.mem p = w.mem p)
    (hw0 : w0.mem p = some (.scalar (.int a)))
    {j : Nat} {wj : World} (hrd : Rounds false (loopGuard F cl Γ stop) (forBody F n cl Γ iter next body) j w0 wj) :
    ∃ x : I32, wj.mem p = some (.scalar (.int x)) ∧ x.toInt = a.toInt + j * s.toInt ∧
      loopGuard F cl Γ stop wj = .ok (.bool (decide (if 0 < s.toInt then a.toInt + j * s.toInt ≤ b.toInt else b.toInt ≤ a.toInt + j * s.toInt)))
        (forget Γ wj) := by
  have hforget : ∀ w : World, (forget Γ w).mem p = w.mem p := by
    intro w
    cases p with
    | shared q => rfl
    | «local» q =>
      have hpr := nameRef_var hv
      have : q < Γ.locals.length := by
        by_contra hlt
        simp only [Env.proto] at hpr
        rw [List.getElem?_eq_none (by omega)] at hpr
        simp at hpr
      simp [forget, this]
  have hguard : ∀ (w : World) (x : I32), w.mem p = some (.scalar (.int x)) → loopGuard F cl Γ stop w =
      .ok (.bool (decide (if 0 < s.toInt then x.toInt ≤ b.toInt else b.toInt ≤ x.toInt))) (forget Γ w) := by
    intro w x hx
    have hx' := (hforget w).trans hx
    unfold loopGuard evalAs
    rw [hstop]
    simp only [eval, hv, hx', Out.bind, hlim, binVal]
    rcases hop with ⟨rfl, hs⟩ | ⟨rfl, hs⟩
    · simp [intBin, intArith, intRel, castVal, hs]
    · simp [intBin, intArith, intRel, castVal, show ¬ 0 < s.toInt by omega]
  suffices H : ∃ x : I32, wj.mem p = some (.scalar (.int x)) ∧ x.toInt = a.toInt + j * s.toInt by
    obtain ⟨x, h1, h2⟩ := H
    exact ⟨x, h1, h2, by rw [hguard wj x h1, h2]⟩
  clear hlim
  induction hrd generalizing a with
  | zero w => exact ⟨a, hw0, by simp⟩
  | succ hg hb hrest ih =>
    rename_i k w w1 w2 w'
    have hw1 : w1.mem p = some (.scalar (.int a)) := by
      rw [hguard w a hw0] at hg
      injection hg with _ hg
      rw [← hg, hforget]; exact hw0
    unfold forBody at hb
    cases hbd : execStmts F n cl Γ body w1 with
    | done w3 =>
      rw [hbd] at hb
      have hw3 : w3.mem p = some (.scalar (.int a)) := (hkeep _ _ hbd).trans hw1
      have hm : mentions (symKey iter.name) next = true := by rw [hnext]; simp [mentions]
      have e1 : eval F cl (afterStmts Γ body) next w3 = intBin .add a s ep w3 := by
        rw [hnext]; simp only [eval, hv', hw3, Out.bind, hstep]; rfl
      simp only [Res.bind, assign, hv', hm, if_true, evalAs, e1] at hb
      by_cases hin : InRange (a.toInt + s.toInt)
      · have e2 : intBin .add a s ep w3 = .ok (.int (BitVec.ofInt 32 (a.toInt + s.toInt))) w3 := by
          simp [intBin, intArith, exact, hin]
        rw [e2] at hb
        simp only [castVal, Out.bind, Out.then] at hb
        injection hb with hb
        have hx : (BitVec.ofInt 32 (a.toInt + s.toInt)).toInt = a.toInt + s.toInt := by
          rw [BitVec.toInt_ofInt]
          unfold InRange at hin
          apply Int.bmod_eq_of_le <;> omega
        obtain ⟨x, h1, h2⟩ := ih (a := BitVec.ofInt 32 (a.toInt + s.toInt)) (by rw [← hb]; simp [World.set])
        refine ⟨x, h1, ?_⟩
        rw [h2, hx]
        push_cast
        ring
      · have e2 : intBin .add a s ep w3 = .err ep .integerOverflow w3 := by
          simp [intBin, intArith, exact, hin]
        rw [e2] at hb
        simp [Out.then, Out.bind] at hb
    | _ => rw [hbd] at hb; simp [Res.bind] at hb

end


theorem PM.bind_ok {α β : Type} {x : PM α} {f : α → PM β} {s s' : TokStream} {b : β} (h : (x >>= f) s = (.ok b, s')) :
    ∃ a s1, x s = (.ok a, s1) ∧ f a s1 = (.ok b, s') := by
  have h : PM.bind x f s = _ := h
  unfold PM.bind at h
  cases hx : x s with
  | mk r s1 =>
    rw [hx] at h
    cases r with
    | ok a => exact ⟨a, s1, rfl, h⟩
    | error e => simp at h

/-- The step of a `FOR` and the comparison that goes with it: `<=` for positive ones, `>=` for negative ones, none for 0.
A literal double after `STEP` has no sign of its own. -/
inductive StepOf (F : FloatOps) : Expr → SrcBin → Bool → Prop
  | up {i : I32} {pos : LineCol} : 0 < i.toInt → StepOf F (.int i pos) .le false
  | down {i : I32} {pos : LineCol} : i.toInt < 0 → StepOf F (.int i pos) .ge false
  | upDouble {d : BitVec 64} {pos : LineCol} : F.eq d 0 = false → StepOf F (.dbl d pos) .le true
  | downDouble {d : BitVec 64} {pos : LineCol} : F.eq d 0 = false → StepOf F (.dbl (F.neg d) pos) .ge true

theorem parseStep_ok {F : FloatOps} {dp : LineCol} {s s' : TokStream} {st : StepInfo} (h : parseStep F dp s = (.ok st, s')) :
    (st.sign = .gt → StepOf F st.step .le st.isDouble) ∧ (st.sign = .lt → StepOf F st.step .ge st.isDouble) := by
  have hint : ∀ (i : I32) (pos : LineCol), (compare i.toInt 0 = .gt → StepOf F (.int i pos) .le false) ∧
      (compare i.toInt 0 = .lt → StepOf F (.int i pos) .ge false) := by
    intro i pos
    refine ⟨fun h => .up ?_, fun h => .down ?_⟩
    · rw [Int.compare_eq_gt] at h; omega
    · rw [Int.compare_eq_lt] at h; omega
  unfold parseStep at h
  obtain ⟨p, s1, _, h⟩ := PM.bind_ok h
  by_cases hp : p.tok ≠ .step
  · rw [if_pos hp] at h
    injection h with h _; injection h with h; subst h
    exact ⟨fun _ => .up (by decide), fun h => by cases h⟩
  · rw [if_neg hp] at h
    obtain ⟨_, s2, _, h⟩ := PM.bind_ok h
    obtain ⟨q, s3, _, h⟩ := PM.bind_ok h
    cases hq : q.tok with
    | double d =>
      rw [hq] at h
      obtain ⟨_, s4, _, h⟩ := PM.bind_ok h
      injection h with h _; injection h with h; subst h
      cases hd : F.eq d 0
      · exact ⟨fun _ => .upDouble hd, fun h => by simp at h⟩
      · exact ⟨fun h => by simp at h, fun h => by simp at h⟩
    | integer i =>
      rw [hq] at h
      obtain ⟨_, s4, _, h⟩ := PM.bind_ok h
      injection h with h _; injection h with h; subst h
      exact hint _ _
    | minus =>
      rw [hq] at h
      obtain ⟨_, s4, _, h⟩ := PM.bind_ok h
      obtain ⟨r, s5, _, h⟩ := PM.bind_ok h
      cases hr : r.tok with
      | double d =>
        rw [hr] at h
        obtain ⟨_, s6, _, h⟩ := PM.bind_ok h
        injection h with h _; injection h with h; subst h
        cases hd : F.eq d 0
        · exact ⟨fun h => by simp at h, fun _ => .downDouble hd⟩
        · exact ⟨fun h => by simp at h, fun h => by simp at h⟩
      | integer i =>
        rw [hr] at h
        obtain ⟨_, s6, _, h⟩ := PM.bind_ok h
        obtain ⟨j, s7, _, h⟩ := PM.bind_ok h
        injection h with h _; injection h with h; subst h
        exact hint _ _
      | _ => rw [hr] at h; cases h
    | _ => rw [hq] at h; cases h

/-- **C11** The parser gives every `FOR` it accepts the comparison that belongs to the sign of its step, and a step
that adds to the variable.  A step of 0 is not accepted. -/
theorem C11_for_parsed {T : TextOps} {F : FloatOps} {pos : LineCol} {s s' : TokStream} {f : Stmts → Stmt}
    (h : parseForHead T F pos s = (.ok f, s')) :
    ∃ (iter : VarRef) (ip : LineCol) (double : Bool) (start lim step : Expr) (op : SrcBin) (ep : LineCol),
      StepOf F step op double ∧ (iter.ty = none ∨ iter.ty = some .double ∨ iter.ty = some .integer) ∧
      ∀ body, f body = .forLoop iter ip double start (.bin op (.sym iter ip) lim ep) (.bin .add (.sym iter ip) step ep) body := by
  unfold parseForHead at h
  obtain ⟨⟨iter, ip⟩, s1, hi, h⟩ := PM.bind_ok h
  obtain ⟨_, s2, _, h⟩ := PM.bind_ok h
  obtain ⟨start, s3, _, h⟩ := PM.bind_ok h
  obtain ⟨tt, s4, _, h⟩ := PM.bind_ok h
  obtain ⟨lim, s5, _, h⟩ := PM.bind_ok h
  obtain ⟨st, s6, hst, h⟩ := PM.bind_ok h
  obtain ⟨cond, s7, hc, h⟩ := PM.bind_ok h
  obtain ⟨_, s8, _, h⟩ := PM.bind_ok h
  injection h with h _; injection h with h; subst h
  have hty : iter.ty = none ∨ iter.ty = some .double ∨ iter.ty = some .integer := by
    unfold parseForIter at hi
    obtain ⟨t, t1, _, hi⟩ := PM.bind_ok hi
    cases ht : t.tok with
    | symbol v =>
      rw [ht] at hi
      simp only at hi
      by_cases hv : v.ty = none ∨ v.ty = some .double ∨ v.ty = some .integer
      · rw [if_pos hv] at hi
        injection hi with hi _; injection hi with hi; injection hi with hi _; subst hi; exact hv
      · rw [if_neg hv] at hi; cases hi
    | _ => rw [ht] at hi; cases hi
  obtain ⟨h1, h2⟩ := parseStep_ok hst
  cases hg : st.sign with
  | gt =>
    rw [hg] at hc
    injection hc with hc _; injection hc with hc; subst hc
    exact ⟨iter, ip, _, start, lim, st.step, .le, tt.pos, h1 hg, hty, fun _ => rfl⟩
  | lt =>
    rw [hg] at hc
    injection hc with hc _; injection hc with hc; subst hc
    exact ⟨iter, ip, _, start, lim, st.step, .ge, tt.pos, h2 hg, hty, fun _ => rfl⟩
  | eq => rw [hg] at hc; cases hc

/-- `FOR` heads that are accepted, and one that is not. -/
example : (parseForHead asciiText Ex.noFloat ⟨1, 1⟩ (lexText asciiText false "i = 10 TO 1 STEP -3\n".toList)).1.isOk = true ∧
    (parseForHead asciiText Ex.noFloat ⟨1, 1⟩ (lexText asciiText false "i = 10 TO 1 STEP 0\n".toList)).1.isOk = false := by
  decide +kernel

/-- Loops of all kinds, with exits that pass through other loops. -/
def Ex.loops : String := "a = 0
b = 0
c = 0
FOR i = 1 TO 9 STEP 3
a = a + i
DO
b = b + 1
WHILE TRUE
EXIT FOR
WEND
LOOP
NEXT
FOR i = 9 TO 1 STEP -4
DO
DO UNTIL b > 10
b = b + 2
IF b > 6 THEN
EXIT DO
END IF
LOOP
c = c + b
EXIT DO
LOOP
NEXT
DO
c = c + 1
LOOP WHILE c < 50
DO
c = c + 1
LOOP UNTIL TRUE"

set_option maxRecDepth 100000 in
example : (Ex.text Ex.loops).err = none ∧
    Ex.ends [some (.int 1#32), some (.int 11#32), some (.int 51#32), some (.int (-3#32))] (Ex.result Ex.loops) = true ∧
    Ex.machine Ex.loops [some 1#64, some 11#64, some 51#64, some (ofI32 (-3#32))] = true := by
  decide +kernel

/-! ## C12: SELECT -/

section
variable {F : FloatOps} {n : Nat} {cl : Calls} {Γ : Env} {e : Expr} {body : Stmts} {w w1 w2 w3 : World} {x : Val} {pos : LineCol}
  {no rest : List (List CaseGuard × Stmts)} {g : CaseGuard} {gs : List CaseGuard}

theorem choose_skip (h : NoneMatch F cl Γ x no w1 w2) : ∀ rest, choose F cl Γ x (selectCases (no ++ rest)) w1 =
    (choose F cl Γ x (selectCases rest) w2).bind fun k w => .ok (k.map (· + no.length)) w := by
  induction h with
  | nil w =>
    intro rest
    show choose F cl Γ x (selectCases rest) w = _
    cases choose F cl Γ x (selectCases rest) w <;> simp [Out.bind]
  | cons hg _ ih =>
    intro rest
    show choose F cl Γ x (.cons _ _ (selectCases (_ ++ rest))) _ = _
    simp only [choose, hg, Out.bind, ih, Bool.false_eq_true, if_false]
    cases choose F cl Γ x (selectCases rest) _ <;> simp [Out.bind, Nat.add_assoc]

theorem exec_case : ∀ (no : List (List CaseGuard × Stmts)) {Γ : Env} {gs : List CaseGuard} {w : World}, execCases F n cl Γ (selectCases (no ++ (gs, body) :: rest)) no.length w =
    execStmts F n cl (afterCases Γ (selectCases no)) body w := by
  intro no
  induction no with
  | nil => intros; rfl
  | cons c no ih => intro Γ gs w; exact ih

/-- **C12** The value is computed once.  If no guard of the cases before matches it and one of this case does, a
`SELECT` does what the body of this case does. -/
theorem C12_taken (hx : eval F cl Γ e w = .ok x w1) (hno : NoneMatch F cl Γ x no w1 w2)
    (hg : anyHolds F cl Γ x (g :: gs) w2 = .ok true w3) :
    execStmt F n cl Γ (.select e (selectCases (no ++ (g :: gs, body) :: rest)) pos) w =
      execStmts F n cl (afterCases Γ (selectCases no)) body w3 := by
  show (eval F cl Γ e w).then _ = _
  rw [hx]
  simp only [Out.then, choose_skip hno]
  show Out.then ((choose F cl Γ x (.cons (g :: gs) body (selectCases rest)) w2).bind _) _ = _
  simp only [choose, hg, Out.bind, if_true, Option.map_some, Nat.zero_add, Out.then]
  exact exec_case no

/-- **C12** `CASE ELSE` is taken if no guard before it matches. -/
theorem C12_else (hx : eval F cl Γ e w = .ok x w1) (hno : NoneMatch F cl Γ x no w1 w2) :
    execStmt F n cl Γ (.select e (selectCases (no ++ ([], body) :: rest)) pos) w =
      execStmts F n cl (afterCases Γ (selectCases no)) body w2 := by
  show (eval F cl Γ e w).then _ = _
  rw [hx]
  simp only [Out.then, choose_skip hno]
  have e1 : choose F cl Γ x (selectCases (([], body) :: rest)) w2 = .ok (some 0) w2 := by simp only [selectCases, choose]
  simp only [e1, Out.bind, Option.map_some, Nat.zero_add]
  exact exec_case no

/-- **C12** If no guard matches, a `SELECT` does nothing. -/
theorem C12_none (hx : eval F cl Γ e w = .ok x w1) (hno : NoneMatch F cl Γ x no w1 w2) :
    execStmt F n cl Γ (.select e (selectCases no) pos) w = .done w2 := by
  show (eval F cl Γ e w).then _ = _
  have := choose_skip hno []
  rw [List.append_nil] at this
  rw [hx]
  simp only [Out.then, this]
  rfl

/-- **C12** One of the guards of a case matches: those before it are tried and do not. -/
theorem C12_any (pre post : List CaseGuard) (hpre : anyHolds F cl Γ x pre w = .ok false w1)
    (hg : guardHolds F cl Γ x g w1 = .ok (.bool true) w2) : anyHolds F cl Γ x (pre ++ g :: post) w = .ok true w2 := by
  induction pre generalizing w with
  | nil =>
    have : w = w1 := by simpa [anyHolds] using hpre
    subst this
    simp [anyHolds, hg, Out.bind]
  | cons a pre ih =>
    show (guardHolds F cl Γ x a w).bind _ = _
    have hpre : (guardHolds F cl Γ x a w).bind _ = _ := hpre
    cases ha : guardHolds F cl Γ x a w with
    | ok v w' =>
      rw [ha] at hpre
      simp only [Out.bind] at hpre ⊢
      cases v with
      | bool b =>
        cases b with
        | true => simp at hpre
        | false => exact ih hpre
      | _ => simp at hpre
    | _ => rw [ha] at hpre; simp [Out.bind] at hpre

/-- **C12** The guards of a case, for integers: a value is the relation `=`, and a range includes both ends. -/
theorem C12_integers {a b c : I32} {lo hi : Expr} :
    (eval F cl Γ e w = .ok (.int b) w1 → ∀ op, guardHolds F cl Γ (.int a) (.is op e) w = .ok (.bool (match op with
      | .eq => decide (a.toInt = b.toInt) | .ne => decide (a.toInt ≠ b.toInt) | .lt => decide (a.toInt < b.toInt)
      | .le => decide (a.toInt ≤ b.toInt) | .gt => decide (b.toInt < a.toInt) | .ge => decide (b.toInt ≤ a.toInt))) w1) ∧
    (eval F cl Γ lo w = .ok (.int b) w1 → eval F cl Γ hi w1 = .ok (.int c) w2 →
      guardHolds F cl Γ (.int a) (.to lo hi) w = .ok (.bool (decide (b.toInt ≤ a.toInt ∧ a.toInt ≤ c.toInt))) w2) := by
  refine ⟨fun h op => ?_, fun h1 h2 => ?_⟩
  · simp only [guardHolds, h, Out.bind, binVal]
    cases op <;> simp [caseOp, intBin, intArith, intRel]
  · simp [guardHolds, h1, h2, Out.bind, binVal, intBin, intArith, intRel]

end

/-- **C12** The compiled program: after the statements before the `SELECT`, the machine does what the body of the first
matching case does and then goes on behind `END SELECT`.  (`SELECT` statements that are not at the top level: `program_partial`
with `C12_taken`.)  Missing: see `program_partial`. -/
theorem C12_taken_partial {H : Type} {up : FMap Str Md} (hup : ∀ k md, up.get? k = some md → md.userDefined = false) {pre post : List Stmt}
    {no rest : List (List CaseGuard × Stmts)} {g : CaseGuard} {gs : List CaseGuard} {body : Stmts} {e : Expr} {pos : LineCol} {s : Stmt} {ss : Stmts}
    (hs : s = .select e (selectCases (no ++ (g :: gs, body) :: rest)) pos) (hss : ss = Stmts.ofList (pre ++ s :: post)) {img : Image}
    (h : compileProgram up [] ⟨ss, none⟩ = .ok img) (F : FloatOps) {host : Host H} {lib : Lib}
    {state : List (Request × Reply) → H} (hprov : Provides host img lib state) (n maxStack maxHeap : Nat)
    (hmax : maxStack ≤ 2 ^ 24) {cl : Calls} (hcl : cl = callsOf F n maxStack lib (builtins up) ss) {Γ : Env} (hΓ : Γ = afterStmts (builtins up) (Stmts.ofList pre)) {w : World}
    (hpre : execStmts F n cl (builtins up) (Stmts.ofList pre) (fresh maxHeap) = .done w) {x : Val} {w1 w2 w3 : World}
    (hx : eval F cl Γ e w = .ok x w1) (hno : NoneMatch F cl Γ x no w1 w2) (hg : anyHolds F cl Γ x (g :: gs) w2 = .ok true w3) :
    Follows F host state img (afterStmts (builtins up) ss) (Vm.start maxStack maxHeap (state []))
      (follow F n cl (builtins up) ss n
        (recover s (Stmts.ofList post) (execStmts F n cl (afterStmt Γ s) (Stmts.ofList post))
          (execStmts F n cl (afterCases Γ (selectCases no)) body w3))) := by
  have := program_at_partial hup hss h F hprov n maxStack maxHeap hmax hcl hΓ hpre
  rw [hs] at this ⊢
  rw [C12_taken hx hno hg] at this
  exact this

/-- Cases of all kinds. -/
def Ex.selects : String := "r = 0
FOR i = 0 TO 9
SELECT CASE i * 2
CASE 0, IS > 16
r = r + 1
CASE 4 TO 8, IS = 2
r = r + 10
CASE 8
r = r + 5000
CASE ELSE
r = r + 100
END SELECT
NEXT
SELECT CASE \"x\" + \"y\"
CASE \"xz\"
r = 0
CASE IS < \"xz\"
r = r + 1000
END SELECT"

set_option maxRecDepth 100000 in
example : (Ex.text Ex.selects).err = none ∧ Ex.ends [some (.int 1442#32), some (.int 10#32)] (Ex.result Ex.selects) = true ∧
    Ex.machine Ex.selects [some 1442#64, some 10#64] = true := by
  decide +kernel

end EB
