import Verif.Lemmas.Frame
import Verif.Props.Stmt
import Verif.Props.Vm
/-!
# C14, C51, C17: results of functions, assignments, RESUME NEXT
-/

namespace EB
open Spec

/-! ## C14: functions that do not assign a result -/

mutual
theorem defs_stmt {k : Str} {f : Def} : ∀ (s : Stmt) (Γ : Env), (k, f) ∈ defsStmt Γ s →
    ∃ (Γ' : Env) (name : VarRef) (params : List VarRef), k = symKey name.name ∧ f.ret = name.ty ∧ f.env = Γ'.body name params
  | .callable name _ params body _, Γ, h => by
    simp only [defsStmt, List.mem_singleton, Prod.mk.injEq] at h
    obtain ⟨rfl, rfl⟩ := h
    exact ⟨_, name, params, rfl, rfl, rfl⟩
  | .doLoop _ body, Γ, h => defs_stmts body _ (by simpa only [defsStmt] using h)
  | .forLoop .., Γ, h => defs_stmts _ _ (by simpa only [defsStmt] using h)
  | .ifs branches, Γ, h => defs_branches branches _ (by simpa only [defsStmt] using h)
  | .select _ cases _, Γ, h => defs_cases cases _ (by simpa only [defsStmt] using h)
  | .whileLoop _ body, Γ, h => defs_stmts body _ (by simpa only [defsStmt] using h)
  | .assign .., _, h | .call .., _, h | .declare .., _, h | .dim .., _, h | .dimArray .., _, h | .arrayAssign .., _, h | .data .., _, h | .end .., _, h
  | .exitDo .., _, h | .exitFor .., _, h | .exitFunction .., _, h | .exitSub .., _, h | .gosub .., _, h | .goto .., _, h | .label .., _, h
  | .onError .., _, h | .ret .., _, h => by simp [defsStmt] at h

theorem defs_stmts {k : Str} {f : Def} : ∀ (ss : Stmts) (Γ : Env), (k, f) ∈ defsStmts Γ ss →
    ∃ (Γ' : Env) (name : VarRef) (params : List VarRef), k = symKey name.name ∧ f.ret = name.ty ∧ f.env = Γ'.body name params
  | .nil, _, h => by simp [defsStmts] at h
  | .cons s rest, Γ, h => by
    simp only [defsStmts, List.mem_append] at h
    rcases h with h | h
    · exact defs_stmt s _ h
    · exact defs_stmts rest _ h

theorem defs_branches {k : Str} {f : Def} : ∀ (bs : Branches) (Γ : Env), (k, f) ∈ defsBranches Γ bs →
    ∃ (Γ' : Env) (name : VarRef) (params : List VarRef), k = symKey name.name ∧ f.ret = name.ty ∧ f.env = Γ'.body name params
  | .nil, _, h => by simp [defsBranches] at h
  | .cons _ body rest, Γ, h => by
    simp only [defsBranches, List.mem_append] at h
    rcases h with h | h
    · exact defs_stmts body _ h
    · exact defs_branches rest _ h

theorem defs_cases {k : Str} {f : Def} : ∀ (cs : Cases) (Γ : Env), (k, f) ∈ defsCases Γ cs →
    ∃ (Γ' : Env) (name : VarRef) (params : List VarRef), k = symKey name.name ∧ f.ret = name.ty ∧ f.env = Γ'.body name params
  | .nil, _, h => by simp [defsCases] at h
  | .cons _ body rest, Γ, h => by
    simp only [defsCases, List.mem_append] at h
    rcases h with h | h
    · exact defs_stmts body _ h
    · exact defs_cases rest _ h
end

/-- **C14** A call of a function of the program whose body does not assign to its name returns `FALSE`, 0 or the empty
string, according to its type, whatever the arguments, whatever the state, whatever else the body does.  With
`program_partial`, so do the calls of the compiled program.  Missing: doubles, for which it is false
(`C14_counterexample`; the interpreter gives no result there). -/
theorem C14_default_partial {F : FloatOps} {n d : Nat} {lib : Lib} {Γ : Env} {ss : Stmts} {k : Str} {f : Def} {t : ExprType}
    (hf : findDef k (defsStmts Γ ss) = some f) (ht : f.ret = some t) (hno : assignsIn k f.body = false)
    {vs : List Val} {pos : LineCol} {w w' : World} {x : Val} (h : (callsOf F n d lib Γ ss).fn k vs pos w = .ok x w') :
    x = defaultVal t := by
  cases d with
  | zero => cases h
  | succ d =>
    obtain ⟨Γ', name, params, rfl, hr, he⟩ := defs_stmts ss Γ (findDef_mem hf)
    have h : (match findDef (symKey name.name) (defsStmts Γ ss) with
      | some f => fnResult w (unit F n (callsAt F n lib (fun k => findDef k (defsStmts Γ ss)) d true f.env f.body) f.env f.body none (enter f.ret vs w))
      | none => .stuck) = .ok x w' := h
    rw [hf] at h
    simp only at h
    have hn : name.ty = some t := hr ▸ ht
    have hl : LocalAt f.env (symKey name.name) 0 := by
      rw [he]
      exact ⟨.scalar t, by simp [Env.body, hn, Spec.position]⟩
    have hk := unit_keeps (F := F) (n := n) (callsAt_keeps F n lib (fun k => findDef k (defsStmts Γ ss)) 0 d true f.env f.body) hl hno none (enter f.ret vs w)
    have h0 : (enter f.ret vs w).mem (.local 0) = (defaultResult t).map .scalar := by
      rw [ht]; simp [enter]
    revert hk h
    generalize unit F n (callsAt F n lib (fun k => findDef k (defsStmts Γ ss)) d true f.env f.body) f.env f.body none (enter f.ret vs w) = r
    intro h hk
    have key : ∀ w1 : World, w1.mem (.local 0) = (enter f.ret vs w).mem (.local 0) →
        (match w1.mem (.local 0) with
        | some (.scalar x) => Out.ok x (limit w (goBack w w1))
        | _ => .stuck) = .ok x w' → x = defaultVal t := by
      intro w1 h1 h2
      rw [h1, h0] at h2
      cases t <;> simp [defaultResult] at h2 <;> exact h2.1.symm
    cases r with
    | done w1 => exact key w1 (hk _ rfl) h
    | leave w1 => exact key w1 (hk _ rfl) h
    | back w1 => exact key w1 (hk _ rfl) h
    | _ => cases h

/-- Functions of three types that assign nothing to their names, although they do other things. -/
def Ex.defaults : String := "FUNCTION f%(x%)
IF x% > 3 THEN
EXIT FUNCTION
END IF
x% = 1
END FUNCTION
FUNCTION h$
END FUNCTION
a = f%(5) + 7
b = h$ + \"z\" = \"z\""

set_option maxRecDepth 100000 in
example : (Ex.text Ex.defaults).err = none ∧
    Ex.ends [some (.int 7#32), some (.bool true)] (Ex.result Ex.defaults) = true ∧
    Ex.machine Ex.defaults [some 7#64, some 1#64] = true := by
  decide +kernel

/-- A double function that assigns nothing; the constants of the program are 5.0 and then 0.0. -/
def Ex.badDefault : String := "a# = 5.0
FUNCTION f#
END FUNCTION
b# = f#"

/-- The literals of that program. -/
def Ex.dblText : TextOps := { asciiText with parseDouble := fun s => if s = "5.0".toList then 0x4014000000000000#64 else 0#64 }

set_option maxRecDepth 100000 in
/-- **C14** For doubles the claim is false: the result is not 0.0 but the double whose bits are the number of the
constant 0.0 in the program. -/
theorem C14_counterexample : ∃ img, compileProgram [] [] (parseText Ex.dblText Ex.noFloat Ex.badDefault.toList) = .ok img ∧
    (parseText Ex.dblText Ex.noFloat Ex.badDefault.toList).err = none ∧
    img.code[(Mach.drive Ex.noFloat img 100 (Mach.new 50 50)).pc]? = some .eof ∧
    (Mach.drive Ex.noFloat img 100 (Mach.new 50 50)).get 65#8 = 1#64 := by
  have h : (match compileProgram [] [] (parseText Ex.dblText Ex.noFloat Ex.badDefault.toList) with
    | .ok img => (parseText Ex.dblText Ex.noFloat Ex.badDefault.toList).err.isNone &&
        img.code[(Mach.drive Ex.noFloat img 100 (Mach.new 50 50)).pc]? == some .eof &&
        (Mach.drive Ex.noFloat img 100 (Mach.new 50 50)).get 65#8 == 1#64
    | .error _ => false) = true := by decide +kernel
  cases hc : compileProgram [] [] (parseText Ex.dblText Ex.noFloat Ex.badDefault.toList) with
  | error e => rw [hc] at h; cases h
  | ok img =>
    rw [hc] at h
    simp only [Bool.and_eq_true, beq_iff_eq, Option.isNone_iff_eq_none] at h
    exact ⟨img, rfl, h.1.1, h.1.2, h.2⟩

/-! ## C51: assignments are atomic -/

/-- **C51** An assignment whose right-hand side mentions the variable evaluates it in the state before the assignment, so
that everything sees the old value; only then the variable changes, and nothing else does. -/
theorem C51_after_evaluation_partial {F : FloatOps} {cl : Calls} {Γ : Env} {v : VarRef} {e : Expr} {p : Place} {t : ExprType} {w : World}
    (hv : nameRef Γ.locals Γ.shared v = .var p (.scalar t)) (hm : mentions (symKey v.name) e = true) :
    (∀ x w1, evalAs F cl Γ e t w = .ok x w1 → ∃ w2, assign F cl Γ v e w = .done w2 ∧ w2.mem p = some (.scalar x) ∧
      ∀ q, q ≠ p → w2.mem q = w1.mem q) ∧
    (∀ pos er w1, evalAs F cl Γ e t w = .err pos er w1 → assign F cl Γ v e w = .err pos er w1) := by
  refine ⟨fun x w1 h => ⟨w1.set p (some (.scalar x)), ?_, by simp [World.set], fun q hq => set_other hq⟩, fun pos er w1 h => ?_⟩
  · simp only [assign, hv, hm, if_true, h, Out.then]
  · simp only [assign, hv, hm, if_true, h, Out.then]

/-- **C51** The compiled program: if the evaluation fails, the machine raises the error and the variable has the value
it had before.  Missing: right-hand sides that do not mention the variable, for which it is false
(`C51_counterexample`), shared variables, and what `program_partial` leaves out. -/
theorem C51_failure_partial {H : Type} {up : FMap Str Md} (hup : ∀ k md, up.get? k = some md → md.userDefined = false) {pre post : List Stmt}
    {v : VarRef} {vp : LineCol} {e : Expr} {ss : Stmts} (hss : ss = Stmts.ofList (pre ++ .assign v vp e :: post)) {img : Image}
    (h : compileProgram up [] ⟨ss, none⟩ = .ok img) (F : FloatOps) {host : Host H} {lib : Lib}
    {state : List (Request × Reply) → H} (hprov : Provides host img lib state) (n maxStack maxHeap : Nat)
    (hmax : maxStack ≤ 2 ^ 24) {cl : Calls} (hcl : cl = callsOf F n maxStack lib (builtins up) ss) {Γ : Env} (hΓ : Γ = afterStmts (builtins up) (Stmts.ofList pre)) {w : World}
    (hpre : execStmts F n cl (builtins up) (Stmts.ofList pre) (fresh maxHeap) = .done w) {i : Nat} {t : ExprType}
    (hv : nameRef Γ.locals Γ.shared v = .var (.local i) (.scalar t)) (hm : mentions (symKey v.name) e = true)
    {pos : LineCol} {er : RtErr} {w1 : World} (hf : evalAs F cl Γ e t w = .err pos er w1) {c : Cell} (hold : w.mem (.local i) = some c)
    (htrap : w1.trap = .stop) :
    ∃ vm vm', Reaches F host img (Vm.start maxStack maxHeap (state [])) vm ∧ Raises F host img vm pos er vm' ∧
      HoldsCell img.constants vm'.mach.heap c (vm'.mach.regs (64 + i)) := by
  have := program_at_partial hup hss h F hprov n maxStack maxHeap hmax hcl hΓ hpre
  have e1 : execStmt F n cl Γ (.assign v vp e) w = .err pos er w1 := (C51_after_evaluation_partial hv hm).2 pos er w1 hf
  rw [e1] at this
  simp only [recover, htrap] at this
  rw [follow_other (by intro _ _ h; cases h)] at this
  obtain ⟨vm, vm', h1, h2, h3, _⟩ := this
  refine ⟨vm, vm', h1, h2, @Models.cells Labels.anywhere _ _ _ _ _ h3 (.local i) c ?_⟩
  have hk : OutKeeps (· = .local i) w (evalAs F cl Γ e t w) := evalAs_keeps (hcl ▸ (callsAt_keeps F n lib _ i maxStack _ _ _).1) e t w
  rw [hf] at hk
  exact (hk _ rfl).trans hold

/-- A failing assignment that mentions its variable. -/
def Ex.failing : String := "x = 5
x = x + 1 / 0"

set_option maxRecDepth 100000 in
/-- The hypotheses of `C51_failure_partial` can be met: the machine stops with a division by zero and `x` is still 5. -/
example : (match Ex.result Ex.failing with
    | .err _ e w => e == .divisionByZero && (match w.mem (.local 0) with
        | some (.scalar x) => x == .int 5#32
        | _ => false)
    | _ => false) = true ∧
    (match compileProgram [] [] (Ex.text Ex.failing) with
    | .ok img => (Mach.drive Ex.noFloat img 100 (Mach.new 50 50)).get 64#8 == 5#64
    | .error _ => false) = true := by
  decide +kernel

/-- Drives the machine over yields, for examples. -/
def Ex.driveVm (img : Image) : Nat → Vm Unit → Vm Unit
  | 0, vm => vm
  | n + 1, vm =>
    match vmStep noFloat noHost img vm with
    | .cont vm' => Ex.driveVm img n vm'
    | .stop .yield vm' => Ex.driveVm img n vm'
    | _ => vm

/-- The program with this text is accepted, comes to its end, and then these local variables have these values. -/
def Ex.vmEnds (s : String) (vs : List (Option (BitVec 64))) : Bool :=
  (Ex.text s).err.isNone &&
  match compileProgram [] [] (Ex.text s) with
  | .ok img =>
    let m := (Ex.driveVm img 500 (exampleVm 50)).mach
    img.code[m.pc]? == some .eof && m.fp == 64 && (vs.zipIdx).all fun (v, i) =>
      match v with
      | none => true
      | some v => m.get (BitVec.ofNat 8 (64 + i)) == v
  | .error _ => false

/-- A failing assignment that does not mention its variable. -/
def Ex.clobber : String := "x = 5
ON ERROR RESUME NEXT
x = 1 / 0
y = x"

/-- A function that reads the variable that is assigned to; `y` is the result. -/
def Ex.seen : String := "DIM SHARED x AS INTEGER
FUNCTION f%
f% = x
END FUNCTION
x = 5
x = 100 + f%
y = x"

set_option maxRecDepth 100000 in
/-- **C51** The unrestricted claim is false.  After `x = 5`, the failing `x = 1 / 0` leaves `x = 1`; and in `x = 100 + f%`
the function, which returns `x`, sees 100 and not 5. -/
theorem C51_counterexample : Ex.vmEnds Ex.clobber [some 1#64, some 1#64] = true ∧ Ex.vmEnds Ex.seen [some 200#64] = true := by
  decide +kernel

/-! ## C17: ON ERROR RESUME NEXT -/

/-- **C17** Under `ON ERROR RESUME NEXT`, after a failing statement the next one runs, in the state that the failing one
has left; `ERRMSG` and the like see the error.  Wherever the two stand: in the program, in a body of a loop or in a
function. -/
theorem C17_next_partial {F : FloatOps} {n : Nat} {cl : Calls} {Γ : Env} {s : Stmt} {rest : Stmts} {w w1 : World} {pos : LineCol}
    {e : RtErr} (hf : execStmt F n cl Γ s w = .err pos e w1) (htrap : w1.trap = .resume) (hs : Spec.Stmt.plain s = true)
    (hrest : Spec.Stmts.continues rest = true) :
    execStmts F n cl Γ (.cons s rest) w =
      execStmts F n cl (afterStmt Γ s) rest (w1.handled pos e) := by
  show recover s rest _ (execStmt F n cl Γ s w) = _
  rw [hf]
  simp only [recover, htrap, hs, hrest, Bool.and_self, if_true]

/-- **C17** The compiled program: after a failing statement the machine goes on with the next one.  (Statements that are not
at the top level: `program_partial` with `C17_next_partial`.)  Missing: failing statements that are made of other
statements and failing statements that are the last ones of a body, where it is false (`C17_counterexample`), or of
the program. -/
theorem C17_program_partial {H : Type} {up : FMap Str Md} (hup : ∀ k md, up.get? k = some md → md.userDefined = false)
    {pre post : List Stmt} {s : Stmt} {ss : Stmts} (hss : ss = Stmts.ofList (pre ++ s :: post)) {img : Image}
    (h : compileProgram up [] ⟨ss, none⟩ = .ok img) (F : FloatOps) {host : Host H} {lib : Lib}
    {state : List (Request × Reply) → H} (hprov : Provides host img lib state) (n maxStack maxHeap : Nat)
    (hmax : maxStack ≤ 2 ^ 24) {cl : Calls} (hcl : cl = callsOf F n maxStack lib (builtins up) ss) {Γ : Env}
    (hΓ : Γ = afterStmts (builtins up) (Stmts.ofList pre)) {w w1 : World} {pos : LineCol} {e : RtErr}
    (hpre : execStmts F n cl (builtins up) (Stmts.ofList pre) (fresh maxHeap) = .done w)
    (hf : execStmt F n cl Γ s w = .err pos e w1) (htrap : w1.trap = .resume) (hs : Spec.Stmt.plain s = true)
    (hrest : Spec.Stmts.continues (Stmts.ofList post) = true) :
    Follows F host state img (afterStmts (builtins up) ss) (Vm.start maxStack maxHeap (state []))
      (follow F n cl (builtins up) ss n
        (execStmts F n cl (afterStmt Γ s) (Stmts.ofList post) (w1.handled pos e))) := by
  have h1 := program_at_partial hup hss h F hprov n maxStack maxHeap hmax hcl hΓ hpre
  have h2 := C17_next_partial hf htrap hs hrest
  have h3 : execStmts F n cl Γ (.cons s (Stmts.ofList post)) w = recover s (Stmts.ofList post)
    (execStmts F n cl (afterStmt Γ s) (Stmts.ofList post)) (execStmt F n cl Γ s w) := rfl
  rwa [← h3, h2] at h1

/-- Failing statements, at the top level and in a loop. -/
def Ex.resume : String := "a = 1
ON ERROR RESUME NEXT
a = a + 1 / 0
b = a + 4
FOR i = 1 TO 3
a = a + 7 / (i - 2)
b = b + 1
NEXT
c = b"

set_option maxRecDepth 100000 in
/-- The second round of the loop fails: `a` is `1 - 7 + 7`, and `b` is still counted. -/
example : (Ex.text Ex.resume).err = none ∧
    Ex.ends [some (.int 1#32), some (.int 8#32), some (.int 4#32), some (.int 8#32)] (Ex.result Ex.resume) = true ∧
    Ex.vmEnds Ex.resume [some 1#64, some 8#64, some 4#64, some 8#64] = true := by
  decide +kernel

/-- The last statement of a loop fails; `i` is the first local variable. -/
def Ex.resumeLoop : String := "i = 0
n = 0
ON ERROR RESUME NEXT
DO WHILE i < 3
i = i + 1
n = n / 0
LOOP
d = i"

/-- The last statement of a branch fails. -/
def Ex.resumeBranch : String := "a = 0
b = 0
ON ERROR RESUME NEXT
IF a = 0 THEN
a = a / 0
ELSE
b = 1
END IF"

/-- The last statement of a subroutine fails. -/
def Ex.resumeSub : String := "a = 0
SUB s
x = 0
x = x / 0
END SUB
ON ERROR RESUME NEXT
s
a = a + 1"

set_option maxRecDepth 100000 in
/-- **C17** The claim is false: if the last statement of a loop fails, the loop is left after one round (`i` is 1); if the last statement
of a branch fails, the next branch is executed (`b` is 1); and if the last statement of a subroutine fails, the program goes on in
the frame of the subroutine with what is written behind it, which here calls the subroutine again, until the call stack is full. -/
theorem C17_counterexample : Ex.vmEnds Ex.resumeLoop [some 1#64] = true ∧ Ex.vmEnds Ex.resumeBranch [some 0#64, some 1#64] = true ∧
    (match compileProgram [] [] (Ex.text Ex.resumeSub) with
    | .ok img => (Ex.driveVm img 100 (exampleVm 50)).mach.stack.length > 1
    | .error _ => false) = true := by
  decide +kernel

end EB
