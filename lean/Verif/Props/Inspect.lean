import Verif.Lemmas.Inspect
import Verif.Props.Host
/-!
# C62: what an embedding program reads

A program is given to the compiler part by part (`compile_more`), each part is executed, and variables are read from
outside (`get_program`, `get_global` and their variants for arrays).
-/

namespace EB
open Spec

/-! ## Examples -/

/-- The interpreter on parts. -/
def Ex.runParts (n S : Nat) : Env → World → List Source → Option (Env × World)
  | Γ, w, [] => some (Γ, w)
  | Γ, w, src :: rest =>
    match w.trap with
    | .jump .. => none
    | _ =>
      match run Ex.noFloat n S Ex.lib Γ src.stmts w with
      | .done w1 => Ex.runParts n S (afterStmts Γ src.stmts) w1 rest
      | _ => none

theorem Ex.runParts_sound {n S : Nat} {srcs : List Source} : ∀ {Γ Γ' : Env} {w w' : World}, Ex.runParts n S Γ w srcs = some (Γ', w') →
    RunParts Ex.noFloat n S Ex.lib Γ w srcs Γ' w' := by
  induction srcs with
  | nil => intro Γ Γ' w w' h; cases h; exact .nil
  | cons src rest ih =>
    intro Γ Γ' w w' h
    unfold Ex.runParts at h
    split at h
    · cases h
    next hj =>
      split at h
      next hr => exact .cons (fun k b hk => hj k b hk) hr (ih h)
      · cases h

/-- Parts are compiled and executed. -/
def Ex.execParts (n : Nat) : Ctx → Image → Vm (List Val) → List Source → Option (Image × Vm (List Val))
  | _, img, vm, [] => some (img, vm)
  | c, img, vm, src :: rest =>
    match compileMore src c img with
    | (.error _, _, _) => none
    | (.ok _, c, img) => Ex.execParts n c img (Ex.driveHost img n vm) rest

/-- The same from the start. -/
def Ex.embedded (srcs : List String) : Option (Image × Vm (List Val)) :=
  match Compiler.new Ex.up [] with
  | .error _ => none
  | .ok c => Ex.execParts 200 c .default (Vm.start 50 50 []) (srcs.map Ex.text)

theorem Ex.host_keeps : KeepsLimits Ex.host := by
  intro idx first poss regs heap le img h
  simp only [Ex.host]
  repeat' split
  all_goals rfl

section
variable {H : Type} {F : FloatOps} {up : FMap Str Md} {c0 c : Ctx} {img : Image} {host : Host H} {lib : Lib}
  {state : List (Request × Reply) → H} {n S L : Nat} {srcs : List Source} {Γ : Env} {w : World}

/-- **C62** Parts of a program that are compiled and executed one after the other do what the interpreter says, with the
variables that the parts before have left, and what is read from outside afterwards are the values that the interpreter
knows.  Missing: variables that no executed statement has defined (`C62_counterexample`), calls of `SUB`s and `FUNCTION`s
of earlier parts, `ON ERROR GOTO` that is still active when the next part starts, predefined variables, and what
`program_partial` leaves out. -/
theorem C62_parts_partial (hup : ∀ k md, up.get? k = some md → md.userDefined = false) (hk : KeepsLimits host)
    (hprov : ∀ img, Provides host img lib state) (hS : S ≤ 2 ^ 24) (hn : Compiler.new up [] = .ok c0)
    (hc : CompileParts (c0, .default) srcs (c, img)) (hr : RunParts F n S lib (builtins up) (fresh L) srcs Γ w) :
    ∃ vm, ExecParts F host (c0, .default, Vm.start S L (state [])) srcs (c, img, vm) ∧ TellsAll Γ w img vm ∧
      vm.host = state w.log.events := by
  obtain ⟨vm, h1, h2⟩ := between_parts hk hS hprov hr hc (between_start hup hn S L)
  exact ⟨vm, h1, tellsAll h2.vars h2.scope h2.shown, h2.sync.host⟩

/-- **C62** If the last part fails or executes `END`, what is read from outside are the values at that moment.  Missing:
as before. -/
theorem C62_stopped_partial (hup : ∀ k md, up.get? k = some md → md.userDefined = false) (hk : KeepsLimits host)
    (hprov : ∀ img, Provides host img lib state) (hS : S ≤ 2 ^ 24) (hn : Compiler.new up [] = .ok c0)
    (hc : CompileParts (c0, .default) srcs (c, img)) (hr : RunParts F n S lib (builtins up) (fresh L) srcs Γ w)
    (ht : ∀ k b, w.trap ≠ .jump k b) {src : Source} {c' : Ctx} {img' : Image} (hlast : compileMore src c img = (.ok (), c', img')) :
    ∃ vm, ExecParts F host (c0, .default, Vm.start S L (state [])) srcs (c, img, vm) ∧
      (∀ pos e w', run F n S lib Γ src.stmts w = .err pos e w' → ∃ vm1 vm2, Reaches F host img' vm vm1 ∧ Raises F host img' vm1 pos e vm2 ∧
        TellsAll (afterStmts Γ src.stmts) w' img' vm2) ∧
      (∀ code w', run F n S lib Γ src.stmts w = .ended code w' → ∃ vm1 vm2 x, Reaches F host img' vm vm1 ∧
        vmStep F host img' vm1 = .stop (.end x) vm2 ∧ x.toNat = code ∧ TellsAll (afterStmts Γ src.stmts) w' img' vm2) := by
  obtain ⟨vm, h1, h2⟩ := between_parts hk hS hprov hr hc (between_start hup hn S L)
  obtain ⟨g1, g2⟩ := between_follows (F := F) hS hprov h2 hlast n ht
  refine ⟨vm, h1, fun pos e w' hw => ?_, fun code w' hw => ?_⟩ <;> rw [hw] at g2
  · obtain ⟨vm1, vm2, r1, r2, r3, _⟩ := g2
    rw [h2.fp] at r3
    exact ⟨vm1, vm2, r1, r2, tellsAll (more_vars hlast) g1 r3⟩
  · obtain ⟨vm1, r1, ⟨x, vm2, r2, r3⟩, r4, _⟩ := g2
    rw [h2.fp] at r4
    obtain ⟨e1, e2⟩ := vmStep_end r2
    exact ⟨vm1, vm2, x, r1, r2, r3, TellsAll.same (tellsAll (more_vars hlast) g1 r4) e1 e2⟩

end

/-- Three parts: a variable, a shared array of strings and a call that assigns to the variable, and a computation. -/
def Ex.parts : List String := ["x = 3", "DIM SHARED a(2) AS STRING
a(1) = HI$ + \"k\"
IN x", "y = x + 1"]

set_option maxRecDepth 100000 in
/-- The interpreter runs them and knows that `x` is 7, `y` is 8 and `a(1)` is "hik"; the compiler accepts them, and this is
what is read from outside. -/
example : ((Ex.runParts 50 50 (builtins Ex.up) (fresh 50) (Ex.parts.map Ex.text)).map fun (Γ, w) =>
      (Spec.position "X".toList Γ.locals, Spec.position "Y".toList Γ.locals, Spec.position "A".toList Γ.shared,
        (match w.mem (.local 0), w.mem (.local 1), w.mem (.shared 0) with
        | some (.scalar x), some (.scalar y), some (.arr .text [2] f) => x == .int 7 && y == .int 8 && f [1] == .text "hik".toList
        | _, _, _ => false))) =
      some (some (.scalar .integer, 0), some (.scalar .integer, 1), some (.array .text 1, 0), true) ∧
    ((Ex.embedded Ex.parts).map fun (img, vm) =>
      (vm.getProgram img "X".toList, vm.getProgram img "Y".toList, vm.getGlobalArray img "A".toList [1#32])) =
      some (some (.ok (some (.integer 7))), some (.ok (some (.integer 8))), some (.ok (some (.text "hik".toList)))) ∧
    ((Ex.embedded Ex.parts).map fun (img, vm) =>
      (vm.getGlobalArray img "A".toList [2#32], vm.getGlobal img "A".toList, vm.getProgram img "Q".toList)) =
      some (some (.error (.bounds (.exceeds 2 2))), some (.error (.isArray "A".toList)), some (.ok none)) :=
  ⟨by decide +kernel, by decide +kernel, by decide +kernel⟩

set_option maxRecDepth 100000 in
/-- A last part that fails in its middle. -/
example : ((Ex.runParts 50 50 (builtins Ex.up) (fresh 50) [Ex.text "x = 3"]).map fun (Γ, w) =>
      match run Ex.noFloat 50 50 Ex.lib Γ (Ex.text "y = x\nz = y / 0").stmts w with
      | .err _ .divisionByZero w' => (match w'.mem (.local 1) with | some (.scalar y) => y == .int 3 | _ => false)
      | _ => false) = some true ∧
    ((Ex.embedded ["x = 3", "y = x\nz = y / 0"]).map fun (img, vm) => vm.getProgram img "Y".toList) =
      some (some (.ok (some (.integer 3)))) := by
  decide +kernel

/-- Where the machine is when a program without calls is at its end. -/
def Ex.atEnd (s : String) : Option (Image × Vm (List Val)) :=
  match compileProgram [] [] (Ex.text s) with
  | .error _ => none
  | .ok img =>
    let vm := Ex.driveHost img 200 (Vm.start 50 50 [])
    if img.code[vm.mach.pc]? = some .eof then some (img, vm) else none

set_option maxRecDepth 100000 in
/-- **C62** fails for a variable that is declared in a branch that was not taken: reading it panics, or gives the string
that happens to be the first constant of the program. -/
theorem C62_counterexample :
    ((Ex.atEnd "x = 100000\nIF x = 0 THEN s$ = \"a\"").map fun (img, vm) => vm.getProgram img "S".toList) = some none ∧
    ((Ex.atEnd "y = \"hello\"\nIF y = \"a\" THEN s$ = \"b\"").map fun (img, vm) => vm.getProgram img "S".toList) =
      some (some (.ok (some (.text "hello".toList)))) := by
  decide +kernel

end EB
