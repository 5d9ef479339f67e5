import Verif.Lemmas.Types
import Verif.Lemmas.Frame
import Verif.Spec.Program
/-!
# C07 and C08: expressions

`Spec.Eval` says what an expression means and which type it has.  `SymsAre sy Γ` says that the symbol table
knows what the environment knows, `GOk g` that the code generator is in order, and `Linked img g lo g'` that the
code that `g'` holds from address `lo` on is in the image.  These hold for every state of the compiler.
-/

namespace EB
open Spec

namespace Ex

/-- Two variables: the integer `x` and the array of doubles `a`. -/
def envX : Env := ⟨[("X".toList, .scalar .integer), ("A".toList, .array .double 1)], [], fun _ => none, fun _ _ => [], fun _ _ => none, fun _ => none⟩

/-- The symbol table for them. -/
def symsX : Syms := ⟨.empty, [], [], ⟨[("X".toList, (.scalar .integer, 0)), ("A".toList, (.array .double 1, 1))]⟩⟩

theorem symsX_are : SymsAre symsX envX := by
  refine ⟨⟨rfl, by decide, ?_⟩, ⟨rfl, by decide, fun k => rfl⟩, ⟨by decide, by decide⟩, fun _ _ => rfl, ?_, ?_⟩
  · intro k
    show FMap.get? _ k = _
    simp only [symsX, envX, Spec.position, FMap.get?]
    by_cases h1 : "X".toList = k
    · subst h1; rfl
    · by_cases h2 : "A".toList = k
      · subst h2; rfl
      · rw [if_neg h1, if_neg h2, if_neg h1, if_neg h2]; rfl
  · intro k md h; simp [Syms.getCallable, symsX, FMap.get?] at h
  · intro k md h; simp [Syms.getCallable, symsX, FMap.get?] at h

/-- `a(x) * (x + 1)`. -/
def exprX : Expr :=
  .bin .mul (.call ⟨"a".toList, none⟩ ⟨1, 1⟩ (.cons (.sym ⟨"x".toList, none⟩ ⟨1, 3⟩) .end ⟨1, 4⟩ .nil))
    (.bin .add (.sym ⟨"x".toList, none⟩ ⟨1, 9⟩) (.int 1#32 ⟨1, 13⟩) ⟨1, 11⟩) ⟨1, 6⟩

/-- The code for it, with the first temporary as destination. -/
def codeX : Codegen :=
  match compileExpr symsX exprX 1 66#8 .empty with
  | .ok (_, g) => g
  | .error _ => .empty

theorem compiledX : compileExpr symsX exprX 1 66#8 .empty = .ok (.double, codeX) := by decide +kernel

/-- An image with that code. -/
def imgX : Image := ⟨codeX.code, [], codeX.constants.keys, [], codeX.instrs, [], [], []⟩

theorem empty_ok : GOk .empty :=
  ⟨rfl, ⟨IdMap.wf_empty, IdMap.wf_empty, by decide, by decide⟩, fun _ _ => rfl⟩

theorem linkedX : Linked imgX codeX (Codegen.empty).code.length codeX := by
  have hg : GOk codeX := empty_ok.ext (GStep.compileExpr _ _ _ _ _ _ _ rfl compiledX)
  refine ⟨fun _ _ _ => rfl, fun _ _ _ _ => rfl, fun i f _ _ h => ?_, fun d t id h => (IdMap.keys_getElem? hg.wf.constants).2 ⟨t, h⟩,
    fun _ _ _ => rfl, fun k t id h => ?_, ?_, fun k v h => ?_⟩
  · have : codeX.fixups = [] := by decide +kernel
    rw [this] at h
    cases h
  · have : codeX.upcalls = .empty := by decide +kernel
    rw [this] at h
    cases h
  · have : ∀ i, i < codeX.code.length → Inside imgX 0 i := by unfold Inside; decide +kernel
    exact fun i _ h => this i h
  · exact h

/-- A machine where `x` is 1 and `a` has two elements. -/
def machX : Mach :=
  { Mach.new 10 100 with
    regs := fun j => if j = 64 then 1#64 else if j = 65 then ptrForHeap 1 else 0#64
    heap := ⟨[.text [], .array ⟨[2], [5#64, 7#64]⟩], 100⟩ }

/-- The same in terms of the specification. -/
def worldX : World :=
  ⟨fun
    | .local 0 => some (.scalar (.int 1#32))
    | .local 1 => some (.arr .double [2] fun s => if s = [1] then .dbl 7#64 else .dbl 5#64)
    | _ => none, 98, .stop, ⟨[], none⟩⟩

theorem callFreeX : CallFree envX exprX := by
  refine ⟨⟨by decide, Or.inl (by decide), trivial⟩, Or.inl (by decide), trivial⟩

/-- `x + "t"`. -/
def badX : Expr := .bin .add (.sym ⟨"x".toList, none⟩ ⟨1, 1⟩) (.text "t".toList ⟨1, 5⟩) ⟨1, 3⟩

theorem modelsX : Shown imgX.constants envX machX.fp worldX machX := by
  letI := Labels.anywhere
  show Models imgX.constants envX machX.fp worldX machX
  refine ⟨by decide, ⟨rfl, by decide⟩, by decide, ?_, ?_, ?_, rfl⟩
  · intro p c h
    match p with
    | .local 0 => cases h; rfl
    | .local 1 =>
      cases h
      refine ⟨1, ⟨[2], [5#64, 7#64]⟩, by decide, rfl, rfl, rfl, ?_⟩
      intro subs hb
      match subs, hb with
      | [s], ⟨h0, h1, _⟩ =>
        have : s = 0 ∨ s = 1 := by
          have : s < 2 := h1
          omega
        rcases this with rfl | rfl
        · exact ⟨5#64, by decide, rfl⟩
        · exact ⟨7#64, by decide, rfl⟩
    | .local (n + 2) => cases h
    | .shared n => cases h
  · intro p c h
    match p with
    | .local 0 => cases h; exact ⟨_, rfl, rfl⟩
    | .local 1 =>
      cases h
      refine ⟨_, rfl, rfl, rfl, fun s => ?_⟩
      by_cases hs : s = [1]
      · subst hs; rfl
      · simp only [if_neg hs]; rfl
    | .local (n + 2) => cases h
    | .shared n => cases h
  · intro p q t d f t' d' f' i hp hq _ _
    have one : ∀ {p : Place} {t d f}, worldX.mem p = some (.arr t d f) → p = .local 1 := by
      intro p t d f h
      match p with
      | .local 0 => cases h
      | .local 1 => rfl
      | .local (n + 2) => cases h
      | .shared n => cases h
    rw [one hp, one hq]

theorem knownX : ∀ place p, Uses envX place exprX → envX.proto place = some p → ∃ c, worldX.mem place = some c ∧ c.Of p := by
  intro place p _ hp
  match place with
  | .local 0 => exact ⟨_, rfl, by cases hp; rfl⟩
  | .local 1 =>
    cases hp
    obtain ⟨q, hq, h⟩ := @Models.typed Labels.anywhere _ _ _ _ _ modelsX (.local 1) _ rfl
    cases hq
    exact ⟨_, rfl, h⟩
  | .local (n + 2) => cases hp
  | .shared n => cases hp

end Ex

/-! ## C08 -/

/-- An expression that compiles has the type that the compiler gives to it.  So what has no type is rejected. -/
theorem C08_static_type {sy : Syms} {Γ : Env} (hsy : SymsAre sy Γ) {e : Expr} {nt : Nat} {reg : Reg} {g g' : Codegen}
    {t : ExprType} (h : compileExpr sy e nt reg g = .ok (t, g')) : HasType Γ e t ∧ ∀ t', HasType Γ e t' → t' = t :=
  ⟨expr_type hsy e h, fun _ h' => hasType_unique h' (expr_type hsy e h)⟩

/-- `a(x) * (x + 1)` is a double. -/
example : HasType Ex.envX Ex.exprX .double ∧ ∀ t', HasType Ex.envX Ex.exprX t' → t' = .double :=
  C08_static_type Ex.symsX_are Ex.compiledX

/-- An expression without calls that is rejected has no type, unless a table is full; the error names what is
wrong with it. -/
theorem C08_rejection {sy : Syms} {Γ : Env} (hsy : SymsAre sy Γ) {e : Expr} (hcf : CallFree Γ e) (hfull : Full e)
    {nt : Nat} {reg : Reg} {g : Codegen} {err : CErr} (h : compileExpr sy e nt reg g = .error err) :
    Resource err ∨ (Faulty Γ e err ∧ ¬ ∃ t, HasType Γ e t) :=
  (expr_error hsy e hcf hfull h).imp id fun h => ⟨h, fun ⟨_, ht⟩ => faulty_untyped h ht⟩

/-- `x + "t"` is rejected, naming the types of the operands. -/
example : Faulty Ex.envX Ex.badX (.binaryOpType ⟨1, 3⟩ "+" .integer .text) ∧ ¬ ∃ t, HasType Ex.envX Ex.badX t :=
  (C08_rejection Ex.symsX_are (e := Ex.badX) ⟨Or.inl (by decide), trivial⟩ ⟨trivial, trivial⟩ (nt := 0) (reg := 66#8) (g := .empty)
    (by decide +kernel)).resolve_left (by intro h; cases h)

/-- Where a type is wanted, exactly the expressions whose type can be converted are accepted. -/
theorem C08_conversion {sy : Syms} {Γ : Env} (hsy : SymsAre sy Γ) {e : Expr} {nt : Nat} {reg : Reg} {g g' : Codegen}
    {want : ExprType} {u : Unit} (h : compileExprAs sy e nt reg want g = .ok (u, g')) :
    ∃ t, HasType Γ e t ∧ Converts t want := by
  obtain ⟨t, g1, h1, h2⟩ := CM.bind_ok.1 h
  exact ⟨t, expr_type hsy e h1, castTo_ok h2⟩

/-- `a(x) * (x + 1)` is accepted as an integer. -/
example : ∃ g, compileExprAs Ex.symsX Ex.exprX 1 66#8 .integer .empty = .ok ((), g) ∧
    ∃ t, HasType Ex.envX Ex.exprX t ∧ Converts t .integer := by
  obtain ⟨g, h⟩ : ∃ g, compileExprAs Ex.symsX Ex.exprX 1 66#8 .integer .empty = .ok ((), g) := ⟨_, rfl⟩
  exact ⟨g, h, C08_conversion Ex.symsX_are h⟩

/-- The values of an expression without calls have its type, whatever the variables hold: it has a value of that
type or raises an error, and changes no variable. -/
theorem C08_value_type {F : FloatOps} {cl : Calls} {Γ : Env} {e : Expr} {t : ExprType}
    (ht : HasType Γ e t) (hcf : CallFree Γ e) {w : World}
    (hk : ∀ place p, Uses Γ place e → Γ.proto place = some p → ∃ c, w.mem place = some c ∧ c.Of p) :
    (∃ v w', eval F cl Γ e w = .ok v w' ∧ v.ty = t ∧ w'.mem = w.mem) ∨
      ∃ pos err w', eval F cl Γ e w = .err pos err w' ∧ w'.mem = w.mem := by
  have := eval_typed (F := F) (cl := cl) ht hcf hk
  cases h : eval F cl Γ e w with
  | ok v w' => rw [h] at this; exact Or.inl ⟨v, w', rfl, this⟩
  | err pos err w' => rw [h] at this; exact Or.inr ⟨pos, err, w', rfl, this⟩
  | ended => rw [h] at this; exact this.elim
  | going => rw [h] at this; exact this.elim
  | stuck => rw [h] at this; exact this.elim

/-- `a(x) * (x + 1)` in the world above. -/
example (F : FloatOps) (lib : Lib) : ∃ v w', eval F (onlyLib lib) Ex.envX Ex.exprX Ex.worldX = .ok v w' ∧ v.ty = .double := by
  rcases C08_value_type (F := F) (cl := onlyLib lib) (C08_static_type Ex.symsX_are Ex.compiledX).1 Ex.callFreeX
    (w := Ex.worldX) Ex.knownX with ⟨v, w', h1, h2, _⟩ | ⟨pos, err, w', h, _⟩
  · exact ⟨v, w', h1, h2⟩
  · cases h

/-! ## C07 -/

/-- Running the code of an expression that calls no function of the program (built-in functions may be called)
leaves its value in the destination, or raises its error at the position of the operation that failed.  Nothing
else changes: no variable, and no register below the temporaries; and the host has seen the calls that the
meaning of the expression says.  The destination must not be the place of a variable that the expression uses,
which is how the compiler uses it.  By `C08_value_type` an expression without any calls always has a value or an
error.

Missing here: calls of the functions of the program, which only make sense in whole programs; see
`program_partial`. -/
theorem C07_expression_partial {H : Type} {F : FloatOps} {host : Host H} {img : Image} {lib : Lib}
    {state : List (Request × Reply) → H} (hprov : Provides host img lib state) {gf : Codegen} {sy : Syms} {Γ : Env}
    (hsy : SymsAre sy Γ) {e : Expr} (huf : UserFree Γ e) {nt : Nat} {reg : Reg} {g g' : Codegen} {t : ExprType}
    (hc : compileExpr sy e nt reg g = .ok (t, g')) (hg : GOk g) (hl : Linked img gf g.code.length g')
    (hi : img.instrs.length = img.code.length) {w : World} {vm : Vm H} (hpc : vm.mach.pc = g.code.length)
    (hm : Shown img.constants Γ vm.mach.fp w vm.mach) (hs : Synchronous state w.log vm)
    (hlow : vm.mach.fp + 192 * (vm.mach.maxStack - vm.mach.stack.length) + 256 ≤ 2 ^ 32)
    (hf : FreeReg w reg.toNat) (hr : reg.toNat < 64 + sy.nlocals + nt) :
    (∀ v w', eval F (onlyLib lib) Γ e w = .ok v w' → ∃ vm', Reaches F host img vm vm' ∧ vm'.mach.pc = g'.code.length ∧
      v.ty = t ∧ Holds img.constants vm'.mach.heap v (vm'.mach.get reg) ∧
      w'.mem = w.mem ∧ Shown img.constants Γ vm'.mach.fp w' vm'.mach ∧ Synchronous state w'.log vm' ∧
      (∀ j, j < vm.mach.fp + sy.nlocals + nt → j ≠ vm.mach.regIndex reg → vm'.mach.regs j = vm.mach.regs j) ∧
      vm'.mach.fp = vm.mach.fp ∧ vm'.mach.stack = vm.mach.stack) ∧
    (∀ pos err w', eval F (onlyLib lib) Γ e w = .err pos err w' → w'.trap = .stop →
      ∃ vm1 vm', Reaches F host img vm vm1 ∧ Raises F host img vm1 pos err vm' ∧ w'.mem = w.mem ∧
        Shown img.constants Γ vm.mach.fp w' vm'.mach ∧
        Synchronous state { w'.log with lastError := some (pos, err) } vm' ∧
        ∀ j, j < vm.mach.fp + sy.nlocals + nt → j ≠ vm.mach.regIndex reg → vm'.mach.regs j = vm.mach.regs j) := by
  letI := answers hprov
  letI := Labels.anywhere
  letI : Watch := ⟨0⟩
  replace hm : Models img.constants Γ vm.mach.fp w vm.mach := hm
  have himp := answers_implements hprov
  have hcall : CallOk F (onlyLib lib) Γ Γ (vm.mach.maxStack - vm.mach.stack.length) img gf :=
    ⟨rfl, by intros; trivial⟩
  have st : Start img Γ (vm.mach.maxStack - vm.mach.stack.length) g.code.length g w vm.mach.calm :=
    ⟨hg, Nat.le_refl _, hpc, rfl,
      ⟨hm.base, hm.heap, hm.room, hm.cells, hm.typed, hm.apart, hm.trap⟩, rfl, hlow⟩
  have hp := sim_expr (F := F) hsy (.refl hsy) hcall (cf := True) e hc st hl hf hr (fun _ => huf) (fun _ => trivial)
    (fun h => absurd h (userFree_left huf))
  have hk := eval_keeps (F := F) (cl := onlyLib lib) (Γ := Γ) (P := fun _ => True) (fun _ _ _ _ => trivial) e w
  refine ⟨fun v w' hx => ?_, fun pos err w' hx htrap => ?_⟩
  · rw [hx] at hp hk
    obtain ⟨m1, g1, p1, s1, k1, md1, d1, ht, hv⟩ := hp
    obtain ⟨n, hn, hnc, hsn⟩ := reaches_of_go hi himp g1 vm rfl hs
    have eq : ∀ {α : Type} (f : Mach → α), (∀ m : Mach, f m.calm = f m) → f n.mach = f m1 := by
      intro α f hf
      rw [← hf n.mach, hnc, hf]
    have e1 := eq Mach.pc fun _ => rfl
    have e2 := eq Mach.fp fun _ => rfl
    have e3 := eq Mach.regs fun _ => rfl
    have e4 := eq Mach.heap fun _ => rfl
    have e5 := eq Mach.stack fun _ => rfl
    have e6 := eq Mach.handler fun _ => rfl
    have e7 := eq (Mach.get · reg) fun _ => rfl
    refine ⟨n, hn, by rw [e1, p1], ht, by rw [e4, e7]; exact hv, funext fun p => hk p trivial, ?_, hsn, ?_, ?_, ?_⟩
    · rw [e2, s1.fp]
      show Models _ _ _ _ _
      exact ⟨md1.base, by rw [e4]; exact md1.heap, by rw [e4]; exact md1.room, by rw [e3, e4]; exact md1.cells, md1.typed,
        by rw [e3]; exact md1.apart, by rw [e6]; exact md1.trap⟩
    · intro j h1 h2
      rw [e3]
      exact k1.regs j ⟨Or.inr trivial, h1, h2⟩
    · rw [e2, s1.fp]; rfl
    · rw [e5, s1.stack]; rfl
  · rw [hx] at hp hk
    obtain ⟨m1, pc, f1, k1, md1, _⟩ := hp
    have hh : m1.handler = .none := by
      have := md1.trap
      rw [htrap] at this
      exact this
    obtain ⟨vm1, vm', n0, hn, hr, hnc, hpark, hsn⟩ := raises_of_fails hi himp f1 (.inl hh) vm rfl hs
    have eq : ∀ {α : Type} (f : Mach → α), (∀ m : Mach, f m.calm = f m) → f n0 = f m1 := by
      intro α f hf
      rw [← hf n0, hnc, hf]
    have e3 : vm'.mach.regs = m1.regs := by rw [hpark]; exact eq Mach.regs fun _ => rfl
    have e4 : vm'.mach.heap = m1.heap := by rw [hpark]; exact eq Mach.heap fun _ => rfl
    have e6 : vm'.mach.handler = m1.handler := by rw [hpark]; exact eq Mach.handler fun _ => rfl
    refine ⟨vm1, vm', hn, hr, funext fun p => hk p trivial, ?_, hsn, ?_⟩
    · show Models _ _ _ _ _
      exact ⟨md1.base, by rw [e4]; exact md1.heap, by rw [e4]; exact md1.room, by rw [e3, e4]; exact md1.cells, md1.typed,
        by rw [e3]; exact md1.apart, by rw [e6]; exact md1.trap⟩
    · intro j h1 h2
      rw [e3]
      exact k1.regs j ⟨Or.inr trivial, h1, h2⟩

/-- The code of `a(x) * (x + 1)` computes `7 * double(2)`. -/
example {H : Type} (F : FloatOps) (host : Host H) (lib : Lib) (state : List (Request × Reply) → H)
    (hprov : Provides host Ex.imgX lib state) :
    ∃ vm', Reaches F host Ex.imgX ⟨Ex.machX, none, none, state []⟩ vm' ∧ vm'.mach.pc = Ex.codeX.code.length ∧
    vm'.mach.get 66#8 = F.mul 7#64 (F.ofInt 2#32) ∧ vm'.mach.regs 64 = 1#64 := by
  obtain ⟨vm', hr, hp, _, hv, _, _, _, hk, _⟩ := (C07_expression_partial (F := F) hprov Ex.symsX_are (by decide)
    Ex.compiledX Ex.empty_ok Ex.linkedX (by decide +kernel) (vm := ⟨Ex.machX, none, none, state []⟩) rfl Ex.modelsX
    ⟨rfl, rfl, rfl⟩ (show 64 + 192 * (10 - 0) + 256 ≤ 2 ^ 32 by decide) (fun p c h => by
      match p with
      | .local 0 | .local 1 => decide
      | .local (n + 2) => cases h
      | .shared n => cases h) (by decide)).1 _ _ rfl
  exact ⟨vm', hr, hp, hv, hk 64 (show 64 < 64 + 2 + 1 by decide) (show 64 ≠ 66 by decide)⟩

end EB
