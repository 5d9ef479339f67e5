import Verif.Lemmas.Scope
import Verif.Spec.Valid
/-!
# What the compiler accepts: expressions
-/

namespace EB
open Spec

/-- The result of a part of the compiler: it succeeds with `P`, or fails because of a limit or since `Q` is false. -/
def Judged {σ α : Type} (x : Except CErr (α × σ)) (Q : Prop) (P : α → σ → Prop) : Prop :=
  match x with
  | .ok (a, s) => P a s
  | .error e => Limit e ∨ ¬ Q

section
variable {σ α β : Type}

theorem Judged.bind {x : CM σ α} {f : α → CM σ β} {s : σ} {Q Q1 : Prop} {P1 : α → σ → Prop} {P : β → σ → Prop}
    (h1 : Judged (x s) Q1 P1) (hq : Q → Q1) (h2 : ∀ a s', x s = .ok (a, s') → P1 a s' → Judged (f a s') Q P) : Judged ((x >>= f) s) Q P := by
  show Judged (match x s with
    | .ok (a, s') => f a s'
    | .error e => .error e) Q P
  cases hx : x s with
  | error e => rw [hx] at h1; exact h1.imp id fun h hn => h (hq hn)
  | ok r => rw [hx] at h1; exact h2 r.1 r.2 hx h1

theorem bind_of_ok {x : CM σ α} {f : α → CM σ β} {s s' : σ} {a : α} (h : x s = .ok (a, s')) : (x >>= f) s = f a s' := by
  show (match x s with
    | .ok (a, s') => f a s'
    | .error e => .error e) = _
  rw [h]

theorem bind_of_error {x : CM σ α} {f : α → CM σ β} {s : σ} {e : CErr} (h : x s = .error e) : (x >>= f) s = .error e := by
  show (match x s with
    | .ok (a, s') => f a s'
    | .error e => .error e) = _
  rw [h]

theorem Judged.pure {a : α} {s : σ} {Q : Prop} {P : α → σ → Prop} (h : P a s) : Judged ((Pure.pure a : CM σ α) s) Q P := h
theorem Judged.throw {e : CErr} {s : σ} {Q : Prop} {P : α → σ → Prop} (h : ¬ Q) : Judged ((CM.throw e : CM σ α) s) Q P := Or.inr h
theorem Judged.error {e : CErr} {Q : Prop} {P : α → σ → Prop} (h : ¬ Q) : Judged (.error e) Q P := Or.inr h

theorem Judged.mono {x : Except CErr (α × σ)} {Q Q1 : Prop} {P1 P : α → σ → Prop} (h : Judged x Q1 P1) (hq : Q → Q1)
    (hp : ∀ a s, x = .ok (a, s) → P1 a s → P a s) : Judged x Q P := by
  cases x with
  | error e => exact h.imp id fun h hn => h (hq hn)
  | ok r => exact hp r.1 r.2 rfl h

theorem Judged.ofOk {x : Except CErr (α × σ)} {Q : Prop} {P : α → σ → Prop} {a : α} {s : σ} (h : Judged x Q P) (hx : x = .ok (a, s)) : P a s := by
  subst hx; exact h

theorem Judged.ofError {x : Except CErr (α × σ)} {Q : Prop} {P : α → σ → Prop} {e : CErr} (h : Judged x Q P) (hx : x = .error e) : Limit e ∨ ¬ Q := by
  subst hx; exact h
end

theorem Spec.Limit.of_resource {e : CErr} (h : Resource e) : Limit e := by
  cases e <;> first | trivial | exact h

/-! ## Fixups -/

section
variable (L D : Str → Prop)

/-- What the fixup refers to is there. -/
def Fixup.Known : Fixup → Prop
  | .call _ k => D k
  | .gosub l | .goto l | .onErrorGoto l => L (symKey l)

/-- … for all of them. -/
def AllKnown (g : Codegen) : Prop := ∀ a f, (a, f) ∈ g.fixups → f.Known L D

/-- The fixups are about instructions that are there. -/
def FixupsIn (g : Codegen) : Prop := ∀ a f, (a, f) ∈ g.fixups → a < g.code.length

/-- The new fixups refer to what is there if and only if `R`. -/
def Fixes (g g' : Codegen) (R : Prop) : Prop :=
  FixupsIn g → FixupsIn g' ∧ (AllKnown L D g' ↔ AllKnown L D g ∧ R)

/-- … and there are no new labels and callables. -/
structure Adds (g g' : Codegen) (R : Prop) : Prop where
  fixes : Fixes L D g g' R
  labels : g'.labels = g.labels
  callables : g'.callables = g.callables

/-- Steps without fixups that fail only because of limits. -/
def Free {α : Type} (x : CG α) : Prop :=
  ∀ g, match x g with
    | .ok (_, g') => Adds L D g g' True
    | .error e => Limit e
end

section
variable {L D : Str → Prop}

theorem Fixes.refl (g : Codegen) : Fixes L D g g True := fun h => ⟨h, by simp⟩

theorem Fixes.trans {a b c : Codegen} {R S : Prop} (h1 : Fixes L D a b R) (h2 : Fixes L D b c S) : Fixes L D a c (R ∧ S) := by
  intro h
  obtain ⟨p1, p2⟩ := h1 h
  obtain ⟨q1, q2⟩ := h2 p1
  exact ⟨q1, by rw [q2, p2, and_assoc]⟩

theorem Fixes.imp {a b : Codegen} {R S : Prop} (h : Fixes L D a b R) (hrs : R ↔ S) : Fixes L D a b S := by
  rw [← hrs]; exact h

theorem Fixes.same {g g' : Codegen} (hf : g'.fixups = g.fixups) (hl : g.code.length ≤ g'.code.length) : Fixes L D g g' True := by
  intro h
  refine ⟨fun a f ha => ?_, by unfold AllKnown; rw [hf]; simp⟩
  rw [hf] at ha
  exact Nat.lt_of_lt_of_le (h a f ha) hl

theorem Adds.refl (g : Codegen) : Adds L D g g True := ⟨.refl g, rfl, rfl⟩

theorem Adds.trans {a b c : Codegen} {R S : Prop} (h1 : Adds L D a b R) (h2 : Adds L D b c S) : Adds L D a c (R ∧ S) :=
  ⟨h1.fixes.trans h2.fixes, h2.labels.trans h1.labels, h2.callables.trans h1.callables⟩

theorem Adds.imp {a b : Codegen} {R S : Prop} (h : Adds L D a b R) (hrs : R ↔ S) : Adds L D a b S := ⟨h.fixes.imp hrs, h.labels, h.callables⟩

theorem Adds.same {g g' : Codegen} (hf : g'.fixups = g.fixups) (hl : g.code.length ≤ g'.code.length) (h1 : g'.labels = g.labels)
    (h2 : g'.callables = g.callables) : Adds L D g g' True := ⟨.same hf hl, h1, h2⟩

theorem Adds.push (g : Codegen) (i : Instr) (pos : LineCol) : Adds L D g (g.push i pos) True :=
  .same rfl (by simp [Codegen.push]) rfl rfl

theorem FMap.mem_insert {K V : Type} [DecidableEq K] {m : FMap K V} {k k' : K} {v v' : V} :
    (k', v') ∈ m.insert k v ↔ (k' = k ∧ v' = v) ∨ (k' ≠ k ∧ (k', v') ∈ m) := by
  simp only [FMap.insert, FMap.erase, List.mem_cons, Prod.mk.injEq, List.mem_filter, decide_eq_true_eq]
  tauto

theorem Fixes.fixup {g : Codegen} {a : Nat} {f : Fixup} (hl : a < g.code.length)
    (ha : ∀ f', (a, f') ∈ g.fixups → f'.Known L D) : Fixes L D g (g.addFixup a f) (f.Known L D) := by
  intro h
  have hg : ∀ k v, (k, v) ∈ (g.addFixup a f).fixups ↔ (k = a ∧ v = f) ∨ (k ≠ a ∧ (k, v) ∈ g.fixups) := fun k v => FMap.mem_insert
  refine ⟨fun k f' hk => ?_, fun hall => ⟨fun k f' hk => ?_, ?_⟩, fun ⟨h1, h2⟩ k f' hk => ?_⟩
  · rcases (hg _ _).1 hk with ⟨rfl, rfl⟩ | ⟨_, hk⟩
    · exact hl
    · exact h k f' hk
  · by_cases he : k = a
    · subst he; exact ha f' hk
    · exact hall k f' ((hg _ _).2 (.inr ⟨he, hk⟩))
  · exact hall a f ((hg _ _).2 (.inl ⟨rfl, rfl⟩))
  · rcases (hg _ _).1 hk with ⟨rfl, rfl⟩ | ⟨_, hk⟩
    · exact h2
    · exact h1 k f' hk

theorem Free.pure {α : Type} (a : α) : Free L D (Pure.pure a : CG α) := fun g => .refl g

theorem Free.bind {α β : Type} {x : CG α} {f : α → CG β} (hx : Free L D x) (hf : ∀ a, Free L D (f a)) : Free L D (x >>= f) := by
  intro g
  have h1 := hx g
  cases hxg : x g with
  | error e => rw [hxg] at h1; rw [bind_of_error hxg]; exact h1
  | ok r =>
    rw [hxg] at h1
    simp only at h1
    have h2 := hf r.1 r.2
    rw [bind_of_ok hxg]
    cases hfg : f r.1 r.2 with
    | error e => rw [hfg] at h2; exact h2
    | ok r' => rw [hfg] at h2; exact (h1.trans h2).imp (by simp)

theorem Free.emit (i : Instr) (pos : LineCol) : Free L D (emit i pos) := fun g => .push g i pos

theorem Free.lift {α : Type} {r : Except CErr α} (h : ∀ e, r = .error e → Limit e) : Free L D (CM.lift r : CG α) := by
  intro g
  cases r with
  | ok a => exact .refl g
  | error e => exact h e rfl

theorem Free.allocTemp (sy : Syms) (nt : Nat) (pos : LineCol) : Free L D (CM.lift (allocTemp sy nt pos) : CG Reg) :=
  .lift fun _ h => .of_resource (allocTemp_error h)

theorem Free.firstTemp (sy : Syms) (nt : Nat) (pos : LineCol) : Free L D (CM.lift (firstTemp sy nt pos) : CG Reg) :=
  .lift fun _ h => .of_resource (firstTemp_error h)

theorem Free.getConstant (c : ConstantDatum) (pos : LineCol) : Free L D (getConstant c pos) := by
  intro g
  cases h : EB.getConstant c pos g with
  | error e => exact .of_resource (getConstant_error h)
  | ok r =>
    obtain ⟨i, g'⟩ := r
    obtain ⟨hx, hc, _, hf, _⟩ := getConstant_ok h
    exact .same hf (by rw [hc]) hx.labels hx.callables

theorem Free.getUpcall (k : Str) (t : Option ExprType) (pos : LineCol) : Free L D (getUpcall k t pos) := by
  intro g
  cases h : EB.getUpcall k t pos g with
  | error e =>
    unfold EB.getUpcall at h
    split at h
    · simp at h
    · split at h
      · simp at h
      · cases h; trivial
  | ok r =>
    obtain ⟨i, g'⟩ := r
    obtain ⟨hx, hc, _, hf, _⟩ := getUpcall_ok h
    exact .same hf (by rw [hc]) hx.labels hx.callables

theorem Free.emitTag (r : Reg) (t : VarArgTag) (pos : LineCol) : Free L D (emitTag r t pos) :=
  .bind (.emit _ _) fun _ => .pure _

theorem Free.emitDefault (r : Reg) (t : ExprType) (pos : LineCol) : Free L D (emitDefault r t pos) := by
  cases t <;> exact .bind (.emit _ _) fun _ => .pure _

theorem Free.emitValue (r : Reg) (d : ConstantDatum) (pos : LineCol) : Free L D (emitValue r d pos) := by
  unfold EB.emitValue
  split
  · exact .bind (.emit _ _) fun _ => .pure _
  · split
    · exact .bind (.emit _ _) fun _ => .pure _
    · exact .bind (.getConstant _ _) fun _ => .bind (.emit _ _) fun _ => .pure _
  · exact .bind (.getConstant _ _) fun _ => .bind (.emit _ _) fun _ => .pure _
  · exact .bind (.getConstant _ _) fun _ => .bind (.emit _ _) fun _ => .pure _

/-- A free step within a larger one. -/
theorem Free.step {α β : Type} {x : CG α} {f : α → CG β} {g0 g : Codegen} {R Q : Prop} {P : β → Codegen → Prop} (hx : Free L D x)
    (hA : Adds L D g0 g R) (h : ∀ a g', x g = .ok (a, g') → Adds L D g0 g' R → Judged (f a g') Q P) : Judged ((x >>= f) g) Q P := by
  have h1 := hx g
  cases hxg : x g with
  | error e => rw [hxg] at h1; rw [bind_of_error hxg]; exact .inl h1
  | ok r =>
    rw [hxg] at h1
    rw [bind_of_ok hxg]
    exact h r.1 r.2 hxg ((hA.trans h1).imp (by simp))

/-- A part within a larger step. -/
theorem Judged.part {α β : Type} {x : CG α} {f : α → CG β} {g0 g : Codegen} {R R1 Q Q1 : Prop} {P1 : α → Prop} {P : β → Codegen → Prop}
    (hx : Judged (x g) Q1 fun a g' => P1 a ∧ Adds L D g g' R1) (hq : Q → Q1)
    (hA : Adds L D g0 g R) (h : ∀ a g', P1 a → Adds L D g0 g' (R ∧ R1) → Judged (f a g') Q P) : Judged ((x >>= f) g) Q P :=
  hx.bind hq fun a g' _ ⟨h1, h2⟩ => h a g' h1 (hA.trans h2)

/-! ## Pieces of expressions -/

theorem noArgs_iff (md : Md) : md.isArgless = true ↔ NoArgs md := by
  unfold Md.isArgless NoArgs
  constructor
  · intro h
    split at h
    next he => exact Or.inl he
    next s he =>
      right
      obtain ⟨sing, rep⟩ := s
      simp at h
      rw [he, h.1, h.2]
    · simp at h
  · rintro (h | h) <;> rw [h] <;> rfl

theorem checkCallee_judged (md : Md) (v : VarRef) (pos : LineCol) (g : Codegen) :
    Judged ((CM.lift (checkCallee md v pos) : CG ExprType) g) (∃ t, md.returnType = some t ∧ Annotated v t)
      fun t g' => (md.returnType = some t ∧ Annotated v t) ∧ Adds L D g g' True := by
  cases h : checkCallee md v pos with
  | ok t => exact ⟨checkCallee_ok h, .refl g⟩
  | error e =>
    refine .inr ?_
    rintro ⟨t, h1, h2⟩
    unfold checkCallee at h
    rw [h1] at h
    simp only at h
    split at h
    next h3 => rcases h2 with h2 | h2 <;> simp [VarRef.acceptsCallable, h2] at h3
    · simp at h

theorem syntaxFor_iff (md : Md) (n : Nat) (s : Syntax) : md.findSyntax n = some s ↔ SyntaxFor md.syntaxes n s := by
  have hc : ∀ s : Syntax, s.accepts n = true ↔ Counts s n := by
    intro s
    unfold Syntax.accepts Counts
    cases s.repeated <;> simp
  unfold Md.findSyntax
  generalize md.syntaxes = l
  induction l with
  | nil => simp only [List.find?_nil]; exact ⟨nofun, nofun⟩
  | cons x l ih =>
    rw [List.find?_cons]
    split
    next h =>
      constructor
      · intro h'; cases h'; exact .here ((hc _).1 h)
      · intro h'
        cases h' with
        | here => rfl
        | later h1 => exact absurd ((hc _).1 h) h1
    next h =>
      refine ih.trans ?_
      constructor
      · exact fun h' => .later (fun h1 => by rw [(hc _).2 h1] at h; simp at h) h'
      · intro h'
        cases h' with
        | here h1 => rw [(hc _).2 h1] at h; simp at h
        | later _ h1 => exact h1

theorem validateSep_judged (md : Md) (syn : SepSyn) (endOk : Bool) (sep : ArgSep) (pos : LineCol) (P : Prop) (h : endOk = true ↔ P) (g : Codegen) :
    Judged ((CM.lift (validateSep md syn endOk sep pos) : CG Unit) g) (SepFits syn P sep)
      fun _ g' => SepFits syn P sep ∧ Adds L D g g' True := by
  have hr : validateSep md syn endOk sep pos = .ok () ∧ SepFits syn P sep ∨ ∃ e, validateSep md syn endOk sep pos = .error e ∧ ¬ SepFits syn P sep := by
    unfold validateSep SepFits
    rw [← h]
    cases syn with
    | exactly s =>
      simp only
      by_cases hc : sep = s ∨ sep = .end ∧ endOk = true
      · rw [if_pos hc]; exact .inl ⟨rfl, hc⟩
      · rw [if_neg hc]; exact .inr ⟨_, rfl, hc⟩
    | oneOf ss =>
      simp only
      by_cases hc : sep = .end
      · rw [if_pos hc]
        cases endOk with
        | true => exact .inl ⟨rfl, .inl ⟨hc, rfl⟩⟩
        | false => exact .inr ⟨_, rfl, by simp [hc]⟩
      · rw [if_neg hc]
        by_cases hm : sep ∈ ss
        · rw [if_pos hm]; exact .inl ⟨rfl, .inr ⟨hc, hm⟩⟩
        · rw [if_neg hm]; exact .inr ⟨_, rfl, by simp [hc, hm]⟩
    | «end» => exact .inl ⟨rfl, trivial⟩
  rcases hr with ⟨h1, h2⟩ | ⟨e, h1, h2⟩
  · rw [h1]; exact ⟨h2, .refl g⟩
  · rw [h1]; exact .inr h2

theorem castTo_judged (reg : Reg) (t want : ExprType) (pos : LineCol) (g : Codegen) :
    Judged (castTo reg t want pos g) (Converts t want) fun _ g' => Converts t want ∧ Adds L D g g' True := by
  cases t <;> cases want <;> first
    | exact ⟨by decide, .push _ _ _⟩
    | exact ⟨by decide, .refl _⟩
    | exact .inr (by decide)

theorem applyUn_judged (sy : Syms) (nt : Nat) (op : SrcUn) (reg : Reg) (t : ExprType) (pos : LineCol) (g : Codegen) :
    Judged (applyUn sy nt op reg t pos g) (∃ t', unType op t = some t') fun t' g' => unType op t = some t' ∧ Adds L D g g' True := by
  cases op <;> cases t <;> first
    | exact ⟨by decide, .push _ _ _⟩
    | exact .inr (fun ⟨_, h⟩ => by cases h)
    | skip
  refine (Free.allocTemp sy nt pos).step (Adds.refl (L := L) (D := D) g) fun a g1 _ h1 => ?_
  refine (Free.emitValue _ _ _).step h1 fun _ g2 _ h2 => ?_
  refine (Free.emit _ _).step h2 fun _ g3 _ h3 => ?_
  exact ⟨rfl, h3⟩

theorem applyBin_judged (op : SrcBin) (reg rtemp : Reg) (lt rt : ExprType) (rpos pos : LineCol) (g : Codegen) :
    Judged (applyBin op reg lt rtemp rt rpos pos g) (∃ t, binType op lt rt = some t) fun t g' => binType op lt rt = some t ∧ Adds L D g g' True := by
  cases op <;> cases lt <;> cases rt <;> first
    | exact ⟨rfl, .push _ _ _⟩
    | exact ⟨rfl, (Adds.trans (.push _ _ _) (.push _ _ _)).imp (by simp)⟩
    | exact .inr (fun ⟨_, h⟩ => by cases h)

theorem emitCall_judged (md : Md) (key : Str) (ret : Option ExprType) (first : Reg) (lcs : List LineCol) (pos : LineCol) (g : Codegen) :
    Judged (emitCall md key ret first lcs pos g) True fun _ g' => Adds L D g g' (md.userDefined = true → D key) := by
  unfold emitCall
  cases hu : md.userDefined with
  | true =>
    simp only [if_true]
    refine (Free.emit .nop pos).step (Adds.refl (L := L) (D := D) g) fun a g1 h0 h1 => ?_
    cases h0
    refine ⟨fun hin => ?_, rfl, rfl⟩
    have h2 : Fixes L D (g.push .nop pos) (((g.push .nop pos).setArgs g.code.length lcs).addFixup g.code.length (.call first key)) (D key) := by
      refine ((Fixes.same (L := L) (D := D) (g := g.push .nop pos) (g' := (g.push .nop pos).setArgs g.code.length lcs) rfl (Nat.le_refl _)).trans
        (Fixes.fixup (f := .call first key) (by simp [Codegen.push, Codegen.setArgs]) ?_)).imp (by simp [Fixup.Known])
      intro f' hf'
      exact absurd (hin _ _ hf') (by omega)
    exact ((h1.fixes.trans h2).imp (by simp)) hin
  | false =>
    simp only [Bool.false_eq_true, if_false]
    refine (Free.getUpcall key ret pos).step (Adds.refl (L := L) (D := D) g) fun idx g1 _ h1 => ?_
    refine (Free.emit _ pos).step h1 fun a g2 _ h2 => ?_
    exact (h2.trans (Adds.same (g' := g2.setArgs a lcs) rfl (Nat.le_refl _) rfl rfl)).imp (by simp)

theorem syntaxFor_counts {l : List Syntax} {n : Nat} {s : Syntax} (h : SyntaxFor l n s) : Counts s n := by
  induction h with
  | here h => exact h
  | later _ _ ih => exact ih

theorem counts_le {n : Nat} {s : Syntax} (h : Counts s n) : s.singular.length ≤ n := by
  unfold Counts at h
  split at h <;> omega

theorem mayEnd_iff (sy : Syms) (md : Md) (pos : LineCol) (syn : Syntax) (n : Nat) (rest : List SingSyn) :
    (ArgEnv.mk sy md pos syn.singular.length n syn.repeated).endOk rest = true ↔ rest = [] ∧ MayEnd syn n := by
  unfold ArgEnv.endOk MayEnd
  cases syn.repeated <;> simp [and_assoc]

theorem refVar_judged {sy : Syms} {Γ : Env} (hs : Scope sy Γ) {A : ArgEnv} (hA : A.sy = sy) (arr def_ : Bool) (v : VarRef) (pos : LineCol) (g : Codegen) :
    Judged ((CM.lift (refVar A arr def_ v pos) : CG (Reg × ExprType)) g) (∃ place p, nameRef Γ.locals Γ.shared v = .var place p ∧ Proto.isArray p = arr)
      fun _ g' => (∃ place p, nameRef Γ.locals Γ.shared v = .var place p ∧ Proto.isArray p = arr) ∧ Adds L D g g' True := by
  have hr : (∃ r, refVar A arr def_ v pos = .ok r ∧ ∃ place p, nameRef Γ.locals Γ.shared v = .var place p ∧ Proto.isArray p = arr) ∨
      ∃ e, refVar A arr def_ v pos = .error e ∧ ¬ ∃ place p, nameRef Γ.locals Γ.shared v = .var place p ∧ Proto.isArray p = arr := by
    unfold refVar
    rw [hA, hs.syms.lookup v]
    unfold Spec.lookup
    cases hn : nameRef Γ.locals Γ.shared v with
    | wrongType => exact .inr ⟨_, rfl, by simp⟩
    | undefined =>
      simp only
      split
      · exact .inr ⟨_, rfl, by simp⟩
      · split <;> exact .inr ⟨_, rfl, by simp⟩
    | var place p =>
      cases p with
      | scalar t =>
        cases arr with
        | true => exact .inr ⟨_, rfl, by simp [Proto.isArray]⟩
        | false => exact .inl ⟨_, rfl, _, _, rfl, rfl⟩
      | array t n =>
        cases arr with
        | false => exact .inr ⟨_, rfl, by simp [Proto.isArray]⟩
        | true => exact .inl ⟨_, rfl, _, _, rfl, rfl⟩
  rcases hr with ⟨r, h1, h2⟩ | ⟨e, h1, h2⟩
  · rw [h1]; exact ⟨h2, .refl g⟩
  · rw [h1]; exact .inr h2

theorem repVar_judged {sy : Syms} {Γ : Env} (hs : Scope sy Γ) {A : ArgEnv} (hA : A.sy = sy) (v : VarRef) (pos apos : LineCol) (g : Codegen) :
    Judged ((CM.lift (repVar A v pos apos) : CG (Reg × ExprType)) g) (∃ place t, nameRef Γ.locals Γ.shared v = .var place (.scalar t))
      fun _ g' => (∃ place t, nameRef Γ.locals Γ.shared v = .var place (.scalar t)) ∧ Adds L D g g' True := by
  have hr : (∃ r, repVar A v pos apos = .ok r ∧ ∃ place t, nameRef Γ.locals Γ.shared v = .var place (.scalar t)) ∨
      ∃ e, repVar A v pos apos = .error e ∧ ¬ ∃ place t, nameRef Γ.locals Γ.shared v = .var place (.scalar t) := by
    unfold repVar
    rw [hA, hs.syms.lookup v]
    unfold Spec.lookup
    cases hn : nameRef Γ.locals Γ.shared v with
    | wrongType => exact .inr ⟨_, rfl, by simp⟩
    | undefined =>
      simp only
      split <;> exact .inr ⟨_, rfl, by simp⟩
    | var place p =>
      cases p with
      | scalar t => exact .inl ⟨_, rfl, _, _, rfl⟩
      | array t n => exact .inr ⟨_, rfl, by simp⟩
  rcases hr with ⟨r, h1, h2⟩ | ⟨e, h1, h2⟩
  · rw [h1]; exact ⟨h2, .refl g⟩
  · rw [h1]; exact .inr h2

/-! ## Expressions -/

theorem Scope.known {sy : Syms} {Γ : Env} (hs : Scope sy Γ) {k : Str} {md : Md} (hk : sy.getCallable k = some md) :
    (md.userDefined = true → D k) ↔ Defined D Γ k := by
  unfold Defined
  rw [hs.md, hk]
  exact ⟨fun h md' he => by cases he; exact h, fun h => h md rfl⟩

theorem Scope.unknown {sy : Syms} {Γ : Env} (hs : Scope sy Γ) {k : Str} (hk : sy.getCallable k = none) : Defined D Γ k := by
  intro md h
  rw [hs.md, hk] at h
  cases h

/-- The judgement about an expression. -/
abbrev ExprJudged (L D : Str → Prop) (Γ : Env) (e : Expr) (x : Except CErr (ExprType × Codegen)) (g : Codegen) : Prop :=
  Judged x (∃ t, WellTyped Γ e t) fun t g' => (∀ t', WellTyped Γ e t' ↔ t' = t) ∧ Adds L D g g' (CallsDefined D Γ e)

theorem argless_judged {sy : Syms} {Γ : Env} (hs : Scope sy Γ) {v : VarRef} (hn : nameRef Γ.locals Γ.shared v = .undefined)
    (pos : LineCol) (nt : Nat) (reg : Reg) (g : Codegen) :
    ExprJudged L D Γ (.sym v pos) (compileArgless sy nt reg v pos g) g := by
  unfold compileArgless
  have h0 : Adds L D g g True := .refl g
  cases hk : sy.getCallable (symKey v.name) with
  | none =>
    refine .throw ?_
    rintro ⟨t, h⟩
    cases h with
    | var h => rw [hn] at h; cases h
    | argless _ h => rw [hs.md, hk] at h; cases h
  | some md =>
    simp only
    refine (checkCallee_judged md v pos g).part ?_ h0 fun t g1 ⟨hr, ha⟩ h1 => ?_
    · rintro ⟨t, h⟩
      cases h with
      | var h => rw [hn] at h; cases h
      | argless _ h h2 h3 => rw [hs.md, hk] at h; cases h; exact ⟨t, h2, h3⟩
    have hcd : CallsDefined D Γ (.sym v pos) ↔ (md.userDefined = true → D (symKey v.name)) := by
      rw [hs.known hk]
      simp only [CallsDefined]
      exact ⟨fun h => h hn, fun h _ => h⟩
    cases hal : md.isArgless with
    | false =>
      refine .throw (s := g1) ?_
      rintro ⟨t, h⟩
      cases h with
      | var h => rw [hn] at h; cases h
      | argless _ h h2 h3 h4 =>
        rw [hs.md, hk] at h; cases h
        rw [(noArgs_iff _).2 h4] at hal; cases hal
    | true =>
      have hty : ∀ t', WellTyped Γ (.sym v pos) t' ↔ t' = t := by
        intro t'
        constructor
        · intro h
          cases h with
          | var h => rw [hn] at h; cases h
          | argless _ h h2 h3 h4 =>
            rw [hs.md, hk] at h; cases h
            rw [hr] at h2; cases h2; rfl
        · rintro rfl
          exact .argless hn (by rw [hs.md, hk]) hr ha ((noArgs_iff _).1 hal)
      simp only [Bool.not_true, Bool.false_eq_true, if_false]
      have ec : Judged ((do emitCall md (symKey v.name) (some t) reg [] pos; Pure.pure t : CG ExprType) g1) (∃ t, WellTyped Γ (.sym v pos) t)
          fun t g' => (∀ t', WellTyped Γ (.sym v pos) t' ↔ t' = t) ∧ Adds L D g g' (CallsDefined D Γ (.sym v pos)) := by
        refine (emitCall_judged (L := L) (D := D) md (symKey v.name) (some t) reg [] pos g1).bind (fun _ => trivial) fun _ g2 _ h2 => ?_
        exact ⟨hty, (h1.trans h2).imp (by rw [hcd]; simp)⟩
      split
      · exact ec
      next hu =>
        split
        · refine (Free.getUpcall _ _ _).step h1 fun idx g2 _ h2 => ?_
          refine (Free.allocTemp _ _ _).step h2 fun temp g3 _ h3 => ?_
          refine (Free.emit _ _).step h3 fun _ g4 _ h4 => ?_
          refine (Free.emit _ _).step h4 fun _ g5 _ h5 => ?_
          exact ⟨hty, h5.imp (by rw [hcd]; simp [hu])⟩
        · exact ec

mutual
theorem expr_judged {sy : Syms} {Γ : Env} (hs : Scope sy Γ) (e : Expr) (nt : Nat) (reg : Reg) (g : Codegen) :
    ExprJudged L D Γ e (compileExpr sy e nt reg g) g := by
  have h0 : Adds L D g g True := .refl g
  match e with
  | .bool b pos =>
    simp only [compileExpr]
    refine (Free.emitValue _ _ _).step h0 fun _ g1 _ h1 => ?_
    exact ⟨fun t => ⟨fun h => by cases h; rfl, fun h => h ▸ .bool⟩, h1⟩
  | .dbl b pos =>
    simp only [compileExpr]
    refine (Free.emitValue _ _ _).step h0 fun _ g1 _ h1 => ?_
    exact ⟨fun t => ⟨fun h => by cases h; rfl, fun h => h ▸ .dbl⟩, h1⟩
  | .int b pos =>
    simp only [compileExpr]
    refine (Free.emitValue _ _ _).step h0 fun _ g1 _ h1 => ?_
    exact ⟨fun t => ⟨fun h => by cases h; rfl, fun h => h ▸ .int⟩, h1⟩
  | .text b pos =>
    simp only [compileExpr]
    refine (Free.emitValue _ _ _).step h0 fun _ g1 _ h1 => ?_
    exact ⟨fun t => ⟨fun h => by cases h; rfl, fun h => h ▸ .text⟩, h1⟩
  | .sym v pos =>
    simp only [compileExpr, hs.syms.lookup v]
    unfold Spec.lookup
    cases hn : nameRef Γ.locals Γ.shared v with
    | wrongType =>
      refine .throw ?_
      rintro ⟨t, h⟩
      cases h with
      | var h => rw [hn] at h; cases h
      | argless h => rw [hn] at h; cases h
    | var place p =>
      cases p with
      | array =>
        refine .throw ?_
        rintro ⟨t, h⟩
        cases h with
        | var h => rw [hn] at h; cases h
        | argless h => rw [hn] at h; cases h
      | scalar t' =>
        simp only
        refine (Free.emit _ _).step h0 fun _ g1 _ h1 => ?_
        refine ⟨fun t => ⟨fun h => ?_, fun h => h ▸ .var hn⟩, h1.imp ?_⟩
        · cases h with
          | var h => rw [hn] at h; cases h; rfl
          | argless h => rw [hn] at h; cases h
        · simp [CallsDefined, hn]
    | undefined => exact argless_judged hs hn pos nt reg g
  | .un op e pos =>
    simp only [compileExpr]
    refine (expr_judged hs e nt reg g).part ?_ h0 fun t g1 hty h1 => ?_
    · rintro ⟨_, h⟩
      cases h with | un h _ => exact ⟨_, h⟩
    refine (applyUn_judged (L := L) (D := D) sy nt op reg t pos g1).mono ?_ ?_
    · rintro ⟨_, h⟩
      cases h with | un h h2 => rw [(hty _).1 h] at h2; exact ⟨_, h2⟩
    · rintro t' g2 _ ⟨h2, h3⟩
      refine ⟨fun t'' => ⟨fun h => ?_, fun h => h ▸ .un ((hty _).2 rfl) h2⟩, (h1.trans h3).imp (by simp [CallsDefined])⟩
      cases h with | un h h4 => rw [(hty _).1 h, h2] at h4; cases h4; rfl
  | .bin op l r pos =>
    simp only [compileExpr]
    refine (expr_judged hs l nt reg g).part ?_ h0 fun lt g1 hl h1 => ?_
    · rintro ⟨_, h⟩
      cases h with | bin h _ _ => exact ⟨_, h⟩
    refine (Free.allocTemp _ _ _).step h1 fun rtemp g2 _ h2 => ?_
    refine (expr_judged hs r (nt + 1) rtemp g2).part ?_ h2 fun rt g3 hr h3 => ?_
    · rintro ⟨_, h⟩
      cases h with | bin _ h _ => exact ⟨_, h⟩
    refine (applyBin_judged (L := L) (D := D) op reg rtemp lt rt r.startPos pos g3).mono ?_ ?_
    · rintro ⟨_, h⟩
      cases h with | bin p1 p2 h2 => rw [(hl _).1 p1, (hr _).1 p2] at h2; exact ⟨_, h2⟩
    · rintro t' g4 _ ⟨h4, h5⟩
      refine ⟨fun t'' => ⟨fun h => ?_, fun h => h ▸ .bin ((hl _).2 rfl) ((hr _).2 rfl) h4⟩, (h3.trans h5).imp (by simp [CallsDefined])⟩
      cases h with | bin p1 p2 h2 => rw [(hl _).1 p1, (hr _).1 p2, h4] at h2; cases h2; rfl
  | .call v pos args =>
    simp only [compileExpr]
    cases hk : sy.getCallable (symKey v.name) with
    | some md =>
      simp only
      refine (checkCallee_judged md v pos g).part ?_ h0 fun t g1 ⟨hr, ha⟩ h1 => ?_
      · rintro ⟨t, h⟩
        cases h with
        | elem h => rw [hs.md, hk] at h; cases h
        | call h h2 h3 => rw [hs.md, hk] at h; cases h; exact ⟨t, h2, h3⟩
      cases hal : md.isArgless with
      | true =>
        refine .throw (s := g1) ?_
        rintro ⟨t, h⟩
        cases h with
        | elem h => rw [hs.md, hk] at h; cases h
        | call h h2 h3 h4 => rw [hs.md, hk] at h; cases h; exact h4 ((noArgs_iff _).1 hal)
      | false =>
        simp only [Bool.false_eq_true, if_false]
        refine (Free.allocTemp _ _ _).step h1 fun ret g2 _ h2 => ?_
        cases hf : md.findSyntax args.length with
        | none =>
          refine .throw ?_
          rintro ⟨t, h⟩
          cases h with
          | elem h => rw [hs.md, hk] at h; cases h
          | call h _ _ _ h5 => rw [hs.md, hk] at h; cases h; rw [(syntaxFor_iff _ _ _).2 h5] at hf; cases hf
        | some syn =>
          simp only
          have hsf := (syntaxFor_iff _ _ _).1 hf
          have hfit : ∀ t', WellTyped Γ (.call v pos args) t' →
              ArgsFit Γ syn.repeated (MayEnd syn args.length) syn.singular args ∧ t' = t := by
            intro t' h
            cases h with
            | elem h => rw [hs.md, hk] at h; cases h
            | call h h2 _ _ h5 h6 =>
              rw [hs.md, hk] at h; cases h
              rw [(syntaxFor_iff _ _ _).2 h5] at hf; cases hf
              rw [hr] at h2; cases h2
              exact ⟨h6, rfl⟩
          refine (args_judged hs args (A := ⟨sy, md, pos, syn.singular.length, args.length, syn.repeated⟩) rfl (fun _ => mayEnd_iff ..)
            (counts_le ((syntaxFor_counts hsf))) true (nt + 1) [] g2).part ?_ h2 fun r g3 hargs h3 => ?_
          · rintro ⟨t', h⟩; exact (hfit t' h).1
          refine (Free.firstTemp _ _ _).step h3 fun _ g4 _ h4 => ?_
          refine (emitCall_judged (L := L) (D := D) md (symKey v.name) (some t) ret r.2 pos g4).bind (fun _ => trivial) fun _ g5 _ h5 => ?_
          have hty : ∀ t', WellTyped Γ (.call v pos args) t' ↔ t' = t := by
            intro t'
            refine ⟨fun h => (hfit t' h).2, ?_⟩
            rintro rfl
            exact .call (by rw [hs.md, hk]) hr ha (fun h => by rw [(noArgs_iff _).2 h] at hal; cases hal) hsf hargs
          have h6 : Adds L D g g5 (CallsDefined D Γ (.call v pos args)) := by
            refine (h4.trans h5).imp ?_
            simp only [CallsDefined]
            rw [hs.known hk]
            tauto
          split
          · refine (Free.emit _ _).step h6 fun _ g7 _ h7 => ?_
            exact ⟨hty, h7⟩
          · exact ⟨hty, h6⟩
    | none =>
      simp only [hs.syms.lookup v]
      unfold Spec.lookup
      have hbad : (∀ place t n, nameRef Γ.locals Γ.shared v ≠ .var place (.array t n)) → ¬ ∃ t, WellTyped Γ (.call v pos args) t := by
        rintro hne ⟨t, h⟩
        cases h with
        | elem _ h => exact hne _ _ _ h
        | call h => rw [hs.md, hk] at h; cases h
      cases hn : nameRef Γ.locals Γ.shared v with
      | wrongType => exact .throw (hbad (by simp [hn]))
      | undefined => exact .throw (hbad (by simp [hn]))
      | var place p =>
        cases p with
        | scalar t' => exact .throw (hbad (by simp [hn]))
        | array t' nd =>
          simp only
          split
          next hlen =>
            refine .throw ?_
            rintro ⟨t, h⟩
            cases h with
            | elem _ h => rw [hn] at h; cases h; exact hlen rfl
            | call h => rw [hs.md, hk] at h; cases h
          next hlen =>
            have hlen := Classical.not_not.1 hlen
            refine (subs_judged hs args nt pos g).part ?_ h0 fun _ g1 hsub h1 => ?_
            · rintro ⟨t, h⟩
              cases h with
              | elem _ _ h => exact h
              | call h => rw [hs.md, hk] at h; cases h
            refine (Free.firstTemp _ _ _).step h1 fun _ g2 _ h2 => ?_
            refine (Free.emit _ _).step h2 fun _ g3 _ h3 => ?_
            refine ⟨fun t => ⟨fun h => ?_, ?_⟩, h3.imp ?_⟩
            · cases h with
              | elem _ h => rw [hn] at h; cases h; rfl
              | call h => rw [hs.md, hk] at h; cases h
            · rintro rfl
              exact .elem (by rw [hs.md, hk]) (by rw [hn, hlen]) hsub
            · simp only [CallsDefined]
              have := hs.unknown (D := D) hk
              tauto
termination_by structural e

theorem subs_judged {sy : Syms} {Γ : Env} (hs : Scope sy Γ) (args : Args) (nt : Nat) (pos : LineCol) (g : Codegen) :
    Judged (compileSubs sy args nt pos g) (SubsFit Γ args) fun _ g' => SubsFit Γ args ∧ Adds L D g g' (ArgsDefined D Γ args) := by
  have h0 : Adds L D g g True := .refl g
  match args with
  | .nil => exact ⟨.nil, h0⟩
  | .skip .. => simp only [compileSubs]; exact .throw nofun
  | .cons e sep p rest =>
    simp only [compileSubs]
    refine (Free.allocTemp _ _ _).step h0 fun r g1 _ h1 => ?_
    refine (expr_judged hs e (nt + 1) r g1).part ?_ h1 fun t g2 hty h2 => ?_
    · intro h; cases h with | cons h _ _ => exact ⟨_, h⟩
    refine (castTo_judged r t .integer e.startPos g2).part ?_ h2 fun _ g3 hc h3 => ?_
    · intro h; cases h with | cons h h2 _ => rw [(hty _).1 h] at h2; exact h2
    refine (subs_judged hs rest (nt + 1) pos g3).mono ?_ ?_
    · intro h; cases h with | cons _ _ h => exact h
    · rintro _ g4 _ ⟨h4, h5⟩
      exact ⟨.cons ((hty _).2 rfl) hc h4, (h3.trans h5).imp (by simp [ArgsDefined])⟩
termination_by structural args

theorem args_judged {sy : Syms} {Γ : Env} (hs : Scope sy Γ) (args : Args) {A : ArgEnv} {mayEnd : Prop} {syns : List SingSyn} (hA : A.sy = sy)
    (hE : ∀ rest : List SingSyn, A.endOk rest = true ↔ rest = [] ∧ mayEnd) (hlen : syns.length ≤ args.length)
    (noneYet : Bool) (nt : Nat) (lcs : List LineCol) (g : Codegen) :
    Judged (compileArgsFrom A args noneYet syns nt lcs g) (ArgsFit Γ A.rep mayEnd syns args)
      fun _ g' => ArgsFit Γ A.rep mayEnd syns args ∧ Adds L D g g' (ArgsDefined D Γ args) := by
  have h0 : Adds L D g g True := .refl g
  match args with
  | .nil =>
    have : syns = [] := List.eq_nil_of_length_eq_zero (Nat.le_zero.1 hlen)
    subst this
    simp only [compileArgsFrom, compileNoArgs]
    cases A.rep with
    | none => exact ⟨.done, h0⟩
    | some r =>
      simp only
      split
      · exact ⟨.done, h0⟩
      · refine (Free.allocTemp _ _ _).step h0 fun _ g1 _ h1 => ?_
        refine (Free.emitTag _ _ _).step h1 fun _ g2 _ h2 => ?_
        exact ⟨.done, h2⟩
  | .skip sep p rest =>
    match syns with
    | .reqValue .. :: _ => simp only [compileArgsFrom]; exact .throw nofun
    | .reqRef .. :: _ => simp only [compileArgsFrom]; exact .throw nofun
    | .optValue n vt exp :: syns =>
      simp only [compileArgsFrom]
      refine (Free.allocTemp _ _ _).step h0 fun _ g1 _ h1 => ?_
      refine (validateSep_judged A.md exp (A.endOk syns) sep p _ (hE syns) g1).part ?_ h1 fun _ g2 hv h2 => ?_
      · intro h; cases h with | omitted h _ => exact h
      refine (Free.emitTag _ _ _).step h2 fun _ g3 _ h3 => ?_
      refine (args_judged hs rest hA hE (Nat.le_of_succ_le_succ hlen) noneYet (nt + 1) _ g3).mono ?_ ?_
      · intro h; cases h with | omitted _ h => exact h
      · rintro _ g4 _ ⟨h4, h5⟩
        exact ⟨.omitted hv h4, (h3.trans h5).imp (by simp [ArgsDefined])⟩
    | .anyValue n m exp :: syns =>
      simp only [compileArgsFrom]
      refine (Free.allocTemp _ _ _).step h0 fun _ g1 _ h1 => ?_
      refine (validateSep_judged A.md exp (A.endOk syns) sep p _ (hE syns) g1).part ?_ h1 fun _ g2 hv h2 => ?_
      · intro h; cases h with | anyOmitted h _ => exact h
      refine (Free.emitTag _ _ _).step h2 fun _ g3 _ h3 => ?_
      refine (args_judged hs rest hA hE (Nat.le_of_succ_le_succ hlen) noneYet (nt + 1) _ g3).mono ?_ ?_
      · intro h; cases h with | anyOmitted _ h => exact h
      · rintro _ g4 _ ⟨h4, h5⟩
        exact ⟨.anyOmitted hv h4, (h3.trans h5).imp (by simp [ArgsDefined])⟩
    | [] =>
      simp only [compileArgsFrom]
      cases hrep : A.rep with
      | none => exact .throw (fun h => by cases h; contradiction)
      | some r =>
        simp only
        cases hp : r.plain with
        | true =>
          simp only [if_true]
          have ham : r.allowMissing = false := by
            unfold RepSyn.plain at hp
            simp at hp
            exact hp.1.2
          have hno : ¬ ArgsFit Γ (some r) mayEnd [] (.skip sep p rest) := by
            intro h
            cases h with | moreOmitted h1 h2 => cases h1; rw [ham] at h2; cases h2
          exact (validateSep_judged (L := L) (D := D) A.md r.sep true sep p True (by simp) g).part (fun h => absurd h hno) h0 fun _ _ _ _ => .throw hno
        | false =>
          simp only [Bool.false_eq_true, if_false]
          refine (Free.allocTemp _ _ _).step h0 fun _ g1 _ h1 => ?_
          refine (validateSep_judged A.md r.sep true sep p True (by simp) g1).part ?_ h1 fun _ g2 hv h2 => ?_
          · intro h; cases h with | moreOmitted h1 _ h => cases h1; exact h
          cases ham : r.allowMissing with
          | false =>
            refine .throw (s := g2) fun h => ?_
            cases h with | moreOmitted h1 h2 => cases h1; rw [ham] at h2; cases h2
          | true =>
            simp only [Bool.not_true, Bool.false_eq_true, if_false]
            refine (Free.emitTag _ _ _).step h2 fun _ g3 _ h3 => ?_
            have := args_judged hs rest hA hE (syns := []) (Nat.zero_le _) false (nt + 1) (lcs ++ [p]) g3
            rw [hrep] at this
            refine this.mono ?_ ?_
            · intro h; cases h with | moreOmitted _ _ _ h => exact h
            · rintro _ g4 _ ⟨h4, h5⟩
              exact ⟨.moreOmitted rfl ham hv h4, (h3.trans h5).imp (by simp [ArgsDefined])⟩
  | .cons e sep p rest =>
    match syns with
    | .reqValue n vt exp :: syns =>
      simp only [compileArgsFrom, hA]
      refine (Free.allocTemp _ _ _).step h0 fun r g1 _ h1 => ?_
      refine (expr_judged hs e (nt + 1) r g1).part ?_ h1 fun t g2 hty h2 => ?_
      · intro h; cases h with | value h _ _ _ => exact ⟨_, h⟩
      refine (castTo_judged r t vt e.startPos g2).part ?_ h2 fun _ g3 hc h3 => ?_
      · intro h; cases h with | value h h2 _ _ => rw [(hty _).1 h] at h2; exact h2
      refine (validateSep_judged A.md exp (A.endOk syns) sep p _ (hE syns) g3).part ?_ h3 fun _ g4 hv h4 => ?_
      · intro h; cases h with | value _ _ h _ => exact h
      refine (args_judged hs rest hA hE (Nat.le_of_succ_le_succ hlen) noneYet (nt + 1) _ g4).mono ?_ ?_
      · intro h; cases h with | value _ _ _ h => exact h
      · rintro _ g5 _ ⟨h5, h6⟩
        exact ⟨.value ((hty _).2 rfl) hc hv h5, (h4.trans h6).imp (by simp [ArgsDefined])⟩
    | .reqRef n arr def_ exp :: syns =>
      match e with
      | .sym v vp =>
        simp only [compileArgsFrom]
        refine (refVar_judged (L := L) (D := D) hs hA arr def_ v vp g).part ?_ h0 fun sv g1 href h1 => ?_
        · intro h; cases h with | ref h h2 _ _ => exact ⟨_, _, h, h2⟩
        obtain ⟨place, pr, hn, hpa⟩ := href
        refine (Free.allocTemp _ _ _).step h1 fun r g2 _ h2 => ?_
        refine (Free.emit _ _).step h2 fun _ g3 _ h3 => ?_
        refine (validateSep_judged A.md exp (A.endOk syns) sep p _ (hE syns) g3).part ?_ h3 fun _ g4 hv h4 => ?_
        · intro h; cases h with | ref _ _ h _ => exact h
        refine (args_judged hs rest hA hE (Nat.le_of_succ_le_succ hlen) noneYet (nt + 1) _ g4).mono ?_ ?_
        · intro h; cases h with | ref _ _ _ h => exact h
        · rintro _ g5 _ ⟨h5, h6⟩
          exact ⟨.ref hn hpa hv h5, (h4.trans h6).imp (by simp [ArgsDefined, CallsDefined, hn])⟩
      | .bool .. | .dbl .. | .int .. | .text .. | .un .. | .bin .. | .call .. => simp only [compileArgsFrom]; exact .throw nofun
    | .optValue n vt exp :: syns =>
      simp only [compileArgsFrom, hA]
      refine (Free.allocTemp _ _ _).step h0 fun tag g1' _ h1' => ?_
      refine (Free.allocTemp _ _ _).step h1' fun r g1 _ h1 => ?_
      refine (expr_judged hs e (nt + 2) r g1).part ?_ h1 fun t g2 hty h2 => ?_
      · intro h; cases h with | optional h _ _ _ => exact ⟨_, h⟩
      refine (castTo_judged r t vt e.startPos g2).part ?_ h2 fun _ g3 hc h3 => ?_
      · intro h; cases h with | optional h h2 _ _ => rw [(hty _).1 h] at h2; exact h2
      refine (validateSep_judged A.md exp (A.endOk syns) sep p _ (hE syns) g3).part ?_ h3 fun _ g4' hv h4' => ?_
      · intro h; cases h with | optional _ _ h _ => exact h
      refine (Free.emitTag _ _ _).step h4' fun _ g4 _ h4 => ?_
      refine (args_judged hs rest hA hE (Nat.le_of_succ_le_succ hlen) noneYet (nt + 2) _ g4).mono ?_ ?_
      · intro h; cases h with | optional _ _ _ h => exact h
      · rintro _ g5 _ ⟨h5, h6⟩
        exact ⟨.optional ((hty _).2 rfl) hc hv h5, (h4.trans h6).imp (by simp [ArgsDefined])⟩
    | .anyValue n m exp :: syns =>
      simp only [compileArgsFrom, hA]
      refine (Free.allocTemp _ _ _).step h0 fun tag g1' _ h1' => ?_
      refine (Free.allocTemp _ _ _).step h1' fun r g1 _ h1 => ?_
      refine (expr_judged hs e (nt + 2) r g1).part ?_ h1 fun t g2 hty h2 => ?_
      · intro h; cases h with | any h _ _ => exact ⟨_, h⟩
      refine (validateSep_judged A.md exp (A.endOk syns) sep p _ (hE syns) g2).part ?_ h2 fun _ g4' hv h4' => ?_
      · intro h; cases h with | any _ h _ => exact h
      refine (Free.emitTag _ _ _).step h4' fun _ g4 _ h4 => ?_
      refine (args_judged hs rest hA hE (Nat.le_of_succ_le_succ hlen) noneYet (nt + 2) _ g4).mono ?_ ?_
      · intro h; cases h with | any _ _ h => exact h
      · rintro _ g5 _ ⟨h5, h6⟩
        exact ⟨.any ((hty _).2 rfl) hv h5, (h4.trans h6).imp (by simp [ArgsDefined])⟩
    | [] =>
      simp only [compileArgsFrom]
      cases hrep : A.rep with
      | none => exact .throw (fun h => by cases h <;> contradiction)
      | some r =>
        simp only
        have more : ∀ nt lcs g, Judged (compileArgsFrom A rest false [] nt lcs g) (ArgsFit Γ (some r) mayEnd [] rest)
            fun _ g' => ArgsFit Γ (some r) mayEnd [] rest ∧ Adds L D g g' (ArgsDefined D Γ rest) := by
          intro nt lcs g
          have := args_judged hs rest hA hE (syns := []) (Nat.zero_le _) false nt lcs g
          rwa [hrep] at this
        have hsepfit : ArgsFit Γ (some r) mayEnd [] (.cons e sep p rest) → SepFits r.sep True sep := by
          intro h
          cases h with
          | more h1 _ _ h => cases h1; exact h
          | moreValue h1 _ _ _ h => cases h1; exact h
          | moreRef h1 _ _ h => cases h1; exact h
        have hrest : ArgsFit Γ (some r) mayEnd [] (.cons e sep p rest) → ArgsFit Γ (some r) mayEnd [] rest := by
          intro h
          cases h with
          | more h1 _ _ _ h => exact h
          | moreValue h1 _ _ _ _ h => exact h
          | moreRef h1 _ _ _ h => exact h
        cases hp : r.plain with
        | true =>
          simp only [if_true]
          cases hty : r.typeSyn with
          | anyValue => unfold RepSyn.plain at hp; rw [hty] at hp; simp at hp
          | varRef => unfold RepSyn.plain at hp; rw [hty] at hp; simp at hp
          | typed vt =>
            simp only
            have hval : ArgsFit Γ (some r) mayEnd [] (.cons e sep p rest) → ∃ t, WellTyped Γ e t ∧ Converts t vt := by
              intro h
              cases h with
              | more h1 h2 => cases h1; rw [hty] at h2; cases h2
              | moreValue h1 h2 h3 h4 => cases h1; rw [hty] at h2; cases h2; exact ⟨_, h3, h4⟩
              | moreRef h1 h2 => cases h1; rw [hty] at h2; cases h2
            refine (validateSep_judged A.md r.sep true sep p True (by simp) g).part hsepfit h0 fun _ g1 hv h1 => ?_
            refine (Free.allocTemp _ _ _).step h1 fun reg g2 _ h2 => ?_
            rw [hA]
            refine (expr_judged hs e (nt + 1) reg g2).part (fun h => (hval h).imp fun _ h => h.1) h2 fun t g3 htt h3 => ?_
            refine (castTo_judged reg t vt e.startPos g3).part ?_ h3 fun _ g4 hc h4 => ?_
            · intro h
              obtain ⟨t', h1, h2⟩ := hval h
              rw [(htt _).1 h1] at h2; exact h2
            refine (more _ _ g4).mono hrest ?_
            rintro _ g5 _ ⟨h5, h6⟩
            exact ⟨.moreValue rfl hty ((htt _).2 rfl) hc hv h5, (h4.trans h6).imp (by simp [ArgsDefined])⟩
        | false =>
          simp only [Bool.false_eq_true, if_false]
          refine (Free.allocTemp _ _ _).step h0 fun tag g1' _ h1' => ?_
          refine (validateSep_judged A.md r.sep true sep p True (by simp) g1').part hsepfit h1' fun _ g1 hv h1 => ?_
          cases hty : r.typeSyn with
          | anyValue =>
            simp only [hA]
            have hval : ArgsFit Γ (some r) mayEnd [] (.cons e sep p rest) → ∃ t, WellTyped Γ e t := by
              intro h
              cases h with
              | more h1 h2 h3 => exact ⟨_, h3⟩
              | moreValue h1 h2 h3 h4 => exact ⟨_, h3⟩
              | moreRef h1 h2 => cases h1; rw [hty] at h2; cases h2
            refine (Free.allocTemp _ _ _).step h1 fun reg g2 _ h2 => ?_
            refine (expr_judged hs e (nt + 2) reg g2).part hval h2 fun t g3 htt h3 => ?_
            refine (Free.emitTag _ _ _).step h3 fun _ g4 _ h4 => ?_
            refine (more _ _ g4).mono hrest ?_
            rintro _ g5 _ ⟨h5, h6⟩
            exact ⟨.more rfl hty ((htt _).2 rfl) hv h5, (h4.trans h6).imp (by simp [ArgsDefined])⟩
          | typed vt =>
            simp only [hA]
            have hval : ArgsFit Γ (some r) mayEnd [] (.cons e sep p rest) → ∃ t, WellTyped Γ e t ∧ Converts t vt := by
              intro h
              cases h with
              | more h1 h2 => cases h1; rw [hty] at h2; cases h2
              | moreValue h1 h2 h3 h4 => cases h1; rw [hty] at h2; cases h2; exact ⟨_, h3, h4⟩
              | moreRef h1 h2 => cases h1; rw [hty] at h2; cases h2
            refine (Free.allocTemp _ _ _).step h1 fun reg g2 _ h2 => ?_
            refine (expr_judged hs e (nt + 2) reg g2).part (fun h => (hval h).imp fun _ h => h.1) h2 fun t g3 htt h3 => ?_
            refine (castTo_judged reg t vt e.startPos g3).part ?_ h3 fun _ g4' hc h4' => ?_
            · intro h
              obtain ⟨t', h1, h2⟩ := hval h
              rw [(htt _).1 h1] at h2; exact h2
            refine (Free.emitTag _ _ _).step h4' fun _ g4 _ h4 => ?_
            refine (more _ _ g4).mono hrest ?_
            rintro _ g5 _ ⟨h5, h6⟩
            exact ⟨.moreValue rfl hty ((htt _).2 rfl) hc hv h5, (h4.trans h6).imp (by simp [ArgsDefined])⟩
          | varRef =>
            simp only
            have hval : ArgsFit Γ (some r) mayEnd [] (.cons e sep p rest) → ∃ v vp, e = .sym v vp ∧
                ∃ place t, nameRef Γ.locals Γ.shared v = .var place (.scalar t) := by
              intro h
              cases h with
              | more h1 h2 => cases h1; rw [hty] at h2; cases h2
              | moreValue h1 h2 h3 h4 => cases h1; rw [hty] at h2; cases h2
              | moreRef h1 h2 h3 => exact ⟨_, _, rfl, _, _, h3⟩
            match e with
            | .sym v vp =>
              simp only
              refine (repVar_judged (L := L) (D := D) hs hA v vp _ g1).part ?_ h1 fun sv g2' href h2' => ?_
              · intro h
                obtain ⟨_, _, h1, h2⟩ := hval h
                cases h1; exact h2
              obtain ⟨place, t, hn⟩ := href
              refine (Free.allocTemp _ _ _).step h2' fun reg g2 _ h2 => ?_
              refine (Free.emit _ _).step h2 fun _ g3 _ h3 => ?_
              refine (Free.emitTag _ _ _).step h3 fun _ g4 _ h4 => ?_
              refine (more _ _ g4).mono hrest ?_
              rintro _ g5 _ ⟨h5, h6⟩
              exact ⟨.moreRef rfl hty hn hv h5, (h4.trans h6).imp (by simp [ArgsDefined, CallsDefined, hn])⟩
            | .bool .. | .dbl .. | .int .. | .text .. | .un .. | .bin .. | .call .. =>
              exact .throw fun h => by obtain ⟨_, _, h, _⟩ := hval h; cases h
termination_by structural args
end

end

end EB
