import Verif.Lemmas.Session
import Verif.Lemmas.VmRun
import Verif.Spec.Positions
import Mathlib.Tactic.SplitIfs
/-!
# The compiler only uses positions of the syntax tree
-/

namespace EB
open Spec

/-- The errors that may come out of the compiler: a panic, an error at one of the positions, or a
jump that does not fit and whose position is not known. -/
def CErrPos (P : LineCol → Prop) : CErr → Prop
  | .alreadyDefined p _ | .arrayUsedAsScalar p _ | .binaryOpType p _ _ _ | .callableSyntax p _
  | .cannotNest p | .duplicateLabel p _ | .incompatibleAnnotation p _ | .incompatibleTypes p _ _
  | .invalidEndCode p | .io p | .notAFunction p _ | .misplacedExit p _ | .notAnArray p _
  | .notANumber p _ | .outOfConstants p | .outOfRegisters p _ | .outOfUpcalls p | .parse p _
  | .tooManyDims p _ | .typeMismatch p _ _ | .undefinedSymbol p _ | .unknownLabel p _
  | .wrongSubscripts p _ _ => P p
  | .targetTooFar p _ => P p ∨ p = ⟨0, 0⟩
  | .panic => True

/-- An instruction that raises no errors, for which the position does not matter. -/
def Instr.calm : Instr → Bool
  | .jump .. | .jumpIfFalse .. | .nop | .eof => true
  | _ => false

/-- The positions that the generated code carries: those of the chunk (`P`) and older ones (`O`). -/
structure CgPos (P O : LineCol → Prop) (g : Codegen) : Prop where
  len : g.instrs.length = g.code.length
  pos : ∀ (i : Nat) m c, g.instrs[i]? = some m → g.code[i]? = some c → (P m.linecol ∨ O m.linecol) ∨ (m.linecol = ⟨0, 0⟩ ∧ c.calm = true)
  args : ∀ m ∈ g.instrs, ∀ p ∈ m.argLinecols, P p ∨ O p
  fix : ∀ a f, (a, f) ∈ g.fixups → ∃ m, g.instrs[a]? = some m ∧ P m.linecol

/-- The positions that the compiler keeps. -/
structure CtxPos (P O : LineCol → Prop) (c : Ctx) : Prop where
  cg : CgPos P O c.cg
  dos : ∀ l ∈ c.doExit, ∀ x ∈ l, P x.2
  fors : ∀ l ∈ c.forExit, ∀ x ∈ l, P x.2
  cal : ∀ x ∈ c.calExits, P x.2

/-- `x` keeps `G`, and its results and errors are as said. -/
def CSat {σ : Type} (P : LineCol → Prop) (G : σ → Prop) {α : Type} (x : CM σ α) (Q : α → Prop) : Prop :=
  ∀ s, G s → match x s with
    | .ok (a, s') => G s' ∧ Q a
    | .error e => CErrPos P e

section
variable {P : LineCol → Prop} {σ : Type} {G : σ → Prop} {α β : Type}

theorem CSat.bind {x : CM σ α} {f : α → CM σ β} {Q : α → Prop} {R : β → Prop} (h : CSat P G x Q)
    (k : ∀ a, Q a → CSat P G (f a) R) : CSat P G (x >>= f) R := by
  intro s hs
  have h1 := h s hs
  show match CM.bind x f s with | .ok (a, s') => _ | .error e => _
  unfold CM.bind
  rcases hx : x s with e | ⟨a, s'⟩
  · rw [hx] at h1; exact h1
  · rw [hx] at h1; exact k a h1.2 s' h1.1

theorem CSat.seq {x : CM σ α} {f : α → CM σ β} {R : β → Prop} (h : CSat P G x fun _ => True)
    (k : ∀ a, CSat P G (f a) R) : CSat P G (x >>= f) R := h.bind fun a _ => k a

theorem CSat.pure {a : α} {Q : α → Prop} (h : Q a) : CSat P G (Pure.pure a : CM σ α) Q := fun _ hs => ⟨hs, h⟩

theorem CSat.throw {e : CErr} {Q : α → Prop} (h : CErrPos P e) : CSat P G (CM.throw e : CM σ α) Q := fun _ _ => h

theorem CSat.mono {x : CM σ α} {Q R : α → Prop} (h : CSat P G x Q) (k : ∀ a, Q a → R a) : CSat P G x R := by
  intro s hs
  have h1 := h s hs
  rcases hx : x s with e | ⟨a, s'⟩
  · rw [hx] at h1; exact h1
  · rw [hx] at h1; exact ⟨h1.1, k a h1.2⟩

theorem CSat.lift {x : Except CErr α} {Q : α → Prop} (h : ∀ a, x = .ok a → Q a) (k : ∀ e, x = .error e → CErrPos P e) :
    CSat P G (CM.lift x : CM σ α) Q := by
  intro s hs
  unfold CM.lift
  cases x with
  | ok a => exact ⟨hs, h a rfl⟩
  | error e => exact k e rfl

theorem CSat.modify {f : σ → σ} (h : ∀ s, G s → G (f s)) : CSat P G (CM.modify f) fun _ => True :=
  fun s hs => ⟨h s hs, trivial⟩

theorem CSat.get : CSat P G (CM.get : CM σ σ) G := fun _ hs => ⟨hs, hs⟩

end

section
variable {P O : LineCol → Prop} {α β : Type}

theorem symErr_pos {e : SymErr} {p : LineCol} (hp : P p) : CErrPos P (e.at p) := by
  cases e <;> first | exact hp | trivial

theorem mkTarget_pos {n : Nat} {p : LineCol} (hp : P p ∨ p = ⟨0, 0⟩) : ∀ e, mkTarget n p = .error e → CErrPos P e := by
  intro e he
  unfold mkTarget at he
  split_ifs at he
  cases he
  exact hp

theorem allocTemp_pos {sy : Syms} {n : Nat} {p : LineCol} (hp : P p) : ∀ e, allocTemp sy n p = .error e → CErrPos P e := by
  intro e he
  unfold allocTemp at he
  split_ifs at he
  · split at he <;> cases he
    exact hp
  · cases he; exact hp

theorem firstTemp_pos {sy : Syms} {n : Nat} {p : LineCol} (hp : P p) : ∀ e, firstTemp sy n p = .error e → CErrPos P e := by
  intro e he
  unfold firstTemp at he
  split at he <;> cases he
  exact hp

theorem validateSep_pos {md : Md} {syn : SepSyn} {ok : Bool} {sep : ArgSep} {p : LineCol} (hp : P p) :
    ∀ e, validateSep md syn ok sep p = .error e → CErrPos P e := by
  intro e he
  unfold validateSep at he
  split at he <;> (try split_ifs at he) <;> cases he <;> exact hp

theorem checkCallee_pos {md : Md} {v : VarRef} {p : LineCol} (hp : P p) :
    ∀ e, checkCallee md v p = .error e → CErrPos P e := by
  intro e he
  unfold checkCallee at he
  split at he <;> (try split_ifs at he) <;> cases he <;> exact hp

theorem refVar_pos {A : ArgEnv} {a b : Bool} {v : VarRef} {p : LineCol} (hp : P p) :
    ∀ e, refVar A a b v p = .error e → CErrPos P e := by
  intro e he
  unfold refVar at he
  split at he <;> (try split_ifs at he) <;> (try split at he) <;> cases he <;>
    first | exact hp | trivial | exact symErr_pos hp

theorem repVar_pos {A : ArgEnv} {v : VarRef} {p q : LineCol} (hp : P p) (hq : P q) :
    ∀ e, repVar A v p q = .error e → CErrPos P e := by
  intro e he
  unfold repVar at he
  split at he <;> (try split at he) <;> cases he <;> first | exact hp | exact hq | trivial | exact symErr_pos hp

theorem start_pos : ∀ {e : Expr}, ExprPos P e → P e.startPos
  | .bool .., h | .dbl .., h | .int .., h | .text .., h | .sym .., h => h
  | .un .., h => h.2
  | .bin _ l _ _, h => start_pos (e := l) h.1
  | .call .., h => h.1

/-! ## Code generation -/

theorem CgPos.push {g : Codegen} (h : CgPos P O g) {i : Instr} {p : LineCol} (hp : P p ∨ (p = ⟨0, 0⟩ ∧ i.calm = true)) :
    CgPos P O (g.push i p) := by
  refine ⟨?_, ?_, ?_, ?_⟩
  · simp [Codegen.push, h.len]
  · intro j m c hm hc
    simp only [Codegen.push] at hm hc
    by_cases hj : j < g.instrs.length
    · rw [List.getElem?_append_left hj] at hm
      rw [List.getElem?_append_left (by rw [← h.len]; exact hj)] at hc
      exact h.pos j m c hm hc
    · rw [List.getElem?_append_right (by omega)] at hm
      rw [List.getElem?_append_right (by rw [← h.len]; omega)] at hc
      have e1 := List.mem_singleton.1 (List.mem_of_getElem? hm)
      have e2 := List.mem_singleton.1 (List.mem_of_getElem? hc)
      rw [e1, e2]; exact hp.imp .inl id
  · intro m hm q hq
    rcases List.mem_append.1 hm with hm | hm
    · exact h.args m hm q hq
    · rw [List.mem_singleton.1 hm] at hq; cases hq
  · intro a f hf
    obtain ⟨m, h1, h2⟩ := h.fix a f hf
    refine ⟨m, ?_, h2⟩
    have hl := (List.getElem?_eq_some_iff.1 h1).1
    show (g.instrs ++ _)[a]? = _
    rw [List.getElem?_append_left hl, h1]

theorem CgPos.modify {g : Codegen} (h : CgPos P O g) (a : Nat) (F : InstrMeta → InstrMeta)
    (h1 : ∀ m, (F m).linecol = m.linecol) (h2 : ∀ m, (∀ p ∈ m.argLinecols, P p ∨ O p) → ∀ p ∈ (F m).argLinecols, P p ∨ O p) :
    CgPos P O { g with instrs := g.instrs.modify a F } := by
  have key : ∀ m ∈ g.instrs.modify a F, ∃ m' ∈ g.instrs, m = m' ∨ m = F m' := by
    intro m hm
    obtain ⟨i, hi⟩ := List.mem_iff_getElem?.1 hm
    rw [List.getElem?_modify] at hi
    rcases hg : g.instrs[i]? with _ | m'
    · rw [hg] at hi; cases hi
    · rw [hg] at hi
      refine ⟨m', List.mem_of_getElem? hg, ?_⟩
      simp only [Option.map_eq_map, Option.map_some, Option.some.injEq] at hi
      split_ifs at hi
      · exact .inr hi.symm
      · exact .inl hi.symm
  refine ⟨by simp [h.len], ?_, ?_, ?_⟩
  · intro j m c hm hc
    simp only [List.getElem?_modify] at hm
    rcases hg : g.instrs[j]? with _ | m'
    · rw [hg] at hm; cases hm
    · rw [hg] at hm
      simp only [Option.map_eq_map, Option.map_some, Option.some.injEq] at hm
      have := h.pos j m' c hg hc
      split_ifs at hm
      · rw [← hm, h1]; exact this
      · rw [← hm]; exact this
  · intro m hm
    obtain ⟨m', hm', rfl | rfl⟩ := key m hm
    · exact h.args _ hm'
    · exact h2 _ (h.args _ hm')
  · intro b f hf
    obtain ⟨m, g1, g2⟩ := h.fix b f hf
    show ∃ m, (g.instrs.modify a F)[b]? = some m ∧ _
    rw [List.getElem?_modify, g1]
    by_cases hab : a = b
    · exact ⟨F m, by simp [hab], by rw [h1]; exact g2⟩
    · exact ⟨m, by simp [hab], g2⟩

theorem CgPos.markStmt {g : Codegen} (h : CgPos P O g) (a : Nat) : CgPos P O (g.markStmt a) :=
  h.modify a _ (fun _ => rfl) fun _ hm => hm

theorem CgPos.setArgs {g : Codegen} (h : CgPos P O g) (a : Nat) {l : List LineCol} (hl : ∀ p ∈ l, P p) : CgPos P O (g.setArgs a l) :=
  h.modify a _ (fun _ => rfl) fun _ _ p hp => .inl (hl p hp)

theorem CgPos.patch {g : Codegen} (h : CgPos P O g) (a : Nat) {i : Instr} (hi : i.calm = true) : CgPos P O (g.patch a i) := by
  refine ⟨by simp [Codegen.patch, h.len], fun j m c hm hc => ?_, h.args, h.fix⟩
  simp only [Codegen.patch] at hm hc
  rw [List.getElem?_set] at hc
  split_ifs at hc with e1 e2
  · cases hc
    obtain ⟨c', hc'⟩ : ∃ c', g.code[j]? = some c' := ⟨_, List.getElem?_eq_getElem (e1 ▸ e2)⟩
    rcases h.pos j m c' hm hc' with h | h
    · exact .inl h
    · exact .inr ⟨h.1, hi⟩
  · exact h.pos j m c hm hc

theorem fmap_insert_mem {K V : Type} [DecidableEq K] {m : FMap K V} {k k' : K} {v v' : V}
    (h : (k', v') ∈ m.insert k v) : (k', v') ∈ m ∨ (k' = k ∧ v' = v) := by
  rcases List.mem_cons.1 h with h | h
  · simp only [Prod.mk.injEq] at h; exact .inr h
  · exact .inl ((List.mem_filter.1 h).1)

theorem CgPos.addFixup {g : Codegen} (h : CgPos P O g) {a : Nat} (f : Fixup) {m : InstrMeta} (h1 : g.instrs[a]? = some m)
    (h2 : P m.linecol) : CgPos P O (g.addFixup a f) := by
  refine ⟨h.len, h.pos, h.args, fun b k hb => ?_⟩
  rcases fmap_insert_mem hb with hb | ⟨rfl, -⟩
  · exact h.fix b k hb
  · exact ⟨m, h1, h2⟩

abbrev GSat (P O : LineCol → Prop) (x : CG α) (Q : α → Prop) : Prop := CSat P (CgPos P O) x Q

theorem sat_emit {i : Instr} {p : LineCol} (hp : P p ∨ (p = ⟨0, 0⟩ ∧ i.calm = true)) : GSat P O (emit i p) fun _ => True :=
  fun _ hg => ⟨hg.push hp, trivial⟩

theorem sat_emitP {i : Instr} {p : LineCol} (hp : P p) : GSat P O (emit i p) fun _ => True := sat_emit (.inl hp)

theorem sat_getConstant {c : ConstantDatum} {p : LineCol} (hp : P p) : GSat P O (getConstant c p) fun _ => True := by
  intro g hg
  unfold getConstant
  cases h1 : g.constants.get? c with
  | some x => exact ⟨hg, trivial⟩
  | none =>
    cases h2 : g.constants.insert 65536 c c.etype with
    | some x => exact ⟨⟨hg.len, hg.pos, hg.args, hg.fix⟩, trivial⟩
    | none => exact hp

theorem sat_getUpcall {k : Str} {r : Option ExprType} {p : LineCol} (hp : P p) : GSat P O (getUpcall k r p) fun _ => True := by
  intro g hg
  unfold getUpcall
  cases h1 : g.upcalls.get? k with
  | some x => exact ⟨hg, trivial⟩
  | none =>
    cases h2 : g.upcalls.insert 65536 k r with
    | some x => exact ⟨⟨hg.len, hg.pos, hg.args, hg.fix⟩, trivial⟩
    | none => exact hp

theorem sat_emitDefault {r : Reg} {t : ExprType} {p : LineCol} (hp : P p) : GSat P O (emitDefault r t p) fun _ => True := by
  unfold emitDefault
  cases t <;> exact CSat.seq (sat_emitP hp) fun _ => CSat.pure trivial

theorem sat_emitValue {r : Reg} {d : ConstantDatum} {p : LineCol} (hp : P p) : GSat P O (emitValue r d p) fun _ => True := by
  unfold emitValue
  cases d with
  | boolean b => exact CSat.seq (sat_emitP hp) fun _ => CSat.pure trivial
  | integer i =>
    simp only
    split_ifs
    · exact CSat.seq (sat_emitP hp) fun _ => CSat.pure trivial
    · exact CSat.seq (sat_getConstant hp) fun _ => CSat.seq (sat_emitP hp) fun _ => CSat.pure trivial
  | double b => exact CSat.seq (sat_getConstant hp) fun _ => CSat.seq (sat_emitP hp) fun _ => CSat.pure trivial
  | text s => exact CSat.seq (sat_getConstant hp) fun _ => CSat.seq (sat_emitP hp) fun _ => CSat.pure trivial

theorem sat_alloc {sy : Syms} {n : Nat} {p : LineCol} (hp : P p) : GSat P O (CM.lift (allocTemp sy n p)) fun _ => True :=
  CSat.lift (fun _ _ => trivial) (allocTemp_pos hp)

theorem sat_first {sy : Syms} {n : Nat} {p : LineCol} (hp : P p) : GSat P O (CM.lift (firstTemp sy n p)) fun _ => True :=
  CSat.lift (fun _ _ => trivial) (firstTemp_pos hp)

theorem sat_sep {md : Md} {syn : SepSyn} {ok : Bool} {sep : ArgSep} {p : LineCol} (hp : P p) :
    GSat P O (CM.lift (validateSep md syn ok sep p)) fun _ => True :=
  CSat.lift (fun _ _ => trivial) (validateSep_pos hp)

theorem sat_cast {r : Reg} {s d : ExprType} {p : LineCol} (hp : P p) : GSat P O (castNumerical r s d p) fun _ => True := by
  unfold castNumerical
  cases s <;> cases d <;> first | exact CSat.pure trivial | exact CSat.seq (sat_emitP hp) fun _ => CSat.pure trivial

theorem sat_resolve {r q : Reg} {a b : ExprType} {p o : LineCol} (hp : P p) (ho : P o) :
    GSat P O (resolveNumeric r a q b p o) fun _ => True := by
  unfold resolveNumeric
  cases a <;> cases b <;> first
    | exact CSat.pure trivial
    | exact CSat.seq (sat_cast hp) fun _ => CSat.pure trivial
    | exact CSat.seq (sat_cast ho) fun _ => CSat.pure trivial

theorem sat_applyBin {op : SrcBin} {r q : Reg} {a b : ExprType} {p o : LineCol} (hp : P p) (ho : P o) :
    GSat P O (applyBin op r a q b p o) fun _ => True := by
  have fin : ∀ (x : BinOp) (t : ExprType), GSat P O (do
      let _ ← emit (.bin x r r q) o
      pure (if op.isRel then .boolean else t)) fun _ => True :=
    fun _ _ => CSat.seq (sat_emitP ho) fun _ => CSat.pure trivial
  have numeric : GSat P O (match op.doubleOp with
      | some dop => do
        match ← resolveNumeric r a q b p o with
        | some .double => (do
            let _ ← emit (.bin dop r r q) o
            pure (if op.isRel then .boolean else .double) : CG ExprType)
        | some .integer => (do
            let _ ← emit (.bin op.intOp r r q) o
            pure (if op.isRel then .boolean else .integer) : CG ExprType)
        | _ => CM.throw (.binaryOpType o op.name a b)
      | none =>
        match a, b with
        | .integer, .integer => (do
            let _ ← emit (.bin op.intOp r r q) o
            pure (if op.isRel then .boolean else .integer) : CG ExprType)
        | _, _ => CM.throw (.binaryOpType o op.name a b)) fun _ => True := by
    split
    · refine CSat.seq (sat_resolve hp ho) fun x => ?_
      split
      · exact fin _ _
      · exact fin _ _
      · exact CSat.throw ho
    · split
      · exact fin _ _
      · exact CSat.throw ho
  unfold applyBin
  dsimp only
  split
  · split
    · exact fin _ _
    · exact numeric
  · split
    · exact fin _ _
    · exact numeric
  · exact numeric

theorem sat_applyUn {sy : Syms} {nt : Nat} {op : SrcUn} {r : Reg} {t : ExprType} {p : LineCol} (hp : P p) :
    GSat P O (applyUn sy nt op r t p) fun _ => True := by
  unfold applyUn
  cases op <;> cases t <;> first
    | exact CSat.throw hp
    | exact CSat.seq (sat_emitP hp) fun _ => CSat.pure trivial
    | exact CSat.seq (sat_alloc hp) fun _ => CSat.seq (sat_emitValue hp) fun _ => CSat.seq (sat_emitP hp) fun _ => CSat.pure trivial

theorem sat_castTo {r : Reg} {s d : ExprType} {p : LineCol} (hp : P p) : GSat P O (castTo r s d p) fun _ => True := by
  unfold castTo
  split
  · exact CSat.pure trivial
  · refine CSat.seq (sat_cast hp) fun ok => ?_
    split
    · exact CSat.pure trivial
    · split
      · exact CSat.throw hp
      · exact CSat.throw hp

theorem sat_tag {r : Reg} {t : VarArgTag} {p : LineCol} (hp : P p) : GSat P O (emitTag r t p) fun _ => True := by
  unfold emitTag
  exact CSat.seq (sat_emitP hp) fun _ => CSat.pure trivial

theorem sat_emitCall {md : Md} {k : Str} {t : Option ExprType} {r : Reg} {l : List LineCol} {p : LineCol} (hp : P p)
    (hl : ∀ q ∈ l, P q) : GSat P O (emitCall md k t r l p) fun _ => True := by
  unfold emitCall
  split
  · intro g hg
    show CgPos P O ((((g.push .nop p).setArgs g.code.length l)).addFixup g.code.length (.call r k)) ∧ True
    refine ⟨CgPos.addFixup ((hg.push (.inl hp)).setArgs _ hl) _ (m := ⟨p, false, l⟩) ?_ hp, trivial⟩
    simp [Codegen.setArgs, Codegen.push, ← hg.len]
  · exact CSat.seq (sat_getUpcall hp) fun _ => CSat.seq (sat_emitP hp) fun a => CSat.modify fun g hg => hg.setArgs a hl

theorem sat_argless {sy : Syms} {nt : Nat} {r : Reg} {v : VarRef} {p : LineCol} (hp : P p) :
    GSat P O (compileArgless sy nt r v p) fun _ => True := by
  unfold compileArgless
  split
  · exact CSat.throw hp
  · refine CSat.seq (CSat.lift (fun _ _ => trivial) (checkCallee_pos hp)) fun t => ?_
    split
    · exact CSat.throw hp
    · split
      · exact CSat.seq (sat_emitCall hp (by simp)) fun _ => CSat.pure trivial
      · split
        · exact CSat.seq (sat_getUpcall hp) fun _ => CSat.seq (sat_alloc hp) fun _ => CSat.seq (sat_emitP hp) fun _ =>
            CSat.seq (sat_emitP hp) fun _ => CSat.pure trivial
        · exact CSat.seq (sat_emitCall hp (by simp)) fun _ => CSat.pure trivial

/-- All positions of a list. -/
abbrev ArgRes (P : LineCol → Prop) (x : Nat × List LineCol) : Prop := ∀ q ∈ x.2, P q

theorem app_pos {l m : List LineCol} (hl : ∀ q ∈ l, P q) (hm : ∀ q ∈ m, P q) : ∀ q ∈ l ++ m, P q := by
  intro q hq
  rcases List.mem_append.1 hq with h | h
  · exact hl q h
  · exact hm q h

theorem sat_noArgs {A : ArgEnv} {ny : Bool} (hk : P A.keyPos) : ∀ (syns : List SingSyn) (nt : Nat) (l : List LineCol),
    (∀ q ∈ l, P q) → GSat P O (compileNoArgs A ny syns nt l) (ArgRes P) := by
  have one : ∀ {l : List LineCol}, (∀ q ∈ l, P q) → ∀ q ∈ l ++ [A.keyPos], P q := fun hl => app_pos hl (by simp [hk])
  intro syns
  induction syns with
  | nil =>
    intro nt l hl
    unfold compileNoArgs
    split
    · exact CSat.pure hl
    · split
      · exact CSat.pure hl
      · exact CSat.seq (sat_alloc hk) fun _ => CSat.seq (sat_tag hk) fun _ => CSat.pure (one hl)
  | cons x syns ih =>
    intro nt l hl
    cases x with
    | reqValue => unfold compileNoArgs; exact CSat.throw trivial
    | reqRef => unfold compileNoArgs; exact CSat.throw trivial
    | optValue =>
      unfold compileNoArgs
      exact CSat.seq (sat_alloc hk) fun _ => CSat.seq (sat_sep hk) fun _ => CSat.seq (sat_tag hk) fun _ => ih _ _ (one hl)
    | anyValue =>
      unfold compileNoArgs
      split
      · exact CSat.throw hk
      · exact CSat.seq (sat_alloc hk) fun _ => CSat.seq (sat_sep hk) fun _ => CSat.seq (sat_tag hk) fun _ => ih _ _ (one hl)


mutual
theorem csat_expr : ∀ (sy : Syms) (e : Expr) (nt : Nat) (r : Reg), ExprPos P e → GSat P O (compileExpr sy e nt r) fun _ => True
  | sy, .bool b p, nt, r, h => CSat.seq (sat_emitValue h) fun _ => CSat.pure trivial
  | sy, .dbl b p, nt, r, h => CSat.seq (sat_emitValue h) fun _ => CSat.pure trivial
  | sy, .int b p, nt, r, h => CSat.seq (sat_emitValue h) fun _ => CSat.pure trivial
  | sy, .text b p, nt, r, h => CSat.seq (sat_emitValue h) fun _ => CSat.pure trivial
  | sy, .sym v p, nt, r, h => by
    have h : P p := h
    unfold compileExpr
    split
    · exact CSat.seq (sat_emitP h) fun _ => CSat.pure trivial
    · exact CSat.throw h
    · exact sat_argless h
    · exact CSat.throw (symErr_pos h)
  | sy, .un op e p, nt, r, h => by
    unfold compileExpr
    exact CSat.seq (csat_expr sy e nt r h.1) fun _ => sat_applyUn h.2
  | sy, .bin op a b p, nt, r, h => by
    unfold compileExpr
    exact CSat.seq (csat_expr sy a nt r h.1) fun _ => CSat.seq (sat_alloc (start_pos h.2.1)) fun _ =>
      CSat.seq (csat_expr sy b _ _ h.2.1) fun _ => sat_applyBin (start_pos h.2.1) h.2.2
  | sy, .call v p args, nt, r, h => by
    unfold compileExpr
    split
    · refine CSat.seq (CSat.lift (fun _ _ => trivial) (checkCallee_pos h.1)) fun t => ?_
      split
      · exact CSat.throw h.1
      · refine CSat.seq (sat_alloc h.1) fun _ => ?_
        split
        · exact CSat.throw h.1
        · refine CSat.bind (sat_args _ args true _ _ [] h.1 h.2 (by simp)) fun x hx => ?_
          obtain ⟨n, l⟩ := x
          refine CSat.seq (sat_first h.1) fun _ => CSat.seq (sat_emitCall h.1 hx) fun _ => ?_
          split
          · exact CSat.seq (sat_emitP h.1) fun _ => CSat.pure trivial
          · exact CSat.pure trivial
    · split
      · split
        · exact CSat.throw h.1
        · exact CSat.seq (sat_subs sy args nt p h.1 h.2) fun _ => CSat.seq (sat_first h.1) fun _ =>
            CSat.seq (sat_emitP h.1) fun _ => CSat.pure trivial
      · exact CSat.throw h.1
      · exact CSat.throw h.1
      · exact CSat.throw (symErr_pos h.1)

theorem sat_subs : ∀ (sy : Syms) (args : Args) (nt : Nat) (p : LineCol), P p → ArgsPos P args →
    GSat P O (compileSubs sy args nt p) fun _ => True
  | sy, .nil, nt, p, hp, h => by unfold compileSubs; exact CSat.pure trivial
  | sy, .skip .., nt, p, hp, h => by unfold compileSubs; exact CSat.throw trivial
  | sy, .cons e _ _ rest, nt, p, hp, h => by
    unfold compileSubs
    exact CSat.seq (sat_alloc hp) fun _ => CSat.seq (csat_expr sy e _ _ h.1) fun _ => CSat.seq (sat_castTo (start_pos h.1)) fun _ =>
      sat_subs sy rest _ p hp h.2.2

theorem sat_args : ∀ (A : ArgEnv) (args : Args) (ny : Bool) (syns : List SingSyn) (nt : Nat) (l : List LineCol),
    P A.keyPos → ArgsPos P args → (∀ q ∈ l, P q) → GSat P O (compileArgsFrom A args ny syns nt l) (ArgRes P)
  | A, .nil, ny, syns, nt, l, hk, h, hl => by unfold compileArgsFrom; exact sat_noArgs hk _ _ _ hl
  | A, .cons e sep sp rest, ny, syns, nt, l, hk, h, hl => by
    have hs := start_pos h.1
    have h1 : ∀ q ∈ l ++ [e.startPos], P q := app_pos hl (by simp [hs])
    have h2 : ∀ q ∈ l ++ [e.startPos, e.startPos], P q := app_pos hl (by simp [hs])
    unfold compileArgsFrom
    dsimp only
    split
    · exact CSat.seq (sat_alloc hs) fun _ => CSat.seq (csat_expr _ e _ _ h.1) fun _ => CSat.seq (sat_castTo hs) fun _ =>
        CSat.seq (sat_sep h.2.1) fun _ => sat_args A rest _ _ _ _ hk h.2.2 h1
    · split
      · refine CSat.seq (CSat.lift (fun _ _ => trivial) (refVar_pos hs)) fun x => ?_
        exact CSat.seq (sat_alloc hs) fun _ => CSat.seq (sat_emitP hs) fun _ =>
          CSat.seq (sat_sep h.2.1) fun _ => sat_args A rest _ _ _ _ hk h.2.2 h1
      · exact CSat.throw hs
    · exact CSat.seq (sat_alloc hs) fun _ => CSat.seq (sat_alloc hs) fun _ => CSat.seq (csat_expr _ e _ _ h.1) fun _ =>
        CSat.seq (sat_castTo hs) fun _ => CSat.seq (sat_sep h.2.1) fun _ => CSat.seq (sat_tag hs) fun _ =>
        sat_args A rest _ _ _ _ hk h.2.2 h2
    · exact CSat.seq (sat_alloc hs) fun _ => CSat.seq (sat_alloc hs) fun _ => CSat.seq (csat_expr _ e _ _ h.1) fun _ =>
        CSat.seq (sat_sep h.2.1) fun _ => CSat.seq (sat_tag hs) fun _ => sat_args A rest _ _ _ _ hk h.2.2 h2
    · split
      · exact CSat.throw hk
      · split
        · split
          · exact CSat.seq (sat_sep h.2.1) fun _ => CSat.seq (sat_alloc hs) fun _ => CSat.seq (csat_expr _ e _ _ h.1) fun _ =>
              CSat.seq (sat_castTo hs) fun _ => sat_args A rest _ _ _ _ hk h.2.2 h1
          · exact CSat.throw trivial
        · refine CSat.seq (sat_alloc hs) fun _ => CSat.seq (sat_sep h.2.1) fun _ => ?_
          split
          · exact CSat.seq (sat_alloc hs) fun _ => CSat.seq (csat_expr _ e _ _ h.1) fun _ => CSat.seq (sat_tag hs) fun _ =>
              sat_args A rest _ _ _ _ hk h.2.2 h2
          · exact CSat.seq (sat_alloc hs) fun _ => CSat.seq (csat_expr _ e _ _ h.1) fun _ => CSat.seq (sat_castTo hs) fun _ =>
              CSat.seq (sat_tag hs) fun _ => sat_args A rest _ _ _ _ hk h.2.2 h2
          · split
            · refine CSat.seq (CSat.lift (fun _ _ => trivial) (repVar_pos hs hs)) fun x => ?_
              exact CSat.seq (sat_alloc hs) fun _ => CSat.seq (sat_emitP hs) fun _ => CSat.seq (sat_tag hs) fun _ =>
                sat_args A rest _ _ _ _ hk h.2.2 h2
            · exact CSat.throw hs
  | A, .skip sep sp rest, ny, syns, nt, l, hk, h, hl => by
    have h1 : ∀ q ∈ l ++ [sp], P q := app_pos hl (by simp [h.1])
    unfold compileArgsFrom
    split
    · exact CSat.throw hk
    · exact CSat.throw hk
    · exact CSat.seq (sat_alloc h.1) fun _ => CSat.seq (sat_sep h.1) fun _ => CSat.seq (sat_tag h.1) fun _ =>
        sat_args A rest _ _ _ _ hk h.2 h1
    · exact CSat.seq (sat_alloc h.1) fun _ => CSat.seq (sat_sep h.1) fun _ => CSat.seq (sat_tag h.1) fun _ =>
        sat_args A rest _ _ _ _ hk h.2 h1
    · split
      · exact CSat.throw hk
      · split
        · exact CSat.seq (sat_sep h.1) fun _ => CSat.throw h.1
        · refine CSat.seq (sat_alloc h.1) fun _ => CSat.seq (sat_sep h.1) fun _ => ?_
          split
          · exact CSat.throw h.1
          · exact CSat.seq (sat_tag h.1) fun _ => sat_args A rest _ _ _ _ hk h.2 h1
end

theorem sat_exprAs {sy : Syms} {e : Expr} {nt : Nat} {r : Reg} {t : ExprType} (h : ExprPos P e) :
    GSat P O (compileExprAs sy e nt r t) fun _ => True :=
  CSat.seq (csat_expr sy e nt r h) fun _ => sat_castTo (start_pos h)

theorem sat_compileArgs {sy : Syms} {md : Md} {p : LineCol} {args : Args} {nt : Nat} (hp : P p) (h : ArgsPos P args) :
    GSat P O (compileArgs sy md p args nt) fun x => ∀ q ∈ x.2, P q := by
  unfold compileArgs
  split
  · exact CSat.throw hp
  · refine CSat.bind (sat_args _ args true _ nt [] hp h (by simp)) fun x hx => ?_
    exact CSat.seq (sat_first hp) fun _ => CSat.pure hx


/-! ## Statements -/

abbrev SSat (P O : LineCol → Prop) (x : CS α) (Q : α → Prop) : Prop := CSat P (CtxPos P O) x Q

theorem CtxPos.setCg {c : Ctx} (h : CtxPos P O c) {g : Codegen} (hg : CgPos P O g) : CtxPos P O { c with cg := g } :=
  ⟨hg, h.dos, h.fors, h.cal⟩

theorem sat_onCg {x : CG α} {Q : α → Prop} (h : GSat P O x Q) : SSat P O (onCg x) Q := by
  intro c hc
  have h1 := h c.cg hc.cg
  unfold onCg
  rcases hx : x c.cg with e | ⟨a, g⟩
  · rw [hx] at h1; exact h1
  · rw [hx] at h1; exact ⟨hc.setCg h1.1, h1.2⟩

theorem sat_withSyms {f : Syms → CG α} {Q : α → Prop} (h : ∀ sy, GSat P O (f sy) Q) : SSat P O (withSyms f) Q := by
  intro c hc
  have h1 := h c.sy c.cg hc.cg
  unfold withSyms
  rcases hx : f c.sy c.cg with e | ⟨a, g⟩
  · rw [hx] at h1; exact h1
  · rw [hx] at h1; exact ⟨hc.setCg h1.1, h1.2⟩

theorem sat_pc : SSat P O pcNow fun _ => True := fun _ hc => ⟨hc, trivial⟩

theorem sat_patch {a : Nat} {i : Instr} (hi : i.calm = true) : SSat P O (patchS a i) fun _ => True :=
  CSat.modify fun _ hc => hc.setCg (hc.cg.patch a hi)

theorem sat_target {n : Nat} {p : LineCol} (hp : P p ∨ p = ⟨0, 0⟩) : SSat P O (CM.lift (mkTarget n p)) fun _ => True :=
  CSat.lift (fun _ _ => trivial) (mkTarget_pos hp)

theorem sat_patchJump {a n : Nat} {p : LineCol} (hp : P p ∨ p = ⟨0, 0⟩) : SSat P O (patchJump a n p) fun _ => True :=
  CSat.seq (sat_target hp) fun _ => sat_patch rfl

theorem sat_patchJif {a n : Nat} {r : Reg} {p : LineCol} (hp : P p) : SSat P O (patchJumpIfFalse a r n p) fun _ => True :=
  CSat.seq (sat_target (.inl hp)) fun _ => sat_patch rfl

theorem sat_emitS {i : Instr} {p : LineCol} (hp : P p) : SSat P O (onCg (emit i p)) fun _ => True := sat_onCg (sat_emitP hp)

theorem sat_emitJump {n : Nat} {p : LineCol} (hp : P p ∨ p = ⟨0, 0⟩) : SSat P O (emitJump n p) fun _ => True :=
  CSat.seq (sat_target hp) fun _ =>
    CSat.seq (sat_onCg (sat_emit (hp.imp id fun h => ⟨h, rfl⟩))) fun _ => CSat.pure trivial

theorem sat_patchJumps {n : Nat} : ∀ (l : List (Nat × LineCol)), (∀ x ∈ l, P x.2 ∨ x.2 = ⟨0, 0⟩) →
    SSat P O (patchJumps n l) fun _ => True
  | [], _ => CSat.pure trivial
  | (a, p) :: l, h => CSat.seq (sat_patchJump (h (a, p) (by simp))) fun _ => sat_patchJumps l fun x hx => h x (by simp [hx])

theorem sat_putLocal {k : Str} {t : Proto} {p : LineCol} (hp : P p) : SSat P O (putLocalS k t p) fun _ => True := by
  intro c hc
  unfold putLocalS
  rcases c.sy.putLocal k t with e | ⟨r, sy⟩
  · exact symErr_pos hp
  · exact ⟨⟨hc.cg, hc.dos, hc.fors, hc.cal⟩, trivial⟩

theorem sat_putGlobal {k : Str} {t : Proto} {p : LineCol} (hp : P p) : SSat P O (putGlobalS k t p) fun _ => True := by
  intro c hc
  unfold putGlobalS
  rcases c.sy.putGlobal k t with e | ⟨r, sy⟩
  · exact symErr_pos hp
  · exact ⟨⟨hc.cg, hc.dos, hc.fors, hc.cal⟩, trivial⟩

theorem sat_dest {v : VarRef} {p : LineCol} (hp : P p) : SSat P O (assignDest v p) fun _ => True := by
  intro c hc
  unfold assignDest
  cases h1 : c.sy.getVar v with
  | ok x =>
    obtain ⟨r, t⟩ := x
    cases t with
    | array => exact hp
    | scalar => exact ⟨hc, trivial⟩
  | error e =>
    cases e with
    | undefinedSymbol u =>
      simp only
      cases h2 : c.sy.getCallable (symKey v.name) with
      | some _ => exact hp
      | none =>
        simp only
        rcases c.sy.putLocal (symKey v.name) (.scalar (v.ty.getD .integer)) with e | ⟨r, sy⟩
        · exact symErr_pos hp
        · exact ⟨⟨hc.cg, hc.dos, hc.fors, hc.cal⟩, trivial⟩
    | alreadyDefined => exact hp
    | incompatibleAnnotation => exact hp
    | outOfRegisters => exact hp
    | panic => trivial

theorem sat_assignErr {x : CS α} {Q : α → Prop} (h : SSat P O x Q) : SSat P O (assignErr x) Q := by
  intro c hc
  have h1 := h c hc
  unfold assignErr
  rcases hx : x c with e | ⟨a, c'⟩
  · rw [hx] at h1
    cases e <;> exact h1
  · rw [hx] at h1; exact h1

theorem sat_fixupType {v : VarRef} {t : ExprType} {p : LineCol} (hp : P p) : SSat P O (fixupTypeS v t p) fun _ => True := by
  intro c hc
  unfold fixupTypeS
  rcases c.sy.fixupLocalType v t with e | sy
  · exact symErr_pos hp
  · exact ⟨⟨hc.cg, hc.dos, hc.fors, hc.cal⟩, trivial⟩

theorem sat_assign {v : VarRef} {p : LineCol} {e : Expr} (hp : P p) (he : ExprPos P e) :
    SSat P O (compileAssign v p e) fun _ => True := by
  unfold compileAssign
  refine CSat.seq (sat_dest hp) fun x => ?_
  obtain ⟨r, t, d⟩ := x
  dsimp only
  split
  · split
    · exact sat_assignErr (sat_withSyms fun sy => CSat.seq (sat_alloc hp) fun _ => CSat.seq (sat_exprAs he) fun _ =>
        CSat.seq (sat_emitP hp) fun _ => CSat.pure trivial)
    · exact sat_assignErr (sat_withSyms fun sy => sat_exprAs he)
  · exact CSat.seq (sat_withSyms fun sy => csat_expr sy e _ _ he) fun _ => sat_fixupType hp

theorem sat_relop {p : LineCol} {a b d : Reg} {t u : ExprType} {op : CaseRelOp} (hp : P p) :
    GSat P O (compileCaseRelop p a t b u op d) fun _ => True := by
  have last : ∀ o : Option BinOp, GSat P O (match o with
      | some o => (do let _ ← emit (.bin o d a b) p : CG Unit)
      | none => CM.throw (.binaryOpType p op.name t u)) fun _ => True := by
    intro o
    split
    · exact CSat.seq (sat_emitP hp) fun _ => CSat.pure trivial
    · exact CSat.throw hp
  unfold compileCaseRelop
  dsimp only
  split
  · exact CSat.seq (sat_emitP hp) fun _ => CSat.seq (CSat.pure trivial) fun o => last o
  · exact CSat.seq (sat_emitP hp) fun _ => CSat.seq (CSat.pure trivial) fun o => last o
  · exact CSat.seq (CSat.pure trivial) fun o => last o

theorem sat_guard {sy : Syms} {nt : Nat} {r : Reg} {t : ExprType} {g : CaseGuard} (h : CasePos P g) :
    GSat P O (compileGuard sy nt r t g) fun x => P x.2 := by
  cases g with
  | is op e =>
    have hs := start_pos (e := e) h
    exact CSat.seq (sat_alloc hs) fun _ => CSat.seq (sat_alloc hs) fun _ => CSat.seq (sat_alloc hs) fun _ =>
      CSat.seq (sat_emitP hs) fun _ => CSat.seq (csat_expr sy e _ _ h) fun _ => CSat.seq (sat_relop hs) fun _ => CSat.pure hs
  | «to» a b =>
    have hs := start_pos h.1
    exact CSat.seq (sat_alloc hs) fun _ => CSat.seq (sat_alloc hs) fun _ => CSat.seq (sat_alloc hs) fun _ =>
      CSat.seq (sat_alloc hs) fun _ => CSat.seq (sat_alloc hs) fun _ => CSat.seq (sat_alloc hs) fun _ =>
      CSat.seq (sat_alloc hs) fun _ => CSat.seq (sat_emitP hs) fun _ => CSat.seq (csat_expr sy a _ _ h.1) fun _ =>
      CSat.seq (sat_relop hs) fun _ => CSat.seq (sat_emitP hs) fun _ => CSat.seq (csat_expr sy b _ _ h.2) fun _ =>
      CSat.seq (sat_relop hs) fun _ => CSat.seq (sat_emitP hs) fun _ => CSat.pure hs

theorem sat_guards {r : Reg} {t : ExprType} : ∀ (gs : List CaseGuard), (∀ g ∈ gs, CasePos P g) →
    SSat P O (compileGuards r t gs) fun l => ∀ x ∈ l, P x.2
  | [], _ => CSat.pure (by simp)
  | g :: gs, h => by
    unfold compileGuards
    refine CSat.bind (sat_withSyms fun sy => sat_guard (h g (by simp))) fun x hx => ?_
    obtain ⟨cond, p⟩ := x
    refine CSat.seq (sat_emitS hx) fun _ => CSat.seq (sat_emitS hx) fun _ => CSat.seq sat_pc fun _ => CSat.seq (sat_patchJif hx) fun _ =>
      CSat.bind (sat_guards gs fun g hg => h g (by simp [hg])) fun l hl => CSat.pure ?_
    intro y hy
    rcases List.mem_cons.1 hy with rfl | hy
    · exact hx
    · exact hl y hy

theorem sat_dispatch {r : Reg} {t : ExprType} {p : LineCol} (hp : P p) : ∀ (cs : Cases) (pend : Option Nat), CasesPos P cs →
    SSat P O (compileDispatch r t p cs pend) fun x => ∀ l ∈ x.1, ∀ y ∈ l, P y.2
  | .nil, pend, _ => CSat.pure (by simp)
  | .cons gs body rest, pend, h => by
    unfold compileDispatch
    have tail : SSat P O (match gs with
        | [] => (do
          let body ← onCg (emit .nop p)
          let (jumps, pending') ← compileDispatch r t p rest none
          pure ([(body, p)] :: jumps, pending') : CS (List (List (Nat × LineCol)) × Option Nat))
        | guards => do
          let body ← compileGuards r t guards
          let next ← onCg (emit .nop p)
          let (jumps, pending') ← compileDispatch r t p rest (some next)
          pure (body :: jumps, pending')) fun x => ∀ l ∈ x.1, ∀ y ∈ l, P y.2 := by
      split
      · refine CSat.seq (sat_emitS hp) fun _ => CSat.bind (sat_dispatch hp rest _ h.2.2) fun x hx => CSat.pure ?_
        intro l hl
        rcases List.mem_cons.1 hl with rfl | hl
        · simp [hp]
        · exact hx l hl
      · refine CSat.bind (sat_guards _ h.1) fun b hb => CSat.seq (sat_emitS hp) fun _ =>
          CSat.bind (sat_dispatch hp rest _ h.2.2) fun x hx => CSat.pure ?_
        intro l hl
        rcases List.mem_cons.1 hl with rfl | hl
        · exact hb
        · exact hx l hl
    refine CSat.seq sat_pc fun here => ?_
    dsimp only
    split
    · exact CSat.seq (sat_patchJump (.inl hp)) fun _ => tail
    · exact tail

theorem sat_cond {e : Expr} (h : ExprPos P e) : SSat P O (compileCond e) fun _ => True :=
  sat_withSyms fun _ => CSat.seq (sat_alloc (start_pos h)) fun _ => CSat.seq (sat_exprAs h) fun _ => CSat.pure trivial

theorem csat_declare {v : VarRef} {p : LineCol} {ps : List VarRef} (hp : P p) : SSat P O (declareCallable v p ps) fun _ => True := by
  intro c hc
  unfold declareCallable
  rcases c.sy.declareCallable v (userMd v ps) with e | sy
  · exact symErr_pos hp
  · exact ⟨⟨hc.cg, hc.dos, hc.fors, hc.cal⟩, trivial⟩

theorem sat_params {p : LineCol} (hp : P p) : ∀ ps, SSat P O (putParams p ps) fun _ => True
  | [] => CSat.pure trivial
  | _ :: ps => CSat.seq (sat_putLocal hp) fun _ => sat_params hp ps

theorem sat_newArg {v : VarRef} {p : LineCol} (hp : P p) : SSat P O (defineNewArg v p) fun _ => True :=
  CSat.seq (sat_putLocal hp) fun _ => sat_onCg (sat_emitDefault hp)

theorem sat_ifNew {v : VarRef} {p : LineCol} (hp : P p) : SSat P O (defineIfNew v p) fun _ => True := by
  intro c hc
  unfold defineIfNew
  cases h1 : c.sy.getVar v with
  | ok => exact ⟨hc, trivial⟩
  | error e =>
    cases e with
    | undefinedSymbol =>
      simp only
      cases h2 : c.sy.getCallable (symKey v.name) with
      | some => exact ⟨hc, trivial⟩
      | none => exact sat_newArg hp c hc
    | alreadyDefined => exact ⟨hc, trivial⟩
    | incompatibleAnnotation => exact ⟨hc, trivial⟩
    | outOfRegisters => exact ⟨hc, trivial⟩
    | panic => exact ⟨hc, trivial⟩

theorem sat_newArgs {rep : Option RepSyn} : ∀ (args : Args) (syns : List SingSyn), ArgsPos P args →
    SSat P O (defineNewArgs rep syns args) fun _ => True
  | .nil, syns, h => by
    unfold defineNewArgs
    split
    all_goals first | exact CSat.throw trivial | exact CSat.pure trivial | contradiction
  | .cons e _ _ rest, syns, h => by
    have ih := fun syns => sat_newArgs (rep := rep) rest syns h.2.2
    unfold defineNewArgs
    split
    all_goals first
      | contradiction
      | skip
    all_goals try injections
    all_goals try subst_vars
    · exact CSat.seq (sat_ifNew h.1) fun _ => ih _
    · exact ih _
    · dsimp only
      split
      · exact CSat.seq (sat_ifNew h.1) fun _ => ih _
      · exact ih _
    · exact ih _
  | .skip _ _ rest, syns, h => by
    have ih := fun syns => sat_newArgs (rep := rep) rest syns h.2
    unfold defineNewArgs
    split
    all_goals first
      | contradiction
      | skip
    all_goals try injections
    all_goals try subst_vars
    · exact ih _
    · exact ih _

theorem sat_callStmt {v : VarRef} {p : LineCol} {args : Args} (hp : P p) (h : ArgsPos P args) :
    SSat P O (compileCallStmt v p args) fun _ => True := by
  intro c hc
  unfold compileCallStmt
  cases h1 : c.sy.getCallable (symKey v.name) with
  | none => exact hp
  | some md =>
    simp only
    by_cases hr : md.returnType.isSome
    · rw [if_pos hr]; exact hp
    · rw [if_neg hr]
      cases h2 : md.findSyntax args.length with
      | none => exact hp
      | some syn =>
        refine CSat.seq (P := P) (G := CtxPos P O) (sat_newArgs args _ h) (fun _ => sat_withSyms fun sy =>
          CSat.bind (sat_compileArgs hp h) fun x hx => ?_) c hc
        obtain ⟨first, l⟩ := x
        exact sat_emitCall hp hx

theorem sat_dimVar {n : Str} {p : LineCol} {sh : Bool} {t : Proto} (hp : P p) : SSat P O (dimVar n p sh t) fun _ => True := by
  intro c hc
  unfold dimVar
  cases h1 : c.sy.getCallable (symKey n) with
  | some => exact hp
  | none =>
    simp only
    cases sh with
    | true =>
      simp only [if_true]
      cases h2 : c.sy.globals.get? (symKey n) with
      | some => exact hp
      | none => exact sat_putGlobal hp c hc
    | false =>
      simp only [Bool.false_eq_true, if_false]
      cases h2 : c.sy.locals.get? (symKey n) with
      | some => exact hp
      | none => exact sat_putLocal hp c hc

theorem args_pos : ∀ (l : List Expr), (∀ e ∈ l, ExprPos P e) → ArgsPos P (Args.ofList l)
  | [], _ => trivial
  | e :: l, h => ⟨h e (by simp), start_pos (h e (by simp)), args_pos l fun x hx => h x (by simp [hx])⟩

theorem sat_arrayAssign {v : VarRef} {p : LineCol} {subs : List Expr} {e : Expr} (hp : P p) (h1 : ∀ x ∈ subs, ExprPos P x)
    (h2 : ExprPos P e) : SSat P O (compileArrayAssign v p subs e) fun _ => True := by
  unfold compileArrayAssign
  refine sat_withSyms fun sy => ?_
  split
  · split
    · exact CSat.throw hp
    · exact CSat.seq (sat_alloc hp) fun _ => CSat.seq (sat_exprAs h2) fun _ => CSat.seq (sat_subs sy _ _ p hp (args_pos _ h1)) fun _ =>
        CSat.seq (sat_first hp) fun _ => CSat.seq (sat_emitP hp) fun _ => CSat.pure trivial
  · exact CSat.throw hp
  · exact CSat.throw hp
  · exact CSat.throw (symErr_pos hp)

theorem sat_dimArray {n : Str} {p : LineCol} {sh : Bool} {dims : List Expr} {t : ExprType} (hp : P p) (h : ∀ x ∈ dims, ExprPos P x) :
    SSat P O (compileDimArray n p sh dims t) fun _ => True := by
  unfold compileDimArray
  refine CSat.seq (sat_dimVar hp) fun _ => sat_withSyms fun sy => CSat.seq (sat_subs sy _ _ p hp (args_pos _ h)) fun _ =>
    CSat.seq (sat_first hp) fun _ => ?_
  split
  · exact CSat.throw trivial
  · exact CSat.seq (sat_emitP hp) fun _ => CSat.pure trivial
  · exact CSat.throw hp

theorem staticEnd_pos {e : Expr} {v : I32} {q : LineCol} (h : ExprPos P e) (hs : staticEndCode e = some (v, q)) : P q := by
  unfold staticEndCode at hs
  split at hs
  · cases hs; exact h
  · split at hs
    · cases hs; exact h.2
    · cases hs
  · cases hs

theorem csat_end {code : Option Expr} {p : LineCol} (hp : P p) (h : ∀ e, code = some e → ExprPos P e) :
    SSat P O (compileEnd code p) fun _ => True := by
  have tail : SSat P O (withSyms fun sy => do
    let reg ← CM.lift (allocTemp sy 0 p)
    match code with
    | some e => compileExprAs sy e 1 reg .integer
    | none => do let _ ← emit (.loadInt reg 0#16) p
    let _ ← emit (.end reg) p) fun _ => True := by
    refine sat_withSyms fun sy => CSat.seq (sat_alloc hp) fun _ => ?_
    cases code with
    | some e => exact CSat.seq (sat_exprAs (h e rfl)) fun _ => CSat.seq (sat_emitP hp) fun _ => CSat.pure trivial
    | none => exact CSat.seq (sat_emitP hp) fun _ => CSat.seq (sat_emitP hp) fun _ => CSat.pure trivial
  unfold compileEnd
  dsimp only
  split
  · rename_i v q hb
    split
    · cases code with
      | none => cases hb
      | some e => exact CSat.bind (Q := fun _ => True) (CSat.throw (e := .invalidEndCode q) (staticEnd_pos (h e rfl) hb)) fun _ _ => tail
    · exact tail
  · exact tail

theorem csat_forIter {v : VarRef} {p : LineCol} {d : Bool} (hp : P p) : SSat P O (forIter v p d) fun _ => True := by
  intro c hc
  unfold forIter
  by_cases hd : (d && v.ty.isNone) = true
  · rw [if_pos hd]
    cases h1 : c.sy.getVar v with
    | ok => exact ⟨hc, trivial⟩
    | error e =>
      cases e with
      | undefinedSymbol =>
        simp only
        cases h2 : c.sy.getCallable (symKey v.name) with
        | some => exact hp
        | none => exact CSat.seq (P := P) (G := CtxPos P O) (R := fun _ => True) (sat_putLocal hp) (fun _ => CSat.pure trivial) c hc
      | alreadyDefined => exact hp
      | incompatibleAnnotation => exact hp
      | outOfRegisters => exact hp
      | panic => trivial
  · rw [if_neg hd]; exact ⟨hc, trivial⟩

theorem sat_emitFixup {p : LineCol} {f : Fixup} (hp : P p) : SSat P O (emitFixup p f) fun _ => True := by
  intro c hc
  show CtxPos P O { c with cg := (c.cg.push .nop p).addFixup c.cg.code.length f } ∧ True
  refine ⟨hc.setCg (CgPos.addFixup (hc.cg.push (.inl hp)) f (m := ⟨p, false, []⟩) ?_ hp), trivial⟩
  simp [Codegen.push, ← hc.cg.len]

theorem exits_app {l : List (Nat × LineCol)} {n : Nat} {p : LineCol} (hp : P p) (h : ∀ x ∈ l, P x.2) : ∀ x ∈ l ++ [(n, p)], P x.2 := by
  intro x hx
  rcases List.mem_append.1 hx with hx | hx
  · exact h x hx
  · rw [List.mem_singleton.1 hx]; exact hp

theorem sat_exitDo {p : LineCol} (hp : P p) : SSat P O (compileExitDo p) fun _ => True := by
  intro c hc
  unfold compileExitDo
  cases h1 : c.doExit with
  | nil => exact hp
  | cons top rest =>
    have hd := hc.dos
    rw [h1] at hd
    refine ⟨⟨hc.cg.push (.inl hp), ?_, hc.fors, hc.cal⟩, trivial⟩
    intro l hl
    rcases List.mem_cons.1 hl with rfl | hl
    · exact exits_app hp (hd top (by simp))
    · exact hd l (by simp [hl])

theorem sat_exitFor {p : LineCol} (hp : P p) : SSat P O (compileExitFor p) fun _ => True := by
  intro c hc
  unfold compileExitFor
  cases h1 : c.forExit with
  | nil => exact hp
  | cons top rest =>
    have hd := hc.fors
    rw [h1] at hd
    refine ⟨⟨hc.cg.push (.inl hp), hc.dos, ?_, hc.cal⟩, trivial⟩
    intro l hl
    rcases List.mem_cons.1 hl with rfl | hl
    · exact exits_app hp (hd top (by simp))
    · exact hd l (by simp [hl])

theorem sat_exitCal {k : CallableKind} {w : String} {p : LineCol} (hp : P p) : SSat P O (compileExitCallable k w p) fun _ => True := by
  intro c hc
  unfold compileExitCallable
  split_ifs
  · exact hp
  · exact ⟨⟨hc.cg.push (.inl hp), hc.dos, hc.fors, exits_app hp hc.cal⟩, trivial⟩

theorem sat_closeDo {n : Nat} : SSat P O (closeDo n) fun _ => True := by
  intro c hc
  unfold closeDo
  cases h1 : c.doExit with
  | nil => trivial
  | cons top rest =>
    have hd := hc.dos
    rw [h1] at hd
    exact sat_patchJumps top (fun x hx => .inl (hd top (by simp) x hx)) _ ⟨hc.cg, fun l hl => hd l (by simp [hl]), hc.fors, hc.cal⟩

theorem sat_closeFor {n : Nat} : SSat P O (closeFor n) fun _ => True := by
  intro c hc
  unfold closeFor
  cases h1 : c.forExit with
  | nil => trivial
  | cons top rest =>
    have hd := hc.fors
    rw [h1] at hd
    exact sat_patchJumps top (fun x hx => .inl (hd top (by simp) x hx)) _ ⟨hc.cg, hc.dos, fun l hl => hd l (by simp [hl]), hc.cal⟩

theorem sat_markIf {b : Bool} {n : Nat} : SSat P O (markIf b n) fun _ => True := by
  intro c hc
  unfold markIf
  split_ifs
  · exact ⟨hc.setCg (hc.cg.markStmt n), trivial⟩
  · exact ⟨hc, trivial⟩

theorem sat_prolog {v : VarRef} {p : LineCol} {ps : List VarRef} (hp : P p) : SSat P O (callableProlog v p ps) fun _ => True := by
  unfold callableProlog
  refine CSat.seq (sat_emitS hp) fun _ => CSat.seq sat_pc fun _ => CSat.seq (CSat.modify fun c hc => ⟨hc.cg, hc.dos, hc.fors, hc.cal⟩) fun _ =>
    CSat.seq ?_ fun _ => CSat.pure trivial
  unfold prologBody
  dsimp only
  split
  · exact sat_params hp ps
  · refine CSat.seq (sat_putLocal hp) fun _ => ?_
    split
    · exact CSat.seq (CSat.pure trivial) fun _ => CSat.seq (sat_emitS hp) fun _ => sat_params hp ps
    · exact CSat.seq (CSat.pure trivial) fun _ => CSat.seq (sat_emitS hp) fun _ => sat_params hp ps
    · exact CSat.seq (sat_onCg (sat_getConstant hp)) fun _ => CSat.seq (sat_emitS hp) fun _ => sat_params hp ps
    · exact CSat.seq (sat_onCg (sat_getConstant hp)) fun _ => CSat.seq (sat_emitS hp) fun _ => sat_params hp ps

theorem sat_epilog {k : Str} {a b : Nat} {p : LineCol} {saved : IdMap Str Proto} (hp : P p) :
    SSat P O (callableEpilog k a b p saved) fun _ => True := by
  unfold callableEpilog
  refine CSat.seq (sat_emitS hp) fun _ => CSat.bind CSat.get fun c hc => CSat.seq (sat_patchJumps _ fun x hx => .inl (hc.cal x hx)) fun _ =>
    CSat.seq sat_pc fun _ => CSat.seq (CSat.modify fun c hc => ⟨⟨hc.cg.len, hc.cg.pos, hc.cg.args, hc.cg.fix⟩, hc.dos, hc.fors, by simp⟩) fun _ =>
    CSat.seq (sat_patchJump (.inl hp)) fun _ => CSat.modify fun c hc => ⟨hc.cg, hc.dos, hc.fors, hc.cal⟩

theorem dataConsts_pos : ∀ (l : List (Option Expr)) (e : CErr), dataConsts l = .error e → CErrPos P e
  | [], e, h => by cases h
  | none :: l, e, h => by
    unfold dataConsts at h
    rcases hd : dataConsts l with e' | ds
    · rw [hd] at h; cases h; exact dataConsts_pos l _ hd
    · rw [hd] at h; cases h
  | some x :: l, e, h => by
    unfold dataConsts at h
    have h0 : ∀ e', dataConst x = .error e' → CErrPos P e' := by
      intro e' he
      cases x <;> first | cases he
      all_goals trivial
    rcases hx : dataConst x with e' | d
    · rw [hx] at h; cases h; exact h0 _ hx
    · rw [hx] at h
      rcases hd : dataConsts l with e' | ds
      · rw [hd] at h; cases h; exact dataConsts_pos l _ hd
      · rw [hd] at h; cases h

theorem map_pos {l : List Nat} {p : LineCol} (hp : P p ∨ p = ⟨0, 0⟩) : ∀ x ∈ l.map fun a => (a, p), P x.2 ∨ x.2 = ⟨0, 0⟩ := by
  intro x hx
  obtain ⟨a, -, rfl⟩ := List.mem_map.1 hx
  exact hp

mutual
theorem sat_stmt : ∀ (s : Stmt), StmtPos P s → SSat P O (compileStmtBody s) fun _ => True
  | .arrayAssign v p subs e, h => sat_arrayAssign h.1 h.2.1 h.2.2
  | .assign v p e, h => sat_assign h.1 h.2
  | .call v p args, h => sat_callStmt h.1 h.2
  | .callable v p ps body q, h => by
    unfold compileStmtBody
    refine CSat.seq (csat_declare h.1) fun _ => CSat.seq (CSat.get.mono fun _ _ => trivial) fun c => ?_
    split
    · exact CSat.throw h.1
    · split
      · exact CSat.throw h.1
      · exact CSat.seq (sat_prolog h.1) fun x => CSat.seq (sat_stmts body h.2.1) fun _ => sat_epilog h.2.2
  | .data values, _ => by
    unfold compileStmtBody
    exact CSat.seq (CSat.lift (fun _ _ => trivial) (dataConsts_pos _)) fun _ =>
      CSat.modify fun c hc => ⟨hc.cg, hc.dos, hc.fors, hc.cal⟩
  | .declare v p ps, h => by
    unfold compileStmtBody
    refine CSat.seq (CSat.get.mono fun _ _ => trivial) fun c => ?_
    split
    · exact CSat.throw h
    · exact csat_declare h
  | .dim n p sh t, h => by
    unfold compileStmtBody
    exact CSat.seq (sat_dimVar h) fun _ => sat_onCg (sat_emitDefault h)
  | .dimArray n p sh dims t, h => sat_dimArray h.1 h.2
  | .doLoop g body, h => by
    unfold compileStmtBody
    refine CSat.seq (CSat.modify fun c hc => ⟨hc.cg, ?_, hc.fors, hc.cal⟩) fun _ => ?_
    · intro l hl
      rcases List.mem_cons.1 hl with rfl | hl
      · simp
      · exact hc.dos l hl
    · cases g with
      | infinite =>
        exact CSat.seq sat_pc fun _ => CSat.seq (sat_stmts body h.2) fun _ => CSat.seq (sat_emitJump (.inr rfl)) fun _ =>
          CSat.seq sat_pc fun _ => sat_closeDo
      | preUntil e =>
        have hs := start_pos (e := e) h.1
        exact CSat.seq sat_pc fun _ => CSat.seq (sat_cond h.1) fun _ => CSat.seq (sat_emitS hs) fun _ => CSat.seq (sat_emitS hs) fun _ =>
          CSat.seq sat_pc fun _ => CSat.seq (sat_patchJif hs) fun _ => CSat.seq (sat_stmts body h.2) fun _ =>
          CSat.seq (sat_emitJump (.inl hs)) fun _ => CSat.seq sat_pc fun _ => CSat.seq (sat_patchJump (.inl hs)) fun _ => sat_closeDo
      | preWhile e =>
        have hs := start_pos (e := e) h.1
        exact CSat.seq sat_pc fun _ => CSat.seq (sat_cond h.1) fun _ => CSat.seq (sat_emitS hs) fun _ => CSat.seq (sat_stmts body h.2) fun _ =>
          CSat.seq (sat_emitJump (.inl hs)) fun _ => CSat.seq sat_pc fun _ => CSat.seq (sat_patchJif hs) fun _ => sat_closeDo
      | postUntil e =>
        have hs := start_pos (e := e) h.1
        exact CSat.seq sat_pc fun _ => CSat.seq (sat_stmts body h.2) fun _ => CSat.seq (sat_cond h.1) fun _ =>
          CSat.seq (sat_target (.inl hs)) fun _ => CSat.seq (sat_emitS hs) fun _ => CSat.seq sat_pc fun _ => sat_closeDo
      | postWhile e =>
        have hs := start_pos (e := e) h.1
        exact CSat.seq sat_pc fun _ => CSat.seq (sat_stmts body h.2) fun _ => CSat.seq (sat_cond h.1) fun _ => CSat.seq (sat_emitS hs) fun _ =>
          CSat.seq (sat_emitJump (.inl hs)) fun _ => CSat.seq sat_pc fun _ => CSat.seq (sat_patchJif hs) fun _ => sat_closeDo
  | .end code p, h => csat_end h.2 h.1
  | .exitDo p, h => sat_exitDo h
  | .exitFor p, h => sat_exitFor h
  | .exitFunction p, h => sat_exitCal h
  | .exitSub p, h => sat_exitCal h
  | .forLoop v p d a b n body, h => by
    have hs := start_pos (e := b) h.2.2.1
    unfold compileStmtBody
    refine CSat.seq (csat_forIter h.1) fun _ => CSat.seq (sat_assign h.1 h.2.1) fun _ => CSat.seq sat_pc fun _ =>
      CSat.seq (sat_cond h.2.2.1) fun _ => CSat.seq (sat_emitS hs) fun _ => CSat.seq (CSat.modify fun c hc => ⟨hc.cg.markStmt _, hc.dos, ?_, hc.cal⟩) fun _ =>
      CSat.seq (sat_stmts body h.2.2.2.2) fun _ => CSat.seq (sat_assign h.1 h.2.2.2.1) fun _ => CSat.seq (sat_emitJump (.inl hs)) fun _ =>
      CSat.seq sat_pc fun _ => CSat.seq (sat_patchJif hs) fun _ => sat_closeFor
    intro l hl
    rcases List.mem_cons.1 hl with rfl | hl
    · simp
    · exact hc.fors l hl
  | .gosub l p, h => sat_emitFixup h
  | .goto l p, h => sat_emitFixup h
  | .ifs bs, h => by
    unfold compileStmtBody
    exact CSat.seq (sat_branches bs h) fun _ => CSat.seq sat_pc fun _ => sat_patchJumps _ (map_pos (.inr rfl))
  | .label n p, h => by
    intro c hc
    unfold compileStmtBody
    cases h1 : c.cg.labels.get? (symKey n) with
    | some => exact h
    | none => exact ⟨⟨⟨hc.cg.len, hc.cg.pos, hc.cg.args, hc.cg.fix⟩, hc.dos, hc.fors, hc.cal⟩, trivial⟩
  | .onError (.goto l p q), h => sat_emitFixup h.2
  | .onError (.reset p), h => CSat.seq (sat_emitS h) fun _ => CSat.pure trivial
  | .onError (.resumeNext p), h => CSat.seq (sat_emitS h) fun _ => CSat.pure trivial
  | .ret p, h => CSat.seq (sat_emitS h) fun _ => CSat.pure trivial
  | .select e cs p, h => by
    have hs := start_pos (e := e) h.1
    unfold compileStmtBody
    refine CSat.seq (sat_withSyms fun sy => sat_alloc hs) fun _ => CSat.seq (sat_withSyms fun sy => csat_expr sy e _ _ h.1) fun _ =>
      CSat.bind (sat_dispatch h.2.2 cs none h.2.1) fun x hx => ?_
    obtain ⟨jumps, pend⟩ := x
    have tail : ∀ toEnd, SSat P O (do
        let ends ← compileBodies cs jumps p
        let stop ← pcNow
        patchJump toEnd stop p
        patchJumps stop (ends.map fun a => (a, p))) fun _ => True := fun _ =>
      CSat.seq (sat_bodies cs jumps p h.2.1 h.2.2 hx) fun _ =>
      CSat.seq sat_pc fun _ => CSat.seq (sat_patchJump (.inl h.2.2)) fun _ => sat_patchJumps _ (map_pos (.inl h.2.2))
    refine CSat.seq (sat_emitS h.2.2) fun _ => ?_
    dsimp only
    split
    · exact CSat.seq (sat_patchJump (.inl h.2.2)) fun _ => tail _
    · exact tail _
  | .whileLoop e body, h => by
    have hs := start_pos (e := e) h.1
    unfold compileStmtBody
    exact CSat.seq sat_pc fun _ => CSat.seq (sat_cond h.1) fun _ => CSat.seq (sat_emitS hs) fun _ => CSat.seq (sat_stmts body h.2) fun _ =>
      CSat.seq (sat_emitJump (.inl hs)) fun _ => CSat.seq sat_pc fun _ => sat_patchJif hs

theorem sat_stmts : ∀ (ss : Stmts), StmtsPos P ss → SSat P O (compileStmts ss) fun _ => True
  | .nil, _ => by unfold compileStmts; exact CSat.pure trivial
  | .cons s rest, h => by
    unfold compileStmts
    exact CSat.seq sat_pc fun _ => CSat.seq (sat_stmt s h.1) fun _ => CSat.seq sat_markIf fun _ => sat_stmts rest h.2

theorem sat_branches : ∀ (bs : Branches), BranchesPos P bs → SSat P O (compileBranches bs) fun _ => True
  | .nil, _ => by unfold compileBranches; exact CSat.pure trivial
  | .cons e body rest, h => by
    have hs := start_pos (e := e) h.1
    unfold compileBranches
    refine CSat.seq (sat_cond h.1) fun _ => CSat.seq (sat_emitS hs) fun _ => CSat.seq (sat_stmts body h.2.1) fun _ => ?_
    split
    · exact CSat.seq sat_pc fun _ => CSat.seq (sat_patchJif hs) fun _ => CSat.pure trivial
    · exact CSat.seq (sat_emitS hs) fun _ => CSat.seq sat_pc fun _ => CSat.seq (sat_patchJif hs) fun _ =>
        CSat.seq (sat_branches rest h.2.2) fun _ => CSat.pure trivial

theorem sat_bodies : ∀ (cs : Cases) (jumps : List (List (Nat × LineCol))) (p : LineCol), CasesPos P cs → P p →
    (∀ l ∈ jumps, ∀ x ∈ l, P x.2) → SSat P O (compileBodies cs jumps p) fun _ => True
  | .nil, jumps, p, _, _, _ => by unfold compileBodies; exact CSat.pure trivial
  | .cons gs body rest, [], p, _, _, _ => by unfold compileBodies; exact CSat.throw trivial
  | .cons gs body rest, js :: jumps, p, h, hp, hj => by
    unfold compileBodies
    refine CSat.seq sat_pc fun _ => CSat.seq (sat_patchJumps js fun x hx => .inl (hj js (by simp) x hx)) fun _ =>
      CSat.seq (sat_stmts body h.2.1) fun _ => ?_
    split
    · exact CSat.pure trivial
    · exact CSat.seq (sat_emitS hp) fun _ => CSat.seq (sat_bodies rest jumps p h.2.2 hp fun l hl => hj l (by simp [hl])) fun _ =>
        CSat.pure trivial
end


/-! ## Fixups and chunks -/

theorem fixupInstr_pos {g : Codegen} {p : LineCol} {f : Fixup} {e : CErr} (hp : P p) (h : g.fixupInstr p f = .error e) :
    CErrPos P e := by
  unfold Codegen.fixupInstr at h
  split at h
  all_goals
    split at h
    · cases h; first | trivial | exact hp
    · split at h <;> cases h
      rename_i h; exact mkTarget_pos (.inl hp) _ h

theorem applyFixups_pos {g : Codegen} : ∀ (fs : FMap Nat Fixup),
    (∀ a f, (a, f) ∈ fs → ∃ m, g.instrs[a]? = some m ∧ P m.linecol) →
    match g.applyFixups fs with
    | .error e => CErrPos P e
    | .ok code => code.length = g.code.length ∧
      ∀ (i : Nat) c, code[i]? = some c → g.code[i]? = some c ∨ ∃ f, (i, f) ∈ fs
  | [], _ => ⟨rfl, fun _ _ h => .inl h⟩
  | (a, f) :: fs, h => by
    have ih := applyFixups_pos fs fun b k hb => h b k (List.mem_cons_of_mem _ hb)
    obtain ⟨m, h1, h2⟩ := h a f (by simp)
    unfold Codegen.applyFixups
    rw [h1]
    simp only
    rcases hf : g.fixupInstr m.linecol f with e | i
    · exact fixupInstr_pos h2 hf
    · simp only
      rcases hc : g.applyFixups fs with e | code
      · rw [hc] at ih; exact ih
      · rw [hc] at ih
        refine ⟨by simp [ih.1], fun j c hj => ?_⟩
        rw [List.getElem?_set] at hj
        split_ifs at hj with e1
        · exact .inr ⟨f, by simp [← e1]⟩
        · rcases ih.2 j c hj with h | ⟨f', h⟩
          · exact .inl h
          · exact .inr ⟨f', by simp [h]⟩

/-- The positions in the code of an image or a compiler: those of `P`, except where nothing fails. -/
def CodePos (P : LineCol → Prop) (code : List Instr) (instrs : List InstrMeta) : Prop :=
  (∀ (i : Nat) m c, instrs[i]? = some m → code[i]? = some c → P m.linecol ∨ (m.linecol = ⟨0, 0⟩ ∧ c.calm = true)) ∧
  ∀ m ∈ instrs, ∀ p ∈ m.argLinecols, P p

theorem CodePos.mono {Q : LineCol → Prop} {code : List Instr} {instrs : List InstrMeta} (h : CodePos P code instrs)
    (hq : ∀ p, P p → Q p) : CodePos Q code instrs :=
  ⟨fun i m c hm hc => (h.1 i m c hm hc).imp (hq _) id, fun m hm p hp => hq _ (h.2 m hm p hp)⟩

theorem prefix_get_pos {γ : Type} {l l' : List γ} {i : Nat} {x : γ} (h : l <+: l') (hx : l[i]? = some x) : l'[i]? = some x := by
  obtain ⟨t, rfl⟩ := h
  rw [List.getElem?_append_left (List.getElem?_eq_some_iff.1 hx).1, hx]

theorem compileTop_pos {src : Source} {img : Image} {c : Ctx} (hi : Idle c) (ho : CodePos O c.cg.code c.cg.instrs)
    (hs : StmtsPos P src.stmts) (he : ∀ e, src.err = some e → CErrPos P e) :
    match compileTop src img c with
    | .error e => CErrPos P e
    | .ok (_, c') => CodePos (fun p => P p ∨ O p) c'.cg.code c'.cg.instrs := by
  have hl : c.cg.instrs.length = c.cg.code.length := hi.inv.lens
  have h0 : CtxPos P O { c with cg := c.cg.popEof } := by
    refine ⟨⟨?_, ?_, ?_, ?_⟩, ?_, ?_, ?_⟩
    · simp [Codegen.popEof, hl]
    · intro i m x hm hx
      have e1 : c.cg.instrs[i]? = some m := prefix_get_pos (List.dropLast_prefix _) hm
      have e2 : c.cg.code[i]? = some x := prefix_get_pos (List.dropLast_prefix _) hx
      exact (ho.1 i m x e1 e2).imp .inr id
    · intro m hm p hp
      exact .inr (ho.2 m (List.dropLast_subset _ hm) p hp)
    · intro a f hf
      have hf : (a, f) ∈ c.cg.fixups := hf
      rw [hi.fixups] at hf; cases hf
    · intro l h
      have h : l ∈ c.doExit := h
      rw [hi.doExit] at h; cases h
    · intro l h
      have h : l ∈ c.forExit := h
      rw [hi.forExit] at h; cases h
    · intro l h
      have h : l ∈ c.calExits := h
      rw [hi.inv.calNone hi.cur] at h; cases h
  have h1 := sat_stmts src.stmts hs _ h0
  unfold compileTop
  rcases hc : compileStmts src.stmts { c with cg := c.cg.popEof } with e | ⟨u, c1⟩
  · rw [hc] at h1; exact h1
  · rw [hc] at h1
    obtain ⟨h1, -⟩ := h1
    simp only
    cases hr : src.err with
    | some e => exact he e hr
    | none =>
      simp only
      have h2 : CgPos P O (c1.cg.push .eof ⟨0, 0⟩) := h1.cg.push (.inr ⟨rfl, rfl⟩)
      have h3 := applyFixups_pos (g := c1.cg.push .eof ⟨0, 0⟩) (c1.cg.push .eof ⟨0, 0⟩).fixups h2.fix
      unfold buildDelta
      simp only
      rcases ha : (c1.cg.push .eof ⟨0, 0⟩).applyFixups (c1.cg.push .eof ⟨0, 0⟩).fixups with e | code
      · rw [ha] at h3; exact h3
      · rw [ha] at h3
        refine ⟨fun i m x hm hx => ?_, h2.args⟩
        rcases h3.2 i x hx with h | ⟨f, hf⟩
        · exact h2.pos i m x hm h
        · obtain ⟨m', g1, g2⟩ := h2.fix i f hf
          have hm : (c1.cg.push .eof ⟨0, 0⟩).instrs[i]? = some m := hm
          rw [g1] at hm
          cases hm
          exact .inl (.inl g2)


theorem sat_scalars (hp : P ⟨0, 0⟩) : ∀ (defs : List GlobalDef), SSat P O (prepareScalars defs) fun _ => True
  | [] => CSat.pure trivial
  | .scalar name ty init :: rest => by
    unfold prepareScalars
    refine CSat.seq (sat_putGlobal hp) fun _ => ?_
    cases init with
    | none => exact CSat.seq (sat_onCg (sat_emitDefault hp)) fun _ => sat_scalars hp rest
    | some d =>
      dsimp only
      split
      · exact CSat.bind (Q := fun _ => True) (CSat.throw (e := .typeMismatch ⟨0, 0⟩ d.etype ty) hp) fun _ _ => sat_scalars hp rest
      · exact CSat.seq (sat_onCg (sat_emitValue hp)) fun _ => sat_scalars hp rest
  | .array name ty dims :: rest => by
    unfold prepareScalars
    split
    · exact CSat.throw trivial
    · exact CSat.seq (sat_putGlobal hp) fun _ => CSat.seq (sat_scalars hp rest) fun _ => CSat.pure trivial

theorem sat_dims (hp : P ⟨0, 0⟩) : ∀ (ds : List Nat) (i : Nat), SSat P O (prepareDims i ds) fun _ => True
  | [], _ => CSat.pure trivial
  | d :: ds, i => by
    unfold prepareDims
    split
    · exact CSat.throw trivial
    · split
      · exact CSat.seq (sat_emitS hp) fun _ => sat_dims hp ds _
      · exact CSat.throw trivial

theorem sat_arrays (hp : P ⟨0, 0⟩) : ∀ (l : List (Reg × ExprType × List Nat)), SSat P O (prepareArrays l) fun _ => True
  | [] => CSat.pure trivial
  | (reg, ty, dims) :: rest => by
    unfold prepareArrays
    refine CSat.seq (sat_dims hp dims 0) fun _ => ?_
    dsimp only
    split
    · exact CSat.seq (sat_emitS hp) fun _ => sat_arrays hp rest
    · exact CSat.bind (Q := fun _ => True) (CSat.throw (e := .tooManyDims ⟨0, 0⟩ dims.length) hp) fun _ _ => sat_arrays hp rest
    · exact CSat.bind (Q := fun _ => True) (CSat.throw (e := .panic) trivial) fun _ _ => sat_arrays hp rest

/-- What a new compiler has is at 0:0. -/
theorem new_pos {upcalls : FMap Str Md} {defs : List GlobalDef} :
    match Compiler.new upcalls defs with
    | .error e => CErrPos (· = ⟨0, 0⟩) e
    | .ok c => CodePos (fun p => p = ⟨0, 0⟩ ∧ defs ≠ []) c.cg.code c.cg.instrs := by
  by_cases hd : defs = []
  · subst hd
    refine ⟨fun i m c hm hc => .inr ?_, fun m hm p hp => ?_⟩
    · have e1 : m = ⟨⟨0, 0⟩, false, []⟩ := List.mem_singleton.1 (List.mem_of_getElem? hm)
      have e2 : c = .eof := List.mem_singleton.1 (List.mem_of_getElem? hc)
      rw [e1, e2]; exact ⟨rfl, rfl⟩
    · have e1 : m = ⟨⟨0, 0⟩, false, []⟩ := List.mem_singleton.1 hm
      rw [e1] at hp; cases hp
  · let P : LineCol → Prop := fun p => p = ⟨0, 0⟩
    have h0 : P ⟨0, 0⟩ := rfl
    have h : SSat P (fun _ => False) (do
        let arrays ← prepareScalars defs
        prepareArrays arrays
        let _ ← onCg (emit .eof ⟨0, 0⟩) : CS Unit) fun _ => True :=
      CSat.seq (sat_scalars h0 defs) fun _ => CSat.seq (sat_arrays h0 _) fun _ => CSat.seq (sat_emitS h0) fun _ => CSat.pure trivial
    have h1 := h ⟨.empty, [], [], [], none, [], [], ⟨.empty, upcalls, [], .empty⟩⟩
      ⟨⟨rfl, fun i m c hm => (by cases hm), fun m hm => (by cases hm), fun a f hf => (by cases hf)⟩,
        fun l hl => (by cases hl), fun l hl => (by cases hl), fun l hl => (by cases hl)⟩
    unfold Compiler.new
    simp only
    rcases hx : (do
        let arrays ← prepareScalars defs
        prepareArrays arrays
        let _ ← onCg (emit .eof ⟨0, 0⟩) : CS Unit) ⟨.empty, [], [], [], none, [], [], ⟨.empty, upcalls, [], .empty⟩⟩ with e | ⟨u, c⟩
    · rw [hx] at h1; exact h1
    · rw [hx] at h1
      refine ⟨fun i m c hm hc => ?_, fun m hm p hp => ?_⟩
      · rcases h1.1.cg.pos i m c hm hc with (h | h) | h
        · exact .inl ⟨h, hd⟩
        · exact h.elim
        · exact .inr h
      · rcases h1.1.cg.args m hm p hp with h | h
        · exact ⟨h, hd⟩
        · exact h.elim

/-! ## Running -/

theorem calm_exec {F : FloatOps} {cs : List ConstantDatum} {m m' : Mach} {i : Instr} {pc : Nat} {e : RtErr} (hi : i.calm = true) :
    execInstr F cs m i ≠ .stop (.exception pc e) m' := by
  intro h
  cases i <;> first
    | exact absurd (show false = true from hi) (by decide)
    | cases h
    | (revert h; simp only [execInstr]; split <;> (intro h; cases h))

/-- The positions that the machine has. -/
structure VmPos {H : Type} (P : LineCol → Prop) (img : Image) (vm : Vm H) : Prop where
  last : ∀ p e, vm.lastError = some (p, e) → P p
  pend : ∀ i f pc, vm.pending = some (i, f, pc) → img.code[pc]? = some (.upcallAsync i f)

/-- After a step: errors are at one of the positions. -/
def AfterPos {H : Type} (P : LineCol → Prop) (img : Image) : VmStep H → Prop
  | .cont vm => VmPos P img vm
  | .stop r vm => VmPos P img vm ∧ ∀ p e, r = .exception p e → P p
  | .panic => True

theorem runUpcall_pos {H : Type} {host : Host H} {img : Image} {vm : Vm H} {idx : U16} {first : Reg} {pc : Nat} {i : Instr}
    (hc : CodePos P img.code img.instrs) (hh : HostPos host) (hv : VmPos P img vm) (hi : img.code[pc]? = some i)
    (hq : i.calm = false) : AfterPos P img (runUpcall host img vm idx first pc) := by
  unfold runUpcall
  split_ifs
  · trivial
  · have hx := hh idx (vm.mach.fp + (first.toNat - maxGlobal)) (img.argPositions pc) vm.mach.regs vm.mach.heap vm.lastError img vm.host
    rcases hr : host.exec idx (vm.mach.fp + (first.toNat - maxGlobal)) (img.argPositions pc) vm.mach.regs vm.mach.heap vm.lastError img
      vm.host with ⟨h', regs', heap', res⟩
    rw [hr] at hx
    cases res with
    | ok u => simp only [hr]; exact ⟨hv.last, hv.pend⟩
    | error x =>
      obtain ⟨pos, msg⟩ := x
      cases hm : img.instrs[pc]? with
      | none => simp only [hr]; trivial
      | some m =>
        have hp : P (pos.getD m.linecol) := by
          cases pos with
          | none =>
            rcases hc.1 pc m i hm hi with h | h
            · exact h
            · rw [hq] at h; cases h.2
          | some p =>
            have := hx p msg rfl
            unfold Image.argPositions at this
            rw [hm] at this
            exact hc.2 m (List.mem_of_getElem? hm) p this
        simp only [hr]
        split
        · exact ⟨fun p e he => (by cases he; exact hp), hv.pend⟩
        · exact ⟨⟨fun p e he => (by cases he; exact hp), hv.pend⟩, fun p e he => (by cases he; exact hp)⟩

theorem vmStep_pos {H : Type} {F : FloatOps} {host : Host H} {img : Image} {vm : Vm H}
    (hc : CodePos P img.code img.instrs) (hh : HostPos host) (hv : VmPos P img vm) : AfterPos P img (vmStep F host img vm) := by
  unfold vmStep
  cases hp : vm.pending with
  | some x => exact ⟨hv, fun p e he => by cases he⟩
  | none =>
    simp only
    rcases hs : step F img vm.mach with m | ⟨s, m⟩ | _
    · exact ⟨hv.last, fun i f pc h => (by cases h)⟩
    · have hx : s = .yield ∨ ∃ i, img.code[vm.mach.pc]? = some i ∧ execInstr F img.constants vm.mach i = .stop s m := by
        rcases step_stop hs with ⟨h1, _⟩ | ⟨-, i, hi, he⟩
        · exact .inl h1
        · exact .inr ⟨i, hi, he⟩
      cases s with
      | «end» c => exact ⟨⟨hv.last, fun i f pc h => (by cases h)⟩, fun p e he => by cases he⟩
      | eof => exact ⟨⟨hv.last, fun i f pc h => (by cases h)⟩, fun p e he => by cases he⟩
      | yield => exact ⟨⟨hv.last, fun i f pc h => (by cases h)⟩, fun p e he => by cases he⟩
      | exception pc e =>
        obtain h | ⟨i, hi, he⟩ := hx
        · cases h
        have hpc : pc = vm.mach.pc := by
          rcases exec_stop he with ⟨e', h1, h2⟩ | ⟨_, _, h1 | h1, _⟩ | ⟨h1, _⟩ | ⟨_, _, h1, _⟩
          · cases h1; rfl
          · cases h1.2
          · cases h1.2
          · cases h1
          · cases h1
        subst hpc
        simp only
        cases hm : img.instrs[vm.mach.pc]? with
        | none => trivial
        | some mt =>
          have hq : P mt.linecol := by
            rcases hc.1 _ mt i hm hi with h | h
            · exact h
            · exact absurd he (calm_exec h.2)
          simp only
          split
          · exact ⟨fun p e he => (by cases he; exact hq), fun i f pc h => (by cases h)⟩
          · exact ⟨⟨fun p e he => (by cases he; exact hq), fun i f pc h => (by cases h)⟩, fun p e he => (by cases he; exact hq)⟩
      | upcall idx first pc =>
        obtain h | ⟨i, hi, he⟩ := hx
        · cases h
        have hpc : pc = vm.mach.pc ∧ i = .upcall idx first := by
          rcases exec_stop he with ⟨e', h1, h2⟩ | ⟨_, _, h1 | h1, _⟩ | ⟨h1, _⟩ | ⟨_, _, h1, _⟩
          · cases h1
          · obtain ⟨h1, h2⟩ := h1; cases h2; exact ⟨rfl, h1⟩
          · cases h1.2
          · cases h1
          · cases h1
        obtain ⟨rfl, rfl⟩ := hpc
        exact runUpcall_pos (vm := ⟨m, vm.lastError, none, vm.host⟩) hc hh ⟨hv.last, fun i f pc h => (by cases h)⟩ hi rfl
      | upcallAsync idx first pc =>
        obtain h | ⟨i, hi, he⟩ := hx
        · cases h
        have hpc : pc = vm.mach.pc ∧ i = .upcallAsync idx first := by
          rcases exec_stop he with ⟨e', h1, h2⟩ | ⟨_, _, h1 | h1, _⟩ | ⟨h1, _⟩ | ⟨_, _, h1, _⟩
          · cases h1
          · cases h1.2
          · obtain ⟨h1, h2⟩ := h1; cases h2; exact ⟨rfl, h1⟩
          · cases h1
          · cases h1
        obtain ⟨rfl, rfl⟩ := hpc
        exact ⟨⟨hv.last, fun i f pc h => (by cases h; exact hi)⟩, fun p e he => by cases he⟩
    · trivial

theorem invoke_pos {H : Type} {host : Host H} {img : Image} {vm : Vm H}
    (hc : CodePos P img.code img.instrs) (hh : HostPos host) (hv : VmPos P img vm) : AfterPos P img (invokePending host img vm) := by
  unfold invokePending
  cases hp : vm.pending with
  | none => trivial
  | some x =>
    obtain ⟨i, f, pc⟩ := x
    exact runUpcall_pos (vm := { vm with pending := none }) hc hh ⟨hv.last, fun _ _ _ h => (by cases h)⟩ (hv.pend i f pc hp) rfl

theorem vmRun_pos {H : Type} {F : FloatOps} {host : Host H} {img : Image} {R : Vm H → Prop} {vm vm' : Vm H} {l : List Ev}
    (hc : CodePos P img.code img.instrs) (hh : HostPos host) (hr : VmRun F host img R vm l vm') (hv : VmPos P img vm) :
    VmPos P img vm' := by
  induction hr with
  | refl => exact hv
  | step _ hs _ ih =>
    have := vmStep_pos (F := F) hc hh hv
    rw [hs] at this; exact ih this
  | yield _ hs _ ih =>
    have := vmStep_pos (F := F) hc hh hv
    rw [hs] at this; exact ih this.1
  | async _ hs _ hi _ ih =>
    have h1 := vmStep_pos (F := F) hc hh hv
    rw [hs] at h1
    have h2 := invoke_pos hc hh h1.1
    rw [hi] at h2; exact ih h2

end

end EB
