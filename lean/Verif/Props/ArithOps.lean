import Verif.Model.CompExpr
import Verif.Spec.Ops
import Verif.Props.Arith
/-!
# C06 for the instructions

The integer instruction that the compiler chooses for each source operator computes what the
specification of the operator says.
-/

namespace EB
open Spec

theorem ofInt_toInt_eq {v : I32} {x : Int} (h : v.toInt = x) : BitVec.ofInt 32 x = v := by
  rw [← h]; exact BitVec.ofInt_toInt

theorem bitwise_toInt (f : I32 → I32 → I32) (l r : I32) :
    BitVec.ofInt 32 (bitwise f l.toInt r.toInt) = f l r := by
  unfold bitwise
  rw [BitVec.ofInt_toInt, BitVec.ofInt_toInt, BitVec.ofInt_toInt]

/-- **C06** Each integer instruction chosen for an arithmetic operator gives the specified result, or
raises the specified error, for every pair of operands. -/
theorem C06_instructions (F : FloatOps) (op : SrcBin) (l r : I32) (res : Except RtErr Int)
    (h : intArith op l.toInt r.toInt = some res) :
    binEval F op.intOp (ofI32 l) (ofI32 r) =
      res.map fun x => ofI32 (BitVec.ofInt 32 x) := by
  have key : ∀ {f : I32 → I32 → Except RtErr I32} {res : Except RtErr Int},
      (match res with
        | .ok x => ∃ v, f l r = .ok v ∧ v.toInt = x
        | .error e => f l r = .error e) →
      (match f (toI32 (ofI32 l)) (toI32 (ofI32 r)) with
        | .ok v => (.ok (ofI32 v) : Except RtErr (BitVec 64))
        | .error e => .error e) =
      res.map fun x => ofI32 (BitVec.ofInt 32 x) := by
    intro f res h
    rw [C06_register_roundtrip, C06_register_roundtrip]
    cases res with
    | error e => simp only at h; rw [h]; rfl
    | ok x =>
      obtain ⟨v, h1, h2⟩ := h
      rw [h1, Except.map, ofInt_toInt_eq h2]
  cases op <;> simp only [intArith, Option.some.injEq, reduceCtorEq] at h <;> subst h <;>
    simp only [SrcBin.intOp, binEval]
  · refine key (f := checkedAdd) ?_
    have := C06_add l r; unfold exact; split at this <;> simp_all
  · refine key (f := checkedSub) ?_
    have := C06_sub l r; unfold exact; split at this <;> simp_all
  · refine key (f := checkedMul) ?_
    have := C06_mul l r; unfold exact; split at this <;> simp_all
  · refine key (f := checkedDiv) ?_
    have := C06_div l r
    unfold exact
    by_cases h0 : r.toInt = 0
    · simp_all
    · simp only [h0, if_false] at this ⊢; split at this <;> simp_all
  · refine key (f := checkedMod) ?_
    have := C06_mod l r
    by_cases h0 : r.toInt = 0
    · simp_all
    · simp only [h0, if_false] at this ⊢; split at this <;> simp_all
  · refine key (f := checkedPow) ?_
    have := C06_pow l r
    unfold exact
    by_cases h0 : r.toInt < 0
    · simp_all
    · simp only [h0, if_false] at this ⊢; split at this <;> simp_all
  · refine key (f := checkedAnd) (res := .ok _) ?_
    exact ⟨_, rfl, by unfold bitwise; rw [BitVec.ofInt_toInt, BitVec.ofInt_toInt]⟩
  · refine key (f := checkedOr) (res := .ok _) ?_
    exact ⟨_, rfl, by unfold bitwise; rw [BitVec.ofInt_toInt, BitVec.ofInt_toInt]⟩
  · refine key (f := checkedXor) (res := .ok _) ?_
    exact ⟨_, rfl, by unfold bitwise; rw [BitVec.ofInt_toInt, BitVec.ofInt_toInt]⟩
  · refine key (f := checkedShl) ?_
    have := C06_shl l r
    by_cases h0 : r.toInt < 0
    · simp_all
    · simp only [h0, if_false] at this ⊢; exact this
  · refine key (f := checkedShr) ?_
    have := C06_shr l r
    by_cases h0 : r.toInt < 0
    · simp_all
    · simp only [h0, if_false] at this ⊢; exact this

/-- **C06** Each integer instruction chosen for a comparison decides the order of the numbers. -/
theorem C06_comparisons (F : FloatOps) (op : SrcBin) (l r : I32) (b : Bool)
    (h : intRel op l.toInt r.toInt = some b) :
    binEval F op.intOp (ofI32 l) (ofI32 r) = .ok (ofBool b) := by
  cases op <;> simp only [intRel, Option.some.injEq, reduceCtorEq] at h <;> subst h <;>
    simp only [SrcBin.intOp, binEval, C06_register_roundtrip] <;> first | rfl | simp [bne, BEq.beq]

/-- Every source operator has an integer meaning: arithmetic or comparison. -/
theorem C06_total (op : SrcBin) (l r : Int) :
    (∃ res, intArith op l r = some res) ∨ (∃ b, intRel op l r = some b) := by
  cases op <;> simp [intArith, intRel, Decidable.em]

/-- The results the specification gives always fit in a register. -/
theorem C06_spec_inRange (op : SrcBin) (l r : Int) (hl : InRange l) (x : Int)
    (h : intArith op l r = some (.ok x)) : InRange x := by
  have bw : ∀ f : I32 → I32 → I32, InRange (bitwise f l r) := fun f => toInt_inRange _
  have ex : ∀ {y : Int} {e}, exact y e = .ok x → InRange x := by
    intro y e h
    unfold exact at h
    split at h
    · cases h; assumption
    · cases h
  cases op <;> simp only [intArith, Option.some.injEq, reduceCtorEq] at h
  · exact ex h
  · exact ex h
  · exact ex h
  · split at h
    · cases h
    · exact ex h
  · split at h
    · cases h
    · split at h
      · cases h
        rename_i h0 _
        unfold InRange at *
        have h1 := Int.natAbs_tmod l r
        have h2 := Nat.mod_le l.natAbs r.natAbs
        have h3 := Int.tmod_nonneg r (a := l)
        by_cases hneg : 0 ≤ l
        · have := h3 hneg
          omega
        · have h4 := Int.neg_tmod (-l) r
          have h5 := Int.tmod_nonneg r (a := -l) (by omega)
          rw [Int.neg_neg] at h4
          omega
      · cases h
  · split at h
    · cases h
    · exact ex h
  · cases h; exact bw _
  · cases h; exact bw _
  · cases h; exact bw _
  · split at h
    · cases h
    · cases h
      generalize l * 2 ^ r.toNat = y
      unfold InRange
      have h1 := Int.le_bmod (x := y) (m := 2 ^ 32) (by decide)
      have h2 := Int.bmod_lt (x := y) (m := 2 ^ 32) (by decide)
      norm_num at h1 h2 ⊢
      omega
  · split at h
    · cases h
    · cases h
      unfold InRange at *
      have hp : (0 : Int) < 2 ^ r.toNat := Int.pow_pos (by decide)
      constructor
      · by_cases h0 : 0 ≤ l
        · have := Int.ediv_nonneg h0 (Int.le_of_lt hp); omega
        · have h6 : l ≤ l / 2 ^ r.toNat := by
            rw [Int.le_ediv_iff_mul_le hp]
            nlinarith
          omega
      · by_cases h0 : 0 ≤ l
        · have := Int.ediv_le_self (2 ^ r.toNat) h0; omega
        · have := Int.ediv_neg_of_neg_of_pos (by omega : l < 0) hp; omega

example : intArith .div (-2147483648) (-1) = some (.error .integerUnderflow) := by decide
example (F : FloatOps) : binEval F .geI (ofI32 3#32) (ofI32 3#32) = .ok 1#64 :=
  C06_comparisons F .ge 3#32 3#32 true (by decide)

/-! ## Text comparisons -/

theorem strLt_iff (l r : Str) : strLt l r = true ↔ TextLt l r := by
  induction l generalizing r with
  | nil =>
    cases r with
    | nil => simp [strLt, TextLt]
    | cons b bs => simp [strLt, TextLt]
  | cons a as ih =>
    cases r with
    | nil => simp [strLt, TextLt]
    | cons b bs =>
      simp only [strLt]
      constructor
      · intro h
        split at h
        · exact .inr ⟨[], a, b, as, bs, rfl, rfl, by assumption⟩
        · split at h
          · cases h
          · have hab : a = b := by
              apply Char.ext
              apply UInt32.toNat_inj.1
              show a.toNat = b.toNat
              omega
            subst hab
            rcases (ih bs).1 h with ⟨c, t, rfl⟩ | ⟨p, x, y, s, t, rfl, rfl, hlt⟩
            · exact .inl ⟨c, t, rfl⟩
            · exact .inr ⟨a :: p, x, y, s, t, rfl, rfl, hlt⟩
      · rintro (⟨c, t, h⟩ | ⟨p, x, y, s, t, h1, h2, hlt⟩)
        · simp only [List.cons_append, List.cons.injEq] at h
          obtain ⟨rfl, h⟩ := h
          simp only [Nat.lt_irrefl, if_false]
          exact (ih bs).2 (.inl ⟨c, t, h⟩)
        · cases p with
          | nil =>
            simp only [List.nil_append, List.cons.injEq] at h1 h2
            obtain ⟨rfl, -⟩ := h1
            obtain ⟨rfl, -⟩ := h2
            simp [hlt]
          | cons q p =>
            simp only [List.cons_append, List.cons.injEq] at h1 h2
            obtain ⟨rfl, rfl⟩ := h1
            obtain ⟨rfl, rfl⟩ := h2
            simp only [Nat.lt_irrefl, if_false]
            exact (ih _).2 (.inr ⟨p, x, y, s, t, rfl, rfl, hlt⟩)

/-- The text comparison instruction chosen for each operator decides the order of the strings by
code points. -/
theorem C06_text_comparisons (l r : Str) :
    (textEval .eqS l r = some true ↔ l = r) ∧ (textEval .neS l r = some true ↔ l ≠ r) ∧
    (textEval .ltS l r = some true ↔ TextLt l r) ∧ (textEval .leS l r = some true ↔ ¬ TextLt r l) ∧
    (textEval .gtS l r = some true ↔ TextLt r l) ∧ (textEval .geS l r = some true ↔ ¬ TextLt l r) := by
  simp only [textEval, ← strLt_iff]
  refine ⟨by simp, by simp, by simp, by simp, by simp, by simp⟩

/-- The order on strings is total: exactly one of before, equal and after. -/
theorem C06_text_total (l r : Str) : TextLt l r ∨ l = r ∨ TextLt r l := by
  simp only [← strLt_iff]
  induction l generalizing r with
  | nil => cases r <;> simp [strLt]
  | cons a as ih =>
    cases r with
    | nil => simp [strLt]
    | cons b bs =>
      simp only [strLt]
      by_cases h1 : a.toNat < b.toNat
      · simp [h1]
      · by_cases h2 : b.toNat < a.toNat
        · simp [h2]
        · have hab : a = b := by
            apply Char.ext
            apply UInt32.toNat_inj.1
            show a.toNat = b.toNat
            omega
          subst hab
          simpa using ih bs

example : TextLt "ab".toList "b".toList := (strLt_iff _ _).1 (by decide)

end EB
