import Verif.Model.Arith
import Verif.Spec.Arith
import Mathlib.Tactic.Linarith
import Mathlib.Tactic.Ring
import Mathlib.Tactic.Positivity
/-!
# C06: integer arithmetic is exact or is an error
-/

namespace EB
open Spec

theorem toInt_inRange (v : I32) : InRange v.toInt := by
  have h1 := v.le_two_mul_toInt
  have h2 := v.two_mul_toInt_lt
  unfold InRange; constructor <;> omega

theorem saddOverflow_iff (l r : I32) : l.saddOverflow r = true ↔ ¬ InRange (l.toInt + r.toInt) := by
  unfold BitVec.saddOverflow InRange; simp; omega

theorem ssubOverflow_iff (l r : I32) : l.ssubOverflow r = true ↔ ¬ InRange (l.toInt - r.toInt) := by
  unfold BitVec.ssubOverflow InRange; simp; omega

theorem smulOverflow_iff (l r : I32) : l.smulOverflow r = true ↔ ¬ InRange (l.toInt * r.toInt) := by
  unfold BitVec.smulOverflow InRange; simp; omega

theorem bmod_of_inRange {x : Int} (h : InRange x) : x.bmod (2 ^ 32) = x := by
  unfold InRange at h
  apply Int.bmod_eq_of_le <;> simp <;> omega

/-- **C06** `+`: the exact sum if it fits, otherwise "Integer overflow". -/
theorem C06_add (l r : I32) :
    if InRange (l.toInt + r.toInt) then ∃ v, checkedAdd l r = .ok v ∧ v.toInt = l.toInt + r.toInt
    else checkedAdd l r = .error .integerOverflow := by
  unfold checkedAdd
  split
  · rename_i h
    rw [if_neg (by rw [saddOverflow_iff]; simpa using h)]
    exact ⟨_, rfl, by rw [BitVec.toInt_add, bmod_of_inRange h]⟩
  · rename_i h
    rw [if_pos ((saddOverflow_iff _ _).2 h)]

/-- **C06** `-`: the exact difference if it fits, otherwise "Integer underflow". -/
theorem C06_sub (l r : I32) :
    if InRange (l.toInt - r.toInt) then ∃ v, checkedSub l r = .ok v ∧ v.toInt = l.toInt - r.toInt
    else checkedSub l r = .error .integerUnderflow := by
  unfold checkedSub
  split
  · rename_i h
    rw [if_neg (by rw [ssubOverflow_iff]; simpa using h)]
    exact ⟨_, rfl, by rw [BitVec.toInt_sub, bmod_of_inRange h]⟩
  · rename_i h
    rw [if_pos ((ssubOverflow_iff _ _).2 h)]

theorem mulChecked_some {l r v : I32} (h : mulChecked l r = some v) :
    v.toInt = l.toInt * r.toInt := by
  unfold mulChecked at h
  split at h
  · cases h
  · rename_i hn
    rw [smulOverflow_iff, not_not] at hn
    cases h
    rw [BitVec.toInt_mul, bmod_of_inRange hn]

theorem mulChecked_none {l r : I32} : mulChecked l r = none ↔ ¬ InRange (l.toInt * r.toInt) := by
  unfold mulChecked
  rw [← smulOverflow_iff]
  split <;> simp_all

/-- **C06** `*`: the exact product if it fits, otherwise "Integer overflow". -/
theorem C06_mul (l r : I32) :
    if InRange (l.toInt * r.toInt) then ∃ v, checkedMul l r = .ok v ∧ v.toInt = l.toInt * r.toInt
    else checkedMul l r = .error .integerOverflow := by
  unfold checkedMul
  split
  · rename_i h
    cases hm : mulChecked l r with
    | none => exact absurd h (mulChecked_none.1 hm)
    | some v => exact ⟨v, rfl, mulChecked_some hm⟩
  · rename_i h
    rw [mulChecked_none.2 h]

theorem i32min_toInt : I32.min.toInt = -2147483648 := by decide

theorem eq_zero_iff (r : I32) : r = 0#32 ↔ r.toInt = 0 := by
  rw [← BitVec.toInt_inj]; simp

theorem eq_negOne_iff (r : I32) : r = -1#32 ↔ r.toInt = -1 := by
  rw [← BitVec.toInt_inj]; rfl

theorem eq_min_iff (r : I32) : r = I32.min ↔ r.toInt = -2147483648 := by
  rw [← BitVec.toInt_inj, i32min_toInt]

/-- **C06** `/` on integers: division by zero is an error, otherwise the quotient truncated towards
zero if it fits (it does not only for the smallest integer divided by -1, "Integer underflow"). -/
theorem C06_div (l r : I32) :
    if r.toInt = 0 then checkedDiv l r = .error .divisionByZero
    else if InRange (l.toInt.tdiv r.toInt) then
      ∃ v, checkedDiv l r = .ok v ∧ v.toInt = l.toInt.tdiv r.toInt
    else checkedDiv l r = .error .integerUnderflow := by
  unfold checkedDiv
  have hl := toInt_inRange l
  have hr := toInt_inRange r
  unfold InRange at hl hr
  simp only [eq_zero_iff, eq_min_iff, eq_negOne_iff]
  by_cases h0 : r.toInt = 0
  · simp [h0]
  · simp only [h0, if_false]
    by_cases hm : l.toInt = -2147483648 ∧ r.toInt = -1
    · rw [if_pos hm, hm.1, hm.2]
      simp [InRange]
    · rw [if_neg hm]
      have hfit : InRange (l.toInt.tdiv r.toInt) := by
        have habs : (l.toInt.tdiv r.toInt).natAbs ≤ l.toInt.natAbs := Int.natAbs_tdiv_le_natAbs _ _
        unfold InRange
        by_cases hb : (l.toInt.tdiv r.toInt) = 2147483648
        · exfalso
          have hlm : l.toInt = -2147483648 := by omega
          have hne : r.toInt ≠ -1 := fun h => hm ⟨hlm, h⟩
          rw [hlm] at hb habs
          by_cases h1 : r.toInt = 1
          · rw [h1] at hb; simp at hb
          · have h2 : 2 ≤ r.toInt.natAbs := by omega
            have h3 := Int.natAbs_tdiv (-2147483648) r.toInt
            rw [hb] at h3
            have hd : (2147483648 : Nat) / r.toInt.natAbs ≤ 2147483648 / 2 :=
              Nat.div_le_div_left h2 (by omega)
            have h4 : (2147483648 : Int).natAbs = 2147483648 := rfl
            have h5 : (-2147483648 : Int).natAbs = 2147483648 := rfl
            rw [h4, h5] at h3
            replace h3 : 2147483648 = 2147483648 / r.toInt.natAbs := h3
            generalize (2147483648 : Nat) / r.toInt.natAbs = q at *
            omega
        · omega
      rw [if_pos hfit]
      refine ⟨_, rfl, ?_⟩
      rw [BitVec.toInt_sdiv, bmod_of_inRange hfit]

/-- **C06** `MOD` on integers: zero divisor is an error, otherwise the remainder of truncated
division (the one quotient that does not fit is reported as "Integer underflow"). -/
theorem C06_mod (l r : I32) :
    if r.toInt = 0 then checkedMod l r = .error .moduloByZero
    else if InRange (l.toInt.tdiv r.toInt) then
      ∃ v, checkedMod l r = .ok v ∧ v.toInt = l.toInt.tmod r.toInt
    else checkedMod l r = .error .integerUnderflow := by
  have hd := C06_div l r
  unfold checkedDiv at hd
  unfold checkedMod
  simp only [eq_zero_iff, eq_min_iff, eq_negOne_iff] at hd ⊢
  by_cases h0 : r.toInt = 0
  · simp [h0]
  · simp only [h0, if_false] at hd ⊢
    by_cases hm : l.toInt = -2147483648 ∧ r.toInt = -1
    · rw [if_pos hm, hm.1, hm.2]
      simp [InRange]
    · rw [if_neg hm]
      by_cases hf : InRange (l.toInt.tdiv r.toInt)
      · rw [if_pos hf]
        exact ⟨_, rfl, BitVec.toInt_srem _ _⟩
      · rw [if_neg hf, if_neg hm] at hd
        cases hd

/-- **C06** unary minus: exact unless the operand is the smallest integer. -/
theorem C06_neg (v : I32) :
    if InRange (-v.toInt) then ∃ w, checkedNeg v = .ok w ∧ w.toInt = -v.toInt
    else checkedNeg v = .error .integerOverflow := by
  unfold checkedNeg
  have hv := toInt_inRange v
  simp only [eq_min_iff]
  by_cases h : v.toInt = -2147483648
  · simp [h, InRange]
  · unfold InRange at hv
    rw [if_neg h, if_pos (by unfold InRange; omega)]
    refine ⟨_, rfl, ?_⟩
    rw [BitVec.toInt_neg, bmod_of_inRange (by unfold InRange; omega)]

theorem powLoop_some (base acc : I32) (exp : Nat) (v : I32) (h : powLoop base acc exp = some v) :
    v.toInt = acc.toInt * base.toInt ^ exp := by
  induction exp using Nat.strongRecOn generalizing base acc with
  | ind exp ih =>
    unfold powLoop at h
    split at h
    · cases h
    · rename_i h0
      split at h
      · rename_i hodd
        split at h
        · cases h
        · rename_i acc' hacc
          split at h
          · rename_i h1
            cases h
            rw [h1, mulChecked_some hacc]; ring
          · split at h
            · cases h
            · rename_i base' hbase
              have := ih (exp / 2) (by omega) _ _ h
              rw [this, mulChecked_some hacc, mulChecked_some hbase]
              conv_rhs => rw [show exp = 1 + 2 * (exp / 2) by omega]
              ring
      · split at h
        · cases h
        · rename_i base' hbase
          have := ih (exp / 2) (by omega) _ _ h
          rw [this, mulChecked_some hbase]
          conv_rhs => rw [show exp = 2 * (exp / 2) by omega]
          ring

theorem sq_not_inRange {b : Int} (h : ¬ InRange (b * b)) : 2147488281 ≤ b * b := by
  unfold InRange at h
  have h0 : 0 ≤ b * b := mul_self_nonneg b
  by_contra hlt
  have h1 : 2147483648 ≤ b * b := by omega
  rcases le_total 0 b with hb | hb
  · have : b < 46341 := by nlinarith
    have : 46340 < b := by nlinarith
    omega
  · have : -46341 < b := by nlinarith
    have : b < -46340 := by nlinarith
    omega

theorem big_mul_not_inRange {a q : Int} (ha : a ≠ 0) (hq : 2147488281 ≤ q) : ¬ InRange (a * q) := by
  unfold InRange
  rcases lt_or_gt_of_ne ha with h | h
  · have : a * q ≤ -q := by nlinarith
    omega
  · have : q ≤ a * q := by nlinarith
    omega

theorem powLoop_none (base acc : I32) (exp : Nat) (h : powLoop base acc exp = none) (hexp : 0 < exp)
    (hinv : acc.toInt ≠ 0 ∨ base.toInt = 0) : ¬ InRange (acc.toInt * base.toInt ^ exp) := by
  induction exp using Nat.strongRecOn generalizing base acc with
  | ind exp ih =>
    -- overflow of the squared base
    have hsq : ∀ a : Int, ∀ m : Nat, 0 < m → a ≠ 0 → ¬ InRange (base.toInt * base.toInt) →
        ¬ InRange (a * (base.toInt * base.toInt) ^ m) := by
      intro a m hm ha hb
      have h2 := sq_not_inRange hb
      apply big_mul_not_inRange ha
      calc 2147488281 ≤ base.toInt * base.toInt := h2
        _ ≤ (base.toInt * base.toInt) ^ m := le_self_pow₀ (by omega) (by omega)
    unfold powLoop at h
    rw [if_neg (by omega)] at h
    split at h
    · rename_i hodd
      have hpow : acc.toInt * base.toInt ^ exp =
          (acc.toInt * base.toInt) * (base.toInt * base.toInt) ^ (exp / 2) := by
        conv_lhs => rw [show exp = 1 + 2 * (exp / 2) by omega]
        ring
      split at h
      · rename_i hacc
        rw [mulChecked_none] at hacc
        have hbase : base.toInt ≠ 0 := by
          intro hb; rw [hb] at hacc; simp [InRange] at hacc
        rw [hpow]
        have hk : 1 ≤ (base.toInt * base.toInt) ^ (exp / 2) := by
          apply one_le_pow₀
          have := mul_self_pos.2 hbase
          omega
        unfold InRange at hacc ⊢
        generalize (base.toInt * base.toInt) ^ (exp / 2) = k at *
        generalize acc.toInt * base.toInt = x at *
        intro hc
        by_cases hx : 0 ≤ x
        · have : x ≤ x * k := by nlinarith
          omega
        · have : x * k ≤ x := by nlinarith
          omega
      · rename_i acc' hacc
        have hacc' := mulChecked_some hacc
        split at h
        · cases h
        · rename_i h1
          have hinv' : acc'.toInt ≠ 0 ∨ base.toInt = 0 := by
            rcases hinv with hi | hi
            · by_cases hb : base.toInt = 0
              · exact Or.inr hb
              · left; rw [hacc']; exact mul_ne_zero hi hb
            · exact Or.inr hi
          split at h
          · rename_i hbase
            rw [mulChecked_none] at hbase
            have hb0 : base.toInt ≠ 0 := by
              intro hb; rw [hb] at hbase; simp [InRange] at hbase
            rw [hpow, ← hacc']
            exact hsq _ _ (by omega) (hinv'.resolve_right hb0) hbase
          · rename_i base' hbase
            have hb' := mulChecked_some hbase
            have := ih (exp / 2) (by omega) base' acc' h (by omega) (by
              rcases hinv' with hi | hi
              · exact Or.inl hi
              · right; rw [hb', hi]; rfl)
            rw [hpow, ← hacc', ← hb']
            exact this
    · rename_i hodd
      have hpow : acc.toInt * base.toInt ^ exp =
          acc.toInt * (base.toInt * base.toInt) ^ (exp / 2) := by
        conv_lhs => rw [show exp = 2 * (exp / 2) by omega]
        ring
      split at h
      · rename_i hbase
        rw [mulChecked_none] at hbase
        have hb0 : base.toInt ≠ 0 := by
          intro hb; rw [hb] at hbase; simp [InRange] at hbase
        rw [hpow]
        exact hsq _ _ (by omega) (hinv.resolve_right hb0) hbase
      · rename_i base' hbase
        have hb' := mulChecked_some hbase
        have := ih (exp / 2) (by omega) base' acc h (by omega) (by
          rcases hinv with hi | hi
          · exact Or.inl hi
          · right; rw [hb', hi]; rfl)
        rw [hpow, ← hb']
        exact this

/-- **C06** `^` on integers: a negative exponent is an error, otherwise the exact power if it fits,
otherwise "Integer overflow". -/
theorem C06_pow (l r : I32) :
    if r.toInt < 0 then checkedPow l r = .error (.negativeExponent r.toInt)
    else if InRange (l.toInt ^ r.toInt.toNat) then
      ∃ v, checkedPow l r = .ok v ∧ v.toInt = l.toInt ^ r.toInt.toNat
    else checkedPow l r = .error .integerOverflow := by
  unfold checkedPow
  by_cases hneg : r.toInt < 0
  · simp [hneg]
  · simp only [hneg, if_false]
    have hr : r.toInt.toNat = r.toNat := by
      have := BitVec.toInt_eq_toNat_cond r
      have := r.isLt
      omega
    rw [hr]
    unfold powChecked
    by_cases h0 : r.toNat = 0
    · simp [h0, InRange]
    · rw [if_neg h0]
      cases hp : powLoop l 1#32 r.toNat with
      | some v =>
        have := powLoop_some _ _ _ _ hp
        simp at this
        rw [← this, if_pos (toInt_inRange v)]
        exact ⟨v, rfl, rfl⟩
      | none =>
        have := powLoop_none _ _ _ hp (by omega) (by left; decide)
        simp at this
        rw [if_neg this]

/-- **C06** `<<`: a negative bit count is an error, otherwise multiplication by a power of two
modulo 2^32. -/
theorem C06_shl (l r : I32) :
    if r.toInt < 0 then checkedShl l r = .error (.negativeShl r.toInt)
    else ∃ v, checkedShl l r = .ok v ∧ v.toInt = (l.toInt * 2 ^ r.toInt.toNat).bmod (2 ^ 32) := by
  unfold checkedShl
  by_cases hneg : r.toInt < 0
  · simp [hneg]
  · simp only [hneg, if_false]
    have hr : r.toInt.toNat = r.toNat := by
      have := BitVec.toInt_eq_toNat_cond r
      have := r.isLt
      omega
    rw [hr]
    by_cases h : r.toNat < 32
    · rw [if_pos h]
      refine ⟨_, rfl, ?_⟩
      rw [BitVec.toInt_shiftLeft, Nat.shiftLeft_eq]
      rw [Int.bmod_eq_bmod_iff_bmod_sub_eq_zero]
      rw [BitVec.toInt_eq_toNat_bmod]
      have : ((l.toNat * 2 ^ r.toNat : Nat) : Int) - (l.toNat : Int).bmod (2 ^ 32) * 2 ^ r.toNat
          = ((l.toNat : Int) - (l.toNat : Int).bmod (2 ^ 32)) * 2 ^ r.toNat := by
        push_cast; ring
      rw [this]
      have hdvd : ((2 ^ 32 : Nat) : Int) ∣ ((l.toNat : Int) - (l.toNat : Int).bmod (2 ^ 32)) :=
        Int.dvd_self_sub_bmod
      exact Int.bmod_eq_zero_of_dvd (Dvd.dvd.mul_right hdvd _)
    · rw [if_neg h]
      refine ⟨_, rfl, ?_⟩
      symm
      have : (0#32).toInt = 0 := rfl
      rw [this]
      apply Int.bmod_eq_zero_of_dvd
      apply Dvd.dvd.mul_left
      exact_mod_cast pow_dvd_pow (2 : Nat) (by omega : 32 ≤ r.toNat)

/-- **C06** `>>`: a negative bit count is an error, otherwise division by a power of two rounding
down. -/
theorem C06_shr (l r : I32) :
    if r.toInt < 0 then checkedShr l r = .error (.negativeShr r.toInt)
    else ∃ v, checkedShr l r = .ok v ∧ v.toInt = l.toInt / 2 ^ r.toInt.toNat := by
  unfold checkedShr
  by_cases hneg : r.toInt < 0
  · simp [hneg]
  · simp only [hneg, if_false]
    have hr : r.toInt.toNat = r.toNat := by
      have := BitVec.toInt_eq_toNat_cond r
      have := r.isLt
      omega
    rw [hr]
    by_cases h : r.toNat < 32
    · rw [if_pos h]
      refine ⟨_, rfl, ?_⟩
      rw [BitVec.toInt_sshiftRight, Int.shiftRight_eq_div_pow]
      norm_cast
    · rw [if_neg h]
      have hl := toInt_inRange l
      unfold InRange at hl
      have hbig : (2 : Int) ^ 32 ≤ 2 ^ r.toNat := by
        exact_mod_cast Nat.pow_le_pow_right (by omega : 0 < 2) (by omega : 32 ≤ r.toNat)
      by_cases hl0 : l.toInt < 0
      · rw [if_pos hl0]
        refine ⟨_, rfl, ?_⟩
        rw [show (-1#32 : I32).toInt = -1 from rfl]
        symm
        rw [Int.ediv_eq_iff_of_pos (by positivity)]
        constructor <;> omega
      · rw [if_neg hl0]
        refine ⟨_, rfl, ?_⟩
        rw [show (0#32 : I32).toInt = 0 from rfl]
        symm
        exact Int.ediv_eq_zero_of_lt (by omega) (by omega)

/-- **C06** AND, OR and XOR never fail and act on each of the 32 bits. -/
theorem C06_bitwise (l r : I32) (i : Nat) :
    (∃ v, checkedAnd l r = .ok v ∧ v.getLsbD i = (l.getLsbD i && r.getLsbD i)) ∧
    (∃ v, checkedOr l r = .ok v ∧ v.getLsbD i = (l.getLsbD i || r.getLsbD i)) ∧
    (∃ v, checkedXor l r = .ok v ∧ v.getLsbD i = (l.getLsbD i ^^ r.getLsbD i)) :=
  ⟨⟨_, rfl, BitVec.getLsbD_and⟩, ⟨_, rfl, BitVec.getLsbD_or⟩, ⟨_, rfl, BitVec.getLsbD_xor⟩⟩

/-- Registers hold integers without loss. -/
theorem C06_register_roundtrip (i : I32) : toI32 (ofI32 i) = i := by
  unfold toI32 ofI32
  ext k hk
  simp only [← BitVec.getLsbD_eq_getElem, BitVec.getLsbD_setWidth, BitVec.getLsbD_signExtend]
  simp [hk, show k < 64 by omega]

example : checkedAdd 0x7fffffff#32 1#32 = .error .integerOverflow := by decide
example : checkedDiv I32.min (-1#32) = .error .integerUnderflow := by decide
example : ∃ v, checkedPow (-3#32) 3#32 = .ok v ∧ v.toInt = -27 := by
  have := C06_pow (-3#32) 3#32
  rw [if_neg (by decide), if_pos (by decide)] at this
  obtain ⟨v, h1, h2⟩ := this
  exact ⟨v, h1, by rw [h2]; decide⟩

end EB
