import Verif.Model.Bytecode
/-! Helper lemmas about instruction words. -/

namespace EB

theorem mask8 : (0xff#32) = (BitVec.allOnes 8).setWidth 32 := by decide
theorem mask16 : (0xffff#32) = (BitVec.allOnes 16).setWidth 32 := by decide

theorem opBits_getLsbD (n i : Nat) :
    (opBits n).getLsbD i = (decide (24 ≤ i) && decide (i < 32) && n.testBit (i - 24)) := by
  unfold opBits
  simp only [BitVec.getLsbD_shiftLeft, BitVec.getLsbD_ofNat]
  by_cases h : i < 24
  · simp [h, show ¬ 24 ≤ i by omega]
  · by_cases h2 : i < 32
    · simp [h, h2, show 24 ≤ i by omega, show i - 24 < 32 by omega]
    · simp [h2]

theorem field8_getLsbD (a : BitVec 8) (o i : Nat) :
    (field (a.setWidth 32) 0xff#32 o).getLsbD i =
      (decide (o ≤ i) && decide (i < 32) && a.getLsbD (i - o)) := by
  unfold field
  rw [mask8]
  simp only [BitVec.getLsbD_shiftLeft, BitVec.getLsbD_and, BitVec.getLsbD_setWidth,
    BitVec.getLsbD_allOnes]
  by_cases h : i - o < 8
  · simp [h, show i - o < 32 by omega]
    by_cases h1 : o ≤ i
    · by_cases h2 : i < 32 <;> simp [h1, h2]
    · simp [h1, show i < o by omega]
  · simp [h]
    intros
    exact BitVec.getLsbD_of_ge _ _ (by omega)

theorem field16_getLsbD (a : BitVec 16) (o i : Nat) :
    (field (a.setWidth 32) 0xffff#32 o).getLsbD i =
      (decide (o ≤ i) && decide (i < 32) && a.getLsbD (i - o)) := by
  unfold field
  rw [mask16]
  simp only [BitVec.getLsbD_shiftLeft, BitVec.getLsbD_and, BitVec.getLsbD_setWidth,
    BitVec.getLsbD_allOnes]
  by_cases h : i - o < 16
  · simp [h, show i - o < 32 by omega]
    by_cases h1 : o ≤ i
    · by_cases h2 : i < 32 <;> simp [h1, h2]
    · simp [h1, show i < o by omega]
  · simp [h]
    intros
    exact BitVec.getLsbD_of_ge _ _ (by omega)

theorem regAt_getLsbD (w : BitVec 32) (o i : Nat) :
    (regAt w o).getLsbD i = (decide (i < 8) && w.getLsbD (o + i)) := by
  unfold regAt unfield
  rw [mask8]
  simp only [BitVec.getLsbD_setWidth, BitVec.getLsbD_and, BitVec.getLsbD_ushiftRight,
    BitVec.getLsbD_allOnes]
  by_cases h : i < 8 <;> simp [h]
  omega

theorem u16At_getLsbD (w : BitVec 32) (o i : Nat) :
    (u16At w o).getLsbD i = (decide (i < 16) && w.getLsbD (o + i)) := by
  unfold u16At unfield
  rw [mask16]
  simp only [BitVec.getLsbD_setWidth, BitVec.getLsbD_and, BitVec.getLsbD_ushiftRight,
    BitVec.getLsbD_allOnes]
  by_cases h : i < 16 <;> simp [h]
  omega

/-- The opcode bits of a word assembled from an opcode and lower-order fields. -/
theorem opcode_of_or (n : Nat) (hn : n < 256) (x : BitVec 32) (hx : ∀ i, 24 ≤ i → x.getLsbD i = false) :
    ((opBits n ||| x) >>> 24).toNat = n := by
  have h : (opBits n ||| x) >>> 24 = BitVec.ofNat 32 n := by
    ext i hi
    simp only [← BitVec.getLsbD_eq_getElem, BitVec.getLsbD_ushiftRight, BitVec.getLsbD_or,
      opBits_getLsbD, BitVec.getLsbD_ofNat]
    rw [hx (24 + i) (by omega)]
    by_cases h8 : i < 8
    · simp [hi, show 24 + i < 32 by omega]
    · have : n.testBit i = false := Nat.testBit_lt_two_pow (by
        have : 2 ^ 8 ≤ 2 ^ i := Nat.pow_le_pow_right (by omega) (by omega)
        omega)
      simp [this]
  rw [h]
  simp; omega

end EB

namespace EB

theorem regAt_eq {w : BitVec 32} {o : Nat} {a : BitVec 8}
    (h : ∀ j, j < 8 → w.getLsbD (o + j) = a.getLsbD j) : regAt w o = a := by
  ext j hj
  simp only [← BitVec.getLsbD_eq_getElem, regAt_getLsbD]
  simp [hj, h j hj]

theorem u16At_eq {w : BitVec 32} {o : Nat} {a : BitVec 16}
    (h : ∀ j, j < 16 → w.getLsbD (o + j) = a.getLsbD j) : u16At w o = a := by
  ext j hj
  simp only [← BitVec.getLsbD_eq_getElem, u16At_getLsbD]
  simp [hj, h j hj]

theorem unfield8_toNat (w : BitVec 32) (o : Nat) : (unfield w 0xff#32 o).toNat = (regAt w o).toNat := by
  unfold regAt
  have : (unfield w 0xff#32 o).toNat < 256 := by
    unfold unfield
    rw [BitVec.toNat_and]
    exact Nat.lt_of_le_of_lt Nat.and_le_right (by decide)
  rw [BitVec.toNat_setWidth, Nat.mod_eq_of_lt (by simpa using this)]

theorem field_type (t : ExprType) (o : Nat) :
    field (BitVec.ofNat 32 t.toNat) 0xff#32 o = field ((BitVec.ofNat 8 t.toNat).setWidth 32) 0xff#32 o := by
  cases t <;> rfl

theorem field_mode (t : ErrorHandlerMode) (o : Nat) :
    field (BitVec.ofNat 32 t.toNat) 0xff#32 o = field ((BitVec.ofNat 8 t.toNat).setWidth 32) 0xff#32 o := by
  cases t <;> rfl

theorem ofNat?_type (t : ExprType) : ExprType.ofNat? (BitVec.ofNat 8 t.toNat).toNat = some t := by
  cases t <;> rfl

theorem ofNat?_mode (t : ErrorHandlerMode) :
    ErrorHandlerMode.ofNat? (BitVec.ofNat 8 t.toNat).toNat = some t := by
  cases t <;> rfl

local macro "bits" : tactic => `(tactic| (
  simp only [BitVec.getLsbD_or, opBits_getLsbD, field8_getLsbD, field16_getLsbD] ))

theorem opcode_zero_or (n : Nat) (hn : n < 256) : (opBits n >>> 24).toNat = n := by
  have := opcode_of_or n hn 0#32 (by simp)
  simpa using this

section layouts
variable (n : Nat)

/-- Three registers. -/
abbrev w3 (a b c : BitVec 8) : BitVec 32 :=
  opBits n ||| field (a.setWidth 32) 0xff#32 16 ||| field (b.setWidth 32) 0xff#32 8
        ||| field (c.setWidth 32) 0xff#32 0

theorem hi8 (a : BitVec 8) (k : Nat) (h : 8 ≤ k) : a.getLsbD k = false := BitVec.getLsbD_of_ge _ _ h
theorem hi16 (a : BitVec 16) (k : Nat) (h : 16 ≤ k) : a.getLsbD k = false := BitVec.getLsbD_of_ge _ _ h

theorem w3_op (hn : n < 256) (a b c : BitVec 8) : (w3 n a b c >>> 24).toNat = n := by
  unfold w3
  rw [BitVec.or_assoc, BitVec.or_assoc]
  apply opcode_of_or n hn
  intro j hj
  bits
  rw [hi8 a _ (by omega), hi8 b _ (by omega), hi8 c _ (by omega)]; simp

theorem w3_16 (a b c : BitVec 8) : regAt (w3 n a b c) 16 = a := by
  apply regAt_eq; unfold w3; intro j hj; bits
  rw [hi8 b _ (by omega), hi8 c _ (by omega)]
  simp [show ¬ 24 ≤ 16 + j by omega, show 16 + j < 32 by omega]

theorem w3_8 (a b c : BitVec 8) : regAt (w3 n a b c) 8 = b := by
  apply regAt_eq; unfold w3; intro j hj; bits
  rw [hi8 c _ (by omega)]
  simp [show ¬ 24 ≤ 8 + j by omega, show ¬ 16 ≤ 8 + j by omega, show 8 + j < 32 by omega]

theorem w3_0 (a b c : BitVec 8) : regAt (w3 n a b c) 0 = c := by
  apply regAt_eq; unfold w3; intro j hj; bits
  simp [show ¬ 24 ≤ j by omega, show ¬ 16 ≤ j by omega, show ¬ 8 ≤ j by omega, show j < 32 by omega]

/-- One register at 0. -/
abbrev w1 (c : BitVec 8) : BitVec 32 := opBits n ||| field (c.setWidth 32) 0xff#32 0

theorem w1_op (hn : n < 256) (c : BitVec 8) : (w1 n c >>> 24).toNat = n := by
  apply opcode_of_or n hn
  intro j hj
  bits
  rw [hi8 c _ (by omega)]; simp

theorem w1_0 (c : BitVec 8) : regAt (w1 n c) 0 = c := by
  apply regAt_eq; unfold w1; intro j hj; bits
  simp [show ¬ 24 ≤ j by omega, show j < 32 by omega]

/-- Two registers at 8 and 0. -/
abbrev w2 (b c : BitVec 8) : BitVec 32 :=
  opBits n ||| field (b.setWidth 32) 0xff#32 8 ||| field (c.setWidth 32) 0xff#32 0

theorem w2_op (hn : n < 256) (b c : BitVec 8) : (w2 n b c >>> 24).toNat = n := by
  unfold w2
  rw [BitVec.or_assoc]
  apply opcode_of_or n hn
  intro j hj
  bits
  rw [hi8 b _ (by omega), hi8 c _ (by omega)]; simp

theorem w2_8 (b c : BitVec 8) : regAt (w2 n b c) 8 = b := by
  apply regAt_eq; unfold w2; intro j hj; bits
  rw [hi8 c _ (by omega)]
  simp [show ¬ 24 ≤ 8 + j by omega, show 8 + j < 32 by omega]

theorem w2_0 (b c : BitVec 8) : regAt (w2 n b c) 0 = c := by
  apply regAt_eq; unfold w2; intro j hj; bits
  simp [show ¬ 24 ≤ j by omega, show ¬ 8 ≤ j by omega, show j < 32 by omega]

/-- A register at 16 and a `u16` at 0. -/
abbrev wru (a : BitVec 8) (t : BitVec 16) : BitVec 32 :=
  opBits n ||| field (a.setWidth 32) 0xff#32 16 ||| field (t.setWidth 32) 0xffff#32 0

theorem wru_op (hn : n < 256) (a : BitVec 8) (t : BitVec 16) : (wru n a t >>> 24).toNat = n := by
  unfold wru
  rw [BitVec.or_assoc]
  apply opcode_of_or n hn
  intro j hj
  bits
  rw [hi8 a _ (by omega), hi16 t _ (by omega)]; simp

theorem wru_16 (a : BitVec 8) (t : BitVec 16) : regAt (wru n a t) 16 = a := by
  apply regAt_eq; unfold wru; intro j hj; bits
  rw [hi16 t _ (by omega)]
  simp [show ¬ 24 ≤ 16 + j by omega, show 16 + j < 32 by omega]

theorem wru_0 (a : BitVec 8) (t : BitVec 16) : u16At (wru n a t) 0 = t := by
  apply u16At_eq; unfold wru; intro j hj; bits
  simp [show ¬ 24 ≤ j by omega, show ¬ 16 ≤ j by omega, show j < 32 by omega]

/-- A `u16` at 0. -/
abbrev wu (t : BitVec 16) : BitVec 32 := opBits n ||| field (t.setWidth 32) 0xffff#32 0

theorem wu_op (hn : n < 256) (t : BitVec 16) : (wu n t >>> 24).toNat = n := by
  apply opcode_of_or n hn
  intro j hj
  bits
  rw [hi16 t _ (by omega)]; simp

theorem wu_0 (t : BitVec 16) : u16At (wu n t) 0 = t := by
  apply u16At_eq; unfold wu; intro j hj; bits
  simp [show ¬ 24 ≤ j by omega, show j < 32 by omega]

/-- A `u16` at 8 and a register at 0. -/
abbrev wur (t : BitVec 16) (c : BitVec 8) : BitVec 32 :=
  opBits n ||| field (t.setWidth 32) 0xffff#32 8 ||| field (c.setWidth 32) 0xff#32 0

theorem wur_op (hn : n < 256) (t : BitVec 16) (c : BitVec 8) : (wur n t c >>> 24).toNat = n := by
  unfold wur
  rw [BitVec.or_assoc]
  apply opcode_of_or n hn
  intro j hj
  bits
  rw [hi8 c _ (by omega), hi16 t _ (by omega)]; simp

theorem wur_8 (t : BitVec 16) (c : BitVec 8) : u16At (wur n t c) 8 = t := by
  apply u16At_eq; unfold wur; intro j hj; bits
  rw [hi8 c _ (by omega)]
  simp [show ¬ 24 ≤ 8 + j by omega, show 8 + j < 32 by omega]

theorem wur_0 (t : BitVec 16) (c : BitVec 8) : regAt (wur n t c) 0 = c := by
  apply regAt_eq; unfold wur; intro j hj; bits
  simp [show ¬ 24 ≤ j by omega, show ¬ 8 ≤ j by omega, show j < 32 by omega]

end layouts
end EB
