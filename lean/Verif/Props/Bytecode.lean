import Verif.Model.Bytecode
import Verif.Lemmas.Bytecode
/-!
# C01: instruction words decode back to what was encoded
# C02 (part): register references, packed array types and variadic-argument tags
# C50 (part): exit codes
-/

namespace EB

/-- **C01** Whatever instruction is encoded, the VM decodes the same operation with the same
operands. -/
theorem C01_decode_encode (i : Instr) : decode i.encode = some i := by
  cases i with
  | bin op d l r =>
    show decode (w3 op.opcode d l r) = _
    unfold decode
    rw [w3_op _ (by cases op <;> decide), w3_16, w3_8, w3_0]
    cases op <;> rfl
  | un op r =>
    show decode (w1 op.opcode r) = _
    unfold decode
    rw [w1_op _ (by cases op <;> decide), w1_0]
    cases op <;> rfl
  | alloc d t =>
    show decode (opBits 2 ||| field (d.setWidth 32) 0xff#32 8 ||| _) = _
    rw [field_type]
    show decode (w2 2 d (BitVec.ofNat 8 t.toNat)) = _
    unfold decode
    simp only [w2_op 2 (by decide), unfield8_toNat, w2_8, w2_0, ofNat?_type, Option.map_some]
  | allocArray d p f =>
    show decode (w3 3 d p.raw f) = _
    unfold decode; simp only [w3_op 3 (by decide), w3_16, w3_8, w3_0]
  | call r t =>
    show decode (wru 8 r t) = _
    unfold decode; simp only [wru_op 8 (by decide), wru_16, wru_0]
  | gosub t =>
    show decode (wu 17 t) = _
    unfold decode; simp only [wu_op 17 (by decide), wu_0]
  | jump t =>
    show decode (wu 25 t) = _
    unfold decode; simp only [wu_op 25 (by decide), wu_0]
  | jumpIfFalse r t =>
    show decode (wru 26 r t) = _
    unfold decode; simp only [wru_op 26 (by decide), wru_16, wru_0]
  | loadArray d a f =>
    show decode (w3 33 d a f) = _
    unfold decode; simp only [w3_op 33 (by decide), w3_16, w3_8, w3_0]
  | loadConst r t =>
    show decode (wru 34 r t) = _
    unfold decode; simp only [wru_op 34 (by decide), wru_16, wru_0]
  | loadInt r t =>
    show decode (wru 35 r t) = _
    unfold decode; simp only [wru_op 35 (by decide), wru_16, wru_0]
  | loadRegPtr d t s =>
    show decode (opBits 36 ||| field (d.setWidth 32) 0xff#32 16 ||| _ ||| _) = _
    rw [field_type]
    show decode (w3 36 d (BitVec.ofNat 8 t.toNat) s) = _
    unfold decode
    simp only [w3_op 36 (by decide), unfield8_toNat, w3_16, w3_8, w3_0, ofNat?_type, Option.map_some]
  | move d s =>
    show decode (w2 39 d s) = _
    unfold decode; simp only [w2_op 39 (by decide), w2_8, w2_0]
  | nop => rfl
  | ret => rfl
  | setErrorHandler m t =>
    show decode (opBits 52 ||| _ ||| _) = _
    rw [field_mode]
    show decode (wru 52 (BitVec.ofNat 8 m.toNat) t) = _
    unfold decode
    simp only [wru_op 52 (by decide), unfield8_toNat, wru_16, wru_0, ofNat?_mode, Option.map_some]
  | storeArray a v f =>
    show decode (w3 55 a v f) = _
    unfold decode; simp only [w3_op 55 (by decide), w3_16, w3_8, w3_0]
  | «end» r =>
    show decode (w1 58 r) = _
    unfold decode; simp only [w1_op 58 (by decide), w1_0]
  | upcall t r =>
    show decode (wur 59 t r) = _
    unfold decode; simp only [wur_op 59 (by decide), wur_8, wur_0]
  | upcallAsync t r =>
    show decode (wur 60 t r) = _
    unfold decode; simp only [wur_op 60 (by decide), wur_8, wur_0]
  | eof => rfl

/-- **C01** Two different instructions never share a word. -/
theorem C01_encode_injective {i j : Instr} (h : i.encode = j.encode) : i = j := by
  have := C01_decode_encode i
  rw [h, C01_decode_encode j] at this
  exact (Option.some.inj this).symm

/-- Non-vacuity: an instruction with all fields in use, and its word. -/
example : (Instr.bin .subI 255#8 1#8 128#8).encode = 0x39ff0180#32 := by decide

/-- **C02** A packed array type is accepted exactly up to 15 dimensions and keeps its parts. -/
theorem C02_packedArrayType (t : ExprType) (n : Nat) :
    (n ≤ 15 → ∃ p, PackedArrayType.new t n = some p ∧ p.subtype = some t ∧ p.ndims = n) ∧
    (15 < n → PackedArrayType.new t n = none) := by
  constructor
  · intro h
    have key : ∀ m : Fin 16, ∃ p, PackedArrayType.new t m.val = some p ∧ p.subtype = some t ∧
        p.ndims = m.val := by
      intro m
      refine ⟨⟨(BitVec.ofNat 8 t.toNat <<< 4) ||| (BitVec.ofNat 8 m.val &&& 0x0f#8)⟩, ?_, ?_, ?_⟩
      · unfold PackedArrayType.new
        simp [show ¬ m.val > 15 by omega]
      · revert m; cases t <;> decide
      · revert m; cases t <;> decide
    exact key ⟨n, by omega⟩
  · intro h
    unfold PackedArrayType.new
    simp [h]

example : PackedArrayType.new .text 15 = some ⟨0x3f#8⟩ := by decide

/-- **C02** A tagged register reference names the absolute register (frame-relative for locals)
and the type it was made from. -/
theorem C02_taggedRegister (r : Reg) (fp : Nat) (t : ExprType) (hfp : fp + 256 ≤ 2 ^ 32) :
    ∃ v, taggedRegNew r fp t = some v ∧
      taggedRegParse v = some (if r.toNat < 64 then r.toNat else r.toNat - 64 + fp, t) := by
  have hr : r.toNat < 256 := r.isLt
  generalize hi : (if r.toNat < 64 then r.toNat else r.toNat - 64 + fp) = idx
  have hidx : idx < 2 ^ 32 := by subst hi; split <;> omega
  refine ⟨(BitVec.ofNat 64 t.toNat <<< 32) ||| BitVec.ofNat 64 idx, ?_, ?_⟩
  · unfold taggedRegNew regToParts maxGlobal
    by_cases h : r.toNat < 64
    · simp only [h, if_true] at hi ⊢
      subst hi
      simp; omega
    · simp only [h, if_false] at hi ⊢
      subst hi
      simp; omega
  · have hlow : ∀ k, 32 ≤ k → idx.testBit k = false := fun k hk =>
      Nat.testBit_lt_two_pow (Nat.lt_of_lt_of_le hidx (Nat.pow_le_pow_right (by omega) hk))
    have h1 : ((BitVec.ofNat 64 t.toNat <<< 32) ||| BitVec.ofNat 64 idx) >>> 32
        = BitVec.ofNat 64 t.toNat := by
      ext k hk
      simp only [← BitVec.getLsbD_eq_getElem, BitVec.getLsbD_ushiftRight, BitVec.getLsbD_or,
        BitVec.getLsbD_shiftLeft, BitVec.getLsbD_ofNat, hlow (32 + k) (by omega)]
      by_cases h32 : 32 + k < 64
      · simp [h32, hk]
      · have : t.toNat.testBit k = false := Nat.testBit_lt_two_pow (by
          have : 2 ^ 2 ≤ 2 ^ k := Nat.pow_le_pow_right (by omega) (by omega)
          have : t.toNat < 4 := by cases t <;> decide
          omega)
        simp [h32, this]
    have h2 : ((BitVec.ofNat 64 t.toNat <<< 32) ||| BitVec.ofNat 64 idx) &&& 0xffffffff#64
        = BitVec.ofNat 64 idx := by
      rw [show (0xffffffff#64) = (BitVec.allOnes 32).setWidth 64 by decide]
      ext k hk
      simp only [← BitVec.getLsbD_eq_getElem, BitVec.getLsbD_and, BitVec.getLsbD_or,
        BitVec.getLsbD_shiftLeft, BitVec.getLsbD_ofNat, BitVec.getLsbD_setWidth,
        BitVec.getLsbD_allOnes]
      by_cases h32 : k < 32
      · simp [h32, hk]
      · simp [h32, hlow k (by omega)]
    unfold taggedRegParse
    rw [h1, h2]
    have h3 : ExprType.ofNat? ((BitVec.ofNat 64 t.toNat).setWidth 8).toNat = some t := by
      cases t <;> rfl
    rw [h3]
    simp; omega

example : taggedRegNew 70#8 1000 .text = some 0x3000003ee#64 := by decide

/-- **C02** Variadic-argument tags decode to what was encoded. -/
theorem C02_varArgTag (t : VarArgTag) : VarArgTag.parse (t.make.setWidth 64) = some t := by
  cases t with
  | missing s => cases s <;> decide
  | immediate s ty => cases s <;> cases ty <;> decide
  | pointer s => cases s <;> decide

/-- **C02** Different tags have different encodings. -/
theorem C02_varArgTag_injective {s t : VarArgTag} (h : s.make = t.make) : s = t := by
  have := C02_varArgTag s
  rw [h, C02_varArgTag t] at this
  exact (Option.some.inj this).symm

/-- **C50** An exit code is accepted exactly when it is between 0 and 127 and is then reported
unchanged. -/
theorem C50_exitCode (n : Int) :
    (∀ c, exitCodeTryNew n = some c → exitCodeToInt c = n) ∧
    ((exitCodeTryNew n).isSome ↔ 0 ≤ n ∧ n < 128) := by
  unfold exitCodeTryNew exitCodeToInt
  constructor
  · intro c h
    split at h
    · rename_i hn
      cases h
      simp only [BitVec.toNat_ofInt]
      omega
    · cases h
  · split <;> simp_all

example : exitCodeTryNew 127 = some 127#8 ∧ exitCodeTryNew 128 = none := by decide

end EB
