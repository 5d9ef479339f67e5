import Verif.Lemmas.SimOps
/-!
# Running the code of an expression
-/

namespace EB
open Spec

variable [Labels] [Watch]

section
variable {F : FloatOps} {img : Image} [Answers img] {Γ : Env} {lo : Nat}

/-! ## Literals -/

theorem ofNat_setWidth (i : U16) : (i.setWidth 64 : BitVec 64) = BitVec.ofNat 64 i.toNat := by
  apply BitVec.eq_of_toNat_eq
  simp only [BitVec.toNat_setWidth, BitVec.toNat_ofNat]

theorem int_small (i : I32) (h : 0 ≤ i.toInt ∧ i.toInt < 65536) :
    ((BitVec.ofInt 16 i.toInt).setWidth 64 : BitVec 64) = ofI32 i := by
  obtain ⟨n, hn⟩ : ∃ n : Nat, i.toInt = n := ⟨i.toInt.toNat, by omega⟩
  have hi : i = BitVec.ofNat 32 n := by
    apply BitVec.eq_of_toInt_eq
    rw [hn, BitVec.toInt_ofNat']
    rw [Int.bmod_eq_of_le] <;> norm_num <;> omega
  have hlt : n < 65536 := by omega
  rw [hn, BitVec.ofInt_natCast]
  unfold ofI32
  rw [BitVec.signExtend_eq_setWidth_of_msb_false]
  · apply BitVec.eq_of_toNat_eq
    rw [hi]
    simp only [BitVec.toNat_setWidth, BitVec.toNat_ofNat]
    omega
  · rw [BitVec.msb_eq_false_iff_two_mul_lt, hi, BitVec.toNat_ofNat]
    omega

/-- The value of a literal. -/
def litVal : ConstantDatum → Val
  | .boolean b => .bool b
  | .double d => .dbl d
  | .integer i => .int i
  | .text s => .text s

theorem litVal_ty (d : ConstantDatum) : (litVal d).ty = d.etype := by cases d <;> rfl

theorem post_emitValue {gf : Codegen} {K : Nat → Prop} {w : World} {m : Mach} {reg : Reg} {d : ConstantDatum}
    {pos : LineCol} {g g' : Codegen} {u : Unit}
    (hc : emitValue reg d pos g = .ok (u, g')) (hg : GOk g) (hl : Linked img gf lo g')
    (hlo : lo ≤ g.code.length) (hpc : m.pc = g.code.length) (hq : m.yieldPending = false)
    (hm : Models img.constants Γ m.fp w m) (hs : EnvSmall Γ) (hf : FreeReg w reg.toNat) (hK : ¬ K (m.regIndex reg)) :
    Post F img Γ lo K w m g'.code.length (fun v m' => v.ty = d.etype ∧ Holds img.constants m'.heap v (m'.get reg))
      (.ok (litVal d) w) := by
  have ci : ∀ {n : U16} {g : Codegen}, GOk g → Linked img gf lo (g.push (.loadInt reg n) pos) → lo ≤ g.code.length → m.pc = g.code.length →
      Holds img.constants m.heap (litVal d) (n.setWidth 64) →
      Post F img Γ lo K w m (g.push (.loadInt reg n) pos).code.length (fun v m' => v.ty = d.etype ∧ Holds img.constants m'.heap v (m'.get reg))
        (.ok (litVal d) w) := by
    intro n g hg hl hlo hpc hh
    obtain ⟨f1, f2⟩ := hl.fetch hg hlo
    have := post_set (F := F) (lo := lo) (K := K) (v := litVal d) (x := n.setWidth 64) (r := reg) (by rw [hpc]; exact f1)
      rfl hq hm hs hf hK (litVal_ty d) hh
    rw [hpc] at this
    simpa [Codegen.push] using this
  have cc : ∀ {x : BitVec 64}, (do
      let idx ← getConstant d pos
      let _ ← emit (.loadConst reg idx) pos : CG Unit) g = .ok (u, g') →
      (∀ (k : U16) cs, cs[k.toNat]? = some d → doLoadConst m cs reg k = .cont (m.set reg x).next) →
      Holds img.constants m.heap (litVal d) x →
      Post F img Γ lo K w m g'.code.length (fun v m' => v.ty = d.etype ∧ Holds img.constants m'.heap v (m'.get reg))
        (.ok (litVal d) w) := by
    intro x hc hx hh
    obtain ⟨idx, g1, h1, h2⟩ := CM.bind_ok.1 hc
    cases h2
    obtain ⟨e1, ec, ei, ef, eu, t, id, hk, rfl, _⟩ := getConstant_ok h1
    have hg1 := hg.ext e1
    have hl1 := hl.mono (gext_push rfl fun hw => refs_const hw hk) hg1
    obtain ⟨f1, f2⟩ := hl.fetch hg1 (by rw [ec]; exact hlo)
    have := post_set (F := F) (lo := lo) (K := K) (v := litVal d) (x := x) (r := reg) (by rw [hpc, ← ec]; exact f1)
      (i := .loadConst reg (BitVec.ofNat 16 id)) (hx _ _ (constant_read hg1 hl1 hk).2) hq hm hs hf hK (litVal_ty d) hh
    rw [hpc] at this
    simpa [Codegen.push, ec] using this
  cases d with
  | boolean b =>
    unfold emitValue at hc
    cases hc
    refine ci hg hl hlo hpc ?_
    cases b <;> rfl
  | integer i =>
    unfold emitValue at hc
    simp only at hc
    split at hc
    next h =>
      cases hc
      exact ci hg hl hlo hpc (int_small i h)
    next h =>
      exact cc hc (fun k cs hk => by unfold doLoadConst; rw [hk]) rfl
  | double b =>
    exact cc hc (fun k cs hk => by unfold doLoadConst; rw [hk]) rfl
  | text s =>
    obtain ⟨idx, g1, h1, h2⟩ := CM.bind_ok.1 hc
    cases h2
    obtain ⟨e1, ec, ei, ef, eu, t, id, hk, rfl, _⟩ := getConstant_ok h1
    have hg1 := hg.ext e1
    have hl1 := hl.mono (gext_push rfl fun hw => .plain rfl) hg1
    refine ci hg1 hl (by rw [ec]; exact hlo) (by rw [ec]; exact hpc) ?_
    obtain ⟨h3, h4⟩ := constant_read hg1 hl1 hk
    show (DatumPtr.ofU64 _).bind _ = _
    rw [ofNat_setWidth, (C02_datumPtr _ (by simp; omega)).2]
    simp only [Option.bind_some, DatumPtr.resolveString, h4]

/-! ## Registers -/

omit [Labels] [Watch] in
theorem temp_reg {sy : Syms} {nt : Nat} {pos : LineCol} {r : Reg} (h : allocTemp sy nt pos = .ok r) :
    r.toNat = 64 + sy.nlocals + nt := by
  unfold allocTemp at h
  split at h
  · split at h
    next r' hr => cases h; have := (mkLocal_lt hr).2; omega
    · simp at h
  · simp at h

omit [Labels] [Watch] in
theorem first_reg {sy : Syms} {nt : Nat} {pos : LineCol} {r : Reg} (h : firstTemp sy nt pos = .ok r) :
    r.toNat = 64 + sy.nlocals + nt := by
  unfold firstTemp at h
  split at h
  next r' hr => cases h; have := (mkLocal_lt hr).2; omega
  · simp at h

theorem Spec.Models.temp_free {cs : List ConstantDatum} {fp : Nat} {w : World} {m : Mach} (hm : Models cs Γ fp w m)
    (hs : EnvSmall Γ) {r : Nat} (hr : 64 + Γ.locals.length ≤ r) : FreeReg w r := by
  intro p c hp
  obtain ⟨q, hq, _⟩ := hm.typed p c hp
  cases p with
  | «local» n => have := proto_local hq; simp only [Place.reg]; omega
  | shared n => have := proto_shared hq; have := hs.shared; simp only [Place.reg]; omega

/-- The registers that the code of an expression leaves alone: below the free temporaries, other than the
destination.  Shared variables may only change if user-defined functions are called. -/
def Below (cf : Prop) (b d : Nat) (j : Nat) : Prop := (64 ≤ j ∨ cf) ∧ j < b ∧ j ≠ d

omit [Labels] [Watch] in
theorem regIndex_local {m : Mach} {r : Reg} (h : 64 ≤ r.toNat) : m.regIndex r = m.fp + (r.toNat - 64) := by
  unfold Mach.regIndex
  rw [if_neg (show ¬ r.toNat < maxGlobal by show ¬ r.toNat < 64; omega)]
  show r.toNat - 64 + m.fp = _
  omega

omit [Labels] [Watch] in
theorem regIndex_global {m : Mach} {r : Reg} (h : r.toNat < 64) : m.regIndex r = r.toNat := by
  unfold Mach.regIndex
  rw [if_pos (show r.toNat < maxGlobal from h)]

omit [Labels] [Watch] in
/-- The register that a variable is read from. -/
theorem place_get {m : Mach} {p : Place} (hp : p.reg < 256) (hl : ∀ n, p = .shared n → n < 64) :
    m.get (BitVec.ofNat 8 p.reg) = m.regs (p.index m.fp) := by
  have ht : (BitVec.ofNat 8 p.reg).toNat = p.reg := by rw [BitVec.toNat_ofNat, Nat.mod_eq_of_lt hp]
  unfold Mach.get
  cases p with
  | «local» n =>
    rw [regIndex_local (by rw [ht]; simp [Place.reg]), ht]
    simp [Place.reg, Place.index]
  | shared n =>
    have := hl n rfl
    rw [regIndex_global (by rw [ht]; exact this), ht]
    rfl

/-! ## Unary operators and conversions -/

theorem exec_un {F : FloatOps} {cs : List ConstantDatum} {m : Mach} {op : UnOp} {r : Reg} :
    execInstr F cs m (.un op r) = match unEval F op (m.get r) with
      | .ok v => .cont (m.set r v).next
      | .error e => m.raise e := rfl

theorem post_un1 {gf : Codegen} {K : Nat → Prop} {w : World} {m : Mach} {reg : Reg} {o : UnOp}
    {v : Val} {pos : LineCol} {g : Codegen} {y : BitVec 64} (hg : GOk g) (hl : Linked img gf lo (g.push (.un o reg) pos))
    (hlo : lo ≤ g.code.length) (hpc : m.pc = g.code.length) (hq : m.yieldPending = false)
    (hm : Models img.constants Γ m.fp w m) (hs : EnvSmall Γ) (hf : FreeReg w reg.toNat) (hK : ¬ K (m.regIndex reg))
    (hu : unEval F o (m.get reg) = .ok y) (hv : Holds img.constants m.heap v y) :
    Post F img Γ lo K w m (g.push (.un o reg) pos).code.length (fun v' m' => v'.ty = v.ty ∧ Holds img.constants m'.heap v' (m'.get reg))
      (.ok v w) := by
  obtain ⟨f1, f2⟩ := hl.fetch hg hlo
  have := post_set (F := F) (lo := lo) (K := K) (v := v) (x := y) (r := reg) (by rw [hpc]; exact f1)
    (by rw [exec_un, hu]) hq hm hs hf hK rfl hv
  rw [hpc] at this
  simpa [Codegen.push] using this

theorem post_un {sy : Syms} (hsy : sy.nlocals = Γ.locals.length) {gf : Codegen} {cf : Prop} {b d : Nat} {w : World} {m : Mach} {op : SrcUn} {reg : Reg}
    {x : Val} {nt : Nat} {pos : LineCol} {g g' : Codegen} {t : ExprType}
    (hc : applyUn sy nt op reg x.ty pos g = .ok (t, g')) (hg : GOk g) (hl : Linked img gf lo g')
    (hlo : lo ≤ g.code.length) (hpc : m.pc = g.code.length) (hq : m.yieldPending = false)
    (hm : Models img.constants Γ m.fp w m) (hs : EnvSmall Γ) (hf : FreeReg w reg.toNat)
    (hd : d = m.regIndex reg) (hb : b = m.fp + sy.nlocals + nt) (hr : reg.toNat < 64 + sy.nlocals + nt)
    (hx : Holds img.constants m.heap x (m.get reg)) :
    Post F img Γ lo (Below cf b d) w m g'.code.length (fun v m' => v.ty = t ∧ Holds img.constants m'.heap v (m'.get reg))
      (unVal F op x pos w) := by
  have hK : ¬ Below cf b d (m.regIndex reg) := by rw [← hd]; rintro ⟨_, _, h⟩; exact h rfl
  cases op with
  | neg =>
    cases x with
    | int a =>
      cases hc
      show Post F img Γ lo _ w m _ _ (match exact (-a.toInt) .integerOverflow with
        | .ok x => Out.ok (Val.int (BitVec.ofInt 32 x)) w | .error e => Out.err pos e w)
      have h6 := C06_neg a
      obtain ⟨f1, f2⟩ := hl.fetch hg hlo
      unfold exact
      by_cases hin : InRange (-a.toInt)
      · rw [if_pos hin] at h6 ⊢
        obtain ⟨v, h7, h8⟩ := h6
        refine post_un1 (v := .int (BitVec.ofInt 32 (-a.toInt))) hg hl hlo hpc hq hm hs hf hK (y := ofI32 v) ?_ ?_
        · simp only [unEval, show m.get reg = ofI32 a from hx, C06_register_roundtrip, h7]
        · rw [ofInt_toInt_eq h8]; rfl
      · rw [if_neg hin] at h6 ⊢
        refine post_fault (by rw [hpc]; exact f1) ?_ (by rw [hpc]; exact f2) hq hm
        rw [exec_un]
        simp only [unEval, show m.get reg = ofI32 a from hx, C06_register_roundtrip, h6]
    | dbl a =>
      cases hc
      exact post_un1 (v := .dbl (F.neg a)) hg hl hlo hpc hq hm hs hf hK (y := F.neg a) (by simp only [unEval, show m.get reg = a from hx]) rfl
    | bool | text => trivial
  | not =>
    cases x with
    | int a =>
      cases hc
      exact post_un1 (v := .int (~~~a)) hg hl hlo hpc hq hm hs hf hK (y := ofI32 (~~~a))
        (by simp only [unEval, show m.get reg = ofI32 a from hx, C06_register_roundtrip]) rfl
    | bool c =>
      obtain ⟨temp, g1, h1, hc⟩ := CM.bind_ok.1 hc
      obtain ⟨r, h2, h1⟩ := CM.lift_ok.1 h1
      cases h1
      obtain ⟨u, g2, h3, hc⟩ := CM.bind_ok.1 hc
      cases hc
      have htr := temp_reg h2
      have hidx : m.regIndex temp = m.fp + sy.nlocals + nt := by
        rw [regIndex_local (by omega)]; omega
      have hK' : ¬ Below cf b d (m.regIndex temp) := by
        rintro ⟨_, h, _⟩; rw [hb, hidx] at h; omega
      have hne : m.regIndex reg ≠ m.regIndex temp := by
        rw [hidx]
        have := hm.base
        by_cases h64 : reg.toNat < 64
        · rw [regIndex_global h64]; omega
        · rw [regIndex_local (by omega)]; omega
      have hft : FreeReg w temp.toNat := hm.temp_free hs (by omega)
      have e2 := GStep.emitValue _ _ _ _ _ _ hg.lens h3
      have hg2 := hg.ext e2
      have hl2 := hl.mono (gext_push rfl fun _ => .plain rfl) hg2
      obtain ⟨m1, gg1, p1, s1, k1, md1, _, hv1, hh1⟩ := post_emitValue (F := F) (lo := lo) (K := fun j => Below cf b d j ∨ j = m.regIndex reg) h3 hg hl2 hlo hpc hq hm hs hft
        (by rintro (h | h) <;> [exact hK' h; exact hne h.symm])
      obtain ⟨f1, f2⟩ := hl.fetch hg2 (Nat.le_trans hlo e2.len)
      have hx1 : m1.get reg = ofBool c := by
        have h5 := k1.regs _ (Or.inr rfl)
        unfold Mach.get at hx ⊢
        rw [show m1.regIndex reg = m.regIndex reg by unfold Mach.regIndex; rw [s1.fp], h5]
        exact hx
      have hy1 : m1.get temp = ofI32 1#32 := hh1
      refine Post.before gg1 s1 (k1.weaken fun _ => Or.inl) ?_
      have hfp : m1.regIndex reg = m.regIndex reg := by unfold Mach.regIndex; rw [s1.fp]
      have := post_set (F := F) (lo := lo) (K := Below cf b d) (v := .bool (!c)) (x := ofBool (!c)) (r := reg) (t := .boolean) (by rw [p1]; exact f1)
        (by rw [exec_num (by simp), hx1, hy1]; cases c <;> rfl) s1.quiet (by rw [s1.fp]; exact md1) hs hf (by rw [hfp]; exact hK) rfl rfl
      rw [p1] at this
      show Post F img Γ lo _ w m1 _ _ (Out.ok (Val.bool (!c)) w)
      simpa [Codegen.push] using this
    | dbl | text => trivial

theorem post_cast {gf : Codegen} {K : Nat → Prop} {w : World} {m : Mach} {reg : Reg}
    {x : Val} {t : ExprType} {pos : LineCol} {g g' : Codegen} {u : Unit}
    (hc : castTo reg x.ty t pos g = .ok (u, g')) (hg : GOk g) (hl : Linked img gf lo g')
    (hlo : lo ≤ g.code.length) (hpc : m.pc = g.code.length) (hq : m.yieldPending = false)
    (hm : Models img.constants Γ m.fp w m) (hs : EnvSmall Γ) (hf : FreeReg w reg.toNat) (hK : ¬ K (m.regIndex reg))
    (hx : Holds img.constants m.heap x (m.get reg)) :
    Post F img Γ lo K w m g'.code.length (fun v m' => v.ty = t ∧ Holds img.constants m'.heap v (m'.get reg))
      (castVal F t x pos w) := by
  have same : g' = g → x.ty = t → Post F img Γ lo K w m g'.code.length (fun v m' => v.ty = t ∧ Holds img.constants m'.heap v (m'.get reg))
      (.ok x w) := by
    rintro rfl ht
    exact ⟨m, .refl _ _, hpc, .refl hq, .refl _ _ _ _, hm, .refl _, ht, hx⟩
  cases t <;> cases x <;> first | trivial | (cases hc; exact same rfl rfl) | skip
  · -- integer to double
    cases hc
    exact post_un1 (v := .dbl (F.ofInt _)) hg hl hlo hpc hq hm hs hf hK (y := F.ofInt _)
      (by simp only [unEval, show m.get reg = ofI32 _ from hx, C06_register_roundtrip]) rfl
  · -- double to integer
    rename_i a
    cases hc
    show Post F img Γ lo _ w m _ _ (match F.toInt a with
      | some i => Out.ok (Val.int i) w
      | none => Out.err pos (.castOverflow a) w)
    obtain ⟨f1, f2⟩ := hl.fetch hg hlo
    cases hi : F.toInt a with
    | some i =>
      exact post_un1 (v := .int i) hg hl hlo hpc hq hm hs hf hK (y := ofI32 i)
        (by simp only [unEval, show m.get reg = a from hx, hi]) rfl
    | none =>
      refine post_fault (by rw [hpc]; exact f1) ?_ (by rw [hpc]; exact f2) hq hm
      rw [exec_un]
      simp only [unEval, show m.get reg = a from hx, hi]

/-! ## Array elements -/

theorem badSubscript_none : ∀ {dims : List Nat} {subs : List Int}, subs.length = dims.length →
    badSubscript dims subs = none → InBounds dims subs
  | [], [], _, _ => trivial
  | d :: ds, s :: ss, hl, h => by
    unfold badSubscript at h
    split at h
    · simp at h
    · split at h
      · simp at h
      · exact ⟨by omega, by omega, badSubscript_none (by simpa using hl) h⟩
  | [], _ :: _, hl, _ => by simp at hl
  | _ :: _, [], hl, _ => by simp at hl

theorem badSubscript_some : ∀ {dims : List Nat} {subs : List Int} {e : SubscriptError} (o k : Nat),
    badSubscript dims subs = some e → flatIndexLoop o k subs dims = .error e
  | d :: ds, s :: ss, e, o, k, h => by
    unfold badSubscript at h
    unfold flatIndexLoop
    split at h
    next h1 => rw [if_pos h1]; cases h; rfl
    next h1 =>
      rw [if_neg h1]
      split at h
      next h2 => rw [if_pos (by omega)]; cases h; rfl
      next h2 => rw [if_neg (by omega)]; exact badSubscript_some _ _ h
  | [], [], _, _, _, h => by simp [badSubscript] at h
  | [], _ :: _, _, _, _, h => by simp [badSubscript] at h
  | _ :: _, [], _, _, _, h => by simp [badSubscript] at h

theorem load_bad {a : ArrayData} {subs : List Int} {e : SubscriptError} (hl : subs.length = a.dimensions.length)
    (h : badSubscript a.dimensions subs = some e) : a.load subs = some (.error e) := by
  unfold ArrayData.load flatIndex
  rw [if_pos (by omega), badSubscript_some _ _ h]

theorem readLocals_eq {m : Mach} {first : Reg} (hf : 64 ≤ first.toNat) {is : List I32} : ∀ {k : Nat},
    (first.toNat + k + is.length ≤ 256) →
    (∀ (j : Nat) (i : I32), is[j]? = some i → m.regs (m.fp + (first.toNat - 64) + k + j) = ofI32 i) →
    m.readLocals first k is.length = some is := by
  induction is with
  | nil => intros; rfl
  | cons i is ih =>
    intro k hk h
    have hp : (regToParts first).2 = first.toNat - 64 := by
      unfold regToParts
      rw [if_neg (show ¬ first.toNat < maxGlobal by show ¬ first.toNat < 64; omega)]
      rfl
    simp only [List.length_cons] at hk
    simp only [List.length_cons, Mach.readLocals, hp]
    rw [if_pos (show first.toNat - 64 + k + maxGlobal < 256 by show first.toNat - 64 + k + 64 < 256; omega), ih (by omega)]
    · have := h 0 i rfl
      rw [Option.map_some, show first.toNat - 64 + k + m.fp = m.fp + (first.toNat - 64) + k + 0 by omega, this,
        C06_register_roundtrip]
    · intro j x hx
      have := h (j + 1) x (by simpa using hx)
      rw [← this]
      congr 1; omega

end
end EB
