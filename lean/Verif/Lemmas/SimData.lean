import Verif.Lemmas.SimSimple
/-!
# The code of simple statements: arrays, declarations, calls and `END`
-/

namespace EB
open Spec

variable [Labels] [Watch] [Nest]

/-! ## Arrays -/

section
variable {F : FloatOps} {img : Image} [Answers img] {Δ : Env}

theorem store_bad {a : ArrayData} {subs : List Int} {e : SubscriptError} {v : BitVec 64} (hl : subs.length = a.dimensions.length)
    (h : badSubscript a.dimensions subs = some e) : a.store subs v = some (.error e) := by
  unfold ArrayData.store flatIndex
  rw [if_pos (by omega), badSubscript_some _ _ h]

/-- One instruction that assigns to an element of an array. -/
theorem write_elem {d a : Nat} {w : World} {m : Mach} {p : Place} {t : ExprType} {dims : List Nat} {elem : List Int → Val} {x : Val}
    {subs : List Int} {arr val first : Reg} {i : Nat} {da da' : ArrayData}
    (h : At img Δ d w m a) (hw : w.mem p = some (.arr t dims elem)) (hi : img.code[a]? = some (.storeArray arr val first))
    (hacc : m.arrayAccess arr first = some (i, da, subs)) (hptr : DatumPtr.ofU64 (m.regs (p.index m.fp)) = some (.heap i))
    (hdat : m.heap.data[i]? = some (.array da))
    (hdim : da.dimensions = dims) (hwf : da.WF) (hst : da.store subs (m.get val) = some (.ok da')) (hb : InBounds dims subs)
    (hold : ∀ s, InBounds dims s → ∃ y, da.load s = some (.ok y) ∧ Holds img.constants m.heap (elem s) y)
    (hx : Holds img.constants m.heap x (m.get val)) (ht : x.ty = t) :
    ∃ m1, Passes F img w m (w.set p (some (.arr t dims fun s => if s = subs then x else elem s))) m1 ∧ m1.pc = a + 1 ∧
      Models img.constants Δ m1.fp (w.set p (some (.arr t dims fun s => if s = subs then x else elem s))) m1 := by
  have hlt : i < m.heap.data.length := (List.getElem?_eq_some_iff.1 hdat).1
  have texts : ∀ (j : Nat) s, m.heap.data[j]? = some (.text s) → (m.heap.data.set i (.array da'))[j]? = some (.text s) := by
    intro j s hj
    rw [List.getElem?_set_ne]
    · exact hj
    · rintro rfl; rw [hdat] at hj; cases hj
  obtain ⟨m1, hm1⟩ : ∃ x : Mach, x = { m with heap := { m.heap with data := m.heap.data.set i (.array da') } }.next := ⟨_, rfl⟩
  have hex : execInstr F img.constants m (.storeArray arr val first) = .cont m1 := by
    show doStoreArray _ _ _ _ = _
    unfold doStoreArray
    simp only [hacc, hst, hm1]
  have hheap : m1.heap = { m.heap with data := m.heap.data.set i (.array da') } := by rw [hm1]; rfl
  have hfp : m1.fp = m.fp := by rw [hm1]; rfl
  have hregs : m1.regs = m.regs := by rw [hm1]; rfl
  have htrap : m1.handler = m.handler := by rw [hm1]; rfl
  have hact : SameAct m m1 := by rw [hm1]; exact ⟨rfl, rfl, rfl, h.quiet⟩
  have hpc : m1.pc = m.pc + 1 := by rw [hm1]; rfl
  have own : ∀ j, OwnArr m.fp (w.set p (some (.arr t dims fun s => if s = subs then x else elem s))) m1 j → OwnArr m.fp w m j := by
    rintro j ⟨q, t', d', f', h1, h2⟩
    rw [hregs] at h2
    simp only [World.set] at h1
    split at h1
    next he => subst he; exact ⟨_, _, _, _, hw, h2⟩
    · exact ⟨_, _, _, _, h1, h2⟩
  have hlen : m1.heap.data.length = m.heap.data.length := by rw [hheap]; simp
  replace texts : ∀ (j : Nat) s, m.heap.data[j]? = some (.text s) → m1.heap.data[j]? = some (.text s) := by
    rw [hheap]; exact texts
  have hdat' : m1.heap.data[i]? = some (.array da') := by
    rw [hheap]
    exact List.getElem?_set_self hlt
  have hothers : ∀ j x, j ≠ i → m.heap.data[j]? = some x → m1.heap.data[j]? = some x := by
    intro j x hne hj
    rw [hheap]
    show (m.heap.data.set i _)[j]? = _
    rw [List.getElem?_set_ne hne.symm]; exact hj
  clear hm1
  refine ⟨m1, ⟨Go.one (by rw [h.pc]; exact hi) hex hact.quiet, hact, ⟨fun _ _ => by rw [hregs], texts, ?_, fun j _ => own j, by rw [hlen], by rw [hheap]⟩⟩,
    by rw [hpc, h.pc], ⟨hfp ▸ h.models.base, ⟨texts _ _ h.models.heap.1, by rw [hlen]; exact h.models.heap.2⟩,
      by rw [hlen, hheap]; exact h.models.room, ?_, ?_, ?_, by rw [htrap]; exact h.models.trap⟩⟩
  · intro j b hj hn
    exact hothers _ _ (by rintro rfl; exact hn ⟨_, _, _, _, hw, hptr⟩) hj
  · rw [hfp, hregs]
    intro q c hc
    simp only [World.set] at hc
    split at hc
    next he =>
      cases hc
      subst he
      refine ⟨i, da', hptr, hdat', (store_wf hst hwf).2.trans hdim, (store_wf hst hwf).1, ?_⟩
      · intro s hs
        obtain ⟨a2, h1, _, _, h4⟩ := C04_store_load da hwf subs s (m.get val) (hdim ▸ hb) (hdim ▸ hs)
        rw [hst] at h1
        cases h1
        by_cases hse : subs = s
        · subst hse
          rw [if_pos rfl] at h4
          refine ⟨_, h4, ?_⟩
          simp only [if_true]
          exact Holds.mono texts hx
        · rw [if_neg hse] at h4
          obtain ⟨y, hy1, hy2⟩ := hold s hs
          refine ⟨y, h4.trans hy1, ?_⟩
          simp only
          rw [if_neg (fun h => hse h.symm)]
          exact Holds.mono texts hy2
    next hne =>
      have := h.models.cells q c hc
      cases c with
      | scalar v => exact Holds.mono texts this
      | arr t' d' f' =>
        obtain ⟨j, b, h1, h2, h3, h4, h5⟩ := this
        refine ⟨j, b, h1, ?_, h3, h4, fun s hs => ?_⟩
        · refine hothers _ _ ?_ h2
          rintro rfl
          exact hne (h.models.apart _ _ _ _ _ _ _ _ _ hc hw h1 hptr)
        · obtain ⟨y, hy1, hy2⟩ := h5 s hs
          exact ⟨y, hy1, Holds.mono texts hy2⟩
  · intro q c hc
    simp only [World.set] at hc
    split at hc
    next he =>
      cases hc
      subst he
      obtain ⟨r, h1, h2⟩ := h.models.typed _ _ hw
      refine ⟨r, h1, ?_⟩
      cases r with
      | scalar => exact h2.elim
      | array t' n =>
        obtain ⟨rfl, h3, h4⟩ := h2
        refine ⟨rfl, h3, fun s => ?_⟩
        simp only
        split
        · exact ht
        · exact h4 s
    · exact h.models.typed q c hc
  · rw [hfp, hregs]
    intro q q' t1 d1 f1 t2 d2 f2 j h1 h2 h3 h4
    have key : ∀ {q t1 d1 f1}, (w.set p (some (.arr t dims fun s => if s = subs then x else elem s))).mem q = some (.arr t1 d1 f1) →
        ∃ t d f, w.mem q = some (.arr t d f) := by
      intro q t1 d1 f1 hq
      simp only [World.set] at hq
      split at hq
      next he => subst he; exact ⟨_, _, _, hw⟩
      · exact ⟨_, _, _, hq⟩
    obtain ⟨_, _, _, k1⟩ := key h1
    obtain ⟨_, _, _, k2⟩ := key h2
    exact h.models.apart _ _ _ _ _ _ _ _ j k1 k2 h3 h4

theorem SPost.fault {T : Targets} {I : Nat → Prop} {w : World} {m : Mach} {i : Instr} {pos : LineCol} {e : RtErr} {b : Nat}
    (hi : img.code[m.pc]? = some i) (he : execInstr F img.constants m i = m.raise e)
    (hp : (img.instrs[m.pc]?).map (·.linecol) = some pos ∧ I m.pc) (hq : m.yieldPending = false) (hm : Models img.constants Δ m.fp w m) :
    SPost F img Δ T I w m b (.err pos e w) :=
  ⟨m, m.pc, Fails.one hi he hp.1, .refl _ _ _ _, hm, fun _ => ⟨.refl hq, hp.2⟩⟩

theorem ofList_length : ∀ (l : List Expr), (Args.ofList l).length = l.length
  | [] => rfl
  | _ :: l => by simp [Args.ofList, Args.length, ofList_length l]

theorem checkDims_bad : ∀ {ds : List Int} {k i : Nat}, badDim k ds = some i → checkDims k ds = .error (.badDimension i)
  | [], _, _, h => by simp [badDim] at h
  | d :: ds, k, i, h => by
    unfold badDim at h
    unfold checkDims
    split at h
    next hd => cases h; rw [if_pos hd]
    next hd => rw [if_neg hd, checkDims_bad h]

theorem checkDims_good : ∀ {ds : List Int} {k : Nat}, badDim k ds = none → checkDims k ds = .ok (ds.map Int.toNat)
  | [], _, _ => rfl
  | d :: ds, k, h => by
    unfold badDim at h
    unfold checkDims
    split at h
    · simp at h
    next hd => rw [if_neg hd, checkDims_good h]; rfl

theorem default_ty (t : ExprType) : (defaultVal t).ty = t := by cases t <;> rfl

theorem default_holds {cs : List ConstantDatum} {h : Heap} (h0 : h.data[0]? = some (.text [])) (t : ExprType) :
    Holds cs h (defaultVal t) (if t = .text then ptrForHeap 0 else 0#64) := by
  cases t with
  | text =>
    show (DatumPtr.ofU64 (ptrForHeap 0)).bind _ = _
    rw [(C02_datumPtr 0 (by decide)).1]
    simp only [Option.bind_some, DatumPtr.resolveString, h0]
  | _ => rfl

/-- A new array. -/
theorem write_array {d a : Nat} {w : World} {m : Mach} {p : Place} {t : ExprType} {dims : List Nat} {dst : Reg} {i : Instr}
    (hs : EnvSmall Δ) (h : At img Δ d w m a) (hp : Δ.proto p = some (.array t dims.length)) (hdst : dst.toNat = p.reg)
    (hi : img.code[a]? = some i) (hroom : w.room ≠ 0)
    (he : ∀ ptr hp, m.heap.push (.array (newArray t dims)) = some (ptr, hp) →
      execInstr F img.constants m i = .cont ({ m with heap := hp }.set dst ptr).next) :
    ∃ m1, Passes F img w m ({ w with room := w.room - 1 }.set p (some (.arr t dims fun _ => defaultVal t))) m1 ∧ m1.pc = a + 1 ∧
      Models img.constants Δ m1.fp ({ w with room := w.room - 1 }.set p (some (.arr t dims fun _ => defaultVal t))) m1 := by
  have hr := h.models.room
  have hh := h.models.heap
  have hdst' : dst = BitVec.ofNat 8 p.reg := by
    apply BitVec.eq_of_toNat_eq
    rw [place_toNat hs hp, hdst]
  have hidx : ∀ (m : Mach), m.regIndex dst = p.index m.fp := by
    intro m; rw [hdst']; exact place_index hs hp
  have hlen0 : 0 < m.heap.data.length := by
    have := hh.1
    exact (List.getElem?_eq_some_iff.1 this).1
  have hpush : m.heap.push (.array (newArray t dims)) =
      some (ptrForHeap m.heap.data.length, { m.heap with data := m.heap.data ++ [.array (newArray t dims)] }) := by
    unfold Heap.push
    rw [if_neg (by simp), if_neg (by omega), if_neg (by omega)]
  have hptr : DatumPtr.ofU64 (ptrForHeap m.heap.data.length) = some (.heap m.heap.data.length) := (C02_datumPtr _ (by omega)).1
  have old : ∀ (j : Nat) x, m.heap.data[j]? = some x → (m.heap.data ++ [.array (newArray t dims)])[j]? = some x := by
    intro j x hj
    rw [List.getElem?_append_left (List.getElem?_eq_some_iff.1 hj).1]; exact hj
  -- the registers of the other variables
  have others : ∀ q c, w.mem q = some c → q ≠ p → q.index m.fp ≠ p.index m.fp := by
    intro q c hq hne hc
    obtain ⟨y, hy, _⟩ := h.models.typed _ _ hq
    exact hne (index_inj hs h.models.base hy hp hc)
  obtain ⟨m1, hm1⟩ : ∃ x : Mach, x = ({ m with heap := { m.heap with data := m.heap.data ++ [HeapDatum.array (newArray t dims)] } }.set dst (ptrForHeap m.heap.data.length)).next :=
    ⟨_, rfl⟩
  have hex : execInstr F img.constants m i = .cont m1 := by rw [hm1]; exact he _ _ hpush
  have reg : ∀ j, j ≠ p.index m.fp → m1.regs j = m.regs j := by
    intro j hj
    rw [hm1]
    show setAt m.regs (m.regIndex dst) _ j = _
    rw [hidx]
    exact setAt_other hj
  have regp : m1.regs (p.index m.fp) = ptrForHeap m.heap.data.length := by
    rw [hm1]
    show setAt m.regs (m.regIndex dst) _ _ = _
    rw [hidx]
    exact setAt_same _ _ _
  have hheap : m1.heap = { m.heap with data := m.heap.data ++ [.array (newArray t dims)] } := by rw [hm1]; rfl
  have hfp : m1.fp = m.fp := by rw [hm1]; rfl
  have htrap : m1.handler = m.handler := by rw [hm1]; rfl
  have hact : SameAct m m1 := by rw [hm1]; exact ⟨rfl, rfl, rfl, h.quiet⟩
  have hpc : m1.pc = m.pc + 1 := by rw [hm1]; rfl
  have olds : ∀ q c, w.mem q = some c → q ≠ p → HoldsCell img.constants m1.heap c (m1.regs (q.index m.fp)) := by
    intro q c hq hne
    rw [reg _ (others q c hq hne), hheap]
    exact HoldsCell.mono old (h.models.cells q c hq)
  refine ⟨m1, ⟨Go.one (by rw [h.pc]; exact hi) hex hact.quiet, hact, ⟨?_, ?_, ?_, ?_, ?_, ?_⟩⟩, by rw [hpc, h.pc], ⟨hfp ▸ h.models.base, ⟨?_, ?_⟩, ?_, ?_, ?_, ?_, by rw [htrap]; exact h.models.trap⟩⟩
  · intro j hj
    exact reg j fun he => not_low hs hp (he ▸ hj)
  · intro j s hj; rw [hheap]; exact old _ _ hj
  · intro j s hj _; rw [hheap]; exact old _ _ hj
  · rintro j hj ⟨q, t', d', f', h1, h2⟩
    simp only [World.set] at h1
    split at h1
    next he =>
      subst he
      rw [regp, hptr] at h2
      cases h2
      omega
    next hne =>
      rw [reg _ (others q _ h1 hne)] at h2
      exact ⟨_, _, _, _, h1, h2⟩
  · rw [hheap]; simp
  · rw [hheap]
  · rw [hheap]; exact old _ _ hh.1
  · rw [hheap]; simp only [List.length_append, List.length_singleton]; omega
  · rw [hheap]; simp only [World.set, List.length_append, List.length_singleton]; omega
  · rw [hfp]
    intro q c hq
    simp only [World.set] at hq
    split at hq
    next he =>
      cases hq
      subst he
      rw [regp, hheap]
      refine ⟨_, newArray t dims, hptr, by simp, rfl, newArray_wf _ _, fun s hs' => ⟨_, C04_history t dims [] s hs', ?_⟩⟩
      exact default_holds (by exact old _ _ hh.1) t
    next hne => exact olds q c hq hne
  · intro q c hq
    simp only [World.set] at hq
    split at hq
    next he =>
      cases hq
      subst he
      exact ⟨_, hp, rfl, rfl, fun _ => default_ty t⟩
    · exact h.models.typed q c hq
  · rw [hfp]
    have fresh : ∀ q t' d' f', w.mem q = some (.arr t' d' f') → q ≠ p → DatumPtr.ofU64 (m1.regs (q.index m.fp)) ≠ some (.heap m.heap.data.length) := by
      intro q t' d' f' hq hne hc
      obtain ⟨j, b, k1, k2, _⟩ := h.models.cells _ _ hq
      rw [reg _ (others q _ hq hne), k1] at hc
      cases hc
      have := (List.getElem?_eq_some_iff.1 k2).1
      omega
    intro q q' t1 d1 f1 t2 d2 f2 j h1 h2 h3 h4
    simp only [World.set] at h1 h2
    split at h1
    next he1 =>
      subst he1
      rw [regp, hptr] at h3
      cases h3
      split at h2
      next he2 => exact he2.symm
      next hne => exact absurd h4 (fresh _ _ _ _ h2 hne)
    next hne1 =>
      split at h2
      next he2 =>
        subst he2
        rw [regp, hptr] at h4
        cases h4
        exact absurd h3 (fresh _ _ _ _ h1 hne1)
      next hne2 =>
        rw [reg _ (others q _ h1 hne1)] at h3
        rw [reg _ (others q' _ h2 hne2)] at h4
        exact h.models.apart _ _ _ _ _ _ _ _ j h1 h2 h3 h4

end

section
variable {F : FloatOps} {L : Link} [Answers L.img] {S : Decls} {cl : Calls} {d : Nat} (hS : Shares L S) (hcl : CallsOk F L S cl d) {T : Targets}
include hS hcl

theorem sim_arrayAssign {v : VarRef} {pos : LineCol} {subs : List Expr} {e : Expr} {c c' : Ctx} {u : Unit} {Γ : Env} (hg : GOk c.cg)
    (hs : Scope c.sy Γ) (h : compileArrayAssign v pos subs e c = .ok (u, c')) {lo : Nat} (hlo : lo ≤ c.cg.code.length)
    (hl : Linked L.img L.gf lo c'.cg) (hw : L.Within c.sy) {n : Nat} {w : World} {m : Mach} (ha : At L.img (wide S Γ) d w m c.cg.code.length) :
    SPost F L.img (wide S Γ) T (Inside L.img lo) w m c'.cg.code.length (execStmt F n cl Γ (.arrayAssign v pos subs e) w) := by
  have hwd := wide_wider hS hs hw
  obtain ⟨g', h', rfl⟩ := withSyms_ok.1 h
  replace h := h'
  simp only [hs.syms.lookup v] at h
  unfold Spec.lookup at h
  simp only [execStmt]
  cases hn : nameRef Γ.locals Γ.shared v with
  | wrongType => trivial
  | undefined => trivial
  | var p q =>
    cases q with
    | scalar t => trivial
    | array t nd =>
      rw [hn] at h
      simp only at h ⊢
      split at h
      · cases h
      next hnd =>
        obtain ⟨val, g1, h1, h⟩ := CM.bind_ok.1 h
        obtain ⟨_, h2, h1⟩ := CM.lift_ok.1 h1
        cases h1
        obtain ⟨_, g2, h3, h⟩ := CM.bind_ok.1 h
        obtain ⟨_, g3, h4, h⟩ := CM.bind_ok.1 h
        obtain ⟨first, g3', h5, h⟩ := CM.bind_ok.1 h
        obtain ⟨_, h6, h5⟩ := CM.lift_ok.1 h5
        cases h5
        cases h
        have st : Start L.img (wide S Γ) d lo c.cg w m := ⟨hg, hlo, ha.pc, ha.quiet, ha.models, ha.depth, ha.low⟩
        have htr := temp_reg h2
        have hfr := first_reg h6
        have e1 := GStep.compileExprAs _ _ _ _ _ _ _ _ hg.lens h3
        have hg2 := hg.ext e1
        have e2 := GStep.compileSubs _ _ _ _ _ _ _ hg2.lens h4
        have hg3 := hg2.ext e2
        have hl3 := hl.mono (gext_push rfl fun _ => .plain rfl) hg3
        have hrm := compileSubs_room (by have : first.toNat < 256 := first.isLt; omega) h4
        rw [ofList_length] at hrm
        obtain ⟨t1, t2, t3⟩ := temp_low hS hs hw ha.models htr
        have := sim_as hS hcl hs hw (cf := False) e h3 st (hl3.mono e2 hg2) t1 (by omega) (by simp) (by omega) (by omega)
        refine this.then (fun _ h => h) (fun j hj => ⟨.inl hj.1, by have := hj.2; omega, by have := hj.2; omega⟩) (fun _ _ _ h => h) ?_
        rintro x w1 m1 p1 pc1 md1 d1 ⟨hx1, hx2⟩ _
        have st1 := st.next e1 pc1 p1.act md1
        have hsub := (sim_subs hs.syms hwd (hcl.fn hs hw) (cf := False) (Args.ofList subs) h4 st1 hl3 (by simp)).weaken
          (K' := fun j => (64 ≤ j ∨ False) ∧ j < m1.fp + c.sy.nlocals + 1 ∧ True)
          (h' := fun is m' => (∃ ns : List I32, is = ns.map BitVec.toInt ∧ ns.length = (Args.ofList subs).length ∧
            ∀ (j : Nat) (i : I32), ns[j]? = some i → m'.regs (m1.fp + c.sy.nlocals + 1 + j) = ofI32 i) ∧
            Holds L.img.constants m'.heap x (m'.get val)) (fun _ h => h)
          (fun a w' m' s' k' h' => ⟨h', Holds.kept k' hx2 (get_kept k' s' (by
            rw [regIndex_act p1.act, t2, p1.act.fp]
            exact ⟨.inl (by omega), by omega, trivial⟩))⟩)
        refine hsub.then (fun _ h => h) (fun j hj => ⟨.inl hj.1, by have := hj.2; omega, trivial⟩) (fun _ _ _ h => h) ?_
        rintro is w2 m2 p2 pc2 md2 d2 ⟨⟨ns, rfl, hlen, his⟩, hx⟩ _
        have st2 := st1.next e2 pc2 p2.act md2
        unfold store
        cases hm : w2.mem p with
        | none => trivial
        | some cell =>
          cases cell with
          | scalar => trivial
          | arr ty dims elem =>
            simp only
            obtain ⟨q, hq, hof⟩ := md2.typed _ _ hm
            rw [hwd.proto (nameRef_var hn)] at hq
            cases hq
            obtain ⟨rfl, hnd', hty⟩ := hof
            obtain ⟨i, a, ha1, ha2, ha3, ha4, ha5⟩ := md2.cells _ _ hm
            obtain ⟨f1, f2⟩ := hl.fetch hg3 st2.lo
            obtain ⟨q1, q2⟩ := place_reg_lt hs.syms.small (nameRef_var hn)
            rw [ofList_length] at hlen
            have hnl : ns.length = nd := by omega
            have hacc : m2.arrayAccess (BitVec.ofNat 8 p.reg) first = some (i, a, ns.map BitVec.toInt) := by
              unfold Mach.arrayAccess
              rw [place_get q1 q2, ha1]
              have hil : a.dimensions.length = ns.length := by rw [ha3]; omega
              have := readLocals_eq (m := m2) (first := first) (by omega) (is := ns) (k := 0) (by omega) (by
                intro j x hx
                rw [← his j x hx, p2.act.fp]
                congr 1; omega)
              simp only [Option.bind_eq_bind, Option.bind_some, DatumPtr.heapIndex, ha2, hil, this]
              rfl
            cases hbad : badSubscript dims (ns.map BitVec.toInt) with
            | some e =>
              refine SPost.fault (by rw [pc2]; exact f1) ?_ (by rw [pc2]; exact f2) p2.act.quiet md2
              show doStoreArray _ _ _ _ = _
              unfold doStoreArray
              simp only [hacc]
              rw [store_bad (v := m2.get val) (by rw [ha3, List.length_map]; omega) (by rw [ha3]; exact hbad)]
            | none =>
              have hb := badSubscript_none (by simp; omega) hbad
              obtain ⟨a', hst, _, _, _⟩ := C04_store_load a ha4 (ns.map BitVec.toInt) (ns.map BitVec.toInt) (m2.get val) (ha3 ▸ hb) (ha3 ▸ hb)
              obtain ⟨m3, p3, pc3, md3⟩ := write_elem (F := F) ((p1.trans p2).at ha pc2 md2) hm f1 hacc ha1 ha2 ha3 ha4 hst hb ha5 hx hx1
              exact ⟨m3, p3, by rw [pc3]; simp [Codegen.push], md3⟩

omit hS hcl in
theorem add_fewer {Γ : Env} (sh : Bool) (k : Str) (p : Proto) : Fewer (wide S Γ) (wide S (Γ.add sh k p)) := (Grow.add _ _ _ _).fewer S

omit hS hcl in
theorem add_proto {Γ : Env} (sh : Bool) (k : Str) (p : Proto) : (Γ.add sh k p).proto (Γ.next sh) = some p := by
  cases sh <;> simp [Env.add, Env.next, Env.proto, Env.addLocal]

theorem sim_dimArray {name : Str} {pos : LineCol} {sh : Bool} {dims : List Expr} {ty : ExprType} {c c' : Ctx} {u : Unit} {Γ : Env} (hg : GOk c.cg)
    (hs : Scope c.sy Γ) (h : compileDimArray name pos sh dims ty c = .ok (u, c')) {lo : Nat} (hlo : lo ≤ c.cg.code.length)
    (hl : Linked L.img L.gf lo c'.cg) (hw : L.Within c'.sy) {n : Nat} {w : World} {m : Mach} (ha : At L.img (wide S Γ) d w m c.cg.code.length) :
    SPost F L.img (wide S (Γ.add sh (symKey name) (.array ty dims.length))) T (Inside L.img lo) w m c'.cg.code.length
      (execStmt F n cl Γ (.dimArray name pos sh dims ty) w) := by
  unfold compileDimArray at h
  obtain ⟨reg, c1, h1, h⟩ := CM.bind_ok.1 h
  obtain ⟨hs1, hreg, hcg⟩ := dimVar_ok hs h1
  obtain ⟨g', h', rfl⟩ := withSyms_ok.1 h
  replace h := h'
  replace hw : L.Within c1.sy := hw
  have hwd := wide_wider hS hs1 hw
  obtain ⟨_, g2, h3, h⟩ := CM.bind_ok.1 h
  obtain ⟨first, g2', h5, h⟩ := CM.bind_ok.1 h
  obtain ⟨_, h6, h5⟩ := CM.lift_ok.1 h5
  cases h5
  have hfew := add_fewer (S := S) (Γ := Γ) sh (symKey name) (.array ty dims.length)
  have ha' : At L.img (wide S (Γ.add sh (symKey name) (.array ty dims.length))) d w m c.cg.code.length := ha.less rfl rfl (fun _ _ h => h) fun p q _ => hfew p q
  have key : ∃ packed, PackedArrayType.new ty dims.length = some packed ∧ g' = g2.push (.allocArray reg packed first) pos := by
    cases dims with
    | nil => cases h
    | cons e es =>
      cases hp : PackedArrayType.new ty (e :: es).length with
      | none => rw [hp] at h; cases h
      | some packed => rw [hp] at h; cases h; exact ⟨_, rfl, rfl⟩
  obtain ⟨packed, hpk, rfl⟩ := key
  obtain ⟨hpk1, hpk2⟩ : packed.subtype = some ty ∧ packed.ndims = dims.length := by
    by_cases h15 : dims.length ≤ 15
    · obtain ⟨p, k1, k2, k3⟩ := (C02_packedArrayType ty dims.length).1 h15
      rw [hpk] at k1; cases k1; exact ⟨k2, k3⟩
    · rw [(C02_packedArrayType ty dims.length).2 (by omega)] at hpk; cases hpk
  rw [hcg] at h3
  have st : Start L.img (wide S (Γ.add sh (symKey name) (.array ty dims.length))) d lo c.cg w m := ⟨hg, hlo, ha.pc, ha.quiet, ha'.models, ha.depth, ha.low⟩
  have e2 := GStep.compileSubs _ _ _ _ _ _ _ hg.lens h3
  have hg2 := hg.ext e2
  have hl2 := hl.mono (gext_push rfl fun _ => .plain rfl) hg2
  have hfr := first_reg h6
  have hrm := compileSubs_room (by have : first.toNat < 256 := first.isLt; omega) h3
  rw [ofList_length] at hrm
  simp only [execStmt]
  refine (sim_subs hs1.syms hwd (hcl.fn hs1 hw) (cf := False) (Args.ofList dims) h3 st hl2 (by simp)).then
    (fun _ h => h) (fun j hj => ⟨.inl hj.1, by have := hj.2; omega, trivial⟩) (fun _ _ _ h => h) ?_
  rintro is w2 m2 p2 pc2 md2 d2 ⟨ns, rfl, hlen, his⟩ _
  have st2 := st.next e2 pc2 p2.act md2
  obtain ⟨f1, f2⟩ := hl.fetch hg2 st2.lo
  rw [ofList_length] at hlen
  have hread : m2.readLocals first 0 packed.ndims = some ns := by
    rw [hpk2, ← hlen]
    refine readLocals_eq (by omega) (by omega) ?_
    intro j x hx
    rw [← his j x hx, p2.act.fp]
    congr 1; omega
  unfold allocate
  cases hbad : badDim 0 (ns.map BitVec.toInt) with
  | some i =>
    refine SPost.fault (by rw [pc2]; exact f1) ?_ (by rw [pc2]; exact f2) p2.act.quiet md2
    show doAllocArray _ _ _ _ = _
    unfold doAllocArray
    simp only [hpk1, hread, checkDims_bad hbad]
  | none =>
    simp only
    split
    · trivial
    next hsz =>
      have hex : execInstr F L.img.constants m2 (.allocArray reg packed first) =
          match m2.heap.push (.array (newArray ty ((ns.map BitVec.toInt).map Int.toNat))) with
          | none => m2.raise .outOfHeap
          | some (p, h) => .cont ({ m2 with heap := h }.set reg p).next := by
        show doAllocArray _ _ _ _ = _
        unfold doAllocArray
        simp only [hpk1, hread, checkDims_good hbad]
        rw [if_neg (by rw [foldl_mul, Nat.one_mul]; omega)]
        cases m2.heap.push (.array (newArray ty ((ns.map BitVec.toInt).map Int.toNat))) <;> rfl
      split
      next hroom =>
        refine SPost.fault (by rw [pc2]; exact f1) ?_ (by rw [pc2]; exact f2) p2.act.quiet md2
        rw [hex]
        have : m2.heap.push (.array (newArray ty ((ns.map BitVec.toInt).map Int.toNat))) = none := by
          rw [C05_push_fail]
          refine ⟨by simp, ?_⟩
          have := md2.room
          omega
        rw [this]
      next hroom =>
        obtain ⟨m3, p3, pc3, md3⟩ := write_array (F := F) (p := Γ.next sh) (t := ty) (dims := (ns.map BitVec.toInt).map Int.toNat) (dst := reg)
          hwd.small (p2.at ha' pc2 md2) (by
            rw [hwd.proto (add_proto sh _ _)]
            simp [hlen]) hreg f1 hroom (by
            intro ptr hp hpush
            rw [hex, hpush])
        exact ⟨m3, p3, by rw [pc3]; simp [Codegen.push], md3⟩

/-! ## Other simple statements -/

omit hcl in
theorem sim_dim {name : Str} {pos : LineCol} {sh : Bool} {ty : ExprType} {c c' : Ctx} {u : Unit} {Γ : Env} (hg : GOk c.cg)
    (hs : Scope c.sy Γ) (h : compileStmtBody (.dim name pos sh ty) c = .ok (u, c')) {lo : Nat} (hlo : lo ≤ c.cg.code.length)
    (hl : Linked L.img L.gf lo c'.cg) (hw : L.Within c'.sy) {n : Nat} {w : World} {m : Mach} (ha : At L.img (wide S Γ) d w m c.cg.code.length) :
    SPost F L.img (wide S (Γ.add sh (symKey name) (.scalar ty))) T (Inside L.img lo) w m c'.cg.code.length (execStmt F n cl Γ (.dim name pos sh ty) w) := by
  obtain ⟨reg, c1, h1, h2⟩ := CM.bind_ok.1 (show (dimVar name pos sh (.scalar ty) >>= fun reg => onCg (emitDefault reg ty pos) : CS Unit) c = _ from h)
  obtain ⟨hs1, hreg, hcg⟩ := dimVar_ok hs h1
  obtain ⟨g', h3, rfl⟩ := onCg_ok.1 h2
  replace hw : L.Within c1.sy := hw
  have hwd := wide_wider hS hs1 hw
  have hpr := hwd.proto (add_proto sh (symKey name) (.scalar ty))
  have hfew := add_fewer (S := S) (Γ := Γ) sh (symKey name) (.scalar ty)
  have ha' : At L.img (wide S (Γ.add sh (symKey name) (.scalar ty))) d w m c.cg.code.length := ha.less rfl rfl (fun _ _ h => h) fun p q _ => hfew p q
  have hr : reg = BitVec.ofNat 8 (Γ.next sh).reg := by
    apply BitVec.eq_of_toNat_eq
    rw [place_toNat hwd.small hpr, hreg]
  obtain ⟨i, hi1, hi2⟩ : ∃ i, g' = c1.cg.push i pos ∧
      execInstr F L.img.constants m i = .cont (m.set reg (if ty = .text then ptrForHeap 0 else 0#64)).next := by
    cases ty <;> cases h3 <;> exact ⟨_, rfl, rfl⟩
  subst hi1
  rw [hcg] at hl
  simp only [execStmt]
  obtain ⟨f1, f2⟩ := hl.fetch hg hlo
  obtain ⟨m1, p1, pc1, md1⟩ := write_place (F := F) (v := defaultVal ty) hwd.small ha' hpr f1 (by rw [hi2, hr]) (default_ty ty)
    (default_holds ha.models.heap.1 ty)
  exact ⟨m1, p1, by rw [pc1]; simp [Codegen.push, hcg], md1⟩

theorem sim_end {code : Option Expr} {pos : LineCol} {c c' : Ctx} {u : Unit} {Γ : Env} (hg : GOk c.cg)
    (hs : Scope c.sy Γ) (h : compileEnd code pos c = .ok (u, c')) {lo : Nat} (hlo : lo ≤ c.cg.code.length)
    (hl : Linked L.img L.gf lo c'.cg) (hw : L.Within c'.sy) {n : Nat} {w : World} {m : Mach} (ha : At L.img (wide S Γ) d w m c.cg.code.length) :
    SPost F L.img (wide S Γ) T (Inside L.img lo) w m c'.cg.code.length (execStmt F n cl Γ (.end code pos) w) := by
  obtain ⟨reg, g1, h1, hy, h2, hcg⟩ := compileEnd_sy h
  rw [hy] at hw
  rw [hcg] at hl
  have hwd := wide_wider hS hs hw
  have htr := temp_reg h1
  obtain ⟨t1, t2, t3⟩ := temp_low hS hs hw ha.models htr
  have st : Start L.img (wide S Γ) d lo c.cg w m := ⟨hg, hlo, ha.pc, ha.quiet, ha.models, ha.depth, ha.low⟩
  cases code with
  | none =>
    cases h2
    have hg1 : GOk (c.cg.push (.loadInt reg 0#16) pos) := hg.push rfl _
    have hl1 := hl.mono (gext_push rfl fun _ => .plain rfl) hg1
    obtain ⟨f1, _⟩ := hl1.fetch hg hlo
    obtain ⟨f2, _⟩ := hl.fetch hg1 (by simp [Codegen.push]; omega)
    have hpc1 : (m.set reg 0#64).next.pc = (c.cg.push (.loadInt reg 0#16) pos).code.length := by
      simp [Mach.next, Mach.set, Codegen.push, ha.pc]
    refine ⟨(m.set reg 0#64).next, Go.one (by rw [ha.pc]; exact f1) rfl ha.quiet, ⟨_, 0#8, by rw [hpc1]; exact f2, ?_, rfl⟩,
      kept_set ha.models hwd.small t1 _ ?_, models_set ha.models hwd.small t1 _⟩
    · show (match exitCodeTryNew (toI32 ((m.set reg 0#64).next.get reg)).toInt with
        | some c => _
        | none => _) = _
      rw [set_get]
      rfl
    · rw [t2]; rintro ⟨_, h⟩; omega
  | some e =>
    replace h2 : compileExprAs c.sy e 1 reg .integer c.cg = .ok ((), g1) := h2
    have e1 := GStep.compileExprAs _ _ _ _ _ _ _ _ hg.lens h2
    have hg1 := hg.ext e1
    simp only [execStmt]
    have := sim_as hS hcl hs hw (cf := False) e h2 st (hl.mono (gext_push rfl fun _ => .plain rfl) hg1) t1 (by omega) (by simp) (by omega) (by omega)
    refine this.then (fun _ h => h) (fun j hj => ⟨.inl hj.1, by have := hj.2; omega, by have := hj.2; omega⟩) (fun _ _ _ h => h) ?_
    rintro x w1 m1 p1 pc1 md1 d1 ⟨hx1, hx2⟩ _
    have st1 := st.next e1 pc1 p1.act md1
    obtain ⟨f1, f2⟩ := hl.fetch hg1 st1.lo
    unfold finish
    cases x with
    | bool | dbl | text => trivial
    | int i =>
      have hx : m1.get reg = ofI32 i := hx2
      have hex : execInstr F L.img.constants m1 (.end reg) = match exitCodeTryNew i.toInt with
          | some c => .stop (.end c) m1
          | none => m1.raise .badExitCode := by
        show (match exitCodeTryNew (toI32 (m1.get reg)).toInt with
          | some c => _
          | none => _) = _
        rw [hx, C06_register_roundtrip]
      simp only
      split
      next hr =>
        refine ⟨m1, .refl _ _, ⟨_, BitVec.ofInt 8 i.toInt, by rw [pc1]; exact f1, ?_, ?_⟩, .refl _ _ _ _, md1⟩
        · rw [hex]; unfold exitCodeTryNew; rw [if_pos hr]
        · rw [BitVec.toNat_ofInt]; omega
      next hr =>
        refine SPost.fault (by rw [pc1]; exact f1) ?_ (by rw [pc1]; exact f2) p1.act.quiet md1
        rw [hex]; unfold exitCodeTryNew; rw [if_neg hr]

omit hS hcl in
theorem defineNewArgs_none : ∀ {syns : List SingSyn} {params : List ExprType} {args : Args} {c c' : Ctx} {u : Unit},
    List.Forall₂ (fun (s : SingSyn) t => ∃ n sep, s = .reqValue n t sep) syns params →
    defineNewArgs none syns args c = .ok (u, c') → c' = c
  | [], _, .nil, c, c', u, _, h => by cases h; rfl
  | [], _, .skip _ _ rest, c, c', u, hf, h => defineNewArgs_none (args := rest) hf h
  | [], _, .cons e _ _ rest, c, c', u, hf, h => by
    cases e with
    | sym v pos => exact defineNewArgs_none (args := rest) hf h
    | _ => exact defineNewArgs_none (args := rest) hf h
  | s :: syns, _, .nil, c, c', u, hf, h => by
    cases hf with
    | cons hs hf => obtain ⟨_, _, rfl⟩ := hs; cases h
  | s :: syns, _, .skip _ _ rest, c, c', u, hf, h => by
    cases hf with
    | cons hs hf => obtain ⟨_, _, rfl⟩ := hs; exact defineNewArgs_none (args := rest) hf h
  | s :: syns, _, .cons e _ _ rest, c, c', u, hf, h => by
    cases hf with
    | cons hs hf => obtain ⟨_, _, rfl⟩ := hs; exact defineNewArgs_none (args := rest) hf h

/-! ## Calls of commands -/

/-- Variables are declared one after the other. -/
def DefOuts : Ctx → List VarRef → Ctx → Prop
  | c, [], c' => c' = c
  | c, v :: vs, c' => ∃ pos c1, defineIfNew v pos c = .ok ((), c1) ∧ DefOuts c1 vs c'

omit hS hcl in
theorem defOuts_of (rep : Option RepSyn) (syns : List SingSyn) (args : Args) {c c' : Ctx} {u : Unit}
    (h : defineNewArgs rep syns args c = .ok (u, c')) : DefOuts c (outVars rep syns args) c' := by
  match args with
  | .nil =>
    have : c' = c ∧ outVars rep syns .nil = [] := by
      cases syns with
      | nil => cases h; exact ⟨rfl, rfl⟩
      | cons s syns => cases s <;> cases h <;> exact ⟨rfl, rfl⟩
    rw [this.1, this.2]
    rfl
  | .skip _ _ rest =>
    cases syns with
    | nil => unfold EB.defineNewArgs at h; unfold outVars; exact defOuts_of rep _ rest h
    | cons s syns => cases s <;> (unfold EB.defineNewArgs at h; unfold outVars; exact defOuts_of rep _ rest h)
  | .cons e _ _ rest =>
    cases syns with
    | nil =>
      cases e with
      | sym v pos =>
        unfold EB.defineNewArgs at h
        unfold outVars
        simp only at h
        split at h
        next hr =>
          rw [if_pos hr]
          obtain ⟨_, c1, h1, h2⟩ := CM.bind_ok.1 h
          exact ⟨pos, c1, h1, defOuts_of rep _ rest h2⟩
        next hr =>
          rw [if_neg hr]
          exact defOuts_of rep _ rest h
      | _ => unfold EB.defineNewArgs at h; unfold outVars; exact defOuts_of rep _ rest h
    | cons s syns =>
      cases s with
      | reqRef a b d sep =>
        cases d with
        | false => cases e <;> (unfold EB.defineNewArgs at h; unfold outVars; exact defOuts_of rep _ rest h)
        | true =>
          cases e with
          | sym v pos =>
            unfold EB.defineNewArgs at h
            unfold outVars
            obtain ⟨_, c1, h1, h2⟩ := CM.bind_ok.1 h
            exact ⟨pos, c1, h1, defOuts_of rep _ rest h2⟩
          | _ => unfold EB.defineNewArgs at h; unfold outVars; exact defOuts_of rep _ rest h
      | _ => cases e <;> (unfold EB.defineNewArgs at h; unfold outVars; exact defOuts_of rep _ rest h)
termination_by structural args

omit hS hcl in
/-- Whether a variable is new, and what happens then. -/
theorem defineIfNew_cases {v : VarRef} {pos : LineCol} {c c' : Ctx} {u : Unit} {Γ : Env}
    (hs : Scope c.sy Γ) (h : defineIfNew v pos c = .ok (u, c')) :
    (c' = c ∧ ¬ (nameRef Γ.locals Γ.shared v = .undefined ∧ Γ.callable (symKey v.name) = none)) ∨
    (nameRef Γ.locals Γ.shared v = .undefined ∧ Γ.callable (symKey v.name) = none ∧
      ∃ reg sy i, c.sy.putLocal (symKey v.name) (.scalar (v.ty.getD .integer)) = .ok (reg, sy) ∧
        c' = { c with sy := sy, cg := c.cg.push i pos } ∧ i.plain = true ∧
        ∀ (F : FloatOps) (cs : List ConstantDatum) (m : Mach),
          execInstr F cs m i = .cont (m.set reg (if v.ty.getD .integer = .text then ptrForHeap 0 else 0#64)).next) := by
  unfold defineIfNew at h
  split at h
  next w hg =>
    rw [hs.syms.lookup] at hg
    have hn := lookup_undefined hg
    split at h
    next md hc =>
      cases h
      refine .inl ⟨rfl, ?_⟩
      rintro ⟨_, h2⟩
      rw [← hs.callable_none, hc] at h2; cases h2
    next hc =>
      refine .inr ⟨hn, (hs.callable_none _).1 hc, ?_⟩
      unfold defineNewArg at h
      obtain ⟨r, c1, h1, h2⟩ := CM.bind_ok.1 h
      obtain ⟨sy, hp, rfl⟩ := putLocalS_ok.1 h1
      obtain ⟨g, h3, rfl⟩ := onCg_ok.1 h2
      generalize v.ty.getD .integer = t at *
      cases t <;> cases h3 <;> exact ⟨r, sy, _, hp, rfl, rfl, fun _ _ _ => rfl⟩
  next hg =>
    cases h
    refine .inl ⟨rfl, ?_⟩
    rintro ⟨h2, _⟩
    rw [hs.syms.lookup] at hg
    unfold Spec.lookup at hg
    rw [h2] at hg
    exact hg _ rfl

omit hS hcl in
theorem defOuts_ext {vs : List VarRef} : ∀ {c c' : Ctx} {Γ : Env}, Scope c.sy Γ → GOk c.cg → DefOuts c vs c' →
    Scope c'.sy (vs.foldl defineOut Γ) ∧ GExt c.cg c'.cg ∧ c'.sy.user = c.sy.user ∧ c'.sy.globals = c.sy.globals := by
  induction vs with
  | nil => intro c c' Γ hs hg h; cases h; exact ⟨hs, .refl _, rfl, rfl⟩
  | cons v vs ih =>
    rintro c c' Γ hs hg ⟨pos, c1, h1, h2⟩
    have hs1 := defineIfNew_scope hs h1
    rcases defineIfNew_cases hs h1 with ⟨rfl, _⟩ | ⟨_, _, reg, sy, i, hp, rfl, hi, _⟩
    · exact ih hs1 hg h2
    · have e1 : GExt c.cg (c.cg.push i pos) := gext_push (Instr.plain_refs hi).1 (fun _ => .plain hi) (Instr.plain_eof hi)
      obtain ⟨k1, k2, k3, k4⟩ := ih hs1 (hg.ext e1) h2
      obtain ⟨_, _, rfl⟩ := putLocal_ok hp
      exact ⟨k1, e1.trans k2, k3, k4⟩

omit hcl in
/-- The variables that the call of a command declares. -/
theorem sim_outs {vs : List VarRef} : ∀ {c c' : Ctx} {Γ : Env} {w : World} {m : Mach} {lo : Nat}, Scope c.sy Γ → GOk c.cg → DefOuts c vs c' →
    lo ≤ c.cg.code.length → Linked L.img L.gf lo c'.cg → L.Within c'.sy → At L.img (wide S Γ) d w m c.cg.code.length →
    ∃ m1, Passes F L.img w m (initOuts Γ vs w) m1 ∧ At L.img (wide S (vs.foldl defineOut Γ)) d (initOuts Γ vs w) m1 c'.cg.code.length := by
  induction vs with
  | nil => intro c c' Γ w m lo hs hg h hlo hl hw ha; cases h; exact ⟨m, .refl ha.quiet, ha⟩
  | cons v vs ih =>
    rintro c c' Γ w m lo hs hg ⟨pos, c1, h1, h2⟩ hlo hl hw ha
    have hs1 := defineIfNew_scope hs h1
    rw [show initOuts Γ (v :: vs) w = initOuts (defineOut Γ v) vs
      (if nameRef Γ.locals Γ.shared v = .undefined ∧ Γ.callable (symKey v.name) = none then
        w.set (.local Γ.locals.length) (some (.scalar (defaultVal (v.ty.getD .integer))))
      else w) from rfl, List.foldl_cons]
    rcases defineIfNew_cases hs h1 with ⟨rfl, hn⟩ | ⟨hn1, hn2, reg, sy, i, hp, rfl, hi, hex⟩
    · rw [if_neg hn]
      have hd : defineOut Γ v = Γ := by unfold defineOut; rw [if_neg hn]
      rw [hd] at hs1 ⊢
      exact ih hs1 hg h2 hlo hl hw ha
    · rw [if_pos ⟨hn1, hn2⟩]
      have hd : defineOut Γ v = Γ.addLocal (symKey v.name) (.scalar (v.ty.getD .integer)) := by unfold defineOut; rw [if_pos ⟨hn1, hn2⟩]
      rw [hd] at hs1 ⊢
      have e1 : GExt c.cg (c.cg.push i pos) := gext_push (Instr.plain_refs hi).1 (fun _ => .plain hi) (Instr.plain_eof hi)
      obtain ⟨_, k2, k3, k4⟩ := defOuts_ext hs1 (hg.ext e1) h2
      have hw1 : L.Within sy := hw.same k3.symm k4.symm
      have hwd := wide_wider hS hs1 hw1
      have hpr : (wide S (Γ.addLocal (symKey v.name) (.scalar (v.ty.getD .integer)))).proto (.local Γ.locals.length) = some (.scalar (v.ty.getD .integer)) := by
        simp [Env.proto, wide, Env.addLocal]
      have hfew : Fewer (wide S Γ) (wide S (Γ.addLocal (symKey v.name) (.scalar (v.ty.getD .integer)))) := (Grow.addLocal _ _ _).fewer S
      have ha' := ha.less (w' := w) rfl rfl (fun _ _ h => h) fun p q _ => hfew p q
      obtain ⟨_, hreg, _, _⟩ := hs.put hp
      have hr : reg = BitVec.ofNat 8 (Place.local Γ.locals.length).reg := by
        apply BitVec.eq_of_toNat_eq
        rw [place_toNat hwd.small hpr, hreg]; simp only [Place.reg]; omega
      obtain ⟨f1, f2⟩ := (hl.mono k2 (hg.ext e1)).fetch hg hlo
      obtain ⟨m1, p1, pc1, md1⟩ := write_place (F := F) (v := defaultVal (v.ty.getD .integer)) hwd.small ha' hpr f1 (by rw [hex, hr]) (default_ty _)
        (default_holds ha.models.heap.1 _)
      have ha1 := p1.at (b := (c.cg.push i pos).code.length) ha' (by rw [pc1]; simp [Codegen.push]) md1
      obtain ⟨m2, p2, ha2⟩ := ih hs1 (hg.ext e1) h2 (by have := e1.len; show lo ≤ (c.cg.push i pos).code.length; omega) hl hw ha1
      exact ⟨m2, p1.trans p2, ha2⟩

omit hS hcl in
/-- The call of a command whose arguments are in place. -/
theorem request_spost {img : Image} [Answers img] {Δ : Env} {lo : Nat} {w : World} {m : Mach} {idx : U16} {r : Reg} {k : Str} {as : List (Arg × LineCol)}
    {pos : LineCol}
    (hi : img.code[m.pc]? = some (.upcall idx r) ∨ img.code[m.pc]? = some (.upcallAsync idx r))
    (hup : img.upcalls[idx.toNat]? = some k)
    (hp : (img.instrs[m.pc]?).map (·.linecol) = some pos) (hin : Inside img lo m.pc)
    (hargs : img.argPositions m.pc = slotPositions as) (h64 : 64 ≤ r.toNat) (hq : m.yieldPending = false)
    (hm : Models img.constants Δ m.fp w m) (hs : EnvSmall Δ)
    (hkn : ∀ a ∈ as, a.1.Known Δ)
    (hbel : Passable m.fp (m.fp + (r.toNat - 64)) as)
    (hslots : ∀ (j : Nat) s, (slots as)[j]? = some s →
      HoldsSlot img.constants m.heap m.fp s (m.regs (m.fp + (r.toNat - 64) + j))) :
    SPost F img Δ T (Inside img lo) w m (m.pc + 1) ((w.request (Answers.lib img) k as none pos).then fun _ w => .done w) := by
  have hrun := upcall_runs (F := F) (ret := none) hi hup hp hargs h64 hm hbel (by simpa using hslots)
  simp only at hrun
  unfold World.request
  simp only
  generalize hrep : Answers.lib img w.log w.room ⟨k, none, as, as.map fun a => a.1.place.bind w.mem⟩ = rep at *
  cases hfit : rep.fits as none w.room with
  | false => exact trivial
  | true =>
    obtain ⟨regs', heap', ha, hd⟩ := hrun hfit
    have hmod := models_answered (Γ := Δ) (as := as)
      (w' := { w with mem := assigned w.mem rep.writes, room := w.room - rep.used,
                      log := { w.log with events := w.log.events ++ [(⟨k, none, as, as.map fun a => a.1.place.bind w.mem⟩, rep)] } })
      (m' := { m.next with regs := regs', heap := heap' }) hm hs ha hfit hkn (.inl rfl) rfl rfl hm.trap
    obtain ⟨md1, hheap, hown, hwr⟩ := hmod
    have hkept : Kept m.fp (Low m.fp) w m
        { w with mem := assigned w.mem rep.writes, room := w.room - rep.used,
                 log := { w.log with events := w.log.events ++ [(⟨k, none, as, as.map fun a => a.1.place.bind w.mem⟩, rep)] } }
        { m.next with regs := regs', heap := heap' } := by
      refine ⟨?_, fun i s => hheap i _, fun i a h _ => hheap i _ h, fun i _ h => hown i h, ?_, ha.max⟩
      · intro j hj
        refine ha.others j (.inl rfl) ?_
        rintro p hp rfl
        obtain ⟨t, ht⟩ := hwr p hp
        exact not_low hs ht hj
      · show m.heap.data.length ≤ heap'.data.length
        rw [ha.used]; omega
    simp only [if_true]
    cases hr : rep.result with
    | error pm =>
      obtain ⟨p, msg⟩ := pm
      rw [hr] at hd
      exact ⟨_, m.pc, ⟨_, m, .refl _ _, rfl, hd⟩, hkept, md1, fun _ => ⟨⟨rfl, rfl, rfl, hq⟩, hin⟩⟩
    | ok v =>
      rw [hr] at hd
      refine ⟨{ m.next with regs := regs', heap := heap' }, ⟨Go.step hd ?_, ⟨rfl, rfl, rfl, hq⟩, hkept⟩, rfl, md1⟩
      rw [calm_of_quiet (by exact hq)]; exact .refl _ _

theorem sim_callStmt {v : VarRef} {pos : LineCol} {args : Args} {c c' : Ctx} {u : Unit} {Γ : Env} (hg : GOk c.cg)
    (hs : Scope c.sy Γ) (h : compileCallStmt v pos args c = .ok (u, c')) {lo : Nat} (hlo : lo ≤ c.cg.code.length)
    (hl : Linked L.img L.gf lo c'.cg) (hw : L.Within c'.sy) {n : Nat} {w : World} {m : Mach} (ha : At L.img (wide S Γ) d w m c.cg.code.length) :
    SPost F L.img (wide S (afterStmt Γ (.call v pos args))) T (Inside L.img lo) w m c'.cg.code.length (execStmt F n cl Γ (.call v pos args) w) := by
  unfold compileCallStmt at h
  split at h
  · simp at h
  next md hmd =>
    split at h
    · simp at h
    next hr =>
      split at h
      · simp at h
      next syn hsyn =>
        obtain ⟨_, c1, h1, h2⟩ := CM.bind_ok.1 h
        obtain ⟨g, h3, rfl⟩ := withSyms_ok.1 h2
        simp only [execStmt]
        cases hu : md.userDefined with
        | false =>
          obtain ⟨hb1, hb2⟩ := hs.syms.builtin _ _ hmd hu
          have hret : md.returnType = none := by simpa using hr
          have hout := hs.outs _ md args syn hmd hret hsyn
          rw [hb1, hret]
          simp only
          rw [hb2, hsyn]
          simp only
          rw [show afterStmt Γ (.call v pos args) = (Γ.outs (symKey v.name) args).foldl defineOut Γ from rfl, hout]
          have hdo := defOuts_of _ _ _ h1
          obtain ⟨hs1, e0, k3, k4⟩ := defOuts_ext hs hg hdo
          have hg0 := hg.ext e0
          replace hw : L.Within c1.sy := hw
          have hwd := wide_wider hS hs1 hw
          obtain ⟨⟨first, lcs⟩, g1, h4, h5⟩ := CM.bind_ok.1 h3
          unfold compileArgs at h4
          rw [hsyn] at h4
          simp only at h4
          obtain ⟨⟨nt', lcs'⟩, g1', h6, h4⟩ := CM.bind_ok.1 h4
          obtain ⟨first', g1'', h7, h4⟩ := CM.bind_ok.1 h4
          obtain ⟨_, h8, h7⟩ := CM.lift_ok.1 h7
          cases h7
          cases h4
          simp only at h5
          have hfr := first_reg h8
          have e1 := GStep.compileArgsFrom _ _ _ _ _ _ _ _ _ hg0.lens h6
          have hg1 := hg0.ext e1
          have e2 := GStep.emitCall _ _ _ _ _ _ _ _ _ hg1.lens h5
          obtain ⟨m0, p0, ha0⟩ := sim_outs (F := F) hS hs hg hdo hlo ((hl.mono e2 hg1).mono e1 hg0) hw ha
          have hlo0 := e0.len
          have st : Start L.img (wide S ((outVars syn.repeated syn.singular args).foldl defineOut Γ)) d lo c1.cg
              (initOuts Γ (outVars syn.repeated syn.singular args) w) m0 :=
            ⟨hg0, by omega, ha0.pc, ha0.quiet, ha0.models, ha0.depth, ha0.low⟩
          have hargs := sim_slots hs1.syms hwd (hcl.fn hs1 hw) (cf := False) args rfl h6 st (hl.mono e2 hg1) (by simp)
          refine SPost.after p0 (hargs.then (fun _ h => h) (fun j hj => ⟨.inl hj.1, by have := hj.2; omega⟩) (fun _ _ _ h => h) ?_)
          rintro as w1 m1 p1 pc1 md1 d1 ⟨hsl1, hkn, hsl⟩ _
          have st1 := st.next e1 pc1 p1.act md1
          obtain ⟨hlen, idx, u1, u2, u3, u4, u5⟩ := upcall_code h5 hu hg1 hl st1.lo
          simp only [Prod.mk.injEq, List.nil_append] at hsl1
          rw [← pc1] at u1 u3 u4 u5
          have hreq := request_spost (F := F) (T := T) u1 u2 u3 u4 (u5.trans hsl1.2) (by omega) p1.act.quiet md1 hwd.small hkn (known_below hwd.small md1.base (by rw [hwd.len hs1.syms]; omega) hkn) (by
            intro j sl hj
            have := hsl j sl hj
            rw [show m1.fp + (first.toNat - 64) + j = m0.fp + c1.sy.nlocals + 0 + j by rw [p1.act.fp]; omega, p1.act.fp]
            exact this)
          rw [(hcl.fn hs1 hw).lib]
          show SPost F L.img _ T (Inside L.img lo) w1 m1 g.code.length _
          rw [hlen, ← pc1]
          exact hreq
        | true =>
          refine SPost.grow (Δ := wide S Γ) ((grow_stmt Γ _).fewer S) ?_
          obtain ⟨params, hp, hum⟩ := hs.syms.user _ _ hmd hu
          have hret : md.returnType = none := by simpa using hr
          rw [hret] at hp
          rw [hp]
          simp only
          obtain ⟨sing, hs1, hs2⟩ := hum.syns
          have hsyn' : syn = ⟨sing, none⟩ := by
            unfold Md.findSyntax at hsyn
            rw [hs1] at hsyn
            simp only [List.find?] at hsyn
            split at hsyn <;> simp at hsyn
            exact hsyn.symm
          have hc1 : c1 = c := by rw [hsyn'] at h1; exact defineNewArgs_none hs2 h1
          subst hc1
          replace hw : L.Within c1.sy := hw
          have hwd := wide_wider hS hs hw
          obtain ⟨⟨first, lcs⟩, g1, h4, h5⟩ := CM.bind_ok.1 h3
          unfold compileArgs at h4
          rw [hsyn] at h4
          simp only at h4
          obtain ⟨⟨nt', lcs'⟩, g1', h6, h4⟩ := CM.bind_ok.1 h4
          obtain ⟨first', g1'', h7, h4⟩ := CM.bind_ok.1 h4
          obtain ⟨_, h8, h7⟩ := CM.lift_ok.1 h7
          cases h7
          cases h4
          simp only at h5
          have hfr := first_reg h8
          have st : Start L.img (wide S Γ) d lo c1.cg w m := ⟨hg, hlo, ha.pc, ha.quiet, ha.models, ha.depth, ha.low⟩
          have e1 := GStep.compileArgsFrom _ _ _ _ _ _ _ _ _ hg.lens h6
          have hg1 := hg.ext e1
          have e2 := GStep.emitCall _ _ _ _ _ _ _ _ _ hg1.lens h5
          have hargs := sim_args hs.syms hwd (hcl.fn hs hw) (cf := False) args (params := params) rfl (by rw [hsyn']) (by rw [hsyn']; exact hs2)
            h6 st (hl.mono e2 hg1) (by simp)
          refine hargs.then (fun _ h => h) (fun j hj => ⟨.inl hj.1, by have := hj.2; omega, trivial⟩) (fun _ _ _ h => h) ?_
          rintro vs w1 m1 p1 pc1 md1 d1 ⟨hty, hvs⟩ _
          have st1 := st.next e1 pc1 p1.act md1
          unfold emitCall at h5
          rw [if_pos hu] at h5
          cases h5
          have hlen : (((g1.push .nop pos).setArgs g1.code.length lcs').addFixup g1.code.length (.call first (symKey v.name))).code.length = g1.code.length + 1 := by
            simp [Codegen.push, Codegen.setArgs, Codegen.addFixup]
          have hfx : (((g1.push .nop pos).setArgs g1.code.length lcs').addFixup g1.code.length (.call first (symKey v.name))).fixups.get? g1.code.length
              = some (.call first (symKey v.name)) := by
            simp [Codegen.addFixup, FMap.get?_insert]
          obtain ⟨p, ins, k1, k2⟩ := hl.calls g1.code.length _ st1.lo (by show _ < (((g1.push .nop pos).setArgs g1.code.length lcs').addFixup g1.code.length (.call first (symKey v.name))).code.length; rw [hlen]; omega) hfx
          have hlc := hl.linecols g1.code.length st1.lo (by show _ < (((g1.push .nop pos).setArgs g1.code.length lcs').addFixup g1.code.length (.call first (symKey v.name))).code.length; rw [hlen]; omega)
          have hpos : ((((g1.push .nop pos).setArgs g1.code.length lcs').addFixup g1.code.length (.call first (symKey v.name))).instrs[g1.code.length]?).map (·.linecol)
              = some pos := by
            show ((List.modify _ _ _)[_]?).map _ = _
            rw [List.getElem?_modify]
            simp [Codegen.push, ← st1.ok.lens]
          have := hcl.sub hs hw lo (symKey v.name) params vs pos p first ins w1 m1 T hp k1 (by rw [pc1]; exact k2) (by rw [pc1, hlc]; exact hpos)
            (by rw [pc1]; exact hl.inside _ st1.lo (by show _ < (((g1.push .nop pos).setArgs g1.code.length lcs').addFixup g1.code.length (.call first (symKey v.name))).code.length; rw [hlen]; omega))
            st1.quiet st1.depth st1.low md1
            (by omega) (by
              intro n c hc
              obtain ⟨q, hq, _⟩ := md1.typed _ _ hc
              have := proto_local hq
              have := hwd.len hs.syms
              omega) hty (by
              intro j v hv
              have := hvs j v hv
              rw [show m1.fp + (first.toNat - 64) + j = m1.fp + c1.sy.nlocals + 0 + j by omega, p1.act.fp]
              exact this)
          rw [pc1] at this
          show SPost F L.img _ T (Inside L.img lo) w1 m1 (((g1.push .nop pos).setArgs g1.code.length lcs').addFixup g1.code.length (.call first (symKey v.name))).code.length _
          rw [hlen]
          exact this

omit hS hcl in
/-- `ON ERROR`. -/
theorem arm_lands {img : Image} [Answers img] {Δ : Env} {a b : Nat} {w : World} {m : Mach} {i : Instr} {eh : ErrorHandler} {tr : Trap}
    (ha : At img Δ d w m a) (hc : img.code[a]? = some i) (he : execInstr F img.constants m i = .cont { m with handler := eh }.next)
    (ht : Traps tr eh) (hb : b = a + 1) : Lands F img Δ w m { w with trap := tr } b := by
  obtain ⟨m1, hm1⟩ : ∃ x : Mach, x = { m with handler := eh }.next := ⟨_, rfl⟩
  rw [← hm1] at he
  have hregs : m1.regs = m.regs := by rw [hm1]; rfl
  have hheap : m1.heap = m.heap := by rw [hm1]; rfl
  have hact : SameAct m m1 := by rw [hm1]; exact ⟨rfl, rfl, rfl, ha.quiet⟩
  have hpc : m1.pc = b := by rw [hm1, hb, ← ha.pc]; rfl
  have heh : m1.handler = eh := by rw [hm1]; rfl
  clear hm1
  refine ⟨m1, ⟨Go.one (by rw [ha.pc]; exact hc) he hact.quiet, hact, ?_⟩, hpc, ?_⟩
  · refine ⟨fun _ _ => by rw [hregs], fun _ _ h => by rw [hheap]; exact h, fun _ _ h _ => by rw [hheap]; exact h, ?_, by rw [hheap], by rw [hheap]⟩
    rintro j _ ⟨p, t, d, f, h1, h2⟩
    rw [hregs] at h2
    exact ⟨p, t, d, f, h1, h2⟩
  · rw [hact.fp]
    refine ha.models.write rfl (fun _ _ h => by rw [hheap]; exact h) (by rw [hheap]; exact ha.models.heap.2) (by rw [hheap]; exact ha.models.room)
      (fun _ _ _ => by rw [hregs]) (by rw [heh]; exact ht)

/-- A statement without parts and jumps. -/
theorem sim_simple {s : Stmt} (hsim : s.simple = true) {sy sy' : Syms} {Γ : Env} {a b : Nat} (hp : Part L (compileStmtBody s) sy a b sy')
    (hs : Scope sy Γ) {n : Nat} {w : World} {m : Mach} (ha : At L.img (wide S Γ) d w m a) :
    SPost F L.img (wide S (afterStmt Γ s)) T (Inside L.img a) w m b (execStmt F n cl Γ s w) := by
  obtain ⟨c, c', h, hi, rfl, rfl, rfl, rfl, hg, hl, hw⟩ := hp
  cases s with
  | assign v pos e =>
    simp only [execStmt]
    exact sim_assign hS hcl hi hs h (Nat.le_refl _) hl hw ha
  | arrayAssign v pos subs e =>
    have hy : c'.sy = c.sy := arrayAssign_sy h
    exact sim_arrayAssign hS hcl hg hs h (Nat.le_refl _) hl (hy ▸ hw) ha
  | call v pos args => exact sim_callStmt hS hcl hg hs h (Nat.le_refl _) hl hw ha
  | data vs =>
    obtain ⟨ds, c1, h1, h2⟩ := CM.bind_ok.1 (show (CM.lift (dataConsts vs) >>= fun ds => CM.modify fun c => { c with data := c.data ++ ds } : CS Unit) c = _ from h)
    obtain ⟨_, h3, h1⟩ := CM.lift_ok.1 h1
    cases h1
    cases h2
    simp only [execStmt]
    exact ⟨m, .refl ha.quiet, ha.pc, ha.models⟩
  | declare name pos ps =>
    replace h : (do
      let c ← CM.get
      if c.cur.isSome then CM.throw (.cannotNest pos)
      else declareCallable name pos ps : CS Unit) c = .ok ((), c') := h
    obtain ⟨c0, c1, h1, h2⟩ := CM.bind_ok.1 h
    cases h1
    simp only [execStmt]
    split at h2
    · cases h2
    · obtain ⟨sy, hd, rfl⟩ := declareS_ok h2
      exact ⟨m, .refl ha.quiet, ha.pc, ha.models.grow ((grow_stmt Γ _).fewer S)⟩
  | dim name pos shared ty => exact sim_dim hS hg hs h (Nat.le_refl _) hl hw ha
  | dimArray name pos shared dims ty => exact sim_dimArray hS hcl hg hs h (Nat.le_refl _) hl hw ha
  | «end» code pos => exact sim_end hS hcl hg hs h (Nat.le_refl _) hl hw ha
  | label name pos =>
    replace h : (match c.cg.labels.get? (symKey name) with
      | some _ => Except.error (CErr.duplicateLabel pos name)
      | none => Except.ok ((), { c with cg := { c.cg with labels := c.cg.labels.insert (symKey name) c.cg.code.length } })) = Except.ok ((), c') := h
    simp only [execStmt]
    split at h
    · simp at h
    · cases h; exact ⟨m, .refl ha.quiet, ha.pc, ha.models⟩
  | onError o =>
    simp only [execStmt]
    show Lands F L.img _ w m { w with trap := trapOf o } _
    have key : ∀ {i : Instr} {eh : ErrorHandler} {b : Nat}, L.img.code[c.cg.code.length]? = some i →
        execInstr F L.img.constants m i = .cont { m with handler := eh }.next → Traps (trapOf o) eh → b = c.cg.code.length + 1 →
        Lands F L.img (wide S (afterStmt Γ (.onError o))) w m { w with trap := trapOf o } b :=
      fun hc he ht hb => arm_lands (Δ := wide S Γ) ha hc he ht hb
    cases o with
    | goto label lp pos =>
      have hx := emitFixup_ok.1 (show emitFixup pos (.onErrorGoto label) c = .ok ((), c') from h)
      cases hx
      obtain ⟨p, ins, k1, k2⟩ := hl.calls c.cg.code.length (.onErrorGoto label) (Nat.le_refl _) (by simp [Codegen.push, Codegen.addFixup])
        (by simp [Codegen.addFixup, FMap.get?_insert])
      unfold Codegen.fixupInstr at k1
      simp only at k1
      split at k1
      · cases k1
      next target hlab =>
        split at k1
        next t ht =>
          cases k1
          exact key k2 rfl ⟨_, (hS.labels _ _).2 hlab, by rw [mkTarget_ok ht]⟩ (by simp [Codegen.push, Codegen.addFixup])
        · cases k1
    | reset pos =>
      obtain ⟨_, c1, h1, h2⟩ := CM.bind_ok.1 (show (onCg (emit (.setErrorHandler .none 0#16) pos) >>= fun _ => pure () : CS Unit) c = _ from h)
      cases h2
      obtain ⟨g, h3, rfl⟩ := onCg_ok.1 h1
      cases h3
      exact key (hl.fetch hg (Nat.le_refl _)).1 rfl rfl (by simp [Codegen.push])
    | resumeNext pos =>
      obtain ⟨_, c1, h1, h2⟩ := CM.bind_ok.1 (show (onCg (emit (.setErrorHandler .resumeNext 0#16) pos) >>= fun _ => pure () : CS Unit) c = _ from h)
      cases h2
      obtain ⟨g, h3, rfl⟩ := onCg_ok.1 h1
      cases h3
      exact key (hl.fetch hg (Nat.le_refl _)).1 rfl rfl (by simp [Codegen.push])
  | _ => simp [Stmt.simple] at hsim

end

end EB
