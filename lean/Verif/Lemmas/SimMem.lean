import Verif.Lemmas.SimRun
import Verif.Props.Mem
/-!
# Memory while an expression is evaluated
-/

namespace EB
open Spec

/-! ## Values -/

theorem Holds.mono {cs : List ConstantDatum} {h h' : Heap} (hh : ∀ (i : Nat) (s : Str), h.data[i]? = some (.text s) → h'.data[i]? = some (.text s))
    {v : Val} {x : BitVec 64} (hv : Holds cs h v x) : Holds cs h' v x := by
  cases v with
  | bool | int | dbl => exact hv
  | text s =>
    replace hv : (DatumPtr.ofU64 x).bind (fun p => p.resolveString cs h) = some s := hv
    show (DatumPtr.ofU64 x).bind (fun p => p.resolveString cs h') = some s
    cases hp : DatumPtr.ofU64 x with
    | none => rw [hp] at hv; simp at hv
    | some p =>
      rw [hp] at hv
      simp only [Option.bind_some] at hv ⊢
      cases p with
      | constant i => exact hv
      | heap i =>
        unfold DatumPtr.resolveString at *
        simp only at hv ⊢
        split at hv
        next s' hs => rw [hh _ _ hs]; exact hv
        · simp at hv

theorem HoldsCell.mono {cs : List ConstantDatum} {h h' : Heap}
    (hh : ∀ (i : Nat) (d : HeapDatum), h.data[i]? = some d → h'.data[i]? = some d)
    {c : Cell} {x : BitVec 64} (hc : HoldsCell cs h c x) : HoldsCell cs h' c x := by
  cases c with
  | scalar v => exact Holds.mono (fun i s => hh i _) hc
  | arr t d f =>
    obtain ⟨i, a, h1, h2, h3, h4, h5⟩ := hc
    refine ⟨i, a, h1, hh _ _ h2, h3, h4, fun s hs => ?_⟩
    obtain ⟨y, hy, hv⟩ := h5 s hs
    exact ⟨y, hy, Holds.mono (fun i s => hh i _) hv⟩

/-! ## Frames -/

/-- Heap entry `i` is the array of a known variable, for the frame at `fp`. -/
def OwnArr (fp : Nat) (w : World) (m : Mach) (i : Nat) : Prop :=
  ∃ p t d f, w.mem p = some (.arr t d f) ∧ DatumPtr.ofU64 (m.regs (p.index fp)) = some (.heap i)

/-- What stays the same: the registers in `K`, strings, and arrays other than those of known variables. -/
structure Kept (fp : Nat) (K : Nat → Prop) (w : World) (m : Mach) (w' : World) (m' : Mach) : Prop where
  regs : ∀ j, K j → m'.regs j = m.regs j
  texts : ∀ (i : Nat) s, m.heap.data[i]? = some (.text s) → m'.heap.data[i]? = some (.text s)
  arrays : ∀ (i : Nat) a, m.heap.data[i]? = some (.array a) → ¬ OwnArr fp w m i → m'.heap.data[i]? = some (.array a)
  owners : ∀ i, i < m.heap.data.length → OwnArr fp w' m' i → OwnArr fp w m i
  len : m.heap.data.length ≤ m'.heap.data.length
  max : m'.heap.maxEntries = m.heap.maxEntries

theorem Kept.refl (fp : Nat) (K : Nat → Prop) (w : World) (m : Mach) : Kept fp K w m w m :=
  ⟨fun _ _ => rfl, fun _ _ h => h, fun _ _ h _ => h, fun _ _ h => h, Nat.le_refl _, rfl⟩

theorem Kept.trans {fp : Nat} {K : Nat → Prop} {w w1 w2 : World} {m m1 m2 : Mach} (h1 : Kept fp K w m w1 m1) (h2 : Kept fp K w1 m1 w2 m2) :
    Kept fp K w m w2 m2 := by
  refine ⟨fun j hj => (h2.regs j hj).trans (h1.regs j hj), fun i s h => h2.texts _ _ (h1.texts _ _ h), ?_, ?_,
    Nat.le_trans h1.len h2.len, h2.max.trans h1.max⟩
  · intro i a ha hn
    have hlt : i < m.heap.data.length := (List.getElem?_eq_some_iff.1 ha).1
    exact h2.arrays _ _ (h1.arrays _ _ ha hn) fun hs => hn (h1.owners _ hlt hs)
  · intro i hi hs
    exact h1.owners _ hi (h2.owners _ (Nat.lt_of_lt_of_le hi h1.len) hs)

theorem Kept.weaken {fp : Nat} {K K' : Nat → Prop} {w w' : World} {m m' : Mach} (h : Kept fp K w m w' m') (hk : ∀ j, K' j → K j) :
    Kept fp K' w m w' m' := ⟨fun j hj => h.regs j (hk j hj), h.texts, h.arrays, h.owners, h.len, h.max⟩

/-- The same activation. -/
structure SameAct (m m' : Mach) : Prop where
  fp : m'.fp = m.fp
  stack : m'.stack = m.stack
  maxStack : m'.maxStack = m.maxStack
  quiet : m'.yieldPending = false

theorem SameAct.trans {a b c : Mach} (h1 : SameAct a b) (h2 : SameAct b c) : SameAct a c :=
  ⟨h2.fp.trans h1.fp, h2.stack.trans h1.stack, h2.maxStack.trans h1.maxStack, h2.quiet⟩

theorem SameAct.refl {m : Mach} (h : m.yieldPending = false) : SameAct m m := ⟨rfl, rfl, rfl, h⟩

/-! ## What is known -/

/-- No known variable is in that register. -/
def FreeReg (w : World) (r : Nat) : Prop := ∀ p c, w.mem p = some c → p.reg ≠ r

/-- The sizes of the symbol tables. -/
structure EnvSmall (Γ : Env) : Prop where
  locals : Γ.locals.length ≤ 192
  shared : Γ.shared.length ≤ 64

theorem proto_local {Γ : Env} {n : Nat} {q : Proto} (h : Γ.proto (.local n) = some q) : n < Γ.locals.length := by
  replace h : Γ.locals[n]?.map (·.2) = some q := h
  cases hx : Γ.locals[n]? with
  | none => rw [hx] at h; simp at h
  | some x => exact (List.getElem?_eq_some_iff.1 hx).1

theorem proto_shared {Γ : Env} {n : Nat} {q : Proto} (h : Γ.proto (.shared n) = some q) : n < Γ.shared.length := by
  replace h : Γ.shared[n]?.map (·.2) = some q := h
  cases hx : Γ.shared[n]? with
  | none => rw [hx] at h; simp at h
  | some x => exact (List.getElem?_eq_some_iff.1 hx).1

/-- Known variables are not in a free register. -/
theorem Spec.Models.index_ne [Labels] {cs : List ConstantDatum} {Γ : Env} {w : World} {m : Mach} (hm : Models cs Γ m.fp w m)
    (hs : EnvSmall Γ) {r : Reg} (hf : FreeReg w r.toNat) {p : Place} {c : Cell} (hp : w.mem p = some c) :
    p.index m.fp ≠ m.regIndex r := by
  have h1 := hf p c hp
  obtain ⟨q, hq, _⟩ := hm.typed p c hp
  have hb := hm.base
  unfold Mach.regIndex
  cases p with
  | «local» n =>
    have := proto_local hq
    simp only [Place.reg, Place.index] at *
    show m.fp + n ≠ if r.toNat < 64 then r.toNat else r.toNat - 64 + m.fp
    split <;> omega
  | shared n =>
    have := proto_shared hq
    have := hs.shared
    simp only [Place.reg, Place.index] at *
    show n ≠ if r.toNat < 64 then r.toNat else r.toNat - 64 + m.fp
    split <;> omega

/-- More heap and the same content of the registers of known variables. -/
theorem Spec.Models.write [Labels] {cs : List ConstantDatum} {Γ : Env} {fp : Nat} {w w' : World} {m m' : Mach} (hm : Models cs Γ fp w m)
    (hw : w'.mem = w.mem) (hh : ∀ (i : Nat) (d : HeapDatum), m.heap.data[i]? = some d → m'.heap.data[i]? = some d)
    (hsm : m'.heap.data.length ≤ 2 ^ 24)
    (hroom : w'.room = min (2 ^ 24) m'.heap.maxEntries - m'.heap.data.length)
    (hr : ∀ p c, w.mem p = some c → m'.regs (p.index fp) = m.regs (p.index fp)) (ht : Traps w'.trap m'.handler) :
    Models cs Γ fp w' m' := by
  refine ⟨hm.base, ⟨hh _ _ hm.heap.1, hsm⟩, hroom, ?_, ?_, ?_, ht⟩
  · intro p c hp
    rw [hw] at hp
    rw [hr p c hp]
    exact HoldsCell.mono hh (hm.cells p c hp)
  · intro p c hp
    rw [hw] at hp
    exact hm.typed p c hp
  · intro p q t d f t' d' f' i hp hq h1 h2
    rw [hw] at hp hq
    rw [hr p _ hp] at h1
    rw [hr q _ hq] at h2
    exact hm.apart p q _ _ _ _ _ _ i hp hq h1 h2

theorem setAt_same (r : Nat → BitVec 64) (i : Nat) (v : BitVec 64) : setAt r i v i = v := by simp [setAt]
theorem setAt_other {r : Nat → BitVec 64} {i j : Nat} {v : BitVec 64} (h : j ≠ i) : setAt r i v j = r j := by simp [setAt, h]

/-- One instruction that writes its result to a free register. -/
theorem models_set [Labels] {cs : List ConstantDatum} {Γ : Env} {w : World} {m : Mach} (hm : Models cs Γ m.fp w m) (hs : EnvSmall Γ)
    {r : Reg} (hf : FreeReg w r.toNat) (v : BitVec 64) : Models cs Γ m.fp w (m.set r v).next := by
  refine hm.write rfl (fun _ _ h => h) hm.heap.2 hm.room ?_ hm.trap
  intro p c hp
  exact setAt_other (hm.index_ne hs hf hp)

theorem kept_set [Labels] {cs : List ConstantDatum} {Γ : Env} {w : World} {m : Mach} (hm : Models cs Γ m.fp w m) (hs : EnvSmall Γ)
    {r : Reg} (hf : FreeReg w r.toNat) (v : BitVec 64) {K : Nat → Prop} (hK : ¬ K (m.regIndex r)) :
    Kept m.fp K w m w (m.set r v).next := by
  refine ⟨fun j hj => setAt_other (fun h => hK (h ▸ hj)), fun _ _ h => h, fun _ _ h _ => h, ?_, Nat.le_refl _, rfl⟩
  rintro i _ ⟨n, t, d, f, h1, h2⟩
  refine ⟨n, t, d, f, h1, ?_⟩
  have := hm.index_ne hs hf h1
  rw [show (m.set r v).next.regs (n.index m.fp) = m.regs (n.index m.fp) from setAt_other this] at h2
  exact h2

theorem set_get (m : Mach) (r : Reg) (v : BitVec 64) : (m.set r v).next.get r = v := setAt_same _ _ _

/-! ## The generated code in the image -/

/-- The tables of the code generator are in order. -/
structure GOk (g : Codegen) : Prop where
  lens : g.instrs.length = g.code.length
  wf : GWf g
  nofix : ∀ i, g.code.length ≤ i → g.fixups.get? i = none

theorem GOk.ext {g g' : Codegen} (h : GOk g) (he : GExt g g') : GOk g' := by
  refine ⟨he.lens_eq h.lens, he.wf h.wf, fun i hi => ?_⟩
  by_cases hx : g'.fixups.get? i = g.fixups.get? i
  · rw [hx]; exact h.nofix i (Nat.le_trans he.len hi)
  · have := he.fixups i hx; omega

/-- An error at `pc` is followed by the same statement as one at `lo`. -/
def Inside (img : Image) (lo pc : Nat) : Prop := nextStmtStart img pc = nextStmtStart img lo

/-- The code from `lo` on is in the image; calls are linked to the callables of `gf`. -/
structure Linked (img : Image) (gf : Codegen) (lo : Nat) (g : Codegen) : Prop where
  linecols : ∀ i, lo ≤ i → i < g.code.length → (img.instrs[i]?).map (·.linecol) = (g.instrs[i]?).map (·.linecol)
  code : ∀ i, lo ≤ i → i < g.code.length → g.fixups.get? i = none → img.code[i]? = g.code[i]?
  calls : ∀ i f, lo ≤ i → i < g.code.length → g.fixups.get? i = some f →
    ∃ pos ins, gf.fixupInstr pos f = .ok ins ∧ img.code[i]? = some ins
  consts : ∀ d t id, g.constants.get? d = some (t, id) → img.constants[id]? = some d
  args : ∀ i, lo ≤ i → i < g.code.length → (img.instrs[i]?).map (·.argLinecols) = (g.instrs[i]?).map (·.argLinecols)
  upcalls : ∀ k t id, g.upcalls.get? k = some (t, id) → img.upcalls[id]? = some k
  inside : ∀ i, lo ≤ i → i < g.code.length → Inside img lo i
  labels : ∀ k v, g.labels.get? k = some v → gf.labels.get? k = some v

theorem Linked.mono {img : Image} {gf : Codegen} {lo : Nat} {g g' : Codegen} (h : Linked img gf lo g') (he : GExt g g')
    (hg : GOk g) : Linked img gf lo g := by
  have fx : ∀ i, i < g.code.length → g'.fixups.get? i = g.fixups.get? i := by
    intro i hi
    by_cases hx : g'.fixups.get? i = g.fixups.get? i
    · exact hx
    · have := he.fixups i hx; omega
  have hl := he.len
  refine ⟨?_, ?_, ?_, ?_, ?_, ?_, fun i h1 h2 => h.inside i h1 (by omega),
    fun k v hv => h.labels k v (by rw [he.labels]; exact hv)⟩
  · intro i h1 h2
    rw [h.linecols i h1 (by omega)]
    congr 1
    have h3 : g.instrs <+: g'.instrs := he.instrs
    obtain ⟨t, ht⟩ := h3
    rw [← ht, List.getElem?_append_left (by rw [hg.lens]; exact h2)]
  · intro i h1 h2 h3
    rw [h.code i h1 (by omega) (by rw [fx i h2]; exact h3)]
    obtain ⟨t, ht⟩ := he.code
    rw [← ht, List.getElem?_append_left h2]
  · intro i f h1 h2 h3
    exact h.calls i f h1 (by omega) (by rw [fx i h2]; exact h3)
  · intro d t id hd
    exact h.consts d t id (he.constants.ids _ _ _ hd)
  · intro i h1 h2
    rw [h.args i h1 (by omega)]
    congr 1
    have h3 : g.instrs <+: g'.instrs := he.instrs
    obtain ⟨t, ht⟩ := h3
    rw [← ht, List.getElem?_append_left (by rw [hg.lens]; exact h2)]
  · intro k t id hk
    exact h.upcalls k t id (he.upcalls.ids _ _ _ hk)

/-- The instruction that was just emitted. -/
theorem Linked.fetch {img : Image} {gf : Codegen} {lo : Nat} {g : Codegen} {i : Instr} {pos : LineCol} (hg : GOk g)
    (h : Linked img gf lo (g.push i pos)) (hlo : lo ≤ g.code.length) :
    img.code[g.code.length]? = some i ∧ (img.instrs[g.code.length]?).map (·.linecol) = some pos ∧
      Inside img lo g.code.length := by
  refine ⟨?_, ?_, h.inside _ hlo (by simp [Codegen.push])⟩
  · rw [h.code _ hlo (by simp [Codegen.push]) (hg.nofix _ (Nat.le_refl _))]
    simp [Codegen.push]
  · rw [h.linecols _ hlo (by simp [Codegen.push])]
    simp [Codegen.push, ← hg.lens]

theorem constant_read {img : Image} {gf : Codegen} {lo : Nat} {g : Codegen} (hg : GOk g) (h : Linked img gf lo g)
    {d : ConstantDatum} {t : ExprType} {id : Nat} (hd : g.constants.get? d = some (t, id)) :
    id < 65536 ∧ img.constants[(BitVec.ofNat 16 id).toNat]? = some d := by
  have h1 := IdMap.id_lt hg.wf.constants hd
  have h2 := hg.wf.constLimit
  have h3 : id < 65536 := by omega
  refine ⟨h3, ?_⟩
  rw [BitVec.toNat_ofNat, Nat.mod_eq_of_lt (by omega)]
  exact h.consts _ _ _ hd

end EB
