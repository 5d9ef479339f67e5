import Verif.Lemmas.SimHost
import Verif.Spec.Exec
import Verif.Props.Names
import Verif.Props.Bytecode
/-!
# The code of an expression does what the specification says
-/

namespace EB
open Spec


/-- A callable that was defined by the program: one list of parameters, all required values. -/
structure UserMd (md : Md) (params : List ExprType) : Prop where
  user : md.userDefined = true
  syns : ∃ sing, md.syntaxes = [⟨sing, none⟩] ∧
    List.Forall₂ (fun (s : SingSyn) t => ∃ n sep, s = .reqValue n t sep) sing params

/-- The symbol table says what the environment says. -/
structure SymsAre (sy : Syms) (Γ : Env) : Prop where
  locals : Represents sy.locals Γ.locals
  shared : Represents sy.globals Γ.shared
  small : EnvSmall Γ
  none : ∀ k, sy.getCallable k = none → Γ.callable k = none
  user : ∀ k md, sy.getCallable k = some md → md.userDefined = true →
    ∃ params, Γ.callable k = some (.user params md.returnType) ∧ UserMd md params
  builtin : ∀ k md, sy.getCallable k = some md → md.userDefined = false →
    Γ.callable k = some (.builtin md.returnType) ∧ ∀ n, Γ.syn k n = md.findSyntax n

theorem SymsAre.nlocals {sy : Syms} {Γ : Env} (h : SymsAre sy Γ) : sy.nlocals = Γ.locals.length := h.locals.len

theorem SymsAre.lookup {sy : Syms} {Γ : Env} (h : SymsAre sy Γ) (v : VarRef) : sy.getVar v = Spec.lookup Γ.locals Γ.shared v :=
  C23_lookup h.locals h.shared h.small.locals h.small.shared v

/-- The variables of the program: those of the environment, and shared ones that are declared elsewhere. -/
structure Wider (Γ Δ : Env) : Prop where
  locals : Δ.locals = Γ.locals
  shared : Γ.shared <+: Δ.shared
  small : EnvSmall Δ

theorem Wider.proto {Γ Δ : Env} (h : Wider Γ Δ) {p : Place} {q : Proto} (hp : Γ.proto p = some q) : Δ.proto p = some q := by
  cases p with
  | «local» n =>
    show Δ.locals[n]?.map _ = _
    rw [h.locals]; exact hp
  | shared n =>
    have h1 := proto_shared hp
    obtain ⟨t, ht⟩ := h.shared
    show Δ.shared[n]?.map _ = _
    rw [← ht, List.getElem?_append_left h1]; exact hp

theorem Wider.len {Γ Δ : Env} (h : Wider Γ Δ) {sy : Syms} (hsy : SymsAre sy Γ) : Δ.locals.length = sy.nlocals := by
  rw [h.locals, hsy.nlocals]

theorem Wider.refl {sy : Syms} {Γ : Env} (h : SymsAre sy Γ) : Wider Γ Γ := ⟨rfl, List.prefix_refl _, h.small⟩

section
variable [Labels] [Watch] {F : FloatOps} {img : Image} [Answers img] {Γ Δ : Env}

/-- What is assumed of the calls of functions. -/
structure CallOk (F : FloatOps) (cl : Calls) (Γ Δ : Env) (d : Nat) (img : Image) [Answers img] (gf : Codegen) : Prop where
  lib : cl.lib = Answers.lib img
  fn : ∀ (lo : Nat) (key : Str) (params : List ExprType) (t : ExprType) (vs : List Val) (pos p : LineCol) (first : Reg) (ins : Instr)
      (w : World) (m : Mach),
    Γ.callable key = some (.user params (some t)) →
    gf.fixupInstr p (.call first key) = .ok ins → img.code[m.pc]? = some ins →
    (img.instrs[m.pc]?).map (·.linecol) = some pos → Inside img lo m.pc →
    m.yieldPending = false → m.maxStack - m.stack.length = d → m.fp + 192 * d + 256 ≤ 2 ^ 32 →
    Models img.constants Δ m.fp w m → 64 ≤ first.toNat →
    (∀ n c, w.mem (.local n) = some c → n + 64 < first.toNat) →
    vs.map Val.ty = params →
    (∀ (j : Nat) v, vs[j]? = some v → Holds img.constants m.heap v (m.regs (m.fp + (first.toNat - 64) + 1 + j))) →
    Post F img Δ lo (fun j => 64 ≤ j ∧ j < m.fp + (first.toNat - 64)) w m (m.pc + 1)
      (fun v m' => v.ty = t ∧ Holds img.constants m'.heap v (m'.get first)) (cl.fn key vs pos w)

omit [Labels] [Watch] in
theorem userFree_left : ∀ {e : Expr}, UserFree Γ e → ¬ LeftCall Γ e
  | .bool .., _, h | .dbl .., _, h | .int .., _, h | .text .., _, h | .call .., _, h => h
  | .sym .., h1, h => h1.elim (fun h1 => h1 h.1) (fun h1 => by have := (isUser_eq Γ _).2 h1; rw [h.2] at this; cases this)
  | .un _ e _, h1, h => userFree_left (e := e) h1 h
  | .bin _ l _ _, h1, h => userFree_left (e := l) h1.1 h

omit [Labels] [Watch] in
theorem nameRef_var {Γ : Env} {v : VarRef} {place : Place} {p : Proto} (h : nameRef Γ.locals Γ.shared v = .var place p) :
    Γ.proto place = some p := by
  unfold nameRef at h
  have pos : ∀ {ds : Decls} {q : Proto} {n : Nat}, Spec.position (symKey v.name) ds = some (q, n) → (ds[n]?).map (·.2) = some q := by
    intro ds q n hp
    rw [declPos_some hp]; rfl
  split at h
  next q n hq =>
    split at h
    · cases h; exact pos hq
    · simp at h
  · split at h
    next q n hq =>
      split at h
      · cases h; exact pos hq
      · simp at h
    · simp at h

omit [Labels] [Watch] in
theorem place_reg_lt {Γ : Env} (hs : EnvSmall Γ) {p : Place} {q : Proto} (h : Γ.proto p = some q) :
    p.reg < 256 ∧ ∀ n, p = .shared n → n < 64 := by
  cases p with
  | «local» n =>
    have := proto_local h
    have := hs.locals
    exact ⟨by simp only [Place.reg]; omega, fun _ h => by cases h⟩
  | shared n =>
    have := proto_shared h
    have := hs.shared
    exact ⟨by simp only [Place.reg]; omega, fun _ h => by cases h; omega⟩

/-- The machine is where the code of the next construct begins. -/
structure Start (img : Image) (Δ : Env) (d lo : Nat) (g : Codegen) (w : World) (m : Mach) : Prop where
  ok : GOk g
  lo : lo ≤ g.code.length
  pc : m.pc = g.code.length
  quiet : m.yieldPending = false
  models : Models img.constants Δ m.fp w m
  depth : m.maxStack - m.stack.length = d
  low : m.fp + 192 * d + 256 ≤ 2 ^ 32

omit [Answers img] in
theorem Start.next {d lo : Nat} {g g' : Codegen} {w w' : World} {m m' : Mach} (h : Start img Δ d lo g w m) (he : GExt g g')
    (hp : m'.pc = g'.code.length) (hs : SameAct m m') (hm : Models img.constants Δ m'.fp w' m') : Start img Δ d lo g' w' m' :=
  ⟨h.ok.ext he, Nat.le_trans h.lo he.len, hp, hs.quiet, hm, by rw [hs.stack, hs.maxStack]; exact h.depth, by rw [hs.fp]; exact h.low⟩

theorem regIndex_lt {m : Mach} {r : Reg} {n : Nat} (hb : 64 ≤ m.fp) (h : r.toNat < 64 + n) : m.regIndex r < m.fp + n ∨ (r.toNat < 64 ∧ m.regIndex r < m.fp) := by
  by_cases h64 : r.toNat < 64
  · right; rw [regIndex_global h64]; omega
  · left; rw [regIndex_local (by omega)]; omega

theorem regIndex_act {m m' : Mach} (h : SameAct m m') (r : Reg) : m'.regIndex r = m.regIndex r := by
  unfold Mach.regIndex; rw [h.fp]

/-- The call of a user-defined function. -/
theorem post_call {d : Nat} {cl : Calls} {gf : Codegen} (hcall : CallOk F cl Γ Δ d img gf)
    {lo : Nat} {w : World} {m : Mach} {md : Md} {key : Str} {t : ExprType} {params : List ExprType} {first : Reg}
    {lcs : List LineCol} {pos : LineCol} {g g' : Codegen} {u : Unit} {vs : List Val}
    (hc : emitCall md key (some t) first lcs pos g = .ok (u, g')) (hu : md.userDefined = true)
    (hk : Γ.callable key = some (.user params (some t)))
    (hl : Linked img gf lo g') (st : Start img Δ d lo g w m) (h64 : 64 ≤ first.toNat)
    (hfree : ∀ n c, w.mem (.local n) = some c → n + 64 < first.toNat)
    (hty : vs.map Val.ty = params)
    (hvs : ∀ (j : Nat) v, vs[j]? = some v → Holds img.constants m.heap v (m.regs (m.fp + (first.toNat - 64) + 1 + j))) :
    Post F img Δ lo (fun j => 64 ≤ j ∧ j < m.fp + (first.toNat - 64)) w m g'.code.length
      (fun v m' => v.ty = t ∧ Holds img.constants m'.heap v (m'.get first)) (cl.fn key vs pos w) := by
  unfold emitCall at hc
  rw [if_pos hu] at hc
  cases hc
  have hlen : (((g.push .nop pos).setArgs g.code.length lcs).addFixup g.code.length (.call first key)).code.length = g.code.length + 1 := by
    simp [Codegen.push, Codegen.setArgs, Codegen.addFixup]
  have hfx : (((g.push .nop pos).setArgs g.code.length lcs).addFixup g.code.length (.call first key)).fixups.get? g.code.length
      = some (.call first key) := by
    simp [Codegen.addFixup, FMap.get?_insert]
  obtain ⟨p, ins, h1, h2⟩ := hl.calls g.code.length _ st.lo (by rw [hlen]; omega) hfx
  have hlc := hl.linecols g.code.length st.lo (by rw [hlen]; omega)
  have hpos : ((((g.push .nop pos).setArgs g.code.length lcs).addFixup g.code.length (.call first key)).instrs[g.code.length]?).map (·.linecol)
      = some pos := by
    show ((List.modify _ _ _)[_]?).map _ = _
    rw [List.getElem?_modify]
    simp [Codegen.push, ← st.ok.lens]
  have := hcall.fn lo key params t vs pos p first ins w m hk h1 (by rw [st.pc]; exact h2) (by rw [st.pc, hlc, hpos]) (by rw [st.pc]; exact hl.inside _ st.lo (by rw [hlen]; omega)) st.quiet st.depth st.low st.models h64 hfree hty hvs
  rw [st.pc] at this
  rw [hlen]
  exact this

theorem Holds.kept {fp : Nat} {K : Nat → Prop} {w w' : World} {m m' : Mach} (hk : Kept fp K w m w' m') {cs : List ConstantDatum} {v : Val} {x y : BitVec 64}
    (h : Holds cs m.heap v x) (he : y = x) : Holds cs m'.heap v y := by
  subst he
  exact Holds.mono hk.texts h

theorem get_kept {fp : Nat} {K : Nat → Prop} {w w' : World} {m m' : Mach} (hk : Kept fp K w m w' m') (hs : SameAct m m') {r : Reg}
    (h : K (m.regIndex r)) : m'.get r = m.get r := by
  unfold Mach.get
  rw [regIndex_act hs]
  exact hk.regs _ h

/-! ## Built-in functions -/

theorem Out.bind_assoc {α β γ : Type} (x : Out α) (f : α → World → Out β) (k : β → World → Out γ) :
    (x.bind f).bind k = x.bind fun a w => (f a w).bind k := by
  cases x <;> rfl

/-- The call instruction of a built-in callable. -/
theorem upcall_code {md : Md} {key : Str} {ret : Option ExprType} {first : Reg} {lcs : List LineCol} {pos : LineCol} {gf g g' : Codegen}
    {u : Unit} {lo : Nat} (hc : emitCall md key ret first lcs pos g = .ok (u, g')) (hu : md.userDefined = false) (hg : GOk g)
    (hl : Linked img gf lo g') (hlo : lo ≤ g.code.length) :
    g'.code.length = g.code.length + 1 ∧
    ∃ idx : U16, (img.code[g.code.length]? = some (.upcall idx first) ∨ img.code[g.code.length]? = some (.upcallAsync idx first)) ∧
      img.upcalls[idx.toNat]? = some key ∧ (img.instrs[g.code.length]?).map (·.linecol) = some pos ∧
      Inside img lo g.code.length ∧ img.argPositions g.code.length = lcs := by
  unfold emitCall at hc
  rw [if_neg (by simp [hu])] at hc
  obtain ⟨idx, g1, h1, hc⟩ := CM.bind_ok.1 hc
  obtain ⟨addr, g2, h2, hc⟩ := CM.bind_ok.1 hc
  cases h2
  cases CM.modify_ok.1 hc
  obtain ⟨e1, c1, i1, f1, k1, t, id, u1, rfl, u3⟩ := getUpcall_ok h1
  obtain ⟨u4, u5⟩ := u3 hg.wf.upcalls hg.wf.upcallLimit
  have hlen : ((g1.push (if md.isAsync then .upcallAsync (BitVec.ofNat 16 id) first else .upcall (BitVec.ofNat 16 id) first) pos).setArgs
      g1.code.length lcs).code.length = g.code.length + 1 := by
    simp [Codegen.push, Codegen.setArgs, c1]
  refine ⟨hlen, BitVec.ofNat 16 id, ?_, ?_, ?_, hl.inside _ hlo (by rw [hlen]; omega), ?_⟩
  · have h3 := hl.code g.code.length hlo (by rw [hlen]; omega) (by
      show g1.fixups.get? _ = none
      rw [f1]; exact hg.nofix _ (Nat.le_refl _))
    rw [h3]
    cases md.isAsync <;> simp [Codegen.push, Codegen.setArgs, ← c1]
  · have := hl.upcalls key t id u1
    rw [BitVec.toNat_ofNat, Nat.mod_eq_of_lt u4]
    exact this
  · rw [hl.linecols g.code.length hlo (by rw [hlen]; omega)]
    show ((List.modify _ _ _)[_]?).map _ = _
    rw [List.getElem?_modify, ← c1]
    simp [Codegen.push, i1, hg.lens, c1]
  · have := hl.args g.code.length hlo (by rw [hlen]; omega)
    have h4 : (((g1.push (if md.isAsync then .upcallAsync (BitVec.ofNat 16 id) first else .upcall (BitVec.ofNat 16 id) first) pos).setArgs
      g1.code.length lcs).instrs[g.code.length]?).map (·.argLinecols) = some lcs := by
      show ((List.modify _ _ _)[_]?).map _ = _
      rw [List.getElem?_modify, ← c1]
      simp [Codegen.push, i1, hg.lens, c1]
    rw [h4] at this
    unfold Image.argPositions
    cases hx : img.instrs[g.code.length]? with
    | none => rw [hx] at this; simp at this
    | some mt => rw [hx] at this; simpa using this

/-- The call of a built-in function. -/
theorem post_upcall {lo d : Nat} {gf : Codegen} {K : Nat → Prop} {w : World} {m : Mach} {md : Md} {key : Str} {t : ExprType} {first : Reg}
    {lcs : List LineCol} {pos : LineCol} {g g' : Codegen} {u : Unit} {as : List (Arg × LineCol)} (hs : EnvSmall Δ)
    (hc : emitCall md key (some t) first lcs pos g = .ok (u, g')) (hu : md.userDefined = false)
    (hl : Linked img gf lo g') (st : Start img Δ d lo g w m) (h64 : 64 ≤ first.toNat) (hf : FreeReg w first.toNat)
    (hK : ¬ K (m.regIndex first)) (hlcs : lcs = slotPositions as) (hkn : ∀ a ∈ as, a.1.Known Δ)
    (hbel : Passable m.fp (m.fp + (first.toNat - 64)) as)
    (hslots : ∀ (j : Nat) s, (slots as)[j]? = some s →
      HoldsSlot img.constants m.heap m.fp s (m.regs (m.fp + (first.toNat - 64) + 1 + j))) :
    Post F img Δ lo K w m g'.code.length (fun v m' => v.ty = t ∧ Holds img.constants m'.heap v (m'.get first))
      ((w.request (Answers.lib img) key as (some t) pos).bind valued) := by
  obtain ⟨hlen, idx, h1, h2, h3, h4, h5⟩ := upcall_code hc hu st.ok hl st.lo
  rw [hlen, ← st.pc]
  rw [← st.pc] at h1 h3 h4 h5
  exact post_request h1 h2 h3 h4 (h5.trans hlcs) h64 st.quiet st.models hs hf hK hkn hbel hslots

/-- The registers below `b`. -/
def Under (cf : Prop) (b j : Nat) : Prop := (64 ≤ j ∨ cf) ∧ j < b

section
variable {sy : Syms} {d lo : Nat} (hsy : SymsAre sy Γ) (hwd : Wider Γ Δ) {gf : Codegen} {cf : Prop}
  {nt : Nat} {lcs : List LineCol} {res : Nat × List LineCol} {pc : Nat} {y : World → Out (List (Arg × LineCol))}
  {g : Codegen} {w : World} {m : Mach}
include hsy hwd

/-- An argument that is passed by value. -/
theorem arg_val {pos p0 : LineCol} {r : Reg} {t : ExprType} {g2 : Codegen} {x : Out Val} (h2 : allocTemp sy nt p0 = .ok r)
    (st : Start img Δ d lo g w m) (e2 : GExt g g2)
    (hv : Post F img Δ lo (Below cf (m.fp + (sy.nlocals + (nt + 1))) (m.regIndex r)) w m g2.code.length
      (fun v m' => v.ty = t ∧ Holds img.constants m'.heap v (m'.get r)) x)
    (hrest : ∀ w2 m2, Start img Δ d lo g2 w2 m2 → Post F img Δ lo (Under cf (m2.fp + sy.nlocals + (nt + 1))) w2 m2 pc
      (Slotted img Δ m2.fp (m2.fp + sy.nlocals) (nt + 1) (lcs ++ [pos]) res) (y w2)) :
    Post F img Δ lo (Under cf (m.fp + sy.nlocals + nt)) w m pc (Slotted img Δ m.fp (m.fp + sy.nlocals) nt lcs res)
      (x.bind fun v w => (y w).bind fun as w => .ok ((.val v, pos) :: as) w) := by
  have htr := temp_reg h2
  have hri : ∀ {m' : Mach}, m'.regIndex r = m'.fp + sy.nlocals + nt := by
    intro m'; rw [regIndex_local (by omega)]; omega
  refine (hv.weaken (K' := Under cf (m.fp + sy.nlocals + nt)) (by rintro j ⟨j1, j2⟩; rw [hri]; exact ⟨j1, by omega, by omega⟩)
    (fun _ _ _ _ _ h => h)).bind ?_
  rintro v w1 m1 p1 s1 k1 md1 d1 ⟨hty, hx⟩
  have st1 := st.next e2 p1 s1 md1
  have hr := hrest w1 m1 st1
  rw [← s1.fp]
  refine slotted_cons (a := .val v) hr (by rintro j ⟨j1, j2⟩; exact ⟨j1, by omega⟩) trivial ?_ ?_
  · intro j s hs
    cases j with
    | succ j => simp [Arg.slots] at hs
    | zero =>
      cases hs
      have h9 : Holds img.constants m1.heap v (m1.regs (m1.regIndex r)) := hx
      rw [hri] at h9
      exact h9
  · intro j hj
    simp only [Arg.slots, List.length_singleton] at hj
    have := md1.base
    exact ⟨.inl (by omega), by omega⟩

/-- One that is tagged. -/
theorem arg_opt {pos p0 p1' : LineCol} {r tag : Reg} {t : ExprType} {sep : ArgSep} {g2 g3 : Codegen} {u : Unit} {x : Out Val}
    (h1 : allocTemp sy nt p1' = .ok tag) (h2 : allocTemp sy (nt + 1) p0 = .ok r)
    (st : Start img Δ d lo g w m) (e2 : GExt g g2)
    (hv : Post F img Δ lo (Below cf (m.fp + (sy.nlocals + (nt + 2))) (m.regIndex r)) w m g2.code.length
      (fun v m' => v.ty = t ∧ Holds img.constants m'.heap v (m'.get r)) x)
    (h3 : emitTag tag (.immediate sep t) pos g2 = .ok (u, g3)) (hl3 : Linked img gf lo g3)
    (hrest : ∀ w2 m2, Start img Δ d lo g3 w2 m2 → Post F img Δ lo (Under cf (m2.fp + sy.nlocals + (nt + 2))) w2 m2 pc
      (Slotted img Δ m2.fp (m2.fp + sy.nlocals) (nt + 2) (lcs ++ [pos, pos]) res) (y w2)) :
    Post F img Δ lo (Under cf (m.fp + sy.nlocals + nt)) w m pc (Slotted img Δ m.fp (m.fp + sy.nlocals) nt lcs res)
      (x.bind fun v w => (y w).bind fun as w => .ok ((.opt sep v, pos) :: as) w) := by
  cases h3
  have htr := temp_reg h2
  have htt := temp_reg h1
  have hri : ∀ {m' : Mach}, m'.regIndex r = m'.fp + sy.nlocals + (nt + 1) := by
    intro m'; rw [regIndex_local (by omega)]; omega
  have hti : ∀ {m' : Mach}, m'.regIndex tag = m'.fp + sy.nlocals + nt := by
    intro m'; rw [regIndex_local (by omega)]; omega
  refine (hv.weaken (K' := Under cf (m.fp + sy.nlocals + nt)) (by rintro j ⟨j1, j2⟩; rw [hri]; exact ⟨j1, by omega, by omega⟩)
    (fun _ _ _ _ _ h => h)).bind ?_
  rintro v w1 m1 p1 s1 k1 md1 d1 ⟨hty, hx⟩
  have st1 := st.next e2 p1 s1 md1
  have hft : FreeReg w1 tag.toNat := md1.temp_free hwd.small (by rw [hwd.len hsy]; omega)
  obtain ⟨f1, f2⟩ := hl3.fetch st1.ok st1.lo
  obtain ⟨m2, _, go2, p2, s2, k2, md2, r2, o2, hh2⟩ := put_step (F := F) (img := img) (K := Under cf (m.fp + sy.nlocals + nt))
    (by rw [p1]; exact f1) rfl s1.quiet md1 hwd.small hft (by rw [hti, s1.fp]; rintro ⟨_, h⟩; omega)
  have st2 := st1.next (gext_push (i := .loadInt tag (VarArgTag.immediate sep t).make) (pos := pos) rfl fun _ => .plain rfl) (by rw [p2, p1]; simp [Codegen.push]) s2 md2
  have hr := hrest w1 m2 st2
  refine Post.before go2 s2 k2 ?_
  rw [← s1.fp, ← s2.fp]
  refine slotted_cons (a := .opt sep v) hr (by rintro j ⟨j1, j2⟩; exact ⟨j1, by omega⟩) trivial ?_ ?_
  · intro j s hs
    cases j with
    | zero =>
      cases hs
      rw [Nat.add_zero, ← hti, regIndex_act s2, r2, hty]
      exact C02_varArgTag _
    | succ j =>
      cases j with
      | succ j => simp [Arg.slots] at hs
      | zero =>
        cases hs
        have h9 : Holds img.constants m1.heap v (m1.regs (m1.regIndex r)) := hx
        rw [hri] at h9
        show Holds _ m2.heap v (m2.regs (m2.fp + sy.nlocals + nt + 1))
        rw [hh2, o2 _ (by rw [hti, s2.fp]; omega), s2.fp]
        exact h9
  · intro j hj
    simp only [Arg.slots, List.length_cons, List.length_nil] at hj
    have := md2.base
    exact ⟨.inl (by omega), by omega⟩

/-- One that is left out. -/
theorem arg_missing {pos p0 : LineCol} {tag : Reg} {sep : ArgSep} {g3 : Codegen} {u : Unit}
    (h1 : allocTemp sy nt p0 = .ok tag) (st : Start img Δ d lo g w m)
    (h3 : emitTag tag (.missing sep) pos g = .ok (u, g3)) (hl3 : Linked img gf lo g3)
    (hrest : ∀ w2 m2, Start img Δ d lo g3 w2 m2 → Post F img Δ lo (Under cf (m2.fp + sy.nlocals + (nt + 1))) w2 m2 pc
      (Slotted img Δ m2.fp (m2.fp + sy.nlocals) (nt + 1) (lcs ++ [pos]) res) (y w2)) :
    Post F img Δ lo (Under cf (m.fp + sy.nlocals + nt)) w m pc (Slotted img Δ m.fp (m.fp + sy.nlocals) nt lcs res)
      ((y w).bind fun as w => .ok ((.missing sep, pos) :: as) w) := by
  cases h3
  have htt := temp_reg h1
  have hti : ∀ {m' : Mach}, m'.regIndex tag = m'.fp + sy.nlocals + nt := by
    intro m'; rw [regIndex_local (by omega)]; omega
  have hft : FreeReg w tag.toNat := st.models.temp_free hwd.small (by rw [hwd.len hsy]; omega)
  obtain ⟨f1, f2⟩ := hl3.fetch st.ok st.lo
  obtain ⟨m2, _, go2, p2, s2, k2, md2, r2, o2, hh2⟩ := put_step (F := F) (img := img) (K := Under cf (m.fp + sy.nlocals + nt))
    (by rw [st.pc]; exact f1) rfl st.quiet st.models hwd.small hft (by rw [hti]; rintro ⟨_, h⟩; omega)
  have st2 := st.next (gext_push (i := .loadInt tag (VarArgTag.missing sep).make) (pos := pos) rfl fun _ => .plain rfl) (by rw [p2, st.pc]; simp [Codegen.push]) s2 md2
  have hr := hrest w m2 st2
  refine Post.before go2 s2 k2 ?_
  rw [← s2.fp]
  refine slotted_cons (a := .missing sep) hr (by rintro j ⟨j1, j2⟩; exact ⟨j1, by omega⟩) trivial ?_ ?_
  · intro j s hs
    cases j with
    | zero =>
      cases hs
      rw [Nat.add_zero, ← hti, regIndex_act s2, r2]
      exact C02_varArgTag _
    | succ j => simp [Arg.slots] at hs
  · intro j hj
    simp only [Arg.slots, List.length_cons, List.length_nil] at hj
    have := md2.base
    exact ⟨.inl (by omega), by omega⟩

omit [Answers img] hwd in
theorem regPtr_step {place : Place} {q : Proto} {ty : ExprType} {r : Reg} (hp : Γ.proto place = some q) (hlow : m.fp + 256 ≤ 2 ^ 32) :
    ∃ x, execInstr F img.constants m (.loadRegPtr r ty (BitVec.ofNat 8 place.reg)) = .cont (m.set r x).next ∧
      taggedRegParse x = some (place.index m.fp, ty) := by
  obtain ⟨p1, p2⟩ := place_reg_lt hsy.small hp
  obtain ⟨x, h1, h2⟩ := C02_taggedRegister (BitVec.ofNat 8 place.reg) m.fp ty hlow
  refine ⟨x, ?_, ?_⟩
  · show (match taggedRegNew _ _ _ with | some v => _ | none => _) = _
    rw [h1]
  · rw [h2]
    rw [BitVec.toNat_ofNat, Nat.mod_eq_of_lt p1]
    cases place with
    | «local» n => simp [Place.reg, Place.index]; omega
    | shared n => simp [Place.reg, Place.index, p2 n rfl]

/-- A variable. -/
theorem arg_ref {pos p0 : LineCol} {r : Reg} {place : Place} {q : Proto}
    (h1 : allocTemp sy nt p0 = .ok r) (st : Start img Δ d lo g w m) (hp : Γ.proto place = some q)
    (hl3 : Linked img gf lo (g.push (.loadRegPtr r q.ty (BitVec.ofNat 8 place.reg)) pos))
    (hrest : ∀ w2 m2, Start img Δ d lo (g.push (.loadRegPtr r q.ty (BitVec.ofNat 8 place.reg)) pos) w2 m2 →
      Post F img Δ lo (Under cf (m2.fp + sy.nlocals + (nt + 1))) w2 m2 pc
      (Slotted img Δ m2.fp (m2.fp + sy.nlocals) (nt + 1) (lcs ++ [pos]) res) (y w2)) :
    Post F img Δ lo (Under cf (m.fp + sy.nlocals + nt)) w m pc (Slotted img Δ m.fp (m.fp + sy.nlocals) nt lcs res)
      ((y w).bind fun as w => .ok ((.ref q place, pos) :: as) w) := by
  have htt := temp_reg h1
  have hti : ∀ {m' : Mach}, m'.regIndex r = m'.fp + sy.nlocals + nt := by
    intro m'; rw [regIndex_local (by omega)]; omega
  have hft : FreeReg w r.toNat := st.models.temp_free hwd.small (by rw [hwd.len hsy]; omega)
  obtain ⟨f1, f2⟩ := hl3.fetch st.ok st.lo
  obtain ⟨x, hx1, hx2⟩ := regPtr_step (F := F) (img := img) (m := m) (ty := q.ty) (r := r) hsy hp (by have := st.low; omega)
  obtain ⟨m2, _, go2, p2, s2, k2, md2, r2, o2, hh2⟩ := put_step (F := F) (img := img) (K := Under cf (m.fp + sy.nlocals + nt))
    (by rw [st.pc]; exact f1) hx1 st.quiet st.models hwd.small hft (by rw [hti]; rintro ⟨_, h⟩; omega)
  have st2 := st.next (gext_push (i := .loadRegPtr r q.ty (BitVec.ofNat 8 place.reg)) (pos := pos) rfl fun _ => .plain rfl) (by rw [p2, st.pc]; simp [Codegen.push]) s2 md2
  have hr := hrest w m2 st2
  refine Post.before go2 s2 k2 ?_
  rw [← s2.fp]
  refine slotted_cons (a := .ref q place) hr (by rintro j ⟨j1, j2⟩; exact ⟨j1, by omega⟩) (hwd.proto hp) ?_ ?_
  · intro j s hs
    cases j with
    | zero =>
      cases hs
      rw [Nat.add_zero, ← hti, regIndex_act s2, r2, s2.fp]
      exact hx2
    | succ j => simp [Arg.slots] at hs
  · intro j hj
    simp only [Arg.slots, List.length_cons, List.length_nil] at hj
    have := md2.base
    exact ⟨.inl (by omega), by omega⟩

/-- A variable in a list. -/
theorem arg_optRef {pos p0 p1' : LineCol} {r tag : Reg} {sep : ArgSep} {place : Place} {q : Proto} {u : Unit} {g3 : Codegen}
    (h0 : allocTemp sy nt p1' = .ok tag)
    (h1 : allocTemp sy (nt + 1) p0 = .ok r) (st : Start img Δ d lo g w m) (hp : Γ.proto place = some q)
    (h3 : emitTag tag (.pointer sep) pos (g.push (.loadRegPtr r q.ty (BitVec.ofNat 8 place.reg)) pos) = .ok (u, g3))
    (hl3 : Linked img gf lo g3)
    (hrest : ∀ w2 m2, Start img Δ d lo g3 w2 m2 →
      Post F img Δ lo (Under cf (m2.fp + sy.nlocals + (nt + 2))) w2 m2 pc
      (Slotted img Δ m2.fp (m2.fp + sy.nlocals) (nt + 2) (lcs ++ [pos, pos]) res) (y w2)) :
    Post F img Δ lo (Under cf (m.fp + sy.nlocals + nt)) w m pc (Slotted img Δ m.fp (m.fp + sy.nlocals) nt lcs res)
      ((y w).bind fun as w => .ok ((.optRef sep q place, pos) :: as) w) := by
  cases h3
  have htr := temp_reg h1
  have htt := temp_reg h0
  have hri : ∀ {m' : Mach}, m'.regIndex r = m'.fp + sy.nlocals + (nt + 1) := by
    intro m'; rw [regIndex_local (by omega)]; omega
  have hti : ∀ {m' : Mach}, m'.regIndex tag = m'.fp + sy.nlocals + nt := by
    intro m'; rw [regIndex_local (by omega)]; omega
  have hfr : FreeReg w r.toNat := st.models.temp_free hwd.small (by rw [hwd.len hsy]; omega)
  have hft : FreeReg w tag.toNat := st.models.temp_free hwd.small (by rw [hwd.len hsy]; omega)
  have hg1 := st.ok.push (i := .loadRegPtr r q.ty (BitVec.ofNat 8 place.reg)) rfl pos
  have hl1 := hl3.mono (gext_push rfl fun _ => .plain rfl) hg1
  obtain ⟨f1, f2⟩ := hl1.fetch st.ok st.lo
  obtain ⟨x, hx1, hx2⟩ := regPtr_step (F := F) (img := img) (m := m) (ty := q.ty) (r := r) hsy hp (by have := st.low; omega)
  obtain ⟨m1, _, go1, p1, s1, k1, md1, r1, o1, hh1⟩ := put_step (F := F) (img := img) (K := Under cf (m.fp + sy.nlocals + nt))
    (by rw [st.pc]; exact f1) hx1 st.quiet st.models hwd.small hfr (by rw [hri]; rintro ⟨_, h⟩; omega)
  have st1 := st.next (gext_push (i := .loadRegPtr r q.ty (BitVec.ofNat 8 place.reg)) (pos := pos) rfl fun _ => .plain rfl) (by rw [p1, st.pc]; simp [Codegen.push]) s1 md1
  obtain ⟨f3, f4⟩ := hl3.fetch st1.ok st1.lo
  obtain ⟨m2, _, go2, p2, s2, k2, md2, r2, o2, hh2⟩ := put_step (F := F) (img := img) (K := Under cf (m.fp + sy.nlocals + nt))
    (by rw [st1.pc]; exact f3) rfl s1.quiet md1 hwd.small hft (by rw [hti, s1.fp]; rintro ⟨_, h⟩; omega)
  have st2 := st1.next (gext_push (i := .loadInt tag (VarArgTag.pointer sep).make) (pos := pos) rfl fun _ => .plain rfl) (by rw [p2, st1.pc]; simp [Codegen.push]) s2 md2
  have hr := hrest w m2 st2
  have s12 := s1.trans s2
  refine Post.before (go1.trans go2) s12 (k1.trans (s1.fp ▸ k2)) ?_
  rw [← s12.fp]
  refine slotted_cons (a := .optRef sep q place) hr (by rintro j ⟨j1, j2⟩; exact ⟨j1, by omega⟩) (hwd.proto hp) ?_ ?_
  · intro j s hs
    cases j with
    | zero =>
      cases hs
      rw [Nat.add_zero, ← hti, regIndex_act s2, r2]
      exact C02_varArgTag _
    | succ j =>
      cases j with
      | succ j => simp [Arg.slots] at hs
      | zero =>
        cases hs
        show taggedRegParse (m2.regs (m2.fp + sy.nlocals + nt + 1)) = some (place.index m2.fp, q.ty)
        rw [o2 _ (by rw [hti, s2.fp]; omega), s12.fp, show m.fp + sy.nlocals + nt + 1 = m.regIndex r by rw [hri]; omega, r1]
        exact hx2
  · intro j hj
    simp only [Arg.slots, List.length_cons, List.length_nil] at hj
    have := md2.base
    exact ⟨.inl (by omega), by omega⟩

/-- No more arguments are written. -/
theorem sim_noArgs {A : ArgEnv} (hA : A.sy = sy) {noneYet : Bool} : ∀ {syns : List SingSyn} {nt : Nat} {lcs : List LineCol}
    {g g' : Codegen} {r : Nat × List LineCol} {w : World} {m : Mach},
    compileNoArgs A noneYet syns nt lcs g = .ok (r, g') → Start img Δ d lo g w m → Linked img gf lo g' →
    Post F img Δ lo (Under cf (m.fp + sy.nlocals + nt)) w m g'.code.length (Slotted img Δ m.fp (m.fp + sy.nlocals) nt lcs r)
      (.ok (unwritten A.rep noneYet A.keyPos syns) w) := by
  have done : ∀ {nt : Nat} {lcs : List LineCol} {g g' : Codegen} {r : Nat × List LineCol} {w : World} {m : Mach},
      (pure (nt, lcs) : CG _) g = .ok (r, g') → Start img Δ d lo g w m →
      Post F img Δ lo (Under cf (m.fp + sy.nlocals + nt)) w m g'.code.length (Slotted img Δ m.fp (m.fp + sy.nlocals) nt lcs r) (.ok [] w) := by
    intro nt lcs g g' r w m hc st
    cases hc
    exact ⟨m, .refl _ _, st.pc, .refl st.quiet, .refl _ _ _ _, st.models, .refl _, by simp [slots, slotPositions], by simp, by simp [slots]⟩
  intro syns
  induction syns with
  | nil =>
    intro nt lcs g g' r w m hc st hl
    simp only [EB.compileNoArgs] at hc
    simp only [unwritten]
    cases hrep : A.rep with
    | none => rw [hrep] at hc; exact done hc st
    | some rs =>
      rw [hrep] at hc
      simp only at hc ⊢
      split at hc
      next h => rw [if_pos h]; exact done hc st
      next h =>
        rw [if_neg h]
        obtain ⟨tag, g1, h1, hc⟩ := CM.bind_ok.1 hc
        obtain ⟨_, h2, h1⟩ := CM.lift_ok.1 h1
        cases h1
        obtain ⟨_, g2, h3, hc⟩ := CM.bind_ok.1 hc
        rw [hA] at h2
        cases hc
        exact arg_missing (y := fun w => .ok [] w) hsy hwd h2 st h3 hl (fun w2 m2 st2 => done rfl st2)
  | cons s syns ih =>
    intro nt lcs g g' r w m hc st hl
    have go : ∀ {tag : Reg} {u : Unit} {g2 : Codegen}, allocTemp sy nt A.keyPos = .ok tag →
        emitTag tag (.missing .end) A.keyPos g = .ok (u, g2) →
        compileNoArgs A noneYet syns (nt + 1) (lcs ++ [A.keyPos]) g2 = .ok (r, g') →
        Post F img Δ lo (Under cf (m.fp + sy.nlocals + nt)) w m g'.code.length (Slotted img Δ m.fp (m.fp + sy.nlocals) nt lcs r)
          (.ok (unwritten A.rep noneYet A.keyPos (s :: syns)) w) := by
      intro tag u g2 h2 h3 hc
      have e2 : GExt g g2 := by cases h3; exact gext_push rfl fun _ => .plain rfl
      have hg2 := st.ok.ext e2
      have e3 := GStep.compileNoArgs _ _ _ _ _ _ _ _ hg2.lens hc
      exact arg_missing (y := fun w => .ok (unwritten A.rep noneYet A.keyPos syns) w) hsy hwd h2 st h3 (hl.mono e3 hg2)
        (fun w2 m2 st2 => ih hc st2 hl)
    cases s with
    | reqValue => simp only [EB.compileNoArgs] at hc; cases hc
    | reqRef => simp only [EB.compileNoArgs] at hc; cases hc
    | optValue =>
      simp only [EB.compileNoArgs] at hc
      obtain ⟨tag, g1, h1, hc⟩ := CM.bind_ok.1 hc
      obtain ⟨_, h2, h1⟩ := CM.lift_ok.1 h1
      cases h1
      obtain ⟨_, g1', h6, hc⟩ := CM.bind_ok.1 hc
      obtain ⟨_, h7, h6⟩ := CM.lift_ok.1 h6
      cases h6
      obtain ⟨_, g2, h3, hc⟩ := CM.bind_ok.1 hc
      rw [hA] at h2
      exact go h2 h3 hc
    | anyValue =>
      simp only [EB.compileNoArgs] at hc
      split at hc
      · cases hc
      obtain ⟨tag, g1, h1, hc⟩ := CM.bind_ok.1 hc
      obtain ⟨_, h2, h1⟩ := CM.lift_ok.1 h1
      cases h1
      obtain ⟨_, g1', h6, hc⟩ := CM.bind_ok.1 hc
      obtain ⟨_, h7, h6⟩ := CM.lift_ok.1 h6
      cases h6
      obtain ⟨_, g2, h3, hc⟩ := CM.bind_ok.1 hc
      rw [hA] at h2
      exact go h2 h3 hc

end

omit [Labels] [Watch] in
theorem compileSubs_room {sy : Syms} : ∀ {args : Args} {nt : Nat} {pos : LineCol} {g g' : Codegen} {u : Unit},
    64 + sy.nlocals + nt ≤ 256 → compileSubs sy args nt pos g = .ok (u, g') → 64 + sy.nlocals + nt + args.length ≤ 256
  | .nil, _, _, _, _, _, h0, _ => h0
  | .skip .., _, _, _, _, _, _, h => by simp only [compileSubs] at h; cases h
  | .cons e _ _ rest, nt, pos, g, g', u, _, h => by
    simp only [compileSubs] at h
    obtain ⟨r, g1, h1, h⟩ := CM.bind_ok.1 h
    obtain ⟨_, h2, h1⟩ := CM.lift_ok.1 h1
    cases h1
    obtain ⟨t, g2, _, h5⟩ := CM.bind_ok.1 h
    obtain ⟨_, g3, _, h6⟩ := CM.bind_ok.1 h5
    have := temp_reg h2
    have h4 : r.toNat < 256 := r.isLt
    have := compileSubs_room (by omega) h6
    simp only [Args.length]
    omega

section
variable {sy : Syms} {d : Nat} (hsy : SymsAre sy Γ) (hwd : Wider Γ Δ) {cl : Calls} {gf : Codegen}
  (hcall : CallOk F cl Γ Δ d img gf) {lo : Nat} {cf : Prop}
include hsy hwd hcall

mutual
/-- The code of an expression leaves its value in the register, or raises its error; registers from `kb` on may change. -/
theorem sim_at (e : Expr) {nt kb : Nat} {reg : Reg} {g g' : Codegen} {t : ExprType} {w : World} {m : Mach}
    (hc : compileExpr sy e nt reg g = .ok (t, g')) (st : Start img Δ d lo g w m) (hl : Linked img gf lo g')
    (hf : FreeReg w reg.toNat) (hr : reg.toNat < 64 + kb) (hlow : sy.nlocals ≤ kb) (hhigh : kb ≤ sy.nlocals + nt) (hcf : cf → UserFree Γ e)
    (hglob : reg.toNat < 64 → cf) (hleft : LeftCall Γ e → 64 + kb ≤ reg.toNat + 1) :
    Post F img Δ lo (Below cf (m.fp + kb) (m.regIndex reg)) w m g'.code.length
      (fun v m' => v.ty = t ∧ Holds img.constants m'.heap v (m'.get reg)) (eval F cl Γ e w) := by
  have hK : ¬ Below cf (m.fp + kb) (m.regIndex reg) (m.regIndex reg) := by rintro ⟨_, _, h⟩; exact h rfl
  have hb : 64 ≤ m.fp := st.models.base
  have lit : ∀ (d : ConstantDatum) (pos : LineCol) (t : ExprType), t = d.etype → (do emitValue reg d pos; Pure.pure t : CG ExprType) g = .ok (t, g') →
      Post F img Δ lo (Below cf (m.fp + kb) (m.regIndex reg)) w m g'.code.length
      (fun v m' => v.ty = t ∧ Holds img.constants m'.heap v (m'.get reg)) (.ok (litVal d) w) := by
    intro d pos t ht hc
    obtain ⟨u, g1, h1, h2⟩ := CM.bind_ok.1 hc
    cases h2
    rw [ht]
    exact post_emitValue h1 st.ok hl st.lo st.pc st.quiet st.models hwd.small hf hK
  match e with
  | .bool b pos =>
    simp only [EB.compileExpr] at hc
    obtain ⟨u, g1, h1, h2⟩ := CM.bind_ok.1 hc
    cases h2
    exact post_emitValue h1 st.ok hl st.lo st.pc st.quiet st.models hwd.small hf hK
  | .dbl b pos =>
    simp only [EB.compileExpr] at hc
    obtain ⟨u, g1, h1, h2⟩ := CM.bind_ok.1 hc
    cases h2
    exact post_emitValue h1 st.ok hl st.lo st.pc st.quiet st.models hwd.small hf hK
  | .int b pos =>
    simp only [EB.compileExpr] at hc
    obtain ⟨u, g1, h1, h2⟩ := CM.bind_ok.1 hc
    cases h2
    exact post_emitValue h1 st.ok hl st.lo st.pc st.quiet st.models hwd.small hf hK
  | .text b pos =>
    simp only [EB.compileExpr] at hc
    obtain ⟨u, g1, h1, h2⟩ := CM.bind_ok.1 hc
    cases h2
    exact post_emitValue h1 st.ok hl st.lo st.pc st.quiet st.models hwd.small hf hK
  | .sym v pos =>
    simp only [EB.compileExpr, hsy.lookup v] at hc
    unfold Spec.lookup at hc
    simp only [eval]
    cases hn : nameRef Γ.locals Γ.shared v with
    | wrongType => trivial
    | var place p =>
      rw [hn] at hc
      simp only at hc ⊢
      cases hw : w.mem place with
      | none => trivial
      | some c =>
        cases c with
        | arr => trivial
        | scalar x =>
          obtain ⟨q, hq, hof⟩ := st.models.typed _ _ hw
          rw [hwd.proto (nameRef_var hn)] at hq
          cases hq
          cases p with
          | array => exact absurd hof (by simp [Cell.Of])
          | scalar t' =>
            cases hc
            obtain ⟨f1, f2⟩ := hl.fetch st.ok st.lo
            obtain ⟨p1, p2⟩ := place_reg_lt hsy.small (nameRef_var hn)
            have := post_set (F := F) (lo := lo) (K := Below cf (m.fp + kb) (m.regIndex reg)) (v := x) (r := reg)
              (by rw [st.pc]; exact f1) rfl st.quiet st.models hwd.small hf hK hof
              (by rw [place_get p1 p2]; exact st.models.cells _ _ hw)
            rw [st.pc] at this
            simpa [Codegen.push] using this
    | undefined =>
      rw [hn] at hc
      simp only at hc ⊢
      unfold compileArgless at hc
      cases hk : sy.getCallable (symKey v.name) with
      | none => rw [hsy.none _ hk]; trivial
      | some md =>
        cases hu : md.userDefined with
        | false =>
          rw [(hsy.builtin _ _ hk hu).1]
          simp only [hk] at hc
          obtain ⟨et, g1, h1, hc⟩ := CM.bind_ok.1 hc
          obtain ⟨_, h2, h1⟩ := CM.lift_ok.1 h1
          cases h1
          have hret : md.returnType = some et := by
            unfold checkCallee at h2
            split at h2
            · simp at h2
            next t' ht' =>
              split at h2
              · simp at h2
              · cases h2; exact ht'
          rw [hret]
          simp only
          rw [hcall.lib]
          split at hc
          · cases hc
          · rw [if_neg (by simp [hu])] at hc
            split at hc
            next hglb =>
              obtain ⟨idx, g1, h3, hc⟩ := CM.bind_ok.1 hc
              obtain ⟨temp, g1', h4, hc⟩ := CM.bind_ok.1 hc
              obtain ⟨_, h5, h4⟩ := CM.lift_ok.1 h4
              cases h4
              obtain ⟨_, g2, h6, hc⟩ := CM.bind_ok.1 hc
              obtain ⟨_, g3, h7, hc⟩ := CM.bind_ok.1 hc
              cases hc
              cases h7
              have htr := temp_reg h5
              have hce : emitCall md (symKey v.name) (some t) temp [] pos g = .ok ((), g2.setArgs g1.code.length []) := by
                unfold emitCall
                rw [if_neg (by simp [hu])]
                exact CM.bind_ok.2 ⟨idx, g1, h3, CM.bind_ok.2 ⟨_, g2, h6, by cases h6; rfl⟩⟩
              have hargs : g2.setArgs g1.code.length [] = g2 := by
                cases h6
                have c1 := getUpcall_ok h3
                unfold Codegen.setArgs
                congr 1
                show (g1.instrs ++ [_]).modify g1.code.length _ = g1.instrs ++ [_]
                apply List.ext_getElem?
                intro i
                rw [List.getElem?_modify]
                split
                next hi =>
                  subst hi
                  rw [c1.2.1, ← st.ok.lens, ← c1.2.2.1]
                  simp
                · simp
              rw [hargs] at hce
              have e3 := GStep.emitCall _ _ _ _ _ _ _ _ _ st.ok.lens hce
              have hg3 := st.ok.ext e3
              have hl3 := hl.mono (gext_push rfl fun _ => .plain rfl) hg3
              have hti : ∀ {m' : Mach}, m'.regIndex temp = m'.fp + sy.nlocals + nt := by
                intro m'; rw [regIndex_local (by omega)]; omega
              have := post_upcall (F := F) (as := []) (K := Below cf (m.fp + kb) (m.regIndex reg)) hwd.small hce hu hl3 st (by omega)
                (st.models.temp_free hwd.small (by rw [hwd.len hsy]; omega)) (by rw [hti]; rintro ⟨_, h, _⟩; omega) rfl (by simp) ⟨by simp, by simp⟩ (by simp [slots])
              have := Post.bind (f := fun v w => .ok v w) this (pc' := (g2.push (.move reg temp) pos).code.length)
                (h2 := fun v m' => v.ty = t ∧ Holds img.constants m'.heap v (m'.get reg)) (by
                  rintro v w2 m2 p2 s2 k2 md2 d2 ⟨hvt, hv⟩
                  have st2 := st.next e3 p2 s2 md2
                  obtain ⟨f1, f2⟩ := hl.fetch hg3 st2.lo
                  have := post_set (F := F) (lo := lo) (K := Below cf (m.fp + kb) (m.regIndex reg)) (v := v) (r := reg)
                    (by rw [p2]; exact f1) rfl s2.quiet md2 hwd.small (hf.dom d2)
                    (by rw [regIndex_act s2]; exact hK) hvt hv
                  rw [p2] at this
                  simpa [Codegen.push] using this)
              have hid : ∀ x : Out Val, x.bind (fun v w => .ok v w) = x := by intro x; cases x <;> rfl
              rw [hid] at this
              exact this
            next hglb =>
              obtain ⟨u, g2, h3, hc⟩ := CM.bind_ok.1 hc
              cases hc
              have h64 : 64 ≤ reg.toNat := by
                by_contra h
                exact hglb (by unfold regToParts; rw [if_pos (show reg.toNat < maxGlobal by show reg.toNat < 64; omega)])
              exact post_upcall (as := []) hwd.small h3 hu hl st h64 hf hK rfl (by simp) ⟨by simp, by simp⟩ (by simp [slots])
        | true =>
          obtain ⟨params, hp, hmd⟩ := hsy.user _ _ hk hu
          rw [hp]
          cases params with
          | cons => trivial
          | nil =>
            simp only [hk] at hc
            obtain ⟨et, g1, h1, hc⟩ := CM.bind_ok.1 hc
            obtain ⟨_, h2, h1⟩ := CM.lift_ok.1 h1
            cases h1
            split at hc
            · cases hc
            · try rw [if_pos hu] at hc
              obtain ⟨u, g2, h3, hc⟩ := CM.bind_ok.1 hc
              cases hc
              have hret : md.returnType = some t := by
                unfold checkCallee at h2
                split at h2
                · simp at h2
                next t' ht' =>
                  split at h2
                  · simp at h2
                  · cases h2; exact ht'
              rw [hret] at hp
              have hncf : ¬ cf := fun h => by rcases hcf h with h | h <;> [exact h hn; (rw [hp] at h; simp at h)]
              have h64 : 64 ≤ reg.toNat := by
                by_contra h
                exact hncf (hglob (by omega))
              have hleft := hleft ⟨hn, by unfold Env.isUser; rw [hp]⟩
              have := post_call (vs := []) hcall h3 hu hp hl st h64 ?_ rfl (by simp)
              · refine this.weaken ?_ fun _ _ _ _ _ h => h
                rintro j ⟨h1, h2, h3⟩
                rw [regIndex_local h64] at h3
                refine ⟨h1.resolve_right hncf, by omega⟩
              · intro n c hw
                obtain ⟨q, hq, _⟩ := st.models.typed _ _ hw
                have := proto_local hq
                have := hf _ _ hw
                have := hwd.len hsy
                simp only [Place.reg] at *
                omega
  | .un op e pos =>
    simp only [EB.compileExpr] at hc
    obtain ⟨te, g1, h1, hc⟩ := CM.bind_ok.1 hc
    have e1 := GStep.compileExpr _ _ _ _ _ _ _ st.ok.lens h1
    have hg1 := st.ok.ext e1
    have e2 := GStep.applyUn _ _ _ _ _ _ _ _ _ hg1.lens hc
    simp only [eval]
    refine (sim_at e h1 st (hl.mono e2 hg1) hf hr hlow hhigh (fun h => hcf h) hglob hleft).bind ?_
    rintro x w1 m1 p1 s1 k1 md1 d1 ⟨rfl, hx⟩
    have st1 := st.next e1 p1 s1 md1
    rw [← s1.fp, ← regIndex_act s1] at *
    exact (post_un (hwd.len hsy).symm hc st1.ok hl st1.lo st1.pc st1.quiet st1.models hwd.small (hf.dom d1) rfl rfl (by omega) hx).weaken
      (fun j hj => ⟨hj.1, by have := hj.2.1; omega, hj.2.2⟩) (fun _ _ _ _ _ h => h)
  | .bin op l r pos =>
    simp only [EB.compileExpr] at hc
    obtain ⟨lt, g1, h1, hc⟩ := CM.bind_ok.1 hc
    obtain ⟨rtemp, g1', h2, hc⟩ := CM.bind_ok.1 hc
    obtain ⟨_, h3, h2⟩ := CM.lift_ok.1 h2
    cases h2
    obtain ⟨rt, g2, h4, hc⟩ := CM.bind_ok.1 hc
    have e1 := GStep.compileExpr _ _ _ _ _ _ _ st.ok.lens h1
    have hg1 := st.ok.ext e1
    have e2 := GStep.compileExpr _ _ _ _ _ _ _ hg1.lens h4
    have hg2 := hg1.ext e2
    have e3 := GStep.applyBin _ _ _ _ _ _ _ _ _ _ hg2.lens hc
    have hl2 := hl.mono e3 hg2
    have htr := temp_reg h3
    simp only [eval]
    refine (sim_at l h1 st (hl2.mono e2 hg1) hf hr hlow hhigh (fun h => (hcf h).1) hglob hleft).bind ?_
    rintro x w1 m1 p1 s1 k1 md1 d1 ⟨rfl, hx⟩
    have st1 := st.next e1 p1 s1 md1
    have hft : FreeReg w1 rtemp.toNat := md1.temp_free hwd.small (by rw [hwd.len hsy]; omega)
    have hti : m1.regIndex rtemp = m1.fp + sy.nlocals + nt := by rw [regIndex_local (by omega)]; omega
    have hne : m1.regIndex reg ≠ m1.regIndex rtemp := by
      have := md1.base
      rw [hti]
      by_cases h64 : reg.toNat < 64
      · rw [regIndex_global h64]; omega
      · rw [regIndex_local (by omega)]; omega
    have hkeep : Below cf (m1.fp + (sy.nlocals + (nt + 1))) (m1.regIndex rtemp) (m1.regIndex reg) := by
      have := md1.base
      refine ⟨?_, ?_, hne⟩
      · by_cases h64 : reg.toNat < 64
        · exact Or.inr (hglob h64)
        · left; rw [regIndex_local (by omega)]; omega
      · by_cases h64 : reg.toNat < 64
        · rw [regIndex_global h64]; omega
        · rw [regIndex_local (by omega)]; omega
    have hr2 := (sim_at r (kb := sy.nlocals + (nt + 1)) h4 st1 hl2 hft (by omega) (by omega) (Nat.le_refl _) (fun h => (hcf h).2) (by omega) (by omega)).weaken
      (K' := Below cf (m.fp + kb) (m.regIndex reg))
      (h' := fun v m' => (v.ty = rt ∧ Holds img.constants m'.heap v (m'.get rtemp)) ∧ Holds img.constants m'.heap x (m'.get reg))
      (by
        rintro j ⟨j1, j2, j3⟩
        rw [hti, s1.fp]
        exact ⟨j1, by omega, by omega⟩)
      (fun a w' m' s' k' h' => ⟨h', Holds.kept k' hx (get_kept k' s' hkeep)⟩)
    refine hr2.bind ?_
    rintro y w2 m2 p2 s2 k2 md2 d2 ⟨⟨rfl, hy⟩, hx2⟩
    have st2 := st1.next e2 p2 s2 md2
    have s12 := s1.trans s2
    refine post_bin hc st2.ok hl st2.lo st2.pc st2.quiet st2.models hwd.small ((hf.dom d1).dom d2) (hft.dom d2) ?_ ?_ ?_ hx2 hy
    · rw [regIndex_act s12]; exact hK
    · rw [regIndex_act s2, hti, s1.fp]; rintro ⟨_, h, _⟩; omega
    · rw [regIndex_act s2, regIndex_act s2]; exact hne
  | .call v pos args =>
    simp only [EB.compileExpr] at hc
    simp only [eval]
    cases hk : sy.getCallable (symKey v.name) with
    | some md =>
      cases hu : md.userDefined with
      | false =>
        obtain ⟨hb1, hb2⟩ := hsy.builtin _ _ hk hu
        rw [hb1]
        simp only [hk] at hc
        obtain ⟨et, g1, h1, hc⟩ := CM.bind_ok.1 hc
        obtain ⟨_, h2, h1⟩ := CM.lift_ok.1 h1
        cases h1
        have hret : md.returnType = some et := by
          unfold checkCallee at h2
          split at h2
          · simp at h2
          next t' ht' =>
            split at h2
            · simp at h2
            · cases h2; exact ht'
        rw [hret]
        simp only [hb2]
        split at hc
        · cases hc
        · obtain ⟨ret, g1', h3, hc⟩ := CM.bind_ok.1 hc
          obtain ⟨_, h4, h3⟩ := CM.lift_ok.1 h3
          cases h3
          cases hsyn : md.findSyntax args.length with
          | none => trivial
          | some syn =>
            rw [hsyn] at hc
            simp only at hc ⊢
            rw [hcall.lib]
            obtain ⟨⟨nt', lcs⟩, g2, h5, hc⟩ := CM.bind_ok.1 hc
            obtain ⟨ft, g2', h6, hc⟩ := CM.bind_ok.1 hc
            obtain ⟨_, h7, h6⟩ := CM.lift_ok.1 h6
            cases h6
            obtain ⟨u, g3, h8, hc⟩ := CM.bind_ok.1 hc
            have htr := temp_reg h4
            have hne : reg ≠ ret := by rintro rfl; omega
            rw [if_pos hne] at hc
            cases hc
            have e2 := GStep.compileArgsFrom _ _ _ _ _ _ _ _ _ st.ok.lens h5
            have hg2 := st.ok.ext e2
            have e3 := GStep.emitCall _ _ _ _ _ _ _ _ _ hg2.lens h8
            have hg3 := hg2.ext e3
            have hl3 := hl.mono (gext_push rfl fun _ => .plain rfl) hg3
            have hri : ∀ {m' : Mach}, m'.regIndex ret = m'.fp + sy.nlocals + nt := by
              intro m'; rw [regIndex_local (by omega)]; omega
            refine ((sim_slots args (A := ⟨sy, md, pos, syn.singular.length, args.length, syn.repeated⟩) rfl h5 st (hl3.mono e3 hg2)
              (fun h => (hcf h).2)).weaken
              (K' := Below cf (m.fp + kb) (m.regIndex reg)) (fun j hj => ⟨hj.1, by have := hj.2.1; omega⟩)
              (fun _ _ _ _ _ h => h)).bind ?_
            rintro as w1 m1 p1 s1 k1 md1 d1 ⟨hr, hkn, hsl⟩
            have st1 := st.next e2 p1 s1 md1
            have hlcs : lcs = slotPositions as := by have := congrArg Prod.snd hr; simpa using this
            have := post_upcall (F := F) (as := as) (K := Below cf (m.fp + kb) (m.regIndex reg)) hwd.small h8 hu hl3 st1 (by omega)
              (md1.temp_free hwd.small (by rw [hwd.len hsy]; omega)) (by rw [hri, s1.fp]; rintro ⟨_, h, _⟩; omega) hlcs hkn (known_below hwd.small md1.base (by rw [hwd.len hsy]; omega) hkn) (by
                intro j s hs
                have := hsl j s hs
                rw [show m1.fp + (ret.toNat - 64) + 1 + j = m1.fp + sy.nlocals + (nt + 1) + j by omega, s1.fp]
                exact this)
            -- the move of the result
            have := Post.bind (f := fun v w => .ok v w) this (pc' := (g3.push (.move reg ret) pos).code.length)
              (h2 := fun v m' => v.ty = t ∧ Holds img.constants m'.heap v (m'.get reg)) (by
                rintro v w2 m2 p2 s2 k2 md2 d2 ⟨hvt, hv⟩
                have st2 := st1.next e3 p2 s2 md2
                obtain ⟨f1, f2⟩ := hl.fetch hg3 st2.lo
                have := post_set (F := F) (lo := lo) (K := Below cf (m.fp + kb) (m.regIndex reg)) (v := v) (r := reg)
                  (by rw [p2]; exact f1) rfl s2.quiet md2 hwd.small ((hf.dom d1).dom d2)
                  (by rw [regIndex_act (s1.trans s2)]; exact hK) hvt hv
                rw [p2] at this
                simpa [Codegen.push] using this)
            have hid : ∀ x : Out Val, x.bind (fun v w => .ok v w) = x := by intro x; cases x <;> rfl
            rw [hid] at this
            exact this
      | true =>
        obtain ⟨params, hp, hmd⟩ := hsy.user _ _ hk hu
        rw [hp]
        simp only [hk] at hc
        obtain ⟨et, g1, h1, hc⟩ := CM.bind_ok.1 hc
        obtain ⟨_, h2, h1⟩ := CM.lift_ok.1 h1
        cases h1
        have hret : md.returnType = some et := by
          unfold checkCallee at h2
          split at h2
          · simp at h2
          next t' ht' =>
            split at h2
            · simp at h2
            · cases h2; exact ht'
        rw [hret] at hp
        split at hc
        · cases hc
        · obtain ⟨ret, g1', h3, hc⟩ := CM.bind_ok.1 hc
          obtain ⟨_, h4, h3⟩ := CM.lift_ok.1 h3
          cases h3
          cases hsyn : md.findSyntax args.length with
          | none => rw [hsyn] at hc; cases hc
          | some syn =>
            rw [hsyn] at hc
            simp only at hc
            obtain ⟨⟨nt', lcs⟩, g2, h5, hc⟩ := CM.bind_ok.1 hc
            obtain ⟨ft, g2', h6, hc⟩ := CM.bind_ok.1 hc
            obtain ⟨_, h7, h6⟩ := CM.lift_ok.1 h6
            cases h6
            obtain ⟨u, g3, h8, hc⟩ := CM.bind_ok.1 hc
            have htr := temp_reg h4
            have hne : reg ≠ ret := by rintro rfl; omega
            rw [if_pos hne] at hc
            cases hc
            obtain ⟨sing, hs1, hs2⟩ := hmd.syns
            have hsyn' : syn = ⟨sing, none⟩ := by
              unfold Md.findSyntax at hsyn
              rw [hs1] at hsyn
              simp only [List.find?] at hsyn
              split at hsyn <;> simp at hsyn
              exact hsyn.symm
            have e2 := GStep.compileArgsFrom _ _ _ _ _ _ _ _ _ st.ok.lens h5
            have hg2 := st.ok.ext e2
            have e3 := GStep.emitCall _ _ _ _ _ _ _ _ _ hg2.lens h8
            have hg3 := hg2.ext e3
            have hl3 := hl.mono (gext_push rfl fun _ => .plain rfl) hg3
            have hncf : ¬ cf := fun h => by have := (hcf h).1; rw [hp] at this; simp at this
            have hri : ∀ {m' : Mach}, m'.regIndex ret = m'.fp + sy.nlocals + nt := by
              intro m'; rw [regIndex_local (by omega)]; omega
            have h64 : 64 ≤ reg.toNat := by
              by_contra h
              exact hncf (hglob (by omega))
            have hargs := (sim_args args (A := ⟨sy, md, pos, syn.singular.length, args.length, syn.repeated⟩) (params := params) rfl
              (by rw [hsyn']) (by rw [hsyn']; exact hs2) h5 st (hl3.mono e3 hg2) (fun h => (hcf h).2)).weaken
              (K' := Below cf (m.fp + kb) (m.regIndex reg)) (fun j hj => ⟨hj.1, by have := hj.2.1; omega, trivial⟩)
              (fun _ _ _ _ _ h => h)
            refine hargs.bind ?_
            rintro vs w1 m1 p1 s1 k1 md1 d1 ⟨hty, hvs⟩
            have st1 := st.next e2 p1 s1 md1
            have hcl := post_call (vs := vs) hcall h8 hu hp hl3 st1 (by omega) (by
                intro n c hw
                obtain ⟨q, hq, _⟩ := md1.typed _ _ hw
                have := proto_local hq
                have := hwd.len hsy
                omega) hty (by
                intro j v hv
                have := hvs j v hv
                rw [show m1.fp + (ret.toNat - 64) + 1 + j = m1.fp + sy.nlocals + (nt + 1) + j by omega, s1.fp]
                exact this)
            have hcl2 := hcl.weaken (K' := Below cf (m.fp + kb) (m.regIndex reg)) (by
                rintro j ⟨j1, j2, j3⟩
                rw [s1.fp]
                exact ⟨j1.resolve_right hncf, by omega⟩) (fun _ _ _ _ _ h => h)
            -- the move of the result
            have := Post.bind (f := fun v w => .ok v w) hcl2 (pc' := (g3.push (.move reg ret) pos).code.length)
              (h2 := fun v m' => v.ty = t ∧ Holds img.constants m'.heap v (m'.get reg)) (by
                rintro v w2 m2 p2 s2 k2 md2 d2 ⟨hvt, hv⟩
                have st2 := st1.next e3 p2 s2 md2
                obtain ⟨f1, f2⟩ := hl.fetch hg3 st2.lo
                have := post_set (F := F) (lo := lo) (K := Below cf (m.fp + kb) (m.regIndex reg)) (v := v) (r := reg)
                  (by rw [p2]; exact f1) rfl s2.quiet md2 hwd.small ((hf.dom d1).dom d2)
                  (by rw [regIndex_act (s1.trans s2)]; exact hK) hvt hv
                rw [p2] at this
                simpa [Codegen.push] using this)
            have hid : ∀ x : Out Val, x.bind (fun v w => .ok v w) = x := by intro x; cases x <;> rfl
            rw [hid] at this
            exact this
    | none =>
      rw [hsy.none _ hk]
      simp only [hk, hsy.lookup v] at hc
      unfold Spec.lookup at hc
      simp only
      cases hn : nameRef Γ.locals Γ.shared v with
      | wrongType => trivial
      | undefined => trivial
      | var place p =>
        rw [hn] at hc
        simp only at hc ⊢
        cases p with
        | scalar t' => cases hc
        | array t' nd =>
          simp only at hc
          split at hc
          · cases hc
          next hlen =>
            obtain ⟨u, g1, h1, hc⟩ := CM.bind_ok.1 hc
            obtain ⟨first, g1', h2, hc⟩ := CM.bind_ok.1 hc
            obtain ⟨_, h3, h2⟩ := CM.lift_ok.1 h2
            cases h2
            cases hc
            have hfr := first_reg h3
            have e1 := GStep.compileSubs _ _ _ _ _ _ _ st.ok.lens h1
            have hg1 := st.ok.ext e1
            have hl1 := hl.mono (gext_push rfl fun _ => .plain rfl) hg1
            have hrm := compileSubs_room (by have : first.toNat < 256 := first.isLt; omega) h1
            refine ((sim_subs args h1 st hl1 (fun h => (hcf h).2)).weaken
              (K' := Below cf (m.fp + kb) (m.regIndex reg)) (fun j hj => ⟨hj.1, by have := hj.2.1; omega, trivial⟩) (fun _ _ _ _ _ h => h)).bind ?_
            rintro subs w1 m1 p1 s1 k1 md1 d1 ⟨is, rfl, hlen', his⟩
            have st1 := st.next e1 p1 s1 md1
            cases hw : w1.mem place with
            | none => trivial
            | some c =>
              cases c with
              | scalar => trivial
              | arr ty dims elem =>
                simp only
                obtain ⟨q, hq, hof⟩ := md1.typed _ _ hw
                rw [hwd.proto (nameRef_var hn)] at hq
                cases hq
                obtain ⟨rfl, hnd, hty⟩ := hof
                obtain ⟨i, a, ha1, ha2, ha3, ha4, ha5⟩ := md1.cells _ _ hw
                obtain ⟨f1, f2⟩ := hl.fetch hg1 st1.lo
                obtain ⟨q1, q2⟩ := place_reg_lt hsy.small (nameRef_var hn)
                have hacc : m1.arrayAccess (BitVec.ofNat 8 place.reg) first = some (i, a, is.map BitVec.toInt) := by
                  unfold Mach.arrayAccess
                  rw [place_get q1 q2, ha1]
                  have hil : a.dimensions.length = is.length := by rw [ha3]; omega
                  have := readLocals_eq (m := m1) (first := first) (by omega) (is := is) (k := 0) (by omega) (by
                    intro j x hx
                    rw [← his j x hx, s1.fp]
                    congr 1; omega)
                  simp only [Option.bind_eq_bind, Option.bind_some, DatumPtr.heapIndex, ha2, hil, this]
                  rfl
                have hx : ∀ {r : Except SubscriptError (BitVec 64)}, a.load (is.map BitVec.toInt) = some r →
                    execInstr F img.constants m1 (.loadArray reg (BitVec.ofNat 8 place.reg) first) =
                      match r with
                      | .error e => m1.raise (.subscript e)
                      | .ok v => .cont (m1.set reg v).next := by
                  intro r hr
                  show doLoadArray _ _ _ _ = _
                  unfold doLoadArray
                  simp only [hacc, hr]
                  cases r <;> rfl
                cases hbad : badSubscript dims (is.map BitVec.toInt) with
                | some e =>
                  refine post_fault (by rw [p1]; exact f1) ?_ (by rw [p1]; exact f2) s1.quiet md1
                  exact hx (load_bad (by rw [ha3]; simp; omega) (by rw [ha3]; exact hbad))
                | none =>
                  obtain ⟨y, hy1, hy2⟩ := ha5 _ (badSubscript_none (by simp; omega) hbad)
                  have := post_set (F := F) (lo := lo) (K := Below cf (m.fp + kb) (m.regIndex reg)) (v := elem (is.map BitVec.toInt)) (r := reg)
                    (by rw [p1]; exact f1) (hx hy1) s1.quiet md1 hwd.small (hf.dom d1)
                    (by rw [regIndex_act s1]; exact hK) (hty _) hy2
                  rw [p1] at this
                  simpa [Codegen.push] using this
termination_by structural e

/-- The code of subscripts leaves them in consecutive registers. -/
theorem sim_subs (args : Args) {nt : Nat} {pos : LineCol} {g g' : Codegen} {u : Unit} {w : World} {m : Mach}
    (hc : compileSubs sy args nt pos g = .ok (u, g')) (st : Start img Δ d lo g w m) (hl : Linked img gf lo g')
    (hcf : cf → UserFreeArgs Γ args) :
    Post F img Δ lo (fun j => (64 ≤ j ∨ cf) ∧ j < m.fp + sy.nlocals + nt ∧ True) w m g'.code.length
      (fun subs m' => ∃ is : List I32, subs = is.map BitVec.toInt ∧ is.length = args.length ∧
        ∀ (j : Nat) (i : I32), is[j]? = some i → m'.regs (m.fp + sy.nlocals + nt + j) = ofI32 i)
      (evalSubs F cl Γ args w) := by
  match args with
  | .nil =>
    simp only [EB.compileSubs] at hc
    cases hc
    simp only [evalSubs]
    exact ⟨m, .refl _ _, st.pc, .refl st.quiet, .refl _ _ _ _, st.models, .refl _, [], rfl, rfl, by simp⟩
  | .skip .. => simp only [EB.compileSubs] at hc; cases hc
  | .cons e _ _ rest =>
    simp only [EB.compileSubs] at hc
    obtain ⟨r, g0, h1, hc⟩ := CM.bind_ok.1 hc
    obtain ⟨_, h2, h1⟩ := CM.lift_ok.1 h1
    cases h1
    obtain ⟨te, g1, h3, hc2⟩ := CM.bind_ok.1 hc
    obtain ⟨_, g2, h4, h5⟩ := CM.bind_ok.1 hc2
    have htr := temp_reg h2
    have e1 := GStep.compileExpr _ _ _ _ _ _ _ st.ok.lens h3
    have hg1 := st.ok.ext e1
    have e2 := GStep.castTo _ _ _ _ _ _ _ hg1.lens h4
    have hg2 := hg1.ext e2
    have e3 := GStep.compileSubs _ _ _ _ _ _ _ hg2.lens h5
    have hl2 := hl.mono e3 hg2
    have hri : ∀ {m' : Mach}, m'.regIndex r = m'.fp + sy.nlocals + nt := by
      intro m'; rw [regIndex_local (by omega)]; omega
    have hfr : FreeReg w r.toNat := st.models.temp_free hwd.small (by rw [hwd.len hsy]; omega)
    simp only [evalSubs]
    refine ((sim_at e (kb := sy.nlocals + (nt + 1)) h3 st (hl2.mono e2 hg1) hfr (by omega) (by omega) (Nat.le_refl _) (fun h => (hcf h).1) (by omega) (by omega)).weaken
      (K' := fun j => (64 ≤ j ∨ cf) ∧ j < m.fp + sy.nlocals + nt ∧ True)
      (by rintro j ⟨j1, j2, _⟩; rw [hri]; exact ⟨j1, by omega, by omega⟩) (fun _ _ _ _ _ h => h)).bind ?_
    rintro x w1 m1 p1 s1 k1 md1 d1 ⟨rfl, hx⟩
    have st1 := st.next e1 p1 s1 md1
    refine (post_cast h4 st1.ok hl2 st1.lo st1.pc st1.quiet md1 hwd.small (hfr.dom d1)
      (by rw [hri, s1.fp]; rintro ⟨_, h, _⟩; omega) hx).bind ?_
    rintro x w2 m2 p2 s2 k2 md2 d2 ⟨hxt, hx2⟩
    have st2 := st1.next e2 p2 s2 md2
    have s12 := s1.trans s2
    cases x with
    | bool | dbl | text => trivial
    | int i =>
      simp only
      have hfp := s12.fp
      have hrest := (sim_subs rest h5 st2 hl (fun h => (hcf h).2)).weaken
        (K' := fun j => (64 ≤ j ∨ cf) ∧ j < m.fp + sy.nlocals + nt ∧ True)
        (h' := fun subs m' => ∃ is : List I32, subs = is.map BitVec.toInt ∧ is.length = rest.length + 1 - 1 ∧
          (∀ (j : Nat) (i : I32), is[j]? = some i → m'.regs (m.fp + sy.nlocals + nt + 1 + j) = ofI32 i) ∧
          m'.regs (m.fp + sy.nlocals + nt) = ofI32 i)
        (by rintro j ⟨j1, j2, _⟩; rw [hfp]; exact ⟨j1, by omega, trivial⟩)
        (by
          rintro subs w' m' s' k' ⟨is, q1, q2, q3⟩
          refine ⟨is, q1, q2, fun j x hx => ?_, ?_⟩
          · rw [← q3 j x hx, hfp]; congr 1
          · have := md2.base
            have h8 := k'.regs (m.fp + sy.nlocals + nt) ⟨Or.inl (by omega), by omega, trivial⟩
            rw [h8]
            have h9 : m2.regs (m2.regIndex r) = ofI32 i := hx2
            rw [hri, hfp] at h9
            exact h9)
      refine hrest.bind ?_
      rintro subs w3 m3 p3 s3 k3 md3 d3 ⟨is, rfl, q2, q3, q4⟩
      refine ⟨m3, .refl _ _, p3, .refl s3.quiet, .refl _ _ _ _, md3, .refl _, i :: is, rfl, by simp [Args.length]; omega, ?_⟩
      intro j x hx
      cases j with
      | zero => cases hx; exact q4
      | succ j => rw [← q3 j x (by simpa using hx)]; congr 1; omega
termination_by structural args

/-- The code of the arguments of a user-defined function leaves them in consecutive registers. -/
theorem sim_args (args : Args) {A : ArgEnv} {params : List ExprType} {noneYet : Bool} {syns : List SingSyn} {nt : Nat} {lcs : List LineCol}
    {g g' : Codegen} {r : Nat × List LineCol} {w : World} {m : Mach}
    (hA : A.sy = sy) (hrep : A.rep = none) (hsyn : List.Forall₂ (fun (s : SingSyn) t => ∃ n sep, s = .reqValue n t sep) syns params)
    (hc : compileArgsFrom A args noneYet syns nt lcs g = .ok (r, g')) (st : Start img Δ d lo g w m) (hl : Linked img gf lo g')
    (hcf : cf → UserFreeArgs Γ args) :
    Post F img Δ lo (fun j => (64 ≤ j ∨ cf) ∧ j < m.fp + sy.nlocals + nt ∧ True) w m g'.code.length
      (fun vs m' => vs.map Val.ty = params ∧
        ∀ (j : Nat) v, vs[j]? = some v → Holds img.constants m'.heap v (m'.regs (m.fp + sy.nlocals + nt + j)))
      (evalArgs F cl Γ params args w) := by
  match args with
  | .nil =>
    cases hsyn with
    | cons => exact trivial
    | nil =>
      simp only [EB.compileArgsFrom] at hc
      unfold compileNoArgs at hc
      rw [hrep] at hc
      cases hc
      simp only [evalArgs]
      exact ⟨m, .refl _ _, st.pc, .refl st.quiet, .refl _ _ _ _, st.models, .refl _, rfl, by simp⟩
  | .skip .. => cases params <;> exact trivial
  | .cons e _ _ rest =>
    cases hsyn with
    | nil => exact trivial
    | @cons s t syns params hs hsyn =>
    obtain ⟨nm, sep, rfl⟩ := hs
    simp only [EB.compileArgsFrom] at hc
    obtain ⟨r, g0, h1, hc0⟩ := CM.bind_ok.1 hc
    obtain ⟨_, h2, h1⟩ := CM.lift_ok.1 h1
    cases h1
    obtain ⟨te, g1, h3, hc2⟩ := CM.bind_ok.1 hc0
    obtain ⟨_, g2, h4, hc3⟩ := CM.bind_ok.1 hc2
    obtain ⟨_, g2', h6, h5⟩ := CM.bind_ok.1 hc3
    obtain ⟨_, h7, h6⟩ := CM.lift_ok.1 h6
    cases h6
    rw [hA] at h2 h3
    have htr := temp_reg h2
    have e1 := GStep.compileExpr _ _ _ _ _ _ _ st.ok.lens h3
    have hg1 := st.ok.ext e1
    have e2 := GStep.castTo _ _ _ _ _ _ _ hg1.lens h4
    have hg2 := hg1.ext e2
    have e3 := GStep.compileArgsFrom _ _ _ _ _ _ _ _ _ hg2.lens h5
    have hl2 := hl.mono e3 hg2
    have hri : ∀ {m' : Mach}, m'.regIndex r = m'.fp + sy.nlocals + nt := by
      intro m'; rw [regIndex_local (by omega)]; omega
    have hfr : FreeReg w r.toNat := st.models.temp_free hwd.small (by rw [hwd.len hsy]; omega)
    simp only [evalArgs]
    refine ((sim_at e (kb := sy.nlocals + (nt + 1)) h3 st (hl2.mono e2 hg1) hfr (by omega) (by omega) (Nat.le_refl _) (fun h => (hcf h).1) (by omega) (by omega)).weaken
      (K' := fun j => (64 ≤ j ∨ cf) ∧ j < m.fp + sy.nlocals + nt ∧ True)
      (by rintro j ⟨j1, j2, _⟩; rw [hri]; exact ⟨j1, by omega, by omega⟩) (fun _ _ _ _ _ h => h)).bind ?_
    rintro x w1 m1 p1 s1 k1 md1 d1 ⟨rfl, hx⟩
    have st1 := st.next e1 p1 s1 md1
    refine (post_cast h4 st1.ok hl2 st1.lo st1.pc st1.quiet md1 hwd.small (hfr.dom d1)
      (by rw [hri, s1.fp]; rintro ⟨_, h, _⟩; omega) hx).bind ?_
    rintro x w2 m2 p2 s2 k2 md2 d2 ⟨hxt, hx2⟩
    have st2 := st1.next e2 p2 s2 md2
    have s12 := s1.trans s2
    have hfp := s12.fp
    have hrest := (sim_args rest hA hrep hsyn h5 st2 hl (fun h => (hcf h).2)).weaken
      (K' := fun j => (64 ≤ j ∨ cf) ∧ j < m.fp + sy.nlocals + nt ∧ True)
      (h' := fun vs m' => vs.map Val.ty = params ∧
        (∀ (j : Nat) v, vs[j]? = some v → Holds img.constants m'.heap v (m'.regs (m.fp + sy.nlocals + nt + 1 + j))) ∧
        Holds img.constants m'.heap x (m'.regs (m.fp + sy.nlocals + nt)))
      (by rintro j ⟨j1, j2, _⟩; rw [hfp]; exact ⟨j1, by omega, trivial⟩)
      (by
        rintro vs w' m' s' k' ⟨q1, q3⟩
        refine ⟨q1, fun j x hx => ?_, ?_⟩
        · have := q3 j x hx
          rw [hfp] at this
          exact this
        · have := md2.base
          have h8 := k'.regs (m.fp + sy.nlocals + nt) ⟨Or.inl (by omega), by omega, trivial⟩
          have h9 : Holds img.constants m2.heap x (m2.regs (m2.regIndex r)) := hx2
          rw [hri, hfp] at h9
          exact Holds.kept k' h9 h8)
    refine hrest.bind ?_
    rintro vs w3 m3 p3 s3 k3 md3 d3 ⟨q1, q3, q4⟩
    refine ⟨m3, .refl _ _, p3, .refl s3.quiet, .refl _ _ _ _, md3, .refl _, by simp [q1, hxt], ?_⟩
    intro j y hy
    cases j with
    | zero => cases hy; exact q4
    | succ j =>
      have := q3 j y (by simpa using hy)
      rw [show m.fp + sy.nlocals + nt + (j + 1) = m.fp + sy.nlocals + nt + 1 + j by omega]
      exact this
termination_by structural args

/-- The code of the arguments of a built-in callable leaves them where it expects them. -/
theorem sim_slots (args : Args) {A : ArgEnv} {noneYet : Bool} {syns : List SingSyn} {nt : Nat} {lcs : List LineCol}
    {g g' : Codegen} {r : Nat × List LineCol} {w : World} {m : Mach} (hA : A.sy = sy)
    (hc : compileArgsFrom A args noneYet syns nt lcs g = .ok (r, g')) (st : Start img Δ d lo g w m) (hl : Linked img gf lo g')
    (hcf : cf → UserFreeArgs Γ args) :
    Post F img Δ lo (Under cf (m.fp + sy.nlocals + nt)) w m g'.code.length (Slotted img Δ m.fp (m.fp + sy.nlocals) nt lcs r)
      (evalBuiltin F cl Γ A.rep noneYet syns args A.keyPos w) := by
  match args with
  | .nil =>
    simp only [EB.compileArgsFrom] at hc
    have := sim_noArgs (F := F) (cf := cf) hsy hwd hA hc st hl
    unfold evalBuiltin
    exact this
  | .skip sep sepPos rest =>
    have go : ∀ {noneYet : Bool} {syns : List SingSyn} {tag : Reg} {u : Unit} {g2 : Codegen},
        allocTemp sy nt sepPos = .ok tag → emitTag tag (.missing sep) sepPos g = .ok (u, g2) →
        compileArgsFrom A rest noneYet syns (nt + 1) (lcs ++ [sepPos]) g2 = .ok (r, g') →
        Post F img Δ lo (Under cf (m.fp + sy.nlocals + nt)) w m g'.code.length (Slotted img Δ m.fp (m.fp + sy.nlocals) nt lcs r)
          ((evalBuiltin F cl Γ A.rep noneYet syns rest A.keyPos w).bind fun as w => .ok ((.missing sep, sepPos) :: as) w) := by
      intro noneYet syns tag u g2 h2 h3 hc
      have e2 : GExt g g2 := by cases h3; exact gext_push rfl fun _ => .plain rfl
      have hg2 := st.ok.ext e2
      have e3 := GStep.compileArgsFrom _ _ _ _ _ _ _ _ _ hg2.lens hc
      exact arg_missing (y := fun w => evalBuiltin F cl Γ A.rep noneYet syns rest A.keyPos w) hsy hwd h2 st h3 (hl.mono e3 hg2)
        (fun w2 m2 st2 => sim_slots rest hA hc st2 hl hcf)
    cases syns with
    | nil =>
      simp only [EB.compileArgsFrom] at hc
      simp only [evalBuiltin]
      cases hrep : A.rep with
      | none => rw [hrep] at hc; cases hc
      | some rs =>
        rw [hrep] at hc
        simp only at hc
        split at hc
        · obtain ⟨_, g1, _, hc⟩ := CM.bind_ok.1 hc
          cases hc
        · obtain ⟨tag, g1, h1, hc⟩ := CM.bind_ok.1 hc
          obtain ⟨_, h2, h1⟩ := CM.lift_ok.1 h1
          cases h1
          obtain ⟨_, g1', h6, hc⟩ := CM.bind_ok.1 hc
          obtain ⟨_, h7, h6⟩ := CM.lift_ok.1 h6
          cases h6
          split at hc
          · cases hc
          · obtain ⟨_, g2, h3, hc⟩ := CM.bind_ok.1 hc
            rw [hA] at h2
            rw [← hrep]
            exact go h2 h3 hc
    | cons s syns =>
      simp only [evalBuiltin]
      cases s with
      | reqValue => simp only [EB.compileArgsFrom] at hc; cases hc
      | reqRef => simp only [EB.compileArgsFrom] at hc; cases hc
      | optValue | anyValue =>
        simp only [EB.compileArgsFrom] at hc
        obtain ⟨tag, g1, h1, hc⟩ := CM.bind_ok.1 hc
        obtain ⟨_, h2, h1⟩ := CM.lift_ok.1 h1
        cases h1
        obtain ⟨_, g1', h6, hc⟩ := CM.bind_ok.1 hc
        obtain ⟨_, h7, h6⟩ := CM.lift_ok.1 h6
        cases h6
        obtain ⟨_, g2, h3, hc⟩ := CM.bind_ok.1 hc
        rw [hA] at h2
        exact go h2 h3 hc
  | .cons e sep sepPos rest =>
    -- the value in a register, converted or not
    have val : ∀ {n : Nat} {reg : Reg} {t : ExprType} {p0 : LineCol} {g1 : Codegen}, allocTemp sy n p0 = .ok reg →
        compileExpr sy e (n + 1) reg g = .ok (t, g1) → Linked img gf lo g1 →
        Post F img Δ lo (Below cf (m.fp + (sy.nlocals + (n + 1))) (m.regIndex reg)) w m g1.code.length
          (fun v m' => v.ty = t ∧ Holds img.constants m'.heap v (m'.get reg)) (eval F cl Γ e w) := by
      intro n reg t p0 g1 h2 h3 hl1
      have htr := temp_reg h2
      exact sim_at e (kb := sy.nlocals + (n + 1)) h3 st hl1 (st.models.temp_free hwd.small (by rw [hwd.len hsy]; omega)) (by omega)
        (by omega) (Nat.le_refl _) (fun h => (hcf h).1) (by omega) (by omega)
    have cast : ∀ {n : Nat} {reg : Reg} {t t' : ExprType} {p0 : LineCol} {u : Unit} {g1 g2 : Codegen}, allocTemp sy n p0 = .ok reg →
        compileExpr sy e (n + 1) reg g = .ok (t, g1) → castTo reg t t' e.startPos g1 = .ok (u, g2) → Linked img gf lo g2 →
        Post F img Δ lo (Below cf (m.fp + (sy.nlocals + (n + 1))) (m.regIndex reg)) w m g2.code.length
          (fun v m' => v.ty = t' ∧ Holds img.constants m'.heap v (m'.get reg))
          ((eval F cl Γ e w).bind fun x w => castVal F t' x e.startPos w) := by
      intro n reg t t' p0 u g1 g2 h2 h3 h4 hl2
      have htr := temp_reg h2
      have e1 := GStep.compileExpr _ _ _ _ _ _ _ st.ok.lens h3
      have hg1 := st.ok.ext e1
      have e2 := GStep.castTo _ _ _ _ _ _ _ hg1.lens h4
      refine (val h2 h3 (hl2.mono e2 hg1)).bind ?_
      rintro x w1 m1 p1 s1 k1 md1 d1 ⟨rfl, hx⟩
      have st1 := st.next e1 p1 s1 md1
      exact post_cast h4 st1.ok hl2 st1.lo st1.pc st1.quiet md1 hwd.small (md1.temp_free hwd.small (by rw [hwd.len hsy]; omega))
        (by rw [regIndex_act s1]; rintro ⟨_, _, h⟩; exact h rfl) hx
    have rest_ok : ∀ {noneYet : Bool} {syns : List SingSyn} {n : Nat} {ls : List LineCol} {g2 : Codegen},
        compileArgsFrom A rest noneYet syns n ls g2 = .ok (r, g') → ∀ w2 m2, Start img Δ d lo g2 w2 m2 →
        Post F img Δ lo (Under cf (m2.fp + sy.nlocals + n)) w2 m2 g'.code.length (Slotted img Δ m2.fp (m2.fp + sy.nlocals) n ls r)
          (evalBuiltin F cl Γ A.rep noneYet syns rest A.keyPos w2) :=
      fun hc w2 m2 st2 => sim_slots rest hA hc st2 hl (fun h => (hcf h).2)
    cases syns with
    | nil =>
      simp only [EB.compileArgsFrom] at hc
      cases hrep : A.rep with
      | none => rw [hrep] at hc; cases hc
      | some rs =>
        rw [hrep] at hc
        simp only at hc
        have heq : evalBuiltin F cl Γ A.rep noneYet [] (.cons e sep sepPos rest) A.keyPos w =
            (match rs.typeSyn with
            | .anyValue =>
              (eval F cl Γ e w).bind fun x w =>
                (evalBuiltin F cl Γ A.rep false [] rest A.keyPos w).bind fun as w => .ok ((.opt sep x, e.startPos) :: as) w
            | .typed t =>
              (eval F cl Γ e w).bind fun x w => (castVal F t x e.startPos w).bind fun x w =>
                (evalBuiltin F cl Γ A.rep false [] rest A.keyPos w).bind fun as w =>
                  .ok ((if rs.plain then .val x else .opt sep x, e.startPos) :: as) w
            | .varRef =>
              match e with
              | .sym v vpos =>
                (varArg Γ (.optRef sep) v vpos w).bind fun a w =>
                  (evalBuiltin F cl Γ A.rep false [] rest A.keyPos w).bind fun as w => .ok (a :: as) w
              | _ => .stuck) := by
          rw [hrep]
          cases hts : rs.typeSyn with
          | varRef => cases e <;> simp only [evalBuiltin, hts]
          | anyValue => simp only [evalBuiltin, hts]
          | typed => simp only [evalBuiltin, hts]
        rw [← hrep, heq]
        split at hc
        next hpl =>
          cases hts : rs.typeSyn with
          | anyValue => rw [hts] at hc; cases hc
          | varRef => rw [hts] at hc; cases hc
          | typed t =>
            rw [hts] at hc
            simp only at hc ⊢
            obtain ⟨_, g1', h6, hc⟩ := CM.bind_ok.1 hc
            obtain ⟨_, h7, h6⟩ := CM.lift_ok.1 h6
            cases h6
            obtain ⟨reg, g1', h1, hc⟩ := CM.bind_ok.1 hc
            obtain ⟨_, h2, h1⟩ := CM.lift_ok.1 h1
            cases h1
            obtain ⟨te, g1, h3, hc⟩ := CM.bind_ok.1 hc
            obtain ⟨_, g2, h4, hc⟩ := CM.bind_ok.1 hc
            rw [hA] at h2 h3
            have e1 := GStep.compileExpr _ _ _ _ _ _ _ st.ok.lens h3
            have hg1 := st.ok.ext e1
            have e2 := GStep.castTo _ _ _ _ _ _ _ hg1.lens h4
            have hg2 := hg1.ext e2
            have e3 := GStep.compileArgsFrom _ _ _ _ _ _ _ _ _ hg2.lens hc
            have := arg_val hsy hwd h2 st (e1.trans e2) (cast h2 h3 h4 (hl.mono e3 hg2)) (rest_ok hc)
            rw [Out.bind_assoc] at this
            simpa only [hpl, if_true] using this
        next hpl =>
          obtain ⟨tag, g1', h1, hc⟩ := CM.bind_ok.1 hc
          obtain ⟨_, ht, h1⟩ := CM.lift_ok.1 h1
          cases h1
          obtain ⟨_, g1', h6, hc⟩ := CM.bind_ok.1 hc
          obtain ⟨_, h7, h6⟩ := CM.lift_ok.1 h6
          cases h6
          rw [hA] at ht
          cases hts : rs.typeSyn with
          | anyValue =>
            rw [hts] at hc
            simp only at hc ⊢
            obtain ⟨reg, g1', h1, hc⟩ := CM.bind_ok.1 hc
            obtain ⟨_, h2, h1⟩ := CM.lift_ok.1 h1
            cases h1
            obtain ⟨te, g1, h3, hc⟩ := CM.bind_ok.1 hc
            obtain ⟨_, g2, h4, hc⟩ := CM.bind_ok.1 hc
            rw [hA] at h2 h3
            have e1 := GStep.compileExpr _ _ _ _ _ _ _ st.ok.lens h3
            have hg1 := st.ok.ext e1
            have e2 := GStep.emitTag _ _ _ _ _ _ hg1.lens h4
            have hg2 := hg1.ext e2
            have e3 := GStep.compileArgsFrom _ _ _ _ _ _ _ _ _ hg2.lens hc
            have hl2 := hl.mono e3 hg2
            exact arg_opt hsy hwd ht h2 st e1 (val h2 h3 (hl2.mono e2 hg1)) h4 hl2 (rest_ok hc)
          | typed t =>
            rw [hts] at hc
            simp only at hc ⊢
            obtain ⟨reg, g1', h1, hc⟩ := CM.bind_ok.1 hc
            obtain ⟨_, h2, h1⟩ := CM.lift_ok.1 h1
            cases h1
            obtain ⟨te, g1, h3, hc⟩ := CM.bind_ok.1 hc
            obtain ⟨_, g2, h4, hc⟩ := CM.bind_ok.1 hc
            obtain ⟨_, g3, h5, hc⟩ := CM.bind_ok.1 hc
            rw [hA] at h2 h3
            have e1 := GStep.compileExpr _ _ _ _ _ _ _ st.ok.lens h3
            have hg1 := st.ok.ext e1
            have e2 := GStep.castTo _ _ _ _ _ _ _ hg1.lens h4
            have hg2 := hg1.ext e2
            have e3 := GStep.emitTag _ _ _ _ _ _ hg2.lens h5
            have hg3 := hg2.ext e3
            have e4 := GStep.compileArgsFrom _ _ _ _ _ _ _ _ _ hg3.lens hc
            have hl3 := hl.mono e4 hg3
            have := arg_opt hsy hwd ht h2 st (e1.trans e2) (cast h2 h3 h4 (hl3.mono e3 hg2)) h5 hl3 (rest_ok hc)
            rw [Out.bind_assoc] at this
            simpa only [hpl, if_false, Bool.false_eq_true] using this
          | varRef =>
            rw [hts] at hc
            simp only at hc ⊢
            cases e with
            | sym v vpos =>
              simp only at hc ⊢
              obtain ⟨⟨src, vt⟩, g1', h1, hc⟩ := CM.bind_ok.1 hc
              obtain ⟨_, h8, h1⟩ := CM.lift_ok.1 h1
              cases h1
              obtain ⟨reg, g1', h1, hc⟩ := CM.bind_ok.1 hc
              obtain ⟨_, h2, h1⟩ := CM.lift_ok.1 h1
              cases h1
              obtain ⟨_, g1, h3, hc1⟩ := CM.bind_ok.1 hc
              obtain ⟨_, g3, h5, hc2⟩ := CM.bind_ok.1 hc1
              cases h3
              rw [hA] at h2
              unfold repVar at h8
              rw [hA, hsy.lookup v] at h8
              unfold Spec.lookup at h8
              unfold varArg
              cases hn : nameRef Γ.locals Γ.shared v with
              | wrongType => trivial
              | undefined => trivial
              | var place q =>
                rw [hn] at h8
                simp only at h8 ⊢
                have hsrc : src = BitVec.ofNat 8 place.reg ∧ vt = q.ty := by
                  cases q with
                  | array => simp at h8
                  | scalar => simp at h8; exact ⟨h8.1.symm, h8.2.symm⟩
                obtain ⟨rfl, rfl⟩ := hsrc
                have hg1 := st.ok.push (i := .loadRegPtr reg q.ty (BitVec.ofNat 8 place.reg)) rfl (Expr.sym v vpos).startPos
                have e2 := GStep.emitTag _ _ _ _ _ _ hg1.lens h5
                have hg2 := hg1.ext e2
                have e3 := GStep.compileArgsFrom _ _ _ _ _ _ _ _ _ hg2.lens hc2
                exact arg_optRef hsy hwd ht h2 st (nameRef_var hn) h5 (hl.mono e3 hg2) (rest_ok hc2)
            | bool | dbl | int | text | un | bin | call => cases hc
    | cons s syns =>
      cases s with
      | reqValue nm t sep' =>
        simp only [EB.compileArgsFrom] at hc
        simp only [evalBuiltin]
        obtain ⟨reg, g1', h1, hc⟩ := CM.bind_ok.1 hc
        obtain ⟨_, h2, h1⟩ := CM.lift_ok.1 h1
        cases h1
        obtain ⟨te, g1, h3, hc⟩ := CM.bind_ok.1 hc
        obtain ⟨_, g2, h4, hc⟩ := CM.bind_ok.1 hc
        obtain ⟨_, g1', h6, hc⟩ := CM.bind_ok.1 hc
        obtain ⟨_, h7, h6⟩ := CM.lift_ok.1 h6
        cases h6
        rw [hA] at h2 h3
        have e1 := GStep.compileExpr _ _ _ _ _ _ _ st.ok.lens h3
        have hg1 := st.ok.ext e1
        have e2 := GStep.castTo _ _ _ _ _ _ _ hg1.lens h4
        have hg2 := hg1.ext e2
        have e3 := GStep.compileArgsFrom _ _ _ _ _ _ _ _ _ hg2.lens hc
        have := arg_val hsy hwd h2 st (e1.trans e2) (cast h2 h3 h4 (hl.mono e3 hg2)) (rest_ok hc)
        rw [Out.bind_assoc] at this
        exact this
      | reqRef nm ra du sep' =>
        simp only [EB.compileArgsFrom] at hc
        cases e with
        | sym v vpos =>
          simp only [evalBuiltin]
          simp only at hc
          obtain ⟨⟨src, vt⟩, g1', h1, hc⟩ := CM.bind_ok.1 hc
          obtain ⟨_, h8, h1⟩ := CM.lift_ok.1 h1
          cases h1
          obtain ⟨reg, g1', h1, hc⟩ := CM.bind_ok.1 hc
          obtain ⟨_, h2, h1⟩ := CM.lift_ok.1 h1
          cases h1
          obtain ⟨_, g1, h3, hc⟩ := CM.bind_ok.1 hc
          obtain ⟨_, g1', h6, hc⟩ := CM.bind_ok.1 hc
          obtain ⟨_, h7, h6⟩ := CM.lift_ok.1 h6
          cases h6
          cases h3
          rw [hA] at h2
          unfold refVar at h8
          rw [hA, hsy.lookup v] at h8
          unfold Spec.lookup at h8
          unfold varArg
          cases hn : nameRef Γ.locals Γ.shared v with
          | wrongType => trivial
          | undefined => trivial
          | var place q =>
            rw [hn] at h8
            simp only at h8 ⊢
            have hsrc : src = BitVec.ofNat 8 place.reg ∧ vt = q.ty := by
              cases q with
              | array =>
                simp only at h8
                split at h8 <;> simp at h8
                exact ⟨h8.1.symm, h8.2.symm⟩
              | scalar =>
                simp only at h8
                split at h8 <;> simp at h8
                exact ⟨h8.1.symm, h8.2.symm⟩
            obtain ⟨rfl, rfl⟩ := hsrc
            have hg1 := st.ok.push (i := .loadRegPtr reg q.ty (BitVec.ofNat 8 place.reg)) rfl (Expr.sym v vpos).startPos
            have e3 := GStep.compileArgsFrom _ _ _ _ _ _ _ _ _ hg1.lens hc
            exact arg_ref hsy hwd h2 st (nameRef_var hn) (hl.mono e3 hg1) (rest_ok hc)
        | bool | dbl | int | text | un | bin | call => cases hc
      | optValue nm t sep' =>
        simp only [EB.compileArgsFrom] at hc
        simp only [evalBuiltin]
        obtain ⟨tag, g1', h1, hc⟩ := CM.bind_ok.1 hc
        obtain ⟨_, ht, h1⟩ := CM.lift_ok.1 h1
        cases h1
        obtain ⟨reg, g1', h1, hc⟩ := CM.bind_ok.1 hc
        obtain ⟨_, h2, h1⟩ := CM.lift_ok.1 h1
        cases h1
        obtain ⟨te, g1, h3, hc⟩ := CM.bind_ok.1 hc
        obtain ⟨_, g2, h4, hc⟩ := CM.bind_ok.1 hc
        obtain ⟨_, g1', h6, hc⟩ := CM.bind_ok.1 hc
        obtain ⟨_, h7, h6⟩ := CM.lift_ok.1 h6
        cases h6
        obtain ⟨_, g3, h5, hc⟩ := CM.bind_ok.1 hc
        rw [hA] at ht h2 h3
        have e1 := GStep.compileExpr _ _ _ _ _ _ _ st.ok.lens h3
        have hg1 := st.ok.ext e1
        have e2 := GStep.castTo _ _ _ _ _ _ _ hg1.lens h4
        have hg2 := hg1.ext e2
        have e3 := GStep.emitTag _ _ _ _ _ _ hg2.lens h5
        have hg3 := hg2.ext e3
        have e4 := GStep.compileArgsFrom _ _ _ _ _ _ _ _ _ hg3.lens hc
        have hl3 := hl.mono e4 hg3
        have := arg_opt hsy hwd ht h2 st (e1.trans e2) (cast h2 h3 h4 (hl3.mono e3 hg2)) h5 hl3 (rest_ok hc)
        rw [Out.bind_assoc] at this
        exact this
      | anyValue nm am sep' =>
        simp only [EB.compileArgsFrom] at hc
        simp only [evalBuiltin]
        obtain ⟨tag, g1', h1, hc⟩ := CM.bind_ok.1 hc
        obtain ⟨_, ht, h1⟩ := CM.lift_ok.1 h1
        cases h1
        obtain ⟨reg, g1', h1, hc⟩ := CM.bind_ok.1 hc
        obtain ⟨_, h2, h1⟩ := CM.lift_ok.1 h1
        cases h1
        obtain ⟨te, g1, h3, hc⟩ := CM.bind_ok.1 hc
        obtain ⟨_, g1', h6, hc⟩ := CM.bind_ok.1 hc
        obtain ⟨_, h7, h6⟩ := CM.lift_ok.1 h6
        cases h6
        obtain ⟨_, g3, h5, hc⟩ := CM.bind_ok.1 hc
        rw [hA] at ht h2 h3
        have e1 := GStep.compileExpr _ _ _ _ _ _ _ st.ok.lens h3
        have hg1 := st.ok.ext e1
        have e3 := GStep.emitTag _ _ _ _ _ _ hg1.lens h5
        have hg3 := hg1.ext e3
        have e4 := GStep.compileArgsFrom _ _ _ _ _ _ _ _ _ hg3.lens hc
        have hl3 := hl.mono e4 hg3
        exact arg_opt hsy hwd ht h2 st e1 (val h2 h3 (hl3.mono e3 hg1)) h5 hl3 (rest_ok hc)
termination_by structural args
end

/-- The code of an expression leaves its value in the register, or raises its error. -/
theorem sim_expr (e : Expr) {nt : Nat} {reg : Reg} {g g' : Codegen} {t : ExprType} {w : World} {m : Mach}
    (hc : compileExpr sy e nt reg g = .ok (t, g')) (st : Start img Δ d lo g w m) (hl : Linked img gf lo g')
    (hf : FreeReg w reg.toNat) (hr : reg.toNat < 64 + sy.nlocals + nt) (hcf : cf → UserFree Γ e)
    (hglob : reg.toNat < 64 → cf) (hleft : LeftCall Γ e → 64 + sy.nlocals + nt ≤ reg.toNat + 1) :
    Post F img Δ lo (Below cf (m.fp + sy.nlocals + nt) (m.regIndex reg)) w m g'.code.length
      (fun v m' => v.ty = t ∧ Holds img.constants m'.heap v (m'.get reg)) (eval F cl Γ e w) := by
  have := sim_at hsy hwd hcall e (kb := sy.nlocals + nt) hc st hl hf (by omega) (by omega) (Nat.le_refl _) hcf hglob (fun h => by have := hleft h; omega)
  rwa [← Nat.add_assoc] at this

end

end
end EB
