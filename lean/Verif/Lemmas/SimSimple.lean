import Verif.Lemmas.SimFlow
import Verif.Props.Bytecode
/-!
# The code of simple statements
-/

namespace EB
open Spec

variable [Labels] [Watch] [Nest]

/-! ## Writing variables -/

section
variable {F : FloatOps} {img : Image} [Answers img] {Δ : Env}

theorem set_sub {w : World} {p : Place} : ∀ q c, (w.set p none).mem q = some c → w.mem q = some c := by
  intro q c h
  simp only [World.set] at h
  split at h
  · simp at h
  · exact h

/-- A variable whose register holds a value is known to have it. -/
theorem Spec.Models.learn {cs : List ConstantDatum} {fp : Nat} {w : World} {m : Mach} (hm : Models cs Δ fp w m) {p : Place} {t : ExprType} {v : Val}
    (hp : Δ.proto p = some (.scalar t)) (ht : v.ty = t) (hv : Holds cs m.heap v (m.regs (p.index fp))) :
    Models cs Δ fp (w.set p (some (.scalar v))) m := by
  refine ⟨hm.base, hm.heap, hm.room, ?_, ?_, ?_, hm.trap⟩
  · intro q c h
    simp only [World.set] at h
    split at h
    next he => cases h; subst he; exact hv
    · exact hm.cells q c h
  · intro q c h
    simp only [World.set] at h
    split at h
    next he => cases h; subst he; exact ⟨_, hp, ht⟩
    · exact hm.typed q c h
  · intro q q' t d f t' d' f' i h1 h2
    simp only [World.set] at h1 h2
    split at h1
    · simp at h1
    · split at h2
      · simp at h2
      · exact hm.apart _ _ _ _ _ _ _ _ i h1 h2

theorem passes_learn {w : World} {m : Mach} {p : Place} {v : Val} (hq : m.yieldPending = false) :
    Passes F img w m (w.set p (some (.scalar v))) m := by
  refine ⟨.refl _ _, .refl hq, fun _ _ => rfl, fun _ _ h => h, fun _ _ h _ => h, ?_, Nat.le_refl _, rfl⟩
  rintro i _ ⟨q, t, d, f, h1, h2⟩
  simp only [World.set] at h1
  split at h1
  · simp at h1
  · exact ⟨q, t, d, f, h1, h2⟩

theorem place_toNat {p : Place} {q : Proto} (hs : EnvSmall Δ) (hp : Δ.proto p = some q) : (BitVec.ofNat 8 p.reg).toNat = p.reg := by
  rw [BitVec.toNat_ofNat, Nat.mod_eq_of_lt (place_reg_lt hs hp).1]

theorem place_index {p : Place} {q : Proto} {m : Mach} (hs : EnvSmall Δ) (hp : Δ.proto p = some q) :
    m.regIndex (BitVec.ofNat 8 p.reg) = p.index m.fp := by
  have h1 := place_toNat hs hp
  cases p with
  | «local» n =>
    rw [regIndex_local (by rw [h1]; simp [Place.reg]), h1]
    simp [Place.reg, Place.index]
  | shared n =>
    have := (place_reg_lt hs hp).2 n rfl
    rw [regIndex_global (by rw [h1]; exact this), h1]
    rfl

theorem free_place {cs : List ConstantDatum} {fp : Nat} {w : World} {m : Mach} (hm : Models cs Δ fp w m) (hs : EnvSmall Δ) {p : Place} {q : Proto}
    (hp : Δ.proto p = some q) : FreeReg (w.set p none) p.reg := by
  intro p' c h
  simp only [World.set] at h
  split at h
  · simp at h
  next hne =>
    obtain ⟨q', hq', _⟩ := hm.typed _ _ h
    have := hs.shared
    intro he
    apply hne
    cases p with
    | «local» n =>
      cases p' with
      | «local» k => simp only [Place.reg] at he; congr 1; omega
      | shared k => have := proto_shared hq'; simp only [Place.reg] at he; omega
    | shared n =>
      have := proto_shared hp
      cases p' with
      | «local» k => simp only [Place.reg] at he; omega
      | shared k => simp only [Place.reg] at he; congr 1

theorem not_low {m : Mach} {p : Place} {q : Proto} (hs : EnvSmall Δ) (hp : Δ.proto p = some q) : ¬ Low m.fp (p.index m.fp) := by
  rintro ⟨h1, h2⟩
  cases p with
  | «local» n => simp only [Place.index] at h2; omega
  | shared n =>
    have := proto_shared hp
    have := hs.shared
    simp only [Place.index] at h1; omega

theorem set_none_set (w : World) (p : Place) (c : Option Cell) : (w.set p none).set p c = w.set p c := by
  unfold World.set
  simp only
  congr 1
  funext q
  by_cases h : q = p <;> simp [h]

/-- One instruction that assigns to a variable. -/
theorem write_place {d a : Nat} {w : World} {m : Mach} {p : Place} {t : ExprType} {v : Val} {x : BitVec 64} {i : Instr} (hs : EnvSmall Δ)
    (h : At img Δ d w m a) (hp : Δ.proto p = some (.scalar t)) (hi : img.code[a]? = some i)
    (he : execInstr F img.constants m i = .cont (m.set (BitVec.ofNat 8 p.reg) x).next) (ht : v.ty = t) (hv : Holds img.constants m.heap v x) :
    ∃ m1, Passes F img w m (w.set p (some (.scalar v))) m1 ∧ m1.pc = a + 1 ∧ Models img.constants Δ m1.fp (w.set p (some (.scalar v))) m1 := by
  have hm0 : Models img.constants Δ m.fp (w.set p none) m := h.models.change rfl rfl set_sub fun _ _ _ h => h
  have hf : FreeReg (w.set p none) (BitVec.ofNat 8 p.reg).toNat := by
    rw [place_toNat hs hp]; exact free_place h.models hs hp
  have hK : ¬ Low m.fp (m.regIndex (BitVec.ofNat 8 p.reg)) := by
    rw [place_index hs hp]; exact not_low hs hp
  have hm1 := models_set hm0 hs hf x
  have hk1 := kept_set hm0 hs hf x hK
  have hx : (m.set (BitVec.ofNat 8 p.reg) x).next.regs (p.index m.fp) = x := by
    rw [← place_index hs hp]
    exact setAt_same _ _ _
  have hm2 := hm1.learn (v := v) hp ht (by rw [hx]; exact hv)
  rw [set_none_set] at hm2
  have p0 : Passes F img w m (w.set p none) m := .less h.quiet rfl set_sub
  have p1 : Passes F img (w.set p none) m (w.set p none) (m.set (BitVec.ofNat 8 p.reg) x).next :=
    ⟨Go.one (by rw [h.pc]; exact hi) he h.quiet, ⟨rfl, rfl, rfl, h.quiet⟩, hk1⟩
  have p2 := passes_learn (F := F) (img := img) (w := w.set p none) (m := (m.set (BitVec.ofNat 8 p.reg) x).next) (p := p) (v := v) h.quiet
  rw [set_none_set] at p2
  exact ⟨_, (p0.trans p1).trans p2, by show m.pc + 1 = _; rw [h.pc], hm2⟩

end

/-! ## Expressions in statements -/

section
variable {F : FloatOps} {L : Link} [Answers L.img] {S : Decls} {cl : Calls} {d : Nat}

/-- What is assumed of the calls of subroutines. -/
def SubOk (F : FloatOps) (sub : Str → List Val → LineCol → World → Out Unit) (Γ Δ : Env) (d : Nat) (img : Image) [Answers img] (gf : Codegen) : Prop :=
  ∀ (lo : Nat) (key : Str) (params : List ExprType) (vs : List Val) (pos p : LineCol) (first : Reg) (ins : Instr) (w : World) (m : Mach) (T : Targets),
    Γ.callable key = some (.user params none) →
    gf.fixupInstr p (.call first key) = .ok ins → img.code[m.pc]? = some ins →
    (img.instrs[m.pc]?).map (·.linecol) = some pos → Inside img lo m.pc →
    m.yieldPending = false → m.maxStack - m.stack.length = d → m.fp + 192 * d + 256 ≤ 2 ^ 32 →
    Models img.constants Δ m.fp w m → 64 ≤ first.toNat →
    (∀ n c, w.mem (.local n) = some c → n + 64 < first.toNat) →
    vs.map Val.ty = params →
    (∀ (j : Nat) v, vs[j]? = some v → Holds img.constants m.heap v (m.regs (m.fp + (first.toNat - 64) + j))) →
    SPost F img Δ T (Inside img lo) w m (m.pc + 1) ((sub key vs pos w).then fun _ w => .done w)

/-- Calls do what the specification says. -/
structure CallsOk (F : FloatOps) (L : Link) [Answers L.img] (S : Decls) (cl : Calls) (d : Nat) : Prop where
  fn : ∀ {sy Γ}, Scope sy Γ → L.Within sy → CallOk F cl Γ (wide S Γ) d L.img L.gf
  sub : ∀ {sy Γ}, Scope sy Γ → L.Within sy → SubOk F cl.sub Γ (wide S Γ) d L.img L.gf

omit [Watch] in
/-- A smaller number of steps. -/
theorem CallsOk.fewer {W W' : Watch} (hW : W'.rounds ≤ W.rounds) (h : @CallsOk _ W F L _ S cl d) : @CallsOk _ W' F L _ S cl d := by
  obtain ⟨h1, h2⟩ := h
  constructor
  · intro sy Γ hs hw
    obtain ⟨h3, h4⟩ := h1 hs hw
    refine ⟨h3, ?_⟩
    intro lo key params t vs pos p first ins w m k1 k2 k3 k4 k5 k6 k7 k8 k9 k10 k11 k12 k13
    exact (h4 lo key params t vs pos p first ins w m k1 k2 k3 k4 k5 k6 k7 k8 k9 k10 k11 k12 k13).fewer hW
  · intro sy Γ hs hw lo key params vs pos p first ins w m T k1 k2 k3 k4 k5 k6 k7 k8 k9 k10 k11 k12 k13
    exact (h2 hs hw lo key params vs pos p first ins w m T k1 k2 k3 k4 k5 k6 k7 k8 k9 k10 k11 k12 k13).fewer hW

variable (hS : Shares L S) (hcl : CallsOk F L S cl d)
include hS hcl

theorem sim_as {sy : Syms} {Γ : Env} (hs : Scope sy Γ) (hw : L.Within sy) {lo : Nat} {cf : Prop} (e : Expr) {nt : Nat} {reg : Reg} {t : ExprType}
    {g g' : Codegen} {u : Unit} {w : World} {m : Mach}
    (hc : compileExprAs sy e nt reg t g = .ok (u, g')) (st : Start L.img (wide S Γ) d lo g w m) (hl : Linked L.img L.gf lo g')
    (hf : FreeReg w reg.toNat) (hr : reg.toNat < 64 + sy.nlocals + nt) (hcf : cf → UserFree Γ e)
    (hglob : reg.toNat < 64 → cf) (hleft : LeftCall Γ e → 64 + sy.nlocals + nt ≤ reg.toNat + 1) :
    Post F L.img (wide S Γ) lo (Below cf (m.fp + sy.nlocals + nt) (m.regIndex reg)) w m g'.code.length
      (fun v m' => v.ty = t ∧ Holds L.img.constants m'.heap v (m'.get reg)) (evalAs F cl Γ e t w) := by
  have hwd := wide_wider hS hs hw
  have hK : ¬ Below cf (m.fp + sy.nlocals + nt) (m.regIndex reg) (m.regIndex reg) := by rintro ⟨_, _, h⟩; exact h rfl
  unfold compileExprAs at hc
  obtain ⟨t', g1, h1, h2⟩ := CM.bind_ok.1 hc
  have e1 := GStep.compileExpr _ _ _ _ _ _ _ st.ok.lens h1
  have hg1 := st.ok.ext e1
  have e2 := GStep.castTo _ _ _ _ _ _ _ hg1.lens h2
  unfold evalAs
  refine (sim_expr hs.syms hwd (hcl.fn hs hw) e h1 st (hl.mono e2 hg1) hf hr hcf hglob hleft).bind ?_
  rintro x w1 m1 p1 s1 k1 md1 d1 ⟨rfl, hx⟩
  have st1 := st.next e1 p1 s1 md1
  exact post_cast h2 st1.ok hl st1.lo st1.pc st1.quiet md1 hwd.small (hf.dom d1) (by rw [regIndex_act s1]; exact hK) hx

omit hcl in
theorem temp_low {sy : Syms} {Γ : Env} (hs : Scope sy Γ) (hw : L.Within sy) {w : World} {m : Mach} (hm : Models L.img.constants (wide S Γ) m.fp w m)
    {nt : Nat} {r : Reg} (hr : r.toNat = 64 + sy.nlocals + nt) :
    FreeReg w r.toNat ∧ m.regIndex r = m.fp + sy.nlocals + nt ∧ 64 ≤ m.fp := by
  have hwd := wide_wider hS hs hw
  refine ⟨hm.temp_free hwd.small (by rw [hwd.len hs.syms]; omega), ?_, hm.base⟩
  rw [regIndex_local (by omega)]; omega

/-- The code of a guard. -/
theorem sim_cond {sy : Syms} {Γ : Env} (hs : Scope sy Γ) {e : Expr} {a k : Nat} {r : Reg} {w : World} {m : Mach}
    (hp : Piece L sy (condCode sy e) a k r) (ha : At L.img (wide S Γ) d w m a) :
    Post F L.img (wide S Γ) a (Low m.fp) w m k (IsBool r) (evalAs F cl Γ e .boolean w) := by
  obtain ⟨g, g', hc, hg, hla, hlk, hl, hw⟩ := hp
  obtain ⟨reg, g1, h1, hc⟩ := CM.bind_ok.1 hc
  obtain ⟨_, h2, h1⟩ := CM.lift_ok.1 h1
  cases h1
  obtain ⟨u, g2, h3, hc⟩ := CM.bind_ok.1 hc
  cases hc
  have htr := temp_reg h2
  obtain ⟨t1, t2, t3⟩ := temp_low hS hs hw ha.models htr
  have st : Start L.img (wide S Γ) d a g w m := ⟨hg, by omega, by rw [ha.pc, hla], ha.quiet, ha.models, ha.depth, ha.low⟩
  have := sim_as hS hcl hs hw (cf := False) e h3 st hl t1 (by omega) (by simp) (by omega) (by omega)
  rw [← hlk]
  refine this.weaken (fun j hj => ⟨.inl hj.1, by have := hj.2; omega, by have := hj.2; omega⟩) ?_
  rintro v w' m' _ _ ⟨hv1, hv2⟩
  cases v with
  | bool b => exact ⟨b, rfl, hv2⟩
  | _ => simp [Val.ty] at hv1

/-! ## Assignments -/

variable {T : Targets}

theorem sim_assign {v : VarRef} {pos : LineCol} {e : Expr} {c c' : Ctx} {u : Unit} {Γ : Env} (hi : Inv c) (hs : Scope c.sy Γ)
    (h : compileAssign v pos e c = .ok (u, c')) {lo : Nat} (hlo : lo ≤ c.cg.code.length) (hl : Linked L.img L.gf lo c'.cg) (hw' : L.Within c'.sy)
    {w : World} {m : Mach} (ha : At L.img (wide S Γ) d w m c.cg.code.length) :
    SPost F L.img (wide S (afterAssign Γ v e)) T (Inside L.img lo) w m c'.cg.code.length (assign F cl Γ v e w) := by
  have hw : L.Within c.sy := hw'.before (SStep.compileAssign _ _ _ _ _ _ _ hi (Nat.le_refl _) h)
  have hwd := wide_wider hS hs hw
  have hg := hi.gok
  have st : Start L.img (wide S Γ) d lo c.cg w m := ⟨hg, hlo, ha.pc, ha.quiet, ha.models, ha.depth, ha.low⟩
  rcases compileAssign_cases hi.locals hs h with ⟨p, t, temp, g1, hn, hm, hy, htemp, hc, hcg⟩ | ⟨p, t, hn, hm, hy, hc⟩ |
      ⟨hn, sy1, reg, hs1, hu1, hg1, hreg, hlen, hs2, hc⟩
  · have hΓ : afterAssign Γ v e = Γ := by unfold afterAssign; rw [if_neg (by rw [hn]; simp)]
    have hpr := hwd.proto (nameRef_var hn)
    rw [hΓ]
    unfold assign
    rw [hn]
    simp only [hm, if_true]
    have htr := temp_reg htemp
    obtain ⟨t1, t2, t3⟩ := temp_low hS hs hw ha.models htr
    have e1 := GStep.compileExprAs _ _ _ _ _ _ _ _ hg.lens hc
    have hg1 := hg.ext e1
    rw [hcg] at hl
    have := sim_as hS hcl hs hw (cf := False) e hc st (hl.mono (gext_push rfl fun _ => .plain rfl) hg1) t1 (by omega) (by simp) (by omega) (by omega)
    refine this.then (fun _ h => h) (fun j hj => ⟨.inl hj.1, by have := hj.2; omega, by have := hj.2; omega⟩) (fun _ _ _ h => h) ?_
    rintro x w1 m1 p1 pc1 md1 d1 ⟨hx1, hx2⟩ _
    obtain ⟨f1, f2, _⟩ := hl.fetch hg1 (by have := e1.len; omega)
    obtain ⟨m2, p2, pc2, md2⟩ := write_place (F := F) (v := x) hwd.small (p1.at ha pc1 md1) hpr f1 rfl hx1 hx2
    refine ⟨m2, p2, ?_, md2⟩
    rw [pc2, hcg]; simp [Codegen.push]
  · have hΓ : afterAssign Γ v e = Γ := by unfold afterAssign; rw [if_neg (by rw [hn]; simp)]
    have hpr := hwd.proto (nameRef_var hn)
    have hpr0 := nameRef_var hn
    rw [hΓ]
    unfold assign
    rw [hn]
    simp only [hm, Bool.false_eq_true, if_false]
    split
    next hdir =>
      have hm0 : Models L.img.constants (wide S Γ) m.fp (w.set p none) m := ha.models.change rfl rfl set_sub fun _ _ _ h => h
      have st0 : Start L.img (wide S Γ) d lo c.cg (w.set p none) m := ⟨hg, hlo, ha.pc, ha.quiet, hm0, ha.depth, ha.low⟩
      have hrt := place_toNat hwd.small hpr
      have p0 : Passes F L.img w m (w.set p none) m := .less ha.quiet rfl set_sub
      have key : ∀ (cf : Prop), (cf → UserFree Γ e) → ((BitVec.ofNat 8 p.reg).toNat < 64 → cf) →
          (LeftCall Γ e → 64 + c.sy.nlocals + 0 ≤ (BitVec.ofNat 8 p.reg).toNat + 1) → (BitVec.ofNat 8 p.reg).toNat < 64 + c.sy.nlocals + 0 →
          SPost F L.img (wide S Γ) T (Inside L.img lo) w m c'.cg.code.length
            ((evalAs F cl Γ e t (w.set p none)).then fun x w => .done (w.set p (some (.scalar x)))) := by
        intro cf h1 h2 h3 h4
        have := sim_as hS hcl hs hw (cf := cf) e hc st0 hl (by rw [hrt]; exact free_place ha.models hwd.small hpr) h4 h1 h2 h3
        refine SPost.after p0 (this.then (fun _ h => h) (fun j hj => ⟨.inl hj.1, by have := hj.2; omega, ?_⟩) (fun _ _ _ h => h) ?_)
        · rintro rfl
          rw [place_index hwd.small hpr] at hj
          exact not_low hwd.small hpr hj
        · rintro x w1 m1 p1 pc1 md1 d1 ⟨hx1, hx2⟩ _
          refine ⟨m1, passes_learn p1.act.quiet, pc1, md1.learn hpr hx1 ?_⟩
          rw [← place_index hwd.small hpr]
          exact hx2
      cases p with
      | shared n =>
        refine key True (fun _ => hdir) (fun _ => trivial) (fun hlc => absurd hlc (userFree_left hdir)) ?_
        rw [hrt]
        have := proto_shared hpr0
        have := hs.syms.small.shared
        simp only [Place.reg]; omega
      | «local» n =>
        have hnl := hs.syms.nlocals
        have := proto_local hpr0
        refine key False (by simp) ?_ (fun hlc => ?_) ?_
        · rw [hrt]; simp only [Place.reg]; omega
        · rw [hrt, hnl]; simp only [Place.reg]
          have := hdir hlc
          omega
        · rw [hrt]; simp only [Place.reg]; omega
    · trivial
  · have hΓ : afterAssign Γ v e = Γ.addLocal (symKey v.name) (.scalar (newType Γ v e)) := by unfold afterAssign; rw [if_pos hn]
    rw [hΓ]
    unfold assign
    rw [hn]
    simp only
    split
    next hdir =>
      have hw1 : L.Within sy1 := hw.same hu1 hg1
      have hwd1 := wide_wider hS hs1 hw1
      have hwd2 := wide_wider hS hs2 hw'
      have hfew : Fewer (wide S Γ) (wide S (Γ.addLocal (symKey v.name) (.scalar (v.ty.getD .integer)))) := (Grow.addLocal _ _ _).fewer S
      have hfew2 : ∀ q y, q ≠ .local Γ.locals.length → (wide S (Γ.addLocal (symKey v.name) (.scalar (v.ty.getD .integer)))).proto q = some y →
          (wide S (Γ.addLocal (symKey v.name) (.scalar (newType Γ v e)))).proto q = some y := by
        intro q y hne hq
        cases q with
        | shared n => exact hq
        | «local» n =>
          have hn2 : n ≠ Γ.locals.length := fun h => hne (by rw [h])
          have h1 := proto_local hq
          have h2 : n < Γ.locals.length := by
            have : (wide S (Γ.addLocal (symKey v.name) (.scalar (v.ty.getD .integer)))).locals.length = Γ.locals.length + 1 := by
              simp [wide, Env.addLocal]
            omega
          simp only [Env.proto, wide, Env.addLocal] at hq ⊢
          rw [List.getElem?_append_left h2] at hq ⊢
          exact hq
      have hm0 : Models L.img.constants (wide S (Γ.addLocal (symKey v.name) (.scalar (v.ty.getD .integer)))) m.fp (w.set (.local Γ.locals.length) none) m :=
        ha.models.change rfl rfl set_sub fun q y _ h => hfew q y h
      have st0 : Start L.img (wide S (Γ.addLocal (symKey v.name) (.scalar (v.ty.getD .integer)))) d lo c.cg (w.set (.local Γ.locals.length) none) m :=
        ⟨hg, hlo, ha.pc, ha.quiet, hm0, ha.depth, ha.low⟩
      have hnl : sy1.nlocals = Γ.locals.length + 1 := by rw [hs1.syms.nlocals]; simp [Env.addLocal]
      have hprN : (wide S (Γ.addLocal (symKey v.name) (.scalar (newType Γ v e)))).proto (.local Γ.locals.length) = some (.scalar (newType Γ v e)) := by
        simp [Env.proto, wide, Env.addLocal]
      have hrp : reg = BitVec.ofNat 8 (Place.local Γ.locals.length).reg := by
        apply BitVec.eq_of_toNat_eq
        rw [hreg, place_toNat hwd2.small hprN]; simp only [Place.reg]; omega
      have p0 : Passes F L.img w m (w.set (.local Γ.locals.length) none) m := .less ha.quiet rfl set_sub
      have hfr : FreeReg (w.set (.local Γ.locals.length) none) reg.toNat := by
        rw [hrp, place_toNat hwd2.small hprN]
        exact free_place (q := .scalar (v.ty.getD .integer)) (ha.models.grow hfew) hwd1.small (by simp [Env.proto, wide, Env.addLocal])
      have := sim_as hS hcl hs1 hw1 (cf := False) e hc st0 hl hfr (by omega) (by simp) (by omega) (fun hlc => by
        have := hdir hlc
        omega)
      refine SPost.after p0 (this.then (fun _ h => h) (fun j hj => ⟨.inl hj.1, by have := hj.2; omega, ?_⟩) (fun q y hq h => hfew2 q y ?_ h) ?_)
      · rintro rfl
        rw [hrp, place_index hwd2.small hprN] at hj
        exact not_low hwd2.small hprN hj
      · rintro rfl
        simp [World.set] at hq
      · rintro x w1 m1 p1 pc1 md1 d1 ⟨hx1, hx2⟩ _
        have hmN : Models L.img.constants (wide S (Γ.addLocal (symKey v.name) (.scalar (newType Γ v e)))) m1.fp w1 m1 :=
          md1.change rfl rfl (fun _ _ h => h) fun q y hq h => hfew2 q y (by rintro rfl; exact hq (d1 _ (by simp [World.set]))) h
        refine ⟨m1, passes_learn p1.act.quiet, pc1, hmN.learn hprN hx1 ?_⟩
        rw [← place_index hwd2.small hprN, ← hrp]
        exact hx2
    · trivial

end

end EB
