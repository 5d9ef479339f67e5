import Verif.Lemmas.SimCall
import Verif.Lemmas.StmtCodeAll
import Verif.Lemmas.Session
import Verif.Spec.Program
/-!
# Whole programs
-/

namespace EB
open Spec

/-- The end of the text. -/
def NoExits : Targets := ⟨[], [], none⟩

theorem exits_nil {c : Ctx} (h1 : c.doExit = []) (h2 : c.forExit = []) (h3 : c.calExits = []) : c.exits = [] := by
  simp [Ctx.exits, h1, h2, h3]

/-- An accepted chunk is in the image. -/
theorem wired_top {src : Source} {c c' : Ctx} {img img' : Image} {u : Unit} (hs : Synced c img)
    (h : compileMore src c img = (.ok u, c', img')) :
    ∃ c1, compileStmts src.stmts { c with cg := c.cg.popEof } = .ok ((), c1) ∧ Good { c with cg := c.cg.popEof } ∧
      Wired ⟨img', c'.cg, c'.sy⟩ Nowhere c.cg.popEof.code.length c1 NoExits ∧ c1.sy = c'.sy ∧
      img'.code.length = c1.cg.code.length + 1 ∧ img'.code[c1.cg.code.length]? = some .eof ∧ img'.instrs.length = img'.code.length ∧ Inv c' := by
  obtain ⟨d, hc, rfl⟩ := compileMore_ok h
  obtain ⟨hsy, hf⟩ := synced_more hs hc
  have hidle := hsy.idle
  obtain ⟨c1, h1, _, hinv, E, code, hcode, rfl, _⟩ := compileTop_ok hs.idle hc
  have hlen : code.length = c1.cg.code.length + 1 := by rw [applyFixups_len hcode]; simp [Codegen.push]
  have x0 : ({ c with cg := c.cg.popEof } : Ctx).exits = [] := exits_nil hs.idle.doExit hs.idle.forExit (hinv.calNone hs.idle.cur)
  refine ⟨c1, h1, ⟨hinv, hinv.lens, ?_, ?_, ?_, ?_⟩, ?_, rfl, by rw [hf.code]; exact hlen, ?_, by rw [hf.instrs, hf.code]; exact hidle.inv.lens, hidle.inv⟩
  · rw [x0]; intro a ha; cases ha
  · rw [x0]; exact List.nodup_nil
  · rw [x0]; intro a ha; cases ha
  · intro a f ha
    have ha : c.cg.fixups.get? a = some f := ha
    rw [hs.idle.fixups] at ha; simp [FMap.get?] at ha
  · have hlens : c1.cg.instrs.length = c1.cg.code.length := E.inv.lens
    have hmeta : ∀ i, i < c1.cg.code.length → (img.append d).instrs[i]? = c1.cg.instrs[i]? := by
      intro i hi
      rw [hf.instrs]
      show (c1.cg.instrs ++ _)[i]? = _
      rw [List.getElem?_append_left (by omega)]
    refine ⟨?_, ?_, ?_, ?_, ?_, ?_, ?_, ?_, ?_, ?_, ⟨fun _ _ h => h, .refl _⟩, ?_, fun _ _ h => h⟩
    · intro i _ hi
      show ((img.append d).instrs[i]?).map _ = _
      rw [hmeta i hi]
    · intro i mt _ hi hmt hst
      exact ⟨mt, (hmeta i hi).trans hmt, hst⟩
    · rintro i mt _ hi hmt hst ⟨mt', hmt', hst'⟩
      rw [show (img.append d).instrs[i]? = some mt from (hmeta i hi).trans hmt] at hmt'
      cases hmt'
      rw [hst] at hst'; cases hst'
    · intro i _ hi _ _ hfx
      show (img.append d).code[i]? = _
      rw [hf.code]
      show code[i]? = _
      rw [applyFixups_none hcode hfx]
      show (c1.cg.code ++ _)[i]? = _
      rw [List.getElem?_append_left hi]
    · intro i f _ hi hfx
      obtain ⟨m, ins, hm, hins, hat⟩ := applyFixups_some hcode hfx
      refine ⟨m.linecol, ins, ?_, ?_⟩
      · cases f <;> exact hins
      · show (img.append d).code[i]? = _
        rw [hf.code]
        exact hat (by simp [Codegen.push]; omega)
    · intro d' t id hd
      show (img.append d).constants[id]? = _
      rw [hf.constants]
      exact (IdMap.keys_getElem? hidle.inv.constants).2 ⟨t, hd⟩
    · rw [show c1.doExit = [] from hidle.doExit]; exact .nil
    · rw [show c1.forExit = [] from hidle.forExit]; exact .nil
    · intro p hp
      rw [show c1.calExits = [] from hidle.inv.calNone hidle.cur] at hp
      cases hp
    · intro k v hk; exact hk
    · intro k t id hk
      show (img.append d).upcalls[id]? = _
      rw [hf.upcalls]
      exact (IdMap.keys_getElem? hidle.inv.upcalls).2 ⟨t, hk⟩
  · rw [hf.code]
    show code[c1.cg.code.length]? = _
    rw [applyFixups_none hcode]
    · simp [Codegen.push]
    · cases hfx : c1.cg.fixups.get? c1.cg.code.length with
      | none => rfl
      | some f => exact absurd (E.inv.fixups _ _ hfx) (Nat.lt_irrefl _)

theorem wide_self (Γ : Env) : wide Γ.shared Γ = Γ := rfl

theorem calm_models [Labels] [Nest] {cs : List ConstantDatum} {Γ : Env} {fp : Nat} {w : World} {m n : Mach} (h : Models cs Γ fp w m) (hn : n.calm = m.calm) :
    Models cs Γ fp w n :=
  h.move (congrArg (f := Mach.regs) (a₁ := n.calm) (a₂ := m.calm) hn) (congrArg (f := Mach.heap) (a₁ := n.calm) (a₂ := m.calm) hn)
    (congrArg (f := Mach.handler) (a₁ := n.calm) (a₂ := m.calm) hn)

theorem eof_of {F : FloatOps} {H : Type} {host : Host H} {img : Image} (hl : img.instrs.length = img.code.length) {m : Mach} {vm : Vm H}
    (hp : vm.pending = none) (hi : img.code[m.pc]? = some .eof) (hn : vm.mach.calm = m.calm) :
    ∃ n', Reaches F host img vm { vm with mach := n' } ∧ n'.calm = m.calm ∧
      vmStep F host img { vm with mach := n' } = .stop .eof { vm with mach := n' } := by
  have hpc : vm.mach.pc = m.pc := congrArg (f := Mach.pc) (a₁ := vm.mach.calm) (a₂ := m.calm) hn
  obtain ⟨n0, h0, hc0, hs⟩ := reaches_instr (F := F) (host := host) (vm := vm) hl hp (by rw [hpc]; exact hi)
  refine ⟨n0, h0, hc0.trans hn, ?_⟩
  simp only [vmStep, hp, hs]
  rfl

/-- What is known, wherever the labels are. -/
theorem Spec.Models.shown [Labels] {cs : List ConstantDatum} {Γ : Env} {fp : Nat} {w : World} {m : Mach} (h : Models cs Γ fp w m) :
    Shown cs Γ fp w m := by
  obtain ⟨h1, h2, h3, h4, h5, h6, h7⟩ := h
  letI := Labels.anywhere
  show Models cs Γ fp w m
  refine ⟨h1, h2, h3, h4, h5, h6, ?_⟩
  cases ht : w.trap with
  | stop => rw [ht] at h7; exact h7
  | resume => rw [ht] at h7; exact h7
  | jump k b => rw [ht] at h7; obtain ⟨a, _, ha⟩ := h7; exact ⟨a, trivial, ha⟩

theorem Spec.Shown.models [Labels] {cs : List ConstantDatum} {Γ : Env} {fp : Nat} {w : World} {m : Mach} (h : Shown cs Γ fp w m)
    (hw : ∀ k b, w.trap ≠ .jump k b) : Models cs Γ fp w m := by
  obtain ⟨h1, h2, h3, h4, h5, h6, h7⟩ := h
  refine ⟨h1, h2, h3, h4, h5, h6, ?_⟩
  cases ht : w.trap with
  | stop => rw [ht] at h7; exact h7
  | resume => rw [ht] at h7; exact h7
  | jump k b => exact absurd ht (hw k b)

/-- An error that is not trapped. -/
theorem untrapped [Labels] {t : Trap} {h : ErrorHandler} (ht : Traps t h) (hg : t.goesOn = true → False) :
    h = .none ∨ ∃ a, h = .jump true a := by
  cases t with
  | stop => exact .inl ht
  | resume => exact (hg rfl).elim
  | jump k b =>
    obtain ⟨a, _, rfl⟩ := ht
    cases b with
    | true => exact .inr ⟨a, rfl⟩
    | false => exact (hg rfl).elim

/-- The chunk, from its first instruction on. -/
theorem sim_chunk_counted {F : FloatOps} {H : Type} {host : Host H} {lib : Lib} {state : List (Request × Reply) → H}
    {src : Source} {c c' : Ctx} {img img' : Image} {u : Unit} (hs : Synced c img)
    (h : compileMore src c img = (.ok u, c', img')) (hprov : Provides host img' lib state)
    {Γ : Env} (hΓ : Scope c.sy Γ) {w : World} {vm : Vm H} (n d : Nat)
    (hpc : vm.mach.pc + 1 = c.cg.code.length) (hm : Shown img'.constants Γ vm.mach.fp w vm.mach) (htrap : ∀ k b, w.trap ≠ .jump k b)
    (hstack : vm.mach.stack = []) (hd : vm.mach.maxStack = d) (hlow : vm.mach.fp + 192 * d + 256 ≤ 2 ^ 32)
    (hsync : Synchronous state w.log vm) :
    Scope c'.sy (afterStmts Γ src.stmts) ∧
      Follows F host state img' (afterStmts Γ src.stmts) vm (run F n d lib Γ src.stmts w) ∧
      ∀ l, run F n d lib Γ src.stmts w = .going l → ∃ k vm', n ≤ k ∧ ReachesIn F host img' k vm vm' ∧ Synchronous state l vm' := by
  obtain ⟨c1, h1, hgood, hw, hsy, hlen, heof, hl, hinv⟩ := wired_top hs h
  have hcode := stmtsCode src.stmts h1 hgood hw
  replace hΓ : Scope ({ c with cg := c.cg.popEof } : Ctx).sy Γ := hΓ
  have hafter := stmts_scope hcode hΓ
  rw [hsy] at hafter
  refine ⟨hafter, ?_⟩
  letI : Watch := ⟨n⟩
  haveI : Enough n := ⟨Nat.le_refl _⟩
  letI : Answers img' := answers hprov
  letI : Labels := ⟨fun k a => c'.cg.labels.get? k = some a⟩
  letI : Nest := ⟨false⟩
  replace hm : Models img'.constants Γ vm.mach.fp w vm.mach := hm.models htrap
  have himp : Implements host img' state := answers_implements hprov
  have hS : Shares ⟨img', c'.cg, c'.sy⟩ (afterStmts Γ src.stmts).shared := ⟨hafter.syms.shared, hafter.syms.small.shared, fun _ _ => Iff.rfl⟩
  have hfew : Fewer Γ (wide (afterStmts Γ src.stmts).shared Γ) := by
    intro p q hq
    cases p with
    | «local» n => exact hq
    | shared n => exact proto_prefix (grow_stmts Γ src.stmts).shared hq
  have hplen : c.cg.popEof.code.length = vm.mach.pc := by
    simp [Codegen.popEof]; omega
  have hat : At img' (wide (afterStmts Γ src.stmts).shared Γ) d w vm.mach.calm c.cg.popEof.code.length :=
    ⟨hplen.symm, rfl, (hm.grow hfew).move rfl rfl rfl, by show vm.mach.maxStack - vm.mach.stack.length = d; rw [hstack]; exact hd, hlow,
      ⟨fun _ => rfl, fun _ => hstack⟩⟩
  have hcl := callsOk_at (F := F) hS (fun k f hk => located_stmts hcode hΓ k f (findDef_mem hk)) n d
  have hrun := sim_unit (n := n) hS (hcl.1 false Γ src.stmts) (hcl.2 hcode hΓ) hcode hΓ rfl hat
  rw [wide_self] at hrun
  show Follows F host state img' (afterStmts Γ src.stmts) vm
    (unit F n (callsAt F n lib (fun k => findDef k (defsStmts Γ src.stmts)) d false Γ src.stmts) Γ src.stmts none w) ∧
    ∀ l, unit F n (callsAt F n lib (fun k => findDef k (defsStmts Γ src.stmts)) d false Γ src.stmts) Γ src.stmts none w = .going l → _
  have hcalm : vm.mach.calm = (vm.mach.calm).calm := rfl
  replace hrun : SPost F img' (afterStmts Γ src.stmts) NoExits (fun _ => False) w vm.mach.calm c1.cg.code.length
    (unit F n (callsAt F n lib (fun k => findDef k (defsStmts Γ src.stmts)) d false Γ src.stmts) Γ src.stmts none w) := hrun
  cases hr : unit F n (callsAt F n lib (fun k => findDef k (defsStmts Γ src.stmts)) d false Γ src.stmts) Γ src.stmts none w with
  | done w' =>
    refine ⟨?_, fun _ h => by cases h⟩
    rw [hr] at hrun
    obtain ⟨m1, p1, pc1, md1⟩ := hrun
    obtain ⟨vm1, g1, k1, s1⟩ := reaches_of_go hl himp p1.go vm hcalm hsync
    obtain ⟨n2, g2, k2, e2⟩ := eof_of (F := F) (host := host) hl (m := m1) (vm := vm1) s1.pending (by rw [pc1]; exact heof) k1
    refine ⟨_, g1.trans g2, e2, ?_, ?_, ?_, s1.mach n2⟩
    · exact (congrArg (f := Mach.fp) (a₁ := n2.calm) (a₂ := m1.calm) k2).trans p1.act.fp
    · exact (congrArg (f := Mach.stack) (a₁ := n2.calm) (a₂ := m1.calm) k2).trans p1.act.stack
    · have := calm_models md1 k2
      rw [p1.act.fp] at this
      exact this.shown
  | ended code w' =>
    refine ⟨?_, fun _ h => by cases h⟩
    rw [hr] at hrun
    obtain ⟨m1, g, f1, _, md1⟩ := hrun
    obtain ⟨vm1, g1, k1, s1⟩ := reaches_of_go hl himp g vm hcalm hsync
    obtain ⟨vm2, g2, k2, s2, e2⟩ := ends_of_finishes (host := host) (state := state) hl f1 vm1 k1 s1
    exact ⟨vm2, g1.trans g2, e2, (calm_models md1 k2).shown, s2⟩
  | err pos e w' =>
    refine ⟨?_, fun _ h => by cases h⟩
    rw [hr] at hrun
    obtain ⟨m1, pc, f1, _, md1, hre⟩ := hrun
    have ht := untrapped md1.trap fun h => (hre h).2
    obtain ⟨vm1, vm2, n0, g1, e1, k1, k2, s2⟩ := raises_of_fails hl himp f1 ht vm hcalm hsync
    refine ⟨vm1, vm2, g1, e1, ?_, s2⟩
    rw [k2]
    exact Models.shown ((calm_models md1 k1).move (m' := n0.park img') rfl rfl rfl)
  | going l =>
    rw [hr] at hrun
    obtain ⟨m1, k, hk, g⟩ := hrun
    obtain ⟨k', vm1, hk', g1, _, s1⟩ := reaches_of_goIn hl himp g vm hcalm hsync
    refine ⟨⟨vm1, g1.reaches, s1⟩, ?_⟩
    rintro l' h
    cases h
    exact ⟨k', vm1, Nat.le_trans hk hk', g1, s1⟩
  | exitDo w' => rw [hr] at hrun; obtain ⟨t, ts, ht, _⟩ := hrun; cases ht
  | exitFor w' => rw [hr] at hrun; obtain ⟨t, ts, ht, _⟩ := hrun; cases ht
  | leave w' => rw [hr] at hrun; obtain ⟨t, ht, _⟩ := hrun; cases ht
  | jump k w' => exact (follow_lands _ _ _ _ hr).elim
  | back w' => rw [hr] at hrun; obtain ⟨t, _, ht, _⟩ := hrun; exact (ht hstack).elim
  | stuck => exact ⟨trivial, fun _ h => by cases h⟩

/-- The chunk, from its first instruction on. -/
theorem sim_chunk {F : FloatOps} {H : Type} {host : Host H} {lib : Lib} {state : List (Request × Reply) → H}
    {src : Source} {c c' : Ctx} {img img' : Image} {u : Unit} (hs : Synced c img)
    (h : compileMore src c img = (.ok u, c', img')) (hprov : Provides host img' lib state)
    {Γ : Env} (hΓ : Scope c.sy Γ) {w : World} {vm : Vm H} (n d : Nat)
    (hpc : vm.mach.pc + 1 = c.cg.code.length) (hm : Shown img'.constants Γ vm.mach.fp w vm.mach) (htrap : ∀ k b, w.trap ≠ .jump k b)
    (hstack : vm.mach.stack = []) (hd : vm.mach.maxStack = d) (hlow : vm.mach.fp + 192 * d + 256 ≤ 2 ^ 32)
    (hsync : Synchronous state w.log vm) :
    Scope c'.sy (afterStmts Γ src.stmts) ∧
      Follows F host state img' (afterStmts Γ src.stmts) vm (run F n d lib Γ src.stmts w) := by
  have := sim_chunk_counted (F := F) hs h hprov hΓ n d hpc hm htrap hstack hd hlow hsync
  exact ⟨this.1, this.2.1⟩

/-- The symbol tables before a program. -/
theorem scope_builtins {up : FMap Str Md} (hup : ∀ k md, up.get? k = some md → md.userDefined = false) :
    Scope ⟨.empty, up, [], .empty⟩ (builtins up) := by
  have hg : ∀ k, (⟨.empty, up, [], .empty⟩ : Syms).getCallable k = up.get? k := fun k => rfl
  refine ⟨⟨?_, ?_, ⟨?_, ?_⟩, ?_, ?_, ?_⟩, hup, ?_, fun k => (hg k).symm⟩
  · exact ⟨rfl, by simp [builtins], fun k => rfl⟩
  · exact ⟨rfl, by simp [builtins], fun k => rfl⟩
  · exact Nat.zero_le _
  · exact Nat.zero_le _
  · intro k hk; rw [hg] at hk; simp [builtins, hk]
  · intro k md hk hu; rw [hg] at hk; rw [hup k md hk] at hu; cases hu
  · intro k md hk _; rw [hg] at hk; exact ⟨by simp [builtins, hk], fun n => by simp [builtins, hk]⟩
  · intro k md args syn hk _ hsyn
    rw [hg] at hk
    simp [builtins, hk, hsyn]

theorem new_models (cs : List ConstantDatum) (Γ : Env) (maxStack maxHeap : Nat) :
    Shown cs Γ (Mach.new maxStack maxHeap).fp (fresh maxHeap) (Mach.new maxStack maxHeap) := by
  letI := Labels.anywhere
  show Models cs Γ _ _ _
  refine ⟨Nat.le_refl 64, ⟨rfl, show 1 ≤ 2 ^ 24 by decide⟩, rfl, ?_, ?_, ?_, rfl⟩
  · intro p c h; cases h
  · intro p c h; cases h
  · intro p q t d f t' d' f' i h; cases h

/-- The machine before a program. -/
def Vm.start {H : Type} (maxStack maxHeap : Nat) (h : H) : Vm H := ⟨Mach.new maxStack maxHeap, none, none, h⟩

/-- A whole program. -/
theorem sim_program_counted {F : FloatOps} {H : Type} {host : Host H} {lib : Lib} {state : List (Request × Reply) → H}
    {up : FMap Str Md} {src : Source} {img : Image} (hup : ∀ k md, up.get? k = some md → md.userDefined = false)
    (h : compileProgram up [] src = .ok img) (hprov : Provides host img lib state) (n maxStack maxHeap : Nat)
    (hmax : maxStack ≤ 2 ^ 24) :
    Follows F host state img (afterStmts (builtins up) src.stmts) (Vm.start maxStack maxHeap (state []))
      (run F n maxStack lib (builtins up) src.stmts (fresh maxHeap)) ∧
    ∀ l, run F n maxStack lib (builtins up) src.stmts (fresh maxHeap) = .going l →
      ∃ k vm', n ≤ k ∧ ReachesIn F host img k (Vm.start maxStack maxHeap (state [])) vm' ∧ Synchronous state l vm' := by
  unfold compileProgram at h
  cases hn : Compiler.new up [] with
  | error e => rw [hn] at h; cases h
  | ok c =>
    rw [hn] at h
    simp only at h
    split at h
    next c' img' hm =>
      cases h
      have hs : Synced c .default := ⟨idle_new hn, .inl rfl⟩
      have hc : c = ⟨Codegen.empty.push .eof ⟨0, 0⟩, [], [], [], none, [], [], ⟨.empty, up, [], .empty⟩⟩ := by
        unfold Compiler.new at hn
        cases hn
        rfl
      refine (sim_chunk_counted hs hm hprov (Γ := builtins up) (vm := Vm.start maxStack maxHeap (state [])) ?_ n maxStack ?_
        (new_models _ _ _ _) (fun _ _ h => by cases h) rfl rfl ?_ ⟨rfl, rfl, rfl⟩).2
      · rw [hc]; exact scope_builtins hup
      · rw [hc]; rfl
      · show 64 + 192 * maxStack + 256 ≤ 2 ^ 32; omega
    · cases h

/-- A whole program. -/
theorem sim_program {F : FloatOps} {H : Type} {host : Host H} {lib : Lib} {state : List (Request × Reply) → H}
    {up : FMap Str Md} {src : Source} {img : Image} (hup : ∀ k md, up.get? k = some md → md.userDefined = false)
    (h : compileProgram up [] src = .ok img) (hprov : Provides host img lib state) (n maxStack maxHeap : Nat)
    (hmax : maxStack ≤ 2 ^ 24) :
    Follows F host state img (afterStmts (builtins up) src.stmts) (Vm.start maxStack maxHeap (state []))
      (run F n maxStack lib (builtins up) src.stmts (fresh maxHeap)) :=
  (sim_program_counted hup h hprov n maxStack maxHeap hmax).1

end EB
