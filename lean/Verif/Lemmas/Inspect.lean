import Verif.Spec.Inspect
import Verif.Lemmas.SimProg
import Verif.Lemmas.Machine
/-!
# Reading variables
-/

namespace EB
open Spec

/-! ## More constants -/

theorem Holds.consts {cs cs' : List ConstantDatum} (hc : cs <+: cs') {h : Heap} {v : Val} {x : BitVec 64} (hv : Holds cs h v x) :
    Holds cs' h v x := by
  cases v with
  | bool | int | dbl => exact hv
  | text s =>
    replace hv : (DatumPtr.ofU64 x).bind (fun p => p.resolveString cs h) = some s := hv
    show (DatumPtr.ofU64 x).bind (fun p => p.resolveString cs' h) = some s
    cases hp : DatumPtr.ofU64 x with
    | none => rw [hp] at hv; simp at hv
    | some p =>
      rw [hp] at hv
      simp only [Option.bind_some] at hv ⊢
      cases p with
      | heap i => exact hv
      | constant i =>
        unfold DatumPtr.resolveString at *
        simp only at hv ⊢
        split at hv
        next s' hs =>
          obtain ⟨t, rfl⟩ := hc
          rw [List.getElem?_append_left (List.getElem?_eq_some_iff.1 hs).1, hs]; exact hv
        · simp at hv

theorem HoldsCell.consts {cs cs' : List ConstantDatum} (hc : cs <+: cs') {h : Heap} {c : Cell} {x : BitVec 64}
    (hv : HoldsCell cs h c x) : HoldsCell cs' h c x := by
  cases c with
  | scalar v => exact Holds.consts hc hv
  | arr t d f =>
    obtain ⟨i, a, h1, h2, h3, h4, h5⟩ := hv
    refine ⟨i, a, h1, h2, h3, h4, fun s hs => ?_⟩
    obtain ⟨y, hy, hv⟩ := h5 s hs
    exact ⟨y, hy, Holds.consts hc hv⟩

theorem Shown.consts {cs cs' : List ConstantDatum} (hc : cs <+: cs') {Γ : Env} {fp : Nat} {w : World} {m : Mach}
    (h : Shown cs Γ fp w m) : Shown cs' Γ fp w m := by
  let := Labels.anywhere
  obtain ⟨h1, h2, h3, h4, h5, h6, h7⟩ := h
  exact ⟨h1, h2, h3, fun p c hm => HoldsCell.consts hc (h4 p c hm), h5, h6, h7⟩

/-! ## One variable -/

theorem setWidth_ofI32' (i : I32) : (ofI32 i).setWidth 32 = i := by
  apply BitVec.eq_of_getLsbD_eq
  intro j hj
  simp [ofI32, BitVec.getLsbD_signExtend, hj]
  omega


theorem fromRaw_holds {cs : List ConstantDatum} {h : Heap} {v : Val} {x : BitVec 64} (hv : Holds cs h v x) :
    ConstantDatum.fromRaw x v.ty cs h = some v.datum := by
  cases v with
  | bool b =>
    cases (show x = ofBool b from hv)
    cases b <;> rfl
  | int i =>
    cases (show x = ofI32 i from hv)
    show some (ConstantDatum.integer _) = some (ConstantDatum.integer _)
    congr 2
    exact setWidth_ofI32' i
  | dbl d => cases (show x = d from hv); rfl
  | text s =>
    replace hv : (DatumPtr.ofU64 x).bind (fun p => p.resolveString cs h) = some s := hv
    cases hp : DatumPtr.ofU64 x with
    | none => rw [hp] at hv; simp at hv
    | some p =>
      rw [hp] at hv
      simp only [Option.bind_some] at hv
      show (do let p ← DatumPtr.ofU64 x; let s ← p.resolveString cs h; pure (ConstantDatum.text s)) = some (.text s)
      rw [hp]
      simp [hv]

/-- What the image says about a declaration. -/
def infoOf (p : Proto) (id : Nat) : VarInfo :=
  match p with
  | .array t n => ⟨id, t, n⟩
  | .scalar t => ⟨id, t, 0⟩

theorem lookup_varInfos (t : IdMap Str Proto) (k : Str) : (varInfos t).lookup k = (t.get? k).map fun (p, id) => infoOf p id := by
  obtain ⟨m⟩ := t
  show (List.map _ m).lookup k = (FMap.get? m k).map _
  induction m with
  | nil => rfl
  | cons e m ih =>
    obtain ⟨k', p, id⟩ := e
    rw [List.map_cons, List.lookup_cons]
    simp only [FMap.get?]
    by_cases hk : k' = k
    · subst hk
      simp only [beq_self_eq_true, if_true, Option.map_some]
      cases p <;> rfl
    · rw [if_neg hk, ← ih]
      have : (k == k') = false := by simpa using fun h : k = k' => hk h.symm
      rw [this]

section
variable {H : Type} {vm : Vm H} {img : Image} {ds : Decls} {place : Nat → Place} {w : World} {raw : Mach → Nat → BitVec 64}
  {vars : List (Str × VarInfo)}

theorem tells (hv : ∀ k, vars.lookup k = (Spec.position k ds).map fun (p, id) => infoOf p id)
    (hc : ∀ n c, w.mem (place n) = some c → HoldsCell img.constants vm.mach.heap c (raw vm.mach n))
    (ht : ∀ n c, w.mem (place n) = some c → ∃ q, (ds[n]?).map (·.2) = some q ∧ c.Of q)
    (hp : ∀ k p n, Spec.position k ds = some (p, n) → (ds[n]?).map (·.2) = some p) :
    Tells ds place w (fun k => vm.getScalarVar img k vars raw) (fun k s => vm.getArrayVar img k vars s raw) := by
  have look : ∀ k p n, Spec.position k ds = some (p, n) → vars.lookup k = some (infoOf p n) := fun k p n h => by rw [hv, h]; rfl
  refine ⟨fun k t n v h hm => ?_, fun k t r n ty dims elem subs h hr hm hb => ?_, fun k t r n ty dims elem subs h hr hm hl hb => ?_,
    fun k t r n h hr => ?_, fun k t n subs h => ?_, fun k subs h => ?_⟩
  · obtain ⟨q, hq, ho⟩ := ht _ _ hm
    rw [hp _ _ _ h] at hq
    cases hq
    have ho : v.ty = t := ho
    refine ⟨ho, ?_⟩
    simp only [Vm.getScalarVar, look _ _ _ h, infoOf, ne_eq, not_true_eq_false, if_false]
    rw [← ho, fromRaw_holds (hc _ _ hm)]
    rfl
  · obtain ⟨q, hq, ho⟩ := ht _ _ hm
    rw [hp _ _ _ h] at hq
    cases hq
    obtain ⟨h1, h2, h3⟩ := ho
    obtain ⟨i, a, c1, c2, c3, c4, c5⟩ := hc _ _ hm
    obtain ⟨y, hy, hh⟩ := c5 _ hb
    simp only [Vm.getArrayVar, look _ _ _ h, infoOf]
    rw [if_neg (by omega), c1]
    simp only [Option.bind_some, DatumPtr.heapIndex, c2]
    unfold ArrayData.load at hy
    cases hf : flatIndex a.dimensions (subs.map BitVec.toInt) with
    | none => rw [hf] at hy; cases hy
    | some r =>
      rw [hf] at hy
      cases r with
      | error e => cases hy
      | ok j =>
        simp only at hy ⊢
        cases hj : a.values[j]? with
        | none => rw [hj] at hy; cases hy
        | some x =>
          rw [hj] at hy
          cases hy
          simp only
          rw [← h3 (subs.map BitVec.toInt), fromRaw_holds hh]
          rfl
  · obtain ⟨q, hq, ho⟩ := ht _ _ hm
    rw [hp _ _ _ h] at hq
    cases hq
    obtain ⟨h1, h2, h3⟩ := ho
    obtain ⟨i, a, c1, c2, c3, c4, c5⟩ := hc _ _ hm
    simp only [Vm.getArrayVar, look _ _ _ h, infoOf]
    rw [if_neg (by omega), c1]
    simp only [Option.bind_some, DatumPtr.heapIndex, c2]
    cases hf : flatIndex a.dimensions (subs.map BitVec.toInt) with
    | none =>
      unfold flatIndex at hf
      split at hf
      · cases hf
      next hn => exact absurd (by rw [List.length_map, c3, h2, hl]) hn
    | some r =>
      cases r with
      | error e => exact ⟨e, rfl⟩
      | ok j => exact absurd (c3 ▸ ((flatIndex_ok_iff _ _ _).1 hf).1) hb
  · simp only [Vm.getScalarVar, look _ _ _ h, infoOf]
    rw [if_pos (by omega)]
  · simp only [Vm.getArrayVar, look _ _ _ h, infoOf, if_true]
  · have : vars.lookup k = none := by rw [hv, h]; rfl
    simp only [Vm.getScalarVar, Vm.getArrayVar, this, and_self]

end

theorem position_get {ds : Decls} {k : Str} {p : Proto} {n : Nat} (h : Spec.position k ds = some (p, n)) :
    (ds[n]?).map (·.2) = some p := by
  induction ds generalizing n with
  | nil => cases h
  | cons d ds ih =>
    obtain ⟨k', q⟩ := d
    unfold Spec.position at h
    split at h
    · cases h; rfl
    · cases hd : Spec.position k ds with
      | none => rw [hd] at h; cases h
      | some r =>
        obtain ⟨p', n'⟩ := r
        rw [hd] at h
        cases h
        exact ih hd

/-! ## All variables -/

theorem more_vars {src : Source} {c c' : Ctx} {img img' : Image} {u : Unit} (h : compileMore src c img = (.ok u, c', img')) :
    img'.programVars = varInfos c'.sy.locals ∧ img'.globalVars = varInfos c'.sy.globals := by
  obtain ⟨d, hd, rfl⟩ := compileMore_ok h
  unfold compileTop at hd
  split at hd
  · cases hd
  split at hd
  · cases hd
  unfold buildDelta at hd
  split at hd
  · cases hd
  · cases hd; exact ⟨rfl, rfl⟩

theorem tellsAll {H : Type} {c : Ctx} {img : Image} (h : img.programVars = varInfos c.sy.locals ∧ img.globalVars = varInfos c.sy.globals)
    {Γ : Env} (hs : Scope c.sy Γ) {w : World} {vm : Vm H} (hm : Shown img.constants Γ 64 w vm.mach) : TellsAll Γ w img vm := by
  obtain ⟨v1, v2⟩ := h
  let := Labels.anywhere
  have hm : Models img.constants Γ 64 w vm.mach := hm
  constructor
  · refine tells (fun k => ?_) (fun n c hn => hm.cells _ _ hn) (fun n c hn => hm.typed _ _ hn) fun k p n => position_get
    rw [v1, lookup_varInfos, hs.syms.locals.get]
  · refine tells (fun k => ?_) (fun n c hn => hm.cells _ _ hn) (fun n c hn => hm.typed _ _ hn) fun k p n => position_get
    rw [v2, lookup_varInfos, hs.syms.shared.get]

/-- Only registers and heap matter. -/
theorem TellsAll.same {H : Type} {Γ : Env} {w : World} {img : Image} {vm vm' : Vm H} (h : TellsAll Γ w img vm)
    (hr : vm'.mach.regs = vm.mach.regs) (hh : vm'.mach.heap = vm.mach.heap) : TellsAll Γ w img vm' := by
  have e1 : vm'.getProgram img = vm.getProgram img := by
    funext k; simp only [Vm.getProgram, Vm.getScalarVar, Mach.programRaw, hr, hh]
  have e2 : vm'.getProgramArray img = vm.getProgramArray img := by
    funext k s; simp only [Vm.getProgramArray, Vm.getArrayVar, Mach.programRaw, hr, hh]
  have e3 : vm'.getGlobal img = vm.getGlobal img := by
    funext k; simp only [Vm.getGlobal, Vm.getScalarVar, Mach.globalRaw, hr, hh]
  have e4 : vm'.getGlobalArray img = vm.getGlobalArray img := by
    funext k s; simp only [Vm.getGlobalArray, Vm.getArrayVar, Mach.globalRaw, hr, hh]
  unfold TellsAll at h ⊢
  rw [e1, e2, e3, e4]
  exact h

/-- `END` changes nothing. -/
theorem exec_end {F : FloatOps} {cs : List ConstantDatum} {m m' : Mach} {i : Instr} {c : BitVec 8}
    (h : execInstr F cs m i = .stop (.end c) m') : m'.regs = m.regs ∧ m'.heap = m.heap := by
  cases i with
  | eof => cases h
  | bin op d l r =>
    exfalso
    have h : doBin F cs m op d l r = .stop (.end c) m' := h
    have num : (match binEval F op (m.get l) (m.get r) with
      | .ok v => Step.cont (m.set d v).next
      | .error e => m.raise e) = .stop (.end c) m' → False := by
      intro h; split at h <;> cases h
    have txt : (match m.derefString l cs, m.derefString r cs with
      | some a, some b => Step.cont (m.set d (ofBool ((textEval op a b).getD false))).next
      | _, _ => .panic) = .stop (.end c) m' → False := by
      intro h; split at h <;> cases h
    cases op <;> first
      | exact num h
      | exact txt h
      | skip
    have h : (match m.derefString l cs, m.derefString r cs with
      | some a, some b =>
        match m.heap.push (.text (a ++ b)) with
        | none => m.raise .outOfHeap
        | some (p, h) => Step.cont ({ m with heap := h }.set d p).next
      | _, _ => .panic) = .stop (.end c) m' := h
    split at h
    · split at h <;> cases h
    · cases h
  | un op r =>
    have h : (match unEval F op (m.get r) with
      | .ok v => Step.cont (m.set r v).next
      | .error e => m.raise e) = .stop (.end c) m' := h
    split at h <;> cases h
  | alloc d ty =>
    have h : (if ty = .text then Step.cont (m.set d m.heap.emptyTextPtr).next else .panic) = .stop (.end c) m' := h
    split at h <;> cases h
  | allocArray d p f =>
    have h : doAllocArray m d p f = .stop (.end c) m' := h
    unfold doAllocArray at h
    split at h
    · cases h
    split at h
    · cases h
    split at h
    · cases h
    split at h
    · cases h
    split at h <;> cases h
  | call r t =>
    have h : doCall m r t = .stop (.end c) m' := h
    unfold doCall at h
    split at h
    · cases h
    split at h <;> cases h
  | gosub t =>
    have h : doGosub m t = .stop (.end c) m' := h
    unfold doGosub at h
    split at h <;> cases h
  | jump t => cases h
  | jumpIfFalse r t =>
    have h : (if m.get r ≠ 0#64 then Step.cont m.next else .cont (doJump m t.toNat)) = .stop (.end c) m' := h
    split at h <;> cases h
  | loadArray d a f =>
    have h : doLoadArray m d a f = .stop (.end c) m' := h
    unfold doLoadArray at h
    split at h
    · cases h
    split at h <;> cases h
  | loadConst d i =>
    have h : doLoadConst m cs d i = .stop (.end c) m' := h
    unfold doLoadConst at h
    split at h <;> cases h
  | loadInt d i => cases h
  | loadRegPtr d ty s =>
    have h : (match taggedRegNew s m.fp ty with
      | some v => Step.cont (m.set d v).next
      | none => .panic) = .stop (.end c) m' := h
    split at h <;> cases h
  | move d s => cases h
  | nop => cases h
  | ret =>
    have h : doReturn m = .stop (.end c) m' := h
    unfold doReturn at h
    split at h
    · cases h
    · split at h <;> cases h
  | setErrorHandler mode t => cases h
  | storeArray a v f =>
    have h : doStoreArray m a v f = .stop (.end c) m' := h
    simp only [doStoreArray] at h
    split at h
    · cases h
    split at h <;> cases h
  | «end» r =>
    have h : doEnd m r = .stop (.end c) m' := h
    unfold doEnd at h
    split at h
    · cases h; exact ⟨rfl, rfl⟩
    · cases h
  | upcall i r => cases h
  | upcallAsync i r => cases h

theorem step_end {F : FloatOps} {img : Image} {m m' : Mach} {c : BitVec 8} (h : step F img m = .stop (.end c) m') :
    m'.regs = m.regs ∧ m'.heap = m.heap := by
  unfold step at h
  split at h
  · cases h
  split at h
  · cases h
  split at h
  · cases h
  · exact exec_end h

section
variable {H : Type}

theorem vmStep_end {F : FloatOps} {host : Host H} {img : Image} {vm vm' : Vm H} {c : BitVec 8}
    (h : vmStep F host img vm = .stop (.end c) vm') : vm'.mach.regs = vm.mach.regs ∧ vm'.mach.heap = vm.mach.heap := by
  unfold vmStep at h
  split at h
  · cases h
  cases hx : step F img vm.mach with
  | panic => rw [hx] at h; cases h
  | cont m1 => rw [hx] at h; cases h
  | stop r m1 =>
    rw [hx] at h
    cases r with
    | «end» c =>
      have := step_end hx
      cases h; exact this
    | eof => cases h
    | exception pc e =>
      simp only at h
      split at h
      · cases h
      · split at h <;> cases h
    | upcall idx first pc =>
      obtain ⟨⟨_, _, he⟩, _⟩ := upcall_stop h
      cases he
    | upcallAsync idx first pc => cases h
    | yield => cases h

/-! ## Parts of a program -/

theorem reaches_sane {F : FloatOps} {host : Host H} (hk : KeepsLimits host) {S L : Nat} {img : Image} {vm vm' : Vm H}
    (h : Reaches F host img vm vm') (hs : Sane S L vm.mach) : Sane S L vm'.mach := by
  induction h with
  | refl => exact hs
  | cont h1 _ ih => exact ih (vmStep_sane hk (congrArg VmStep.vm? h1) hs)
  | yield h1 _ ih => exact ih (vmStep_sane hk (congrArg VmStep.vm? h1) hs)
  | @async _ vm1 _ _ h1 h2 _ ih =>
    refine ih ?_
    have h3 := vmStep_sane hk (congrArg VmStep.vm? h1) hs
    unfold invokePending at h2
    split at h2
    · cases h2
    · exact (upcall_sane (vm := { vm1 with pending := none }) hk (congrArg VmStep.vm? h2) h3).1

/-- All that is known before a part is run. -/
structure Between (state : List (Request × Reply) → H) (S L : Nat) (c : Ctx) (img : Image) (vm : Vm H) (Γ : Env) (w : World) :
    Prop where
  synced : Synced c img
  scope : Scope c.sy Γ
  shown : Shown img.constants Γ 64 w vm.mach
  sane : Sane S L vm.mach
  stack : vm.mach.stack = []
  pc : vm.mach.pc + 1 = c.cg.code.length
  sync : Synchronous state w.log vm
  vars : img.programVars = varInfos c.sy.locals ∧ img.globalVars = varInfos c.sy.globals

theorem Between.fp {state : List (Request × Reply) → H} {S L : Nat} {c : Ctx} {img : Image} {vm : Vm H} {Γ : Env} {w : World}
    (h : Between state S L c img vm Γ w) : vm.mach.fp = 64 := by
  have := h.sane.frames
  rw [h.stack] at this
  exact this

theorem constants_prefix {src : Source} {c c' : Ctx} {img img' : Image} {u : Unit} (hc : compileMore src c img = (.ok u, c', img')) :
    img.constants <+: img'.constants := by
  obtain ⟨d, _, rfl⟩ := compileMore_ok hc
  exact ⟨_, rfl⟩

theorem synced_length {src : Source} {c c' : Ctx} {img img' : Image} {u : Unit} (hs : Synced c img)
    (hc : compileMore src c img = (.ok u, c', img')) : Synced c' img' ∧ img'.code = c'.cg.code := by
  obtain ⟨d, hd, rfl⟩ := compileMore_ok hc
  obtain ⟨h1, h2⟩ := synced_more hs hd
  exact ⟨h1, h2.code⟩

/-- A part is run. -/
theorem between_follows {F : FloatOps} {host : Host H} {lib : Lib} {state : List (Request × Reply) → H} {S L : Nat} (hS : S ≤ 2 ^ 24)
    (hprov : ∀ img, Provides host img lib state) {c c' : Ctx} {img img' : Image} {vm : Vm H} {Γ : Env} {w : World}
    (hb : Between state S L c img vm Γ w) {src : Source} {u : Unit} (hc : compileMore src c img = (.ok u, c', img')) (n : Nat)
    (htrap : ∀ k b, w.trap ≠ .jump k b) :
    Scope c'.sy (afterStmts Γ src.stmts) ∧ Follows F host state img' (afterStmts Γ src.stmts) vm (run F n S lib Γ src.stmts w) := by
  have hfp := hb.fp
  exact sim_chunk hb.synced hc (hprov img') hb.scope n S hb.pc (by rw [hfp]; exact Shown.consts (constants_prefix hc) hb.shown) htrap
    hb.stack hb.sane.maxStack (by rw [hfp]; omega) hb.sync

/-- A part that comes to its end. -/
theorem between_done {F : FloatOps} {host : Host H} (hk : KeepsLimits host) {lib : Lib} {state : List (Request × Reply) → H} {S L : Nat}
    (hS : S ≤ 2 ^ 24) (hprov : ∀ img, Provides host img lib state) {c c' : Ctx} {img img' : Image} {vm : Vm H} {Γ : Env} {w w' : World}
    (hb : Between state S L c img vm Γ w) {src : Source} {u : Unit} (hc : compileMore src c img = (.ok u, c', img')) {n : Nat}
    (htrap : ∀ k b, w.trap ≠ .jump k b) (hr : run F n S lib Γ src.stmts w = .done w') :
    ∃ vm', Reaches F host img' vm vm' ∧ vmStep F host img' vm' = .stop .eof vm' ∧
      Between state S L c' img' vm' (afterStmts Γ src.stmts) w' := by
  obtain ⟨h1, h2⟩ := between_follows (F := F) hS hprov hb hc n htrap
  rw [hr] at h2
  obtain ⟨vm', g1, g2, g3, g4, g5, g6⟩ := h2
  obtain ⟨s1, s2⟩ := synced_length hb.synced hc
  refine ⟨vm', g1, g2, s1, h1, by rw [hb.fp] at g5; exact g5, reaches_sane hk g1 hb.sane, by rw [g4, hb.stack], ?_, g6, more_vars hc⟩
  rw [← s2]
  exact (vmStep_stop (eofOnce_of_synced s1) g2 (by simp) (by simp)).pc

theorem between_start {state : List (Request × Reply) → H} {up : FMap Str Md}
    (hup : ∀ k md, up.get? k = some md → md.userDefined = false) {c : Ctx} (hn : Compiler.new up [] = .ok c) (S L : Nat) :
    Between state S L c .default (Vm.start S L (state [])) (builtins up) (fresh L) := by
  have hc : c = ⟨Codegen.empty.push .eof ⟨0, 0⟩, [], [], [], none, [], [], ⟨.empty, up, [], .empty⟩⟩ := by
    unfold Compiler.new at hn
    cases hn
    rfl
  refine ⟨⟨idle_new hn, .inl rfl⟩, ?_, new_models _ _ _ _, ⟨rfl, rfl, rfl⟩, rfl, ?_, ⟨rfl, rfl, rfl⟩, ?_⟩
  · rw [hc]; exact scope_builtins hup
  · rw [hc]; rfl
  · rw [hc]; exact ⟨rfl, rfl⟩

theorem between_parts {F : FloatOps} {host : Host H} (hk : KeepsLimits host) {lib : Lib} {state : List (Request × Reply) → H} {S L : Nat}
    (hS : S ≤ 2 ^ 24) (hprov : ∀ img, Provides host img lib state) {n : Nat} {srcs : List Source} {Γ Δ : Env} {w w' : World}
    (hr : RunParts F n S lib Γ w srcs Δ w') : ∀ {s s' : Ctx × Image} {vm : Vm H}, CompileParts s srcs s' →
    Between state S L s.1 s.2 vm Γ w →
    ∃ vm', ExecParts F host (s.1, s.2, vm) srcs (s'.1, s'.2, vm') ∧ Between state S L s'.1 s'.2 vm' Δ w' := by
  induction hr with
  | nil => intro s s' vm hc hb; cases hc; exact ⟨vm, .nil, hb⟩
  | cons ht hr _ ih =>
    intro s s' vm hc hb
    cases hc with
    | cons hc hrest =>
      obtain ⟨vm1, g1, g2, g3⟩ := between_done hk hS hprov hb hc ht hr
      obtain ⟨vm', e1, e2⟩ := ih hrest g3
      exact ⟨vm', .cons hc g1 g2 e1, e2⟩

end

end EB
