import Verif.Model.Machine
import Verif.Lemmas.Session
import Verif.Lemmas.Vm
/-!
# Invariants of sessions
-/

namespace EB

/-- The limits of the machine stay. -/
structure SameLimits (m m' : Mach) : Prop where
  maxStack : m'.maxStack = m.maxStack
  maxEntries : m'.heap.maxEntries = m.heap.maxEntries

namespace SameLimits

theorem rfl {m : Mach} : SameLimits m m := ⟨.refl _, .refl _⟩

theorem trans {a b c : Mach} (h1 : SameLimits a b) (h2 : SameLimits b c) : SameLimits a c :=
  ⟨h2.1.trans h1.1, h2.2.trans h1.2⟩

end SameLimits

theorem push_entries {h h' : Heap} {d : HeapDatum} {p : BitVec 64} (hp : h.push d = some (p, h')) :
    h'.maxEntries = h.maxEntries := by
  unfold Heap.push at hp
  split at hp
  · cases hp; rfl
  split at hp
  · cases hp
  split at hp
  · cases hp
  · cases hp; rfl

/-- The machine of the result of a step. -/
def Step.mach? : Step → Option Mach
  | .cont m => some m
  | .stop _ m => some m
  | .panic => none

theorem lim_bin {F : FloatOps} {cs : List ConstantDatum} {m m' : Mach} {op : BinOp} {d l r : Reg}
    (h : (doBin F cs m op d l r).mach? = some m') : SameLimits m m' := by
  have key : ∀ v : BitVec 64, (Step.cont (m.set d v).next).mach? = some m' → SameLimits m m' := by
    intro v h; cases h; exact ⟨rfl, rfl⟩
  have txt : (match m.derefString l cs, m.derefString r cs with
      | some a, some b => Step.cont (m.set d (ofBool ((textEval op a b).getD false))).next
      | _, _ => .panic).mach? = some m' → SameLimits m m' := by
    intro h
    split at h
    · exact key _ h
    · cases h
  have num : (match binEval F op (m.get l) (m.get r) with
      | .ok v => Step.cont (m.set d v).next
      | .error e => m.raise e).mach? = some m' → SameLimits m m' := by
    intro h
    split at h
    · exact key _ h
    · cases h; exact .rfl
  cases op <;> first
    | exact num h
    | exact txt h
    | skip
  have h : (match m.derefString l cs, m.derefString r cs with
    | some a, some b =>
      match m.heap.push (.text (a ++ b)) with
      | none => m.raise .outOfHeap
      | some (p, h) => Step.cont ({ m with heap := h }.set d p).next
    | _, _ => .panic).mach? = some m' := h
  split at h
  · split at h
    · cases h; exact .rfl
    next hp => cases h; exact ⟨rfl, push_entries hp⟩
  · cases h

theorem lim_exec {F : FloatOps} {cs : List ConstantDatum} {m m' : Mach} {i : Instr}
    (h : (execInstr F cs m i).mach? = some m') : SameLimits m m' := by
  cases i with
  | bin op d l r => exact lim_bin h
  | un op r =>
    have h : (match unEval F op (m.get r) with
      | .ok v => Step.cont (m.set r v).next
      | .error e => m.raise e).mach? = some m' := h
    split at h <;> (cases h; exact ⟨rfl, rfl⟩)
  | alloc d ty =>
    have h : (if ty = .text then Step.cont (m.set d m.heap.emptyTextPtr).next else .panic).mach? = some m' := h
    split at h
    · cases h; exact ⟨rfl, rfl⟩
    · cases h
  | allocArray d p f =>
    have h : (doAllocArray m d p f).mach? = some m' := h
    unfold doAllocArray at h
    split at h
    · cases h
    split at h
    · cases h
    split at h
    · cases h; exact .rfl
    split at h
    · cases h
    split at h
    · cases h; exact .rfl
    next hp => cases h; exact ⟨rfl, push_entries hp⟩
  | call r t =>
    have h : (doCall m r t).mach? = some m' := h
    unfold doCall Mach.pushFrame at h
    split at h
    · cases h; exact .rfl
    next m1 h1 =>
      split at h1
      · cases h1
      cases h1
      split at h
      · cases h
      · cases h; exact ⟨rfl, rfl⟩
  | gosub t =>
    have h : (doGosub m t).mach? = some m' := h
    unfold doGosub Mach.pushFrame at h
    split at h
    · cases h; exact .rfl
    next m1 h1 =>
      split at h1
      · cases h1
      cases h1
      cases h; exact ⟨rfl, rfl⟩
  | jump t => cases h; exact ⟨rfl, rfl⟩
  | jumpIfFalse r t =>
    have h : (if m.get r ≠ 0#64 then Step.cont m.next else .cont (doJump m t.toNat)).mach? = some m' := h
    split at h <;> (cases h; exact ⟨rfl, rfl⟩)
  | loadArray d a f =>
    have h : (doLoadArray m d a f).mach? = some m' := h
    unfold doLoadArray at h
    split at h
    · cases h
    split at h
    · cases h
    · cases h; exact .rfl
    · cases h; exact ⟨rfl, rfl⟩
  | loadConst d i =>
    have h : (doLoadConst m cs d i).mach? = some m' := h
    unfold doLoadConst at h
    split at h
    · cases h; exact ⟨rfl, rfl⟩
    · cases h; exact ⟨rfl, rfl⟩
    · cases h
  | loadInt d i => cases h; exact ⟨rfl, rfl⟩
  | loadRegPtr d ty s =>
    have h : (match taggedRegNew s m.fp ty with
      | some v => Step.cont (m.set d v).next
      | none => .panic).mach? = some m' := h
    split at h
    · cases h; exact ⟨rfl, rfl⟩
    · cases h
  | move d s => cases h; exact ⟨rfl, rfl⟩
  | nop => cases h; exact ⟨rfl, rfl⟩
  | ret =>
    have h : (doReturn m).mach? = some m' := h
    unfold doReturn at h
    split at h
    · cases h; exact .rfl
    · split at h <;> (cases h; exact ⟨rfl, rfl⟩)
  | setErrorHandler mode t => cases h; exact ⟨rfl, rfl⟩
  | storeArray a v f =>
    have h : (doStoreArray m a v f).mach? = some m' := h
    simp only [doStoreArray] at h
    split at h
    · cases h
    split at h
    · cases h
    · cases h; exact .rfl
    · cases h; exact ⟨rfl, rfl⟩
  | «end» r =>
    have h : (doEnd m r).mach? = some m' := h
    unfold doEnd at h
    split at h <;> (cases h; exact .rfl)
  | upcall i r => cases h; exact ⟨rfl, rfl⟩
  | upcallAsync i r => cases h; exact ⟨rfl, rfl⟩
  | eof => cases h; exact .rfl

theorem lim_step {F : FloatOps} {img : Image} {m m' : Mach} (h : (step F img m).mach? = some m') : SameLimits m m' := by
  unfold step at h
  split at h
  · cases h
  split at h
  · cases h; exact ⟨rfl, rfl⟩
  split at h
  · cases h
  · exact lim_exec h

/-- The only way to stop at the end. -/
theorem exec_eof {F : FloatOps} {cs : List ConstantDatum} {m m' : Mach} {i : Instr}
    (h : execInstr F cs m i = .stop .eof m') : i = .eof ∧ m' = m := by
  cases i with
  | eof => cases h; exact ⟨rfl, rfl⟩
  | bin op d l r =>
    exfalso
    have h : doBin F cs m op d l r = .stop .eof m' := h
    have num : (match binEval F op (m.get l) (m.get r) with
      | .ok v => Step.cont (m.set d v).next
      | .error e => m.raise e) = .stop .eof m' → False := by
      intro h; split at h <;> cases h
    have txt : (match m.derefString l cs, m.derefString r cs with
      | some a, some b => Step.cont (m.set d (ofBool ((textEval op a b).getD false))).next
      | _, _ => .panic) = .stop .eof m' → False := by
      intro h; split at h <;> cases h
    cases op <;> first
      | exact num h
      | exact txt h
      | skip
    have h : (match m.derefString l cs, m.derefString r cs with
      | some a, some b =>
        match m.heap.push (.text (a ++ b)) with
        | none => m.raise .outOfHeap
        | some (p, h) => Step.cont ({ m with heap := h }.set d p).next
      | _, _ => .panic) = .stop .eof m' := h
    split at h
    · split at h <;> cases h
    · cases h
  | un op r =>
    have h : (match unEval F op (m.get r) with
      | .ok v => Step.cont (m.set r v).next
      | .error e => m.raise e) = .stop .eof m' := h
    split at h <;> cases h
  | alloc d ty =>
    have h : (if ty = .text then Step.cont (m.set d m.heap.emptyTextPtr).next else .panic) = .stop .eof m' := h
    split at h <;> cases h
  | allocArray d p f =>
    have h : doAllocArray m d p f = .stop .eof m' := h
    unfold doAllocArray at h
    split at h
    · cases h
    split at h
    · cases h
    split at h
    · cases h
    split at h
    · cases h
    split at h <;> cases h
  | call r t =>
    have h : doCall m r t = .stop .eof m' := h
    unfold doCall at h
    split at h
    · cases h
    split at h <;> cases h
  | gosub t =>
    have h : doGosub m t = .stop .eof m' := h
    unfold doGosub at h
    split at h <;> cases h
  | jump t => cases h
  | jumpIfFalse r t =>
    have h : (if m.get r ≠ 0#64 then Step.cont m.next else .cont (doJump m t.toNat)) = .stop .eof m' := h
    split at h <;> cases h
  | loadArray d a f =>
    have h : doLoadArray m d a f = .stop .eof m' := h
    unfold doLoadArray at h
    split at h
    · cases h
    split at h <;> cases h
  | loadConst d i =>
    have h : doLoadConst m cs d i = .stop .eof m' := h
    unfold doLoadConst at h
    split at h <;> cases h
  | loadInt d i => cases h
  | loadRegPtr d ty s =>
    have h : (match taggedRegNew s m.fp ty with
      | some v => Step.cont (m.set d v).next
      | none => .panic) = .stop .eof m' := h
    split at h <;> cases h
  | move d s => cases h
  | nop => cases h
  | ret =>
    have h : doReturn m = .stop .eof m' := h
    unfold doReturn at h
    split at h
    · cases h
    · split at h <;> cases h
  | setErrorHandler mode t => cases h
  | storeArray a v f =>
    have h : doStoreArray m a v f = .stop .eof m' := h
    simp only [doStoreArray] at h
    split at h
    · cases h
    split at h <;> cases h
  | «end» r =>
    have h : doEnd m r = .stop .eof m' := h
    unfold doEnd at h
    split at h <;> cases h
  | upcall i r => cases h
  | upcallAsync i r => cases h

theorem step_eof {F : FloatOps} {img : Image} {m m' : Mach} (h : step F img m = .stop .eof m') :
    img.code[m.pc]? = some .eof ∧ m' = m := by
  unfold step at h
  split at h
  · cases h
  split at h
  · cases h
  split at h
  · cases h
  next i hi =>
    obtain ⟨rfl, rfl⟩ := exec_eof h
    exact ⟨hi, rfl⟩

/-! ## Frames -/

/-- Every call that is not finished remembers the frame of its caller; GOSUB stays in the frame. -/
def FpOk : List Frame → Nat → Prop
  | [], fp => fp = maxGlobal
  | f :: rest, fp => FpOk rest f.oldFp ∧ (f.retReg = none → fp = f.oldFp)

theorem FpOk.program {s : List Frame} {fp : Nat} (h : FpOk s fp) (hs : ∀ f ∈ s, f.retReg = none) : fp = maxGlobal := by
  induction s generalizing fp with
  | nil => exact h
  | cons f s ih => rw [h.2 (hs f (List.mem_cons_self ..))]; exact ih h.1 fun g hg => hs g (List.mem_cons_of_mem _ hg)

theorem fp_exec {F : FloatOps} {cs : List ConstantDatum} {m m' : Mach} {i : Instr}
    (h : execInstr F cs m i = .cont m') (hf : FpOk m.stack m.fp) : FpOk m'.stack m'.fp := by
  have he := exec_cont h
  have same : SameFrame m m' → FpOk m'.stack m'.fp := fun hs => by rw [hs.stack, hs.fp]; exact hf
  cases i with
  | call r t => rw [he.1]; exact ⟨hf, by simp⟩
  | gosub t => rw [he.1]; exact ⟨hf, fun _ => he.2.2.2.2.2.2.1⟩
  | ret =>
    obtain ⟨f, h1, _, _, _, h2, _⟩ := he
    rw [h1] at hf
    rw [h2]; exact hf.1
  | setErrorHandler mode t => have he : m' = _ := he; rw [he]; exact hf
  | _ => exact same he.1

/-- Stopping changes no frames. -/
theorem exec_stop_frames {F : FloatOps} {cs : List ConstantDatum} {m m' : Mach} {i : Instr} {r : Stop}
    (h : execInstr F cs m i = .stop r m') : m'.stack = m.stack ∧ m'.fp = m.fp := by
  cases i with
  | eof => cases h; exact ⟨rfl, rfl⟩
  | bin op d l r =>
    have h : doBin F cs m op d l r = .stop _ m' := h
    have num : ∀ s, (match binEval F op (m.get l) (m.get r) with
      | .ok v => Step.cont (m.set d v).next
      | .error e => m.raise e) = .stop s m' → m'.stack = m.stack ∧ m'.fp = m.fp := by
      intro s h; split at h <;> cases h; exact ⟨rfl, rfl⟩
    have txt : ∀ s, (match m.derefString l cs, m.derefString r cs with
      | some a, some b => Step.cont (m.set d (ofBool ((textEval op a b).getD false))).next
      | _, _ => .panic) = .stop s m' → m'.stack = m.stack ∧ m'.fp = m.fp := by
      intro s h; split at h <;> cases h
    cases op <;> first
      | exact num _ h
      | exact txt _ h
      | skip
    have h : (match m.derefString l cs, m.derefString r cs with
      | some a, some b =>
        match m.heap.push (.text (a ++ b)) with
        | none => m.raise .outOfHeap
        | some (p, h) => Step.cont ({ m with heap := h }.set d p).next
      | _, _ => .panic) = .stop _ m' := h
    split at h
    · split at h <;> cases h; exact ⟨rfl, rfl⟩
    · cases h
  | un op r =>
    have h : (match unEval F op (m.get r) with
      | .ok v => Step.cont (m.set r v).next
      | .error e => m.raise e) = .stop _ m' := h
    split at h <;> cases h; exact ⟨rfl, rfl⟩
  | alloc d ty =>
    have h : (if ty = .text then Step.cont (m.set d m.heap.emptyTextPtr).next else .panic) = .stop _ m' := h
    split at h <;> cases h
  | allocArray d p f =>
    have h : doAllocArray m d p f = .stop _ m' := h
    unfold doAllocArray at h
    split at h
    · cases h
    split at h
    · cases h
    split at h
    · cases h; exact ⟨rfl, rfl⟩
    split at h
    · cases h
    split at h <;> cases h; exact ⟨rfl, rfl⟩
  | call r t =>
    have h : doCall m r t = .stop _ m' := h
    unfold doCall at h
    split at h
    · cases h; exact ⟨rfl, rfl⟩
    split at h <;> cases h
  | gosub t =>
    have h : doGosub m t = .stop _ m' := h
    unfold doGosub at h
    split at h <;> cases h; exact ⟨rfl, rfl⟩
  | jump t => cases h
  | jumpIfFalse r t =>
    have h : (if m.get r ≠ 0#64 then Step.cont m.next else .cont (doJump m t.toNat)) = .stop _ m' := h
    split at h <;> cases h
  | loadArray d a f =>
    have h : doLoadArray m d a f = .stop _ m' := h
    unfold doLoadArray at h
    split at h
    · cases h
    split at h <;> cases h; exact ⟨rfl, rfl⟩
  | loadConst d i =>
    have h : doLoadConst m cs d i = .stop _ m' := h
    unfold doLoadConst at h
    split at h <;> cases h
  | loadInt d i => cases h
  | loadRegPtr d ty s =>
    have h : (match taggedRegNew s m.fp ty with
      | some v => Step.cont (m.set d v).next
      | none => .panic) = .stop _ m' := h
    split at h <;> cases h
  | move d s => cases h
  | nop => cases h
  | ret =>
    have h : doReturn m = .stop _ m' := h
    unfold doReturn at h
    split at h
    · cases h; exact ⟨rfl, rfl⟩
    · split at h <;> cases h
  | setErrorHandler mode t => cases h
  | storeArray a v f =>
    have h : doStoreArray m a v f = .stop _ m' := h
    simp only [doStoreArray] at h
    split at h
    · cases h
    split at h <;> cases h; exact ⟨rfl, rfl⟩
  | «end» r =>
    have h : doEnd m r = .stop _ m' := h
    unfold doEnd at h
    split at h <;> (cases h; exact ⟨rfl, rfl⟩)
  | upcall i r => cases h; exact ⟨rfl, rfl⟩
  | upcallAsync i r => cases h; exact ⟨rfl, rfl⟩

theorem fp_step {F : FloatOps} {img : Image} {m m' : Mach} (h : (step F img m).mach? = some m') (hf : FpOk m.stack m.fp) :
    FpOk m'.stack m'.fp := by
  unfold step at h
  split at h
  · cases h
  split at h
  · cases h; exact hf
  split at h
  · cases h
  next i hi =>
    cases hx : execInstr F img.constants m i with
    | panic => rw [hx] at h; cases h
    | cont m1 => rw [hx] at h; cases h; exact fp_exec hx hf
    | stop r m1 =>
      rw [hx] at h; cases h
      obtain ⟨h1, h2⟩ := exec_stop_frames hx
      rw [h1, h2]; exact hf

/-! ## What running keeps -/

/-- Callables do not change how large the heap may be. -/
def KeepsLimits {H : Type} (host : Host H) : Prop :=
  ∀ idx first poss regs heap lastError img h, (host.exec idx first poss regs heap lastError img h).2.2.1.maxEntries = heap.maxEntries

/-- What stays while a machine runs. -/
structure Sane (S L : Nat) (m : Mach) : Prop where
  maxStack : m.maxStack = S
  maxEntries : m.heap.maxEntries = L
  frames : FpOk m.stack m.fp

theorem Sane.park {S L : Nat} {m : Mach} (h : Sane S L m) (img : Image) : Sane S L (m.park img) := ⟨h.1, h.2, h.3⟩

theorem Sane.handled {S L : Nat} {m m' : Mach} {img : Image} {pc : Nat} (h : Sane S L m)
    (hh : handleException img m pc = some m') : Sane S L m' := by
  unfold handleException at hh
  split at hh
  · cases hh
  · cases hh
  · cases hh; exact ⟨h.1, h.2, h.3⟩
  · cases hh; exact ⟨h.1, h.2, h.3⟩

variable {H : Type}

/-- The machine of the result of an iteration. -/
def VmStep.vm? : VmStep H → Option (Vm H)
  | .cont vm => some vm
  | .stop _ vm => some vm
  | .panic => none

theorem upcall_sane {host : Host H} (hk : KeepsLimits host) {S L : Nat} {img : Image} {vm vm' : Vm H} {idx : U16} {first : Reg}
    {pc : Nat} (h : (runUpcall host img vm idx first pc).vm? = some vm') (hs : Sane S L vm.mach) :
    Sane S L vm'.mach ∧ vm'.pending = vm.pending := by
  unfold runUpcall at h
  split at h
  · cases h
  simp only at h
  have hk' := hk idx (vm.mach.fp + (first.toNat - maxGlobal)) (img.argPositions pc) vm.mach.regs vm.mach.heap vm.lastError img vm.host
  have hs' : ∀ regs', Sane S L { vm.mach with
      regs := regs'
      heap := (host.exec idx (vm.mach.fp + (first.toNat - maxGlobal)) (img.argPositions pc) vm.mach.regs vm.mach.heap
        vm.lastError img vm.host).2.2.1 } := fun regs' => ⟨hs.1, hk'.trans hs.2, hs.3⟩
  split at h
  · cases h; exact ⟨hs' _, rfl⟩
  · split at h
    · cases h
    · split at h
      next hh => cases h; exact ⟨(hs' _).handled hh, rfl⟩
      · cases h; exact ⟨(hs' _).park img, rfl⟩

/-- Running an upcall either goes on or fails at the end of the code. -/
theorem upcall_stop {host : Host H} {img : Image} {vm vm' : Vm H} {idx : U16} {first : Reg} {pc : Nat} {r : StopReason}
    (h : runUpcall host img vm idx first pc = .stop r vm') :
    (∃ pos e, r = .exception pos e) ∧ vm'.mach.pc = img.code.length - 1 := by
  unfold runUpcall at h
  split at h
  · cases h
  simp only at h
  split at h
  · cases h
  · split at h
    · cases h
    · split at h
      · cases h
      · cases h; exact ⟨⟨_, _, rfl⟩, rfl⟩

theorem vmStep_sane {F : FloatOps} {host : Host H} (hk : KeepsLimits host) {S L : Nat} {img : Image} {vm vm' : Vm H}
    (h : (vmStep F host img vm).vm? = some vm') (hs : Sane S L vm.mach) : Sane S L vm'.mach := by
  unfold vmStep at h
  split at h
  · cases h; exact hs
  have key : ∀ m1, (step F img vm.mach).mach? = some m1 → Sane S L m1 := fun m1 h1 =>
    ⟨(lim_step h1).1.trans hs.1, (lim_step h1).2.trans hs.2, fp_step h1 hs.3⟩
  cases hx : step F img vm.mach with
  | panic => rw [hx] at h; cases h
  | cont m1 => rw [hx] at h; cases h; exact key _ (by rw [hx]; rfl)
  | stop r m1 =>
    have hm := key m1 (by rw [hx]; rfl)
    rw [hx] at h
    cases r with
    | «end» c => cases h; exact hm.park img
    | eof => cases h; exact hm
    | exception pc e =>
      simp only at h
      split at h
      · cases h
      · split at h
        next hh => cases h; exact hm.handled hh
        · cases h; exact hm.park img
    | upcall idx first pc => exact (upcall_sane hk h hm).1
    | upcallAsync idx first pc => cases h; exact hm
    | yield => cases h; exact hm

/-- The only end of execution is at the end of the code. -/
structure EofOnce (img : Image) : Prop where
  last : ∃ body, img.code = body ++ [.eof]
  once : .eof ∉ img.code.dropLast

theorem EofOnce.pc {img : Image} (h : EofOnce img) {pc : Nat} (hp : img.code[pc]? = some .eof) : pc + 1 = img.code.length := by
  obtain ⟨body, hb⟩ := h.last
  have ho := h.once
  rw [hb, List.dropLast_concat] at ho
  rw [hb] at hp ⊢
  have hl := (List.getElem?_eq_some_iff.1 hp).1
  simp only [List.length_append, List.length_singleton] at hl ⊢
  by_cases hlt : pc < body.length
  · rw [List.getElem?_append_left hlt] at hp
    exact absurd (List.mem_of_getElem? hp) ho
  · omega

theorem EofOnce.pos {img : Image} (h : EofOnce img) : 0 < img.code.length := by
  obtain ⟨body, hb⟩ := h.last
  rw [hb]; simp

theorem eofOnce_of_synced {c : Ctx} {img : Image} (h : Synced c img) : EofOnce img := by
  rcases h.img with rfl | hf
  · exact ⟨⟨[], rfl⟩, by simp [Image.default]⟩
  · exact ⟨by rw [hf.code]; exact h.idle.eof, by rw [hf.code]; exact h.idle.once⟩

/-- Nothing is left to do, and the machine stands at the end of the code. -/
structure AtEnd (img : Image) (vm : Vm H) : Prop where
  pending : vm.pending = none
  pc : vm.mach.pc + 1 = img.code.length

theorem vmStep_stop {F : FloatOps} {host : Host H} {img : Image} (hi : EofOnce img) {vm vm' : Vm H} {r : StopReason}
    (h : vmStep F host img vm = .stop r vm') (hr : r ≠ .upcallAsync) (hy : r ≠ .yield) : AtEnd img vm' := by
  have hpos := hi.pos
  unfold vmStep at h
  split at h
  · cases h; exact absurd rfl hr
  next hp =>
  cases hx : step F img vm.mach with
  | panic => rw [hx] at h; cases h
  | cont m1 => rw [hx] at h; cases h
  | stop s m1 =>
    rw [hx] at h
    cases s with
    | «end» c => cases h; exact ⟨hp, by show img.code.length - 1 + 1 = _; omega⟩
    | eof =>
      obtain ⟨h1, rfl⟩ := step_eof hx
      cases h; exact ⟨hp, hi.pc h1⟩
    | exception pc e =>
      simp only at h
      split at h
      · cases h
      · split at h
        · cases h
        · cases h; exact ⟨hp, by show img.code.length - 1 + 1 = _; omega⟩
    | upcall idx first pc =>
      have h : runUpcall host img { vm with mach := m1 } idx first pc = .stop r vm' := h
      obtain ⟨_, h2⟩ := upcall_stop h
      refine ⟨?_, by omega⟩
      unfold runUpcall at h
      split at h
      · cases h
      simp only at h
      split at h
      · cases h
      · split at h
        · cases h
        · split at h
          · cases h
          · cases h; exact hp
    | upcallAsync idx first pc => cases h; exact absurd rfl hr
    | yield => cases h; exact absurd rfl hy

/-! ## Machines -/

namespace Machine

/-- What holds of every machine of a session. -/
structure Good (m0 m : Machine H) : Prop where
  synced : Synced m.compiler m.image
  sane : Sane m0.vm.mach.maxStack m0.vm.mach.heap.maxEntries m.vm.mach
  upcalls : m.upcalls = m0.upcalls
  defs : m.defs = m0.defs

theorem good_build {upcalls : FMap Str Md} {defs : List GlobalDef} {maxStack maxHeap : Nat} {h : H} {m : Machine H}
    (hb : build upcalls defs maxStack maxHeap h = .ok m) : Good m m ∧ AtEnd m.image m.vm := by
  unfold build at hb
  split at hb
  · cases hb
  next c hc => cases hb; exact ⟨⟨⟨idle_new hc, .inl rfl⟩, ⟨rfl, rfl, rfl⟩, rfl, rfl⟩, rfl, rfl⟩

theorem clear_good {E : Surroundings H} {m0 m m' : Machine H} (h : m.clear E = some m') (hg : Good m0 m) :
    Good m0 m' ∧ AtEnd m'.image m'.vm ∧ m'.vm.mach.handler = .none := by
  unfold clear at h
  split at h
  · cases h
  next c hc =>
    cases h
    refine ⟨⟨⟨idle_new hc, .inl rfl⟩, ⟨hg.sane.1, hg.sane.2, rfl⟩, hg.upcalls, hg.defs⟩, ⟨rfl, rfl⟩, rfl⟩

/-- Clearing gives a new machine. -/
theorem clear_new {E : Surroundings H} {upcalls : FMap Str Md} {defs : List GlobalDef} {maxStack maxHeap : Nat} {h0 : H}
    {m0 m : Machine H} (hb : build upcalls defs maxStack maxHeap h0 = .ok m0) (hg : Good m0 m) :
    ∃ m', m.clear E = some m' ∧ build upcalls defs maxStack maxHeap (E.resetState m.vm.host) = .ok m' := by
  obtain ⟨c, hc, rfl⟩ : ∃ c, Compiler.new upcalls defs = .ok c ∧
      m0 = ⟨c, .default, ⟨Mach.new maxStack maxHeap, none, none, h0⟩, upcalls, defs⟩ := by
    unfold build at hb
    split at hb
    · cases hb
    next c hc => cases hb; exact ⟨c, hc, rfl⟩
  have e1 : m.upcalls = upcalls := hg.upcalls
  have e2 : m.defs = defs := hg.defs
  have e3 : m.vm.mach.maxStack = maxStack := hg.sane.maxStack
  have e4 : m.vm.mach.heap.maxEntries = maxHeap := hg.sane.maxEntries
  refine ⟨⟨c, .default, ⟨Mach.new maxStack maxHeap, none, none, E.resetState m.vm.host⟩, upcalls, defs⟩, ?_, ?_⟩
  · unfold clear
    rw [e1, e2, hc]
    simp only [Vm.clear, e1, e2, e3, e4]
  · unfold build
    rw [hc]

theorem compile_good {E : Surroundings H} {m0 m m' : Machine H} {text : Str} {r : Except CErr Unit}
    (h : m.compile E text = (r, m')) (hg : Good m0 m) :
    Good m0 m' ∧ m'.vm = m.vm ∧ (∀ e, r = .error e → m' = m) ∧
      (r = .ok () → ∃ new, m'.image.code = m.image.code.dropLast ++ new) := by
  unfold compile compileMore at h
  cases hc : compileTop (parseText E.text E.floats text) m.image m.compiler with
  | error e =>
    rw [hc] at h; cases h
    exact ⟨⟨hg.1, hg.2, hg.3, hg.4⟩, rfl, fun _ _ => rfl, fun h => by cases h⟩
  | ok p =>
    obtain ⟨d, c'⟩ := p
    rw [hc] at h; cases h
    refine ⟨⟨(synced_more hg.synced hc).1, hg.2, hg.3, hg.4⟩, rfl, fun _ h => (by cases h), fun _ => ⟨d.code, rfl⟩⟩

theorem perform_good {E : Surroundings H} {m0 : Machine H} (as : List MachineAction) {m m' : Machine H} {r r' : Bool}
    (h : perform E as r m = .ok m' r') (hg : Good m0 m) : Good m0 m' := by
  induction as generalizing m r with
  | nil => cases h; exact hg
  | cons a as ih =>
    cases a with
    | clear =>
      simp only [perform] at h
      split at h
      · cases h
      next m1 h1 => exact ih h (clear_good h1 hg).1
    | run text =>
      simp only [perform] at h
      split at h
      · cases h
      next m1 h1 =>
        split at h
        · cases h
        next m2 h2 => exact ih h (compile_good h2 (clear_good h1 hg).1).1

theorem perform_error {E : Surroundings H} {m0 : Machine H} (as : List MachineAction) {m m' : Machine H} {r : Bool} {e : CErr}
    (h : perform E as r m = .error m' e) (hg : Good m0 m) :
    Good m0 m' ∧ AtEnd m'.image m'.vm ∧ m'.vm.mach.handler = .none := by
  induction as generalizing m r with
  | nil => cases h
  | cons a as ih =>
    cases a with
    | clear =>
      simp only [perform] at h
      split at h
      · cases h
      next m1 h1 => exact ih h (clear_good h1 hg).1
    | run text =>
      simp only [perform] at h
      split at h
      · cases h
      next m1 h1 =>
        have hc := clear_good h1 hg
        split at h
        next e' m2 h2 =>
          cases h
          obtain ⟨_, _, h3, _⟩ := compile_good h2 hc.1
          rw [h3 _ rfl]; exact hc
        next m2 h2 => exact ih h (compile_good h2 hc.1).1

theorem finish_good {m0 m : Machine H} (r : Bool) (hg : Good m0 m) : Good m0 (finish r m) := by
  unfold finish
  split
  · exact ⟨hg.1, ⟨hg.2.1, hg.2.2, hg.2.3⟩, hg.3, hg.4⟩
  · exact hg

theorem finish_atEnd {m : Machine H} (r : Bool) (hg : AtEnd m.image m.vm) : AtEnd (finish r m).image (finish r m).vm := by
  unfold finish
  split
  · exact ⟨hg.1, hg.2⟩
  · exact hg

theorem finish_handler {m : Machine H} : (finish true m).vm.mach.handler = .none := rfl

theorem interrupt_atEnd {img : Image} (hi : EofOnce img) (vm : Vm H) : AtEnd img (vm.interrupt img) := by
  have := hi.pos
  exact ⟨rfl, by show img.code.length - 1 + 1 = _; omega⟩

/-- An iteration of the loop. -/
theorem tick_good {E : Surroundings H} (hk : KeepsLimits E.host) {m0 m : Machine H} {stop running : Bool} (hg : Good m0 m) :
    (∀ m' r', tick E stop m running = .more m' r' → Good m0 m') ∧
    (∀ m' res, tick E stop m running = .done res m' → Good m0 m' ∧ AtEnd m'.image m'.vm ∧
      (running = true ∨ (∃ e, res = .compileError e) → m'.vm.mach.handler = .none)) := by
  have hi := eofOnce_of_synced hg.synced
  have keep : ∀ vm, Sane m0.vm.mach.maxStack m0.vm.mach.heap.maxEntries vm.mach → Good m0 { m with vm } :=
    fun vm hs => ⟨hg.1, hs, hg.3, hg.4⟩
  have fin : ∀ (vm : Vm H) res, Sane m0.vm.mach.maxStack m0.vm.mach.heap.maxEntries vm.mach → AtEnd m.image vm →
      (∀ e, res ≠ .compileError e) →
      Good m0 (finish running { m with vm }) ∧ AtEnd (finish running { m with vm }).image (finish running { m with vm }).vm ∧
      (running = true ∨ (∃ e, res = MachResult.compileError e) → (finish running { m with vm }).vm.mach.handler = .none) := by
    intro vm res h1 h2 h3
    refine ⟨finish_good _ (keep vm h1), finish_atEnd _ h2, ?_⟩
    rintro (rfl | ⟨e, he⟩)
    · exact finish_handler
    · exact absurd he (h3 e)
  have hsane : ∀ vm, (vmStep E.floats E.host m.image m.vm).vm? = some vm → Sane _ _ vm.mach := fun vm h => vmStep_sane hk h hg.sane
  unfold tick
  cases hx : vmStep E.floats E.host m.image m.vm with
  | panic => exact ⟨fun _ _ h => (by cases h), fun _ _ h => (by cases h)⟩
  | cont vm => exact ⟨fun _ _ h => (by cases h; exact keep vm (hsane vm (by rw [hx]; rfl))), fun _ _ h => (by cases h)⟩
  | stop r vm =>
    have hs := hsane vm (by rw [hx]; rfl)
    have hstop : ∀ {r}, vmStep E.floats E.host m.image m.vm = .stop r vm → r ≠ .upcallAsync → r ≠ .yield → AtEnd m.image vm :=
      fun h => vmStep_stop hi h
    cases r with
    | eof =>
      refine ⟨fun _ _ h => (by cases h), fun m' res h => ?_⟩
      cases h
      exact fin vm .eof hs (hstop hx (by simp) (by simp)) (by simp)
    | «end» code =>
      have he := hstop hx (by simp) (by simp)
      simp only
      split
      · refine ⟨fun _ _ h => (by cases h), fun m' res h => ?_⟩
        cases h
        split
        · exact fin vm .eof hs he (by simp)
        · exact fin { vm with host := E.print (exitText code) vm.host } .eof hs ⟨he.1, he.2⟩ (by simp)
      · refine ⟨fun _ _ h => (by cases h), fun m' res h => ?_⟩
        cases h
        exact fin vm (.exit code) hs he (by simp)
    | exception pos e =>
      refine ⟨fun _ _ h => (by cases h), fun m' res h => ?_⟩
      cases h
      exact fin vm (.error pos e) hs (hstop hx (by simp) (by simp)) (by simp)
    | yield =>
      simp only
      split
      · refine ⟨fun _ _ h => (by cases h), fun m' res h => ?_⟩
        cases h
        exact fin (vm.interrupt m.image) .break (hs.park _) (interrupt_atEnd hi _) (by simp)
      · exact ⟨fun _ _ h => (by cases h; exact keep vm hs), fun _ _ h => (by cases h)⟩
    | upcallAsync =>
      simp only
      have hinv : ∀ vm', (invokePending E.host m.image vm).vm? = some vm' →
          Sane m0.vm.mach.maxStack m0.vm.mach.heap.maxEntries vm'.mach ∧ vm'.pending = none := by
        intro vm' h
        unfold invokePending at h
        split at h
        · cases h
        · exact upcall_sane hk h hs
      cases hv : invokePending E.host m.image vm with
      | panic => exact ⟨fun _ _ h => (by cases h), fun _ _ h => (by cases h)⟩
      | stop r vm' =>
        obtain ⟨hs', hp'⟩ := hinv vm' (by rw [hv]; rfl)
        cases r with
        | exception pos e =>
          simp only
          split
          · refine ⟨fun _ _ h => (by cases h), fun m' res h => ?_⟩
            cases h
            exact fin ((emptied E { m with vm := vm' }).vm.interrupt m.image) .break (hs'.park _) (interrupt_atEnd hi _) (by simp)
          · refine ⟨fun _ _ h => (by cases h), fun m' res h => ?_⟩
            cases h
            refine fin (emptied E { m with vm := vm' }).vm (.error pos e) ⟨hs'.1, hs'.2, hs'.3⟩ ⟨hp', ?_⟩ (by simp)
            have h2 : vm'.mach.pc = m.image.code.length - 1 := by
              unfold invokePending at hv
              split at hv
              · cases hv
              · exact (upcall_stop hv).2
            have := hi.pos
            show vm'.mach.pc + 1 = _
            omega
        | eof => exact ⟨fun _ _ h => (by cases h), fun _ _ h => (by cases h)⟩
        | «end» c => exact ⟨fun _ _ h => (by cases h), fun _ _ h => (by cases h)⟩
        | upcallAsync => exact ⟨fun _ _ h => (by cases h), fun _ _ h => (by cases h)⟩
        | yield => exact ⟨fun _ _ h => (by cases h), fun _ _ h => (by cases h)⟩
      | cont vm' =>
        obtain ⟨hs', hp'⟩ := hinv vm' (by rw [hv]; rfl)
        simp only
        split
        · refine ⟨fun _ _ h => (by cases h), fun m' res h => ?_⟩
          cases h
          exact fin ((emptied E { m with vm := vm' }).vm.interrupt m.image) .break (hs'.park _) (interrupt_atEnd hi _) (by simp)
        · have hge : Good m0 (emptied E { m with vm := vm' }) := ⟨hg.1, ⟨hs'.1, hs'.2, hs'.3⟩, hg.3, hg.4⟩
          cases hd : drain E { m with vm := vm' } with
          | panic => exact ⟨fun _ _ h => (by cases h), fun _ _ h => (by cases h)⟩
          | ok m1 r1 =>
            refine ⟨fun _ _ h => ?_, fun _ _ h => (by cases h)⟩
            cases h
            exact perform_good _ hd hge
          | error m1 e =>
            refine ⟨fun _ _ h => (by cases h), fun m' res h => ?_⟩
            cases h
            obtain ⟨h1, h2, h3⟩ := perform_error _ hd hge
            exact ⟨h1, h2, fun _ => h3⟩

/-- A call that returns. -/
theorem call_good {E : Surroundings H} (hk : KeepsLimits E.host) {m0 m : Machine H} (hg : Good m0 m) {vm vm' : Vm H}
    (hcall : vmStep E.floats E.host m.image m.vm = .stop .upcallAsync vm)
    (hret : invokePending E.host m.image vm = .cont vm') : Good m0 (emptied E { m with vm := vm' }) := by
  have hsane := vmStep_sane hk (F := E.floats) (by rw [hcall]; rfl) hg.sane
  have h : Sane m0.vm.mach.maxStack m0.vm.mach.heap.maxEntries vm'.mach := by
    unfold invokePending at hret
    split at hret
    · cases hret
    · exact (upcall_sane (vm := { vm with pending := none }) hk (congrArg VmStep.vm? hret) hsane).1
  exact ⟨hg.1, ⟨h.1, h.2, h.3⟩, hg.3, hg.4⟩

/-- Every machine of a session is good; at the prompt it stands at the end. -/
theorem session_good {E : Surroundings H} (hk : KeepsLimits E.host) {m0 m : Machine H} {p : Option Bool}
    (h0 : Good m0 m0) (he : AtEnd m0.image m0.vm) (h : Session E m0 p m) :
    Good m0 m ∧ (p = none → AtEnd m.image m.vm) := by
  induction h with
  | start => exact ⟨h0, fun _ => he⟩
  | world h _ ih => exact ⟨⟨ih.1.1, ⟨ih.1.2.1, ih.1.2.2, ih.1.2.3⟩, ih.1.3, ih.1.4⟩, fun _ => ⟨(ih.2 rfl).1, (ih.2 rfl).2⟩⟩
  | rejected _ hc ih =>
    obtain ⟨h1, _, h2, _⟩ := compile_good hc ih.1
    rw [h2 _ rfl]
    exact ⟨ih.1, fun _ => ih.2 rfl⟩
  | accepted _ hc ih => exact ⟨(compile_good hc ih.1).1, by simp⟩
  | more _ ht ih => exact ⟨(tick_good hk ih.1).1 _ _ ht, by simp⟩
  | done _ ht ih =>
    have := (tick_good hk ih.1).2 _ _ ht
    exact ⟨this.1, fun _ => this.2.1⟩

end Machine

end EB
