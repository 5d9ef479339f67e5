import Verif.Lemmas.Session
/-!
# Blocks inside of programs

Every block of a program is compiled at some point, and what that leaves behind stays.
-/

namespace EB

open Spec (Opened)

/-- What `c` has from address `n` on is still there in `c'`. -/
structure Keep (n : Nat) (c c' : Ctx) : Prop where
  len : c.cg.code.length ≤ c'.cg.code.length
  fixups : ∀ a, c'.cg.fixups.get? a ≠ c.cg.fixups.get? a → c.cg.code.length ≤ a
  labels : ∀ k a, c.cg.labels.get? k = some a → c'.cg.labels.get? k = some a
  callables : ∀ k v, c.cg.callables.get? k = some v → c'.cg.callables.get? k = some v
  user : ∀ k md, c.sy.user.get? k = some md → c'.sy.user.get? k = some md
  builtin : c'.sy.upcalls = c.sy.upcalls
  lines : ∀ i < c.cg.code.length, (c'.cg.instrs[i]?).map (·.linecol) = (c.cg.instrs[i]?).map (·.linecol)
  code : ∀ i, n ≤ i → i < c.cg.code.length → ¬ Opened c i → c'.cg.code[i]? = c.cg.code[i]?
  opened : ∀ i, Opened c' i → Opened c i ∨ c.cg.code.length ≤ i

namespace Keep
variable {n : Nat} {c c1 c2 : Ctx}

theorem refl (n : Nat) (c : Ctx) : Keep n c c :=
  ⟨Nat.le_refl _, by simp, fun _ _ h => h, fun _ _ h => h, fun _ _ h => h, rfl, fun _ _ => rfl, fun _ _ _ _ => rfl, fun _ h => .inl h⟩

theorem trans {a b c : Ctx} (h1 : Keep n a b) (h2 : Keep n b c) : Keep n a c := by
  refine ⟨h1.len.trans h2.len, ?_, fun k v h => h2.labels k v (h1.labels k v h),
    fun k v h => h2.callables k v (h1.callables k v h), fun k v h => h2.user k v (h1.user k v h), h2.builtin.trans h1.builtin,
    fun i hi => (h2.lines i (Nat.lt_of_lt_of_le hi h1.len)).trans (h1.lines i hi), ?_, ?_⟩
  · intro i hi
    by_cases h : b.cg.fixups.get? i = a.cg.fixups.get? i
    · rw [← h] at hi; exact h1.len.trans (h2.fixups i hi)
    · exact h1.fixups i h
  · intro i h0 h3 h4
    have hb : ¬ Opened b i := fun h => (h1.opened i h).elim h4 (fun h => by omega)
    rw [h2.code i h0 (Nat.lt_of_lt_of_le h3 h1.len) hb, h1.code i h0 h3 h4]
  · intro i h
    rcases h2.opened i h with h | h
    · exact h1.opened i h
    · exact .inr (h1.len.trans h)

theorem weaken {m : Nat} (h : Keep n c c1) (hm : n ≤ m) : Keep m c c1 :=
  { h with code := fun i h1 => h.code i (hm.trans h1) }

theorem more_opened {m i : Nat} {a b : List (List (Nat × LineCol))} (h : List.Forall₂ (More m) a b)
    (hi : ∃ l ∈ b, ∃ p ∈ l, p.1 = i) : (∃ l ∈ a, ∃ p ∈ l, p.1 = i) ∨ m ≤ i := by
  induction h with
  | nil => exact .inl hi
  | cons h _ ih =>
    obtain ⟨l, hl, p, hp, rfl⟩ := hi
    rcases List.mem_cons.1 hl with rfl | hl
    · obtain ⟨ex, rfl, hx⟩ := h
      rcases List.mem_append.1 hp with hp | hp
      · exact .inl ⟨_, List.mem_cons_self, p, hp, rfl⟩
      · exact .inr (hx p hp)
    · rcases ih ⟨l, hl, p, hp, rfl⟩ with ⟨l, hl, h⟩ | h
      · exact .inl ⟨l, List.mem_cons_of_mem _ hl, h⟩
      · exact .inr h

theorem of_ext (h : Ext c.cg.code.length c c1) : Keep n c c1 := by
  refine ⟨h.len, h.fixups, h.labels, h.callables, h.user, h.builtin, fun i hi => by rw [h.instrs i hi], fun i _ hi _ => h.code i hi, ?_⟩
  intro i ho
  rcases ho with ho | ho | ⟨p, hp, rfl⟩
  · exact (more_opened h.doExit ho).imp .inl id
  · exact (more_opened h.forExit ho).imp (fun h => .inr (.inl h)) id
  · obtain ⟨ex, he, hx⟩ := h.calExits
    rw [he] at hp
    rcases List.mem_append.1 hp with hp | hp
    · exact .inl (.inr (.inr ⟨p, hp, rfl⟩))
    · exact .inr (hx p hp)

theorem step {α : Type} {x : CS α} {a : α} (K : Keep n c c1) (hi : Inv c1) (hx : SStep x)
    (h : x c1 = .ok (a, c2)) : Keep n c c2 :=
  K.trans (of_ext (hx _ _ _ _ hi (Nat.le_refl _) h))

theorem emit {i : Instr} {pos : LineCol} {a : Nat} (K : Keep n c c1)
    (h : onCg (emit i pos) c1 = .ok (a, c2)) (hl : c1.cg.instrs.length = c1.cg.code.length) : Keep n c c2 := by
  have := emit_ok.1 h
  cases this
  refine K.trans ⟨by simp [Codegen.push], by simp [Codegen.push], fun _ _ h => h, fun _ _ h => h, fun _ _ h => h, rfl, ?_, ?_, fun _ h => .inl h⟩
  · intro i hi
    show ((c1.cg.instrs ++ _)[i]?).map _ = _
    rw [List.getElem?_append_left (by omega)]
  · intro i _ hi _
    show (c1.cg.code ++ _)[i]? = _
    rw [List.getElem?_append_left hi]

theorem jump {target : Nat} {pos : LineCol} {a : Unit} (K : Keep n c c1)
    (h : emitJump target pos c1 = .ok (a, c2)) (hl : c1.cg.instrs.length = c1.cg.code.length) : Keep n c c2 := by
  obtain ⟨t, _, h3⟩ := emitJump_ok.1 h
  cases h3
  exact K.emit (a := c1.cg.code.length) (emit_ok.2 rfl) hl

theorem patch {addr : Nat} {i : Instr} (K : Keep n c c1)
    (h : addr < n ∨ c.cg.code.length ≤ addr ∨ Opened c addr) :
    Keep n c { c1 with cg := c1.cg.patch addr i } := by
  refine ⟨by simpa [Codegen.patch] using K.len, K.fixups, K.labels, K.callables, K.user, K.builtin, K.lines, ?_, K.opened⟩
  intro j h1 h2 h3
  have hne : addr ≠ j := by rintro rfl; rcases h with h | h | h <;> first | omega | exact h3 h
  show (c1.cg.code.set addr i)[j]? = _
  rw [List.getElem?_set_ne hne]
  exact K.code j h1 h2 h3

theorem pJump {addr target : Nat} {pos : LineCol} {a : Unit} (K : Keep n c c1)
    (ha : addr < n ∨ c.cg.code.length ≤ addr ∨ Opened c addr)
    (h : patchJump addr target pos c1 = .ok (a, c2)) : Keep n c c2 := by
  obtain ⟨t, _, h3⟩ := patchJump_ok.1 h
  cases h3
  exact K.patch ha

theorem pJumpIfFalse {addr target : Nat} {cond : Reg} {pos : LineCol} {a : Unit} (K : Keep n c c1)
    (ha : addr < n ∨ c.cg.code.length ≤ addr ∨ Opened c addr)
    (h : patchJumpIfFalse addr cond target pos c1 = .ok (a, c2)) : Keep n c c2 := by
  obtain ⟨t, _, h3⟩ := patchJumpIfFalse_ok.1 h
  cases h3
  exact K.patch ha

theorem pJumps {target : Nat} {l : List (Nat × LineCol)} {a : Unit} (K : Keep n c c1)
    (ha : ∀ p ∈ l, p.1 < n ∨ c.cg.code.length ≤ p.1 ∨ Opened c p.1)
    (h : patchJumps target l c1 = .ok (a, c2)) : Keep n c c2 := by
  induction l generalizing c1 with
  | nil =>
    have := CM.pure_ok.1 h
    cases this; exact K
  | cons p l ih =>
    obtain ⟨addr, pos⟩ := p
    obtain ⟨u, c3, h1, h2⟩ := CM.bind_ok.1 h
    exact ih (K.pJump (ha (addr, pos) List.mem_cons_self) h1) (fun p hp => ha p (List.mem_cons_of_mem _ hp)) h2

theorem closeDo {stop : Nat} {a : Unit} (K : Keep n c c1) (h : closeDo stop c1 = .ok (a, c2)) : Keep n c c2 := by
  unfold EB.closeDo at h
  split at h
  · simp at h
  next top rest hd =>
    refine pJumps (c1 := { c1 with doExit := rest }) ⟨K.len, K.fixups, K.labels, K.callables, K.user, K.builtin, K.lines, K.code, ?_⟩ ?_ h
    · intro i hi
      refine K.opened i ?_
      rcases hi with ⟨l, hl, h⟩ | hi | hi
      · exact .inl ⟨l, by rw [hd]; exact List.mem_cons_of_mem _ hl, h⟩
      · exact .inr (.inl hi)
      · exact .inr (.inr hi)
    · intro p hp
      rcases K.opened p.1 (.inl ⟨top, by rw [hd]; exact List.mem_cons_self, p, hp, rfl⟩) with h | h
      · exact .inr (.inr h)
      · exact .inr (.inl h)

theorem closeFor {stop : Nat} {a : Unit} (K : Keep n c c1) (h : closeFor stop c1 = .ok (a, c2)) : Keep n c c2 := by
  unfold EB.closeFor at h
  split at h
  · simp at h
  next top rest hd =>
    refine pJumps (c1 := { c1 with forExit := rest }) ⟨K.len, K.fixups, K.labels, K.callables, K.user, K.builtin, K.lines, K.code, ?_⟩ ?_ h
    · intro i hi
      refine K.opened i ?_
      rcases hi with hi | ⟨l, hl, h⟩ | hi
      · exact .inl hi
      · exact .inr (.inl ⟨l, by rw [hd]; exact List.mem_cons_of_mem _ hl, h⟩)
      · exact .inr (.inr hi)
    · intro p hp
      rcases K.opened p.1 (.inr (.inl ⟨top, by rw [hd]; exact List.mem_cons_self, p, hp, rfl⟩)) with h | h
      · exact .inr (.inr h)
      · exact .inr (.inl h)

theorem epilog {key : Str} {skip start : Nat} {pos : LineCol} {saved : IdMap Str Proto} {a : Unit}
    (K : Keep n c c1) (hl : c1.cg.instrs.length = c1.cg.code.length) (hs : skip < n)
    (hk : c.cg.callables.get? key = none) (h : callableEpilog key skip start pos saved c1 = .ok (a, c2)) : Keep n c c2 := by
  unfold callableEpilog at h
  seq h ret c3 h1
  have K1 := K.emit h1 hl
  seq h cx c4 h2
  have := CM.get_ok.1 h2; cases this
  seq h u c5 h3
  have K2 := K1.pJumps (fun p hp => by
    rcases K1.opened p.1 (.inr (.inr ⟨p, hp, rfl⟩)) with h | h
    · exact .inr (.inr h)
    · exact .inr (.inl h)) h3
  seq h skipAddr c6 h4
  obtain ⟨rfl, rfl⟩ := pcNow_eq h4
  seq h u1 c7 h5
  have := CM.modify_ok.1 h5; cases this
  seq h u2 c8 h6
  have := CM.modify_ok.1 h; cases this
  have hK2 : ∀ k v, c.cg.callables.get? k = some v →
      (c5.cg.defineCallable key start c5.cg.code.length).callables.get? k = some v := by
    intro k v hkv
    simp only [Codegen.defineCallable, FMap.get?_insert]
    split
    next he => rw [he, hk] at hkv; cases hkv
    next => exact K2.callables k v hkv
  have K3 := pJump (c1 := { c5 with calExits := [], cur := none, cg := c5.cg.defineCallable key start c5.cg.code.length })
    ⟨K2.len, K2.fixups, K2.labels, hK2, K2.user, K2.builtin, K2.lines, K2.code, fun i hi => K2.opened i (by
      rcases hi with hi | hi | hi
      · exact .inl hi
      · exact .inr (.inl hi)
      · simp at hi)⟩ (.inl hs) h6
  exact ⟨K3.len, K3.fixups, K3.labels, K3.callables, K3.user, K3.builtin, K3.lines, K3.code, K3.opened⟩

theorem mark {start : Nat} (K : Keep n c c1) : Keep n c { c1 with cg := c1.cg.markStmt start } := by
  refine ⟨K.len, K.fixups, K.labels, K.callables, K.user, K.builtin, ?_, K.code, K.opened⟩
  intro i hi
  rw [← K.lines i hi]
  show ((c1.cg.instrs.modify start _)[i]?).map _ = _
  rw [List.getElem?_modify]
  split <;> simp [Option.map_map, Function.comp_def]

theorem markIf {b : Bool} {start : Nat} {a : Unit} (K : Keep n c c1) (h : markIf b start c1 = .ok (a, c2)) :
    Keep n c c2 := by
  unfold EB.markIf at h
  split at h
  · cases h; exact K.mark
  · cases h; exact K

/-- The bodies of a `SELECT`. -/
theorem bodies {endPos : LineCol} (cs : Cases) (jumps : List (List (Nat × LineCol)))
    {a : List Nat} {c1 c2 : Ctx} (K : Keep n c c1) (hi : Inv c1)
    (hj : ∀ js ∈ jumps, ∀ p ∈ js, p.1 < n) (h : compileBodies cs jumps endPos c1 = .ok (a, c2)) : Keep n c c2 := by
  match cs, jumps with
  | .nil, _ =>
    unfold compileBodies at h
    have := CM.pure_ok.1 h; cases this
    exact K
  | .cons .., [] =>
    unfold compileBodies at h
    simp [CM.throw] at h
  | .cons _ body rest, js :: jumps =>
    unfold compileBodies at h
    seq h here c3 h1
    obtain ⟨rfl, rfl⟩ := pcNow_eq h1
    seq h u c4 h2
    have K2 := K.pJumps (fun p hp => .inl (hj js List.mem_cons_self p hp)) h2
    obtain ⟨E2, l2⟩ := (Ext.refl (n := 0) hi).pJumps (fun _ _ => Nat.zero_le _) (Nat.le_refl _) h2
    seq h u1 c5 h3
    obtain ⟨E3, l3⟩ := E2.step (Nat.zero_le _) (SStep.compileStmts body) h3
    have K3 := K2.step E2.inv (SStep.compileStmts body) h3
    split at h
    · have := CM.pure_ok.1 h; cases this
      exact K3
    · seq h toEnd c6 h4
      obtain ⟨E4, rfl, l4⟩ := E3.emit (Nat.zero_le _) (by simp [Instr.targets]) h4
      seq h ends c7 h5
      have := CM.pure_ok.1 h; cases this
      exact bodies rest jumps (K3.emit h4 E3.inv.lens) E4.inv (fun js h => hj js (List.mem_cons_of_mem _ h)) h5
termination_by structural cs

end Keep

theorem ends_bodies {endPos : LineCol} (cs : Cases) (jumps : List (List (Nat × LineCol)))
    {c c' : Ctx} {a : List Nat} (hi : Inv c) (h : compileBodies cs jumps endPos c = .ok (a, c')) :
    ∀ e ∈ a, c.cg.code.length ≤ e := by
  match cs, jumps with
  | .nil, _ =>
    unfold compileBodies at h
    have := CM.pure_ok.1 h; cases this
    simp
  | .cons .., [] =>
    unfold compileBodies at h
    simp [CM.throw] at h
  | .cons _ body rest, js :: jumps =>
    unfold compileBodies at h
    seq h here c3 h1
    obtain ⟨rfl, rfl⟩ := pcNow_eq h1
    seq h u c4 h2
    obtain ⟨E2, l2⟩ := (Ext.refl (n := 0) hi).pJumps (fun _ _ => Nat.zero_le _) (Nat.le_refl _) h2
    seq h u1 c5 h3
    obtain ⟨E3, l3⟩ := E2.step (Nat.zero_le _) (SStep.compileStmts body) h3
    split at h
    · have := CM.pure_ok.1 h; cases this
      simp
    · seq h toEnd c6 h4
      obtain ⟨E4, rfl, l4⟩ := E3.emit (Nat.zero_le _) (by simp [Instr.targets]) h4
      seq h ends c7 h5
      have := CM.pure_ok.1 h; cases this
      intro e he
      rcases List.mem_cons.1 he with rfl | he
      · omega
      · have := ends_bodies rest jumps E4.inv h5 e he
        omega
termination_by structural cs

/-- `sub` was compiled on the way from `c` to `c'`. -/
def Passed (sub : Stmts) (c c' : Ctx) (ends : List Nat) : Prop :=
  ∃ c1 u c2, Inv c1 ∧ c.cg.code.length ≤ c1.cg.code.length ∧ compileStmts sub c1 = .ok (u, c2) ∧
    Keep c1.cg.code.length c2 c' ∧ ∀ e ∈ ends, e < c1.cg.code.length ∨ c2.cg.code.length ≤ e

theorem passed_branches {b : Stmts} (bs : Branches) {c c' : Ctx} {a : List Nat} (hi : Inv c)
    (hb : b ∈ Spec.branchBodies bs) (h : compileBranches bs c = .ok (a, c')) : Passed b c c' a := by
  match bs with
  | .nil => simp [Spec.branchBodies] at hb
  | .cons guard body rest =>
    have hbb := SStep.compileStmts body
    unfold compileBranches at h
    have hn : 0 ≤ c.cg.code.length := Nat.zero_le _
    seq h cond c1 h1
    obtain ⟨E1, l1⟩ := (Ext.refl (n := 0) hi).step hn (.compileCond _) h1
    seq h toNext c2 h2
    obtain ⟨E2, rfl, l2⟩ := E1.emit hn (by simp [Instr.targets]) h2
    seq h u c3 h3
    obtain ⟨E3, l3⟩ := E2.step hn hbb h3
    split at h
    next hnil =>
      seq h next c4 h4
      obtain ⟨rfl, rfl⟩ := pcNow_eq h4
      seq h u1 c5 h5
      have := CM.pure_ok.1 h; cases this
      rcases List.mem_cons.1 hb with rfl | hb
      · exact ⟨c2, u, c3, E2.inv, by omega, h3, (Keep.refl _ _).pJumpIfFalse (.inl (by omega)) h5, by simp⟩
      · cases rest <;> simp_all [Spec.branchBodies, Branches.isNil]
    next =>
      seq h toEnd c4 h4
      obtain ⟨E4, rfl, l4⟩ := E3.emit hn (by simp [Instr.targets]) h4
      seq h next c5 h5
      obtain ⟨rfl, rfl⟩ := pcNow_eq h5
      seq h u1 c6 h6
      obtain ⟨E6, l6⟩ := E4.pJumpIfFalse (by omega) (Nat.le_refl _) h6
      seq h ends c7 h7
      have := CM.pure_ok.1 h; cases this
      obtain ⟨e7, he⟩ := ext_compileBranches (n := c6.cg.code.length) rest E6.inv (Nat.le_refl _) h7
      rcases List.mem_cons.1 hb with rfl | hb
      · refine ⟨c2, u, c3, E2.inv, by omega, h3, ?_, ?_⟩
        · exact ((((Keep.refl _ _).emit h4 E3.inv.lens).pJumpIfFalse (.inl (by omega)) h6)).trans (Keep.of_ext e7)
        · intro e hx
          rcases List.mem_cons.1 hx with rfl | hx
          · exact .inr (Nat.le_refl _)
          · have := he e hx
            exact .inr (by omega)
      · obtain ⟨c8, u8, c9, p1, p2, p3, p4, p5⟩ := passed_branches rest E6.inv hb h7
        refine ⟨c8, u8, c9, p1, by omega, p3, p4, ?_⟩
        intro e hx
        rcases List.mem_cons.1 hx with rfl | hx
        · exact .inl (by omega)
        · exact p5 e hx
termination_by structural bs

theorem passed_bodies {b : Stmts} {endPos : LineCol} (cs : Cases) (jumps : List (List (Nat × LineCol)))
    {c c' : Ctx} {a : List Nat} (hi : Inv c) (hb : b ∈ Spec.caseBodies cs)
    (hj : ∀ js ∈ jumps, ∀ p ∈ js, p.1 < c.cg.code.length)
    (h : compileBodies cs jumps endPos c = .ok (a, c')) : Passed b c c' a := by
  match cs, jumps with
  | .nil, _ => simp [Spec.caseBodies] at hb
  | .cons .., [] =>
    unfold compileBodies at h
    simp [CM.throw] at h
  | .cons _ body rest, js :: jumps =>
    unfold compileBodies at h
    have hn : 0 ≤ c.cg.code.length := Nat.zero_le _
    seq h here c1 h1
    obtain ⟨rfl, rfl⟩ := pcNow_eq h1
    seq h u c2 h2
    obtain ⟨E2, l2⟩ := (Ext.refl (n := 0) hi).pJumps (fun _ _ => Nat.zero_le _) (Nat.le_refl _) h2
    seq h u1 c3 h3
    obtain ⟨E3, l3⟩ := E2.step hn (SStep.compileStmts body) h3
    split at h
    next hnil =>
      have := CM.pure_ok.1 h; cases this
      rcases List.mem_cons.1 hb with rfl | hb
      · exact ⟨c2, u1, c', E2.inv, by omega, h3, .refl _ _, by simp⟩
      · cases rest <;> simp_all [Spec.caseBodies, Cases.isNil]
    next =>
      seq h toEnd c4 h4
      obtain ⟨E4, rfl, l4⟩ := E3.emit hn (by simp [Instr.targets]) h4
      seq h ends c5 h5
      have := CM.pure_ok.1 h; cases this
      have hj' : ∀ js ∈ jumps, ∀ p ∈ js, p.1 < c.cg.code.length := fun js h => hj js (List.mem_cons_of_mem _ h)
      obtain ⟨e5, he⟩ := ext_compileBodies (n := 0) rest jumps E4.inv (Nat.zero_le _) (fun _ _ _ _ => Nat.zero_le _) h5
      have he' : ∀ e ∈ ends, c4.cg.code.length ≤ e := ends_bodies rest jumps E4.inv h5
      rcases List.mem_cons.1 hb with rfl | hb
      · refine ⟨c2, u1, c3, E2.inv, by omega, h3,
          ((Keep.refl _ _).emit h4 E3.inv.lens).bodies rest jumps E4.inv (fun js h p hp => ?_) h5, ?_⟩
        · have := hj' js h p hp; omega
        · intro e hx
          rcases List.mem_cons.1 hx with rfl | hx
          · exact .inr (Nat.le_refl _)
          · have := he' e hx
            exact .inr (by omega)
      · obtain ⟨c8, u8, c9, p1, p2, p3, p4, p5⟩ := passed_bodies rest jumps E4.inv hb
          (fun js h p hp => by have := hj' js h p hp; omega) h5
        refine ⟨c8, u8, c9, p1, by omega, p3, p4, ?_⟩
        intro e hx
        rcases List.mem_cons.1 hx with rfl | hx
        · exact .inl (by omega)
        · exact p5 e hx
termination_by structural cs

theorem passed_block {b : Stmts} (s : Stmt) {c c' : Ctx} {a : Unit} (hi : Inv c)
    (hb : b ∈ Spec.blocks s) (h : compileStmtBody s c = .ok (a, c')) : Passed b c c' [] := by
  have hn : 0 ≤ c.cg.code.length := Nat.zero_le _
  match s with
  | .callable name pos params body endPos =>
    simp only [Spec.blocks, List.mem_singleton] at hb; subst hb
    unfold compileStmtBody at h
    seq h u c1 h1
    obtain ⟨E1, l1⟩ := (Ext.refl (n := 0) hi).step hn (SStep.declareCallable _ _ _) h1
    seq h cc c2 h2
    have := CM.get_ok.1 h2; cases this
    split at h
    · simp [CM.throw] at h
    next hd =>
    split at h
    · simp [CM.throw] at h
    next hc =>
    seq h r c3 h3
    obtain ⟨skip, start⟩ := r
    seq h u2 c4 h4
    obtain ⟨h3', hr⟩ := callableProlog_ok.1 h3
    have hc0 : Ext 0 c1 { c1 with cg := c1.cg.push .nop pos } := ext_emit E1.inv (Nat.zero_le _) (by simp [Instr.targets])
    have hcs : Inv (enterScope name { c1 with cg := c1.cg.push .nop pos }) :=
      { hc0.inv with locals := IdMap.wf_empty, localLimit := Nat.zero_le _, calNone := by simp [enterScope] }
    have E3 := SStep.prologBody name pos params 0 _ _ _ hcs (Nat.zero_le _) h3'
    have l3 : c1.cg.code.length < c3.cg.code.length := by
      have := E3.len
      simp only [enterScope, Codegen.push, List.length_append, List.length_singleton] at this
      omega
    have E4 := SStep.compileStmts b 0 _ _ _ E3.inv (Nat.zero_le _) h4
    cases hr
    have hnk : c4.cg.callables.get? (symKey name.name) = none := by
      cases hk : c4.cg.callables.get? (symKey name.name) with
      | none => rfl
      | some v =>
        have := E4.inv.defined _ _ hk
        rw [(E3.trans E4).inside (by simp [enterScope])] at this
        exact absurd (List.contains_iff_mem.2 this) hd
    exact ⟨c3, u2, c4, E3.inv, by omega, h4, (Keep.refl _ _).epilog E4.inv.lens (by omega) hnk h, by simp⟩
  | .doLoop guard body =>
    simp only [Spec.blocks, List.mem_singleton] at hb; subst hb
    unfold compileStmtBody at h
    seq h u c1 h1
    have := CM.modify_ok.1 h1; cases this
    have E0 := Ext.refl (n := 0) (inv_pushDo hi)
    have hl0 : ({ c with doExit := [] :: c.doExit } : Ctx).cg.code.length = c.cg.code.length := rfl
    generalize hc0 : ({ c with doExit := [] :: c.doExit } : Ctx) = c0 at *
    have hn' : 0 ≤ c0.cg.code.length := Nat.zero_le _
    match guard with
    | .infinite =>
      simp only at h
      seq h start c2 h2
      obtain ⟨rfl, rfl⟩ := pcNow_eq h2
      seq h u1 c3 h3
      obtain ⟨E3, l3⟩ := E0.step hn' (SStep.compileStmts _) h3
      seq h u2 c4 h4
      seq h stop c5 h5
      obtain ⟨rfl, rfl⟩ := pcNow_eq h5
      exact ⟨c0, u1, c3, E0.inv, by omega, h3, ((Keep.refl _ _).jump h4 E3.inv.lens).closeDo h, by simp⟩
    | .preUntil e =>
      simp only at h
      seq h start c2 h2
      obtain ⟨rfl, rfl⟩ := pcNow_eq h2
      seq h cond c3 h3
      obtain ⟨E3, l3⟩ := E0.step hn' (.compileCond _) h3
      seq h toBody c4 h4
      obtain ⟨E4, rfl, l4⟩ := E3.emit hn' (by simp [Instr.targets]) h4
      seq h toEnd c5 h5
      obtain ⟨E5, rfl, l5⟩ := E4.emit hn' (by simp [Instr.targets]) h5
      seq h here c6 h6
      obtain ⟨rfl, rfl⟩ := pcNow_eq h6
      seq h u1 c7 h7
      obtain ⟨E7, l7⟩ := E5.pJumpIfFalse (by omega) (Nat.le_refl _) h7
      seq h u2 c8 h8
      obtain ⟨E8, l8⟩ := E7.step hn' (SStep.compileStmts _) h8
      seq h u3 c9 h9
      seq h stop c10 h10
      obtain ⟨rfl, rfl⟩ := pcNow_eq h10
      seq h u4 c11 h11
      exact ⟨c7, u2, c8, E7.inv, by omega, h8,
        (((Keep.refl _ _).jump h9 E8.inv.lens).pJump (.inl (by omega)) h11).closeDo h, by simp⟩
    | .preWhile e =>
      simp only at h
      seq h start c2 h2
      obtain ⟨rfl, rfl⟩ := pcNow_eq h2
      seq h cond c3 h3
      obtain ⟨E3, l3⟩ := E0.step hn' (.compileCond _) h3
      seq h toEnd c4 h4
      obtain ⟨E4, rfl, l4⟩ := E3.emit hn' (by simp [Instr.targets]) h4
      seq h u2 c8 h8
      obtain ⟨E8, l8⟩ := E4.step hn' (SStep.compileStmts _) h8
      seq h u3 c9 h9
      seq h stop c10 h10
      obtain ⟨rfl, rfl⟩ := pcNow_eq h10
      seq h u4 c11 h11
      exact ⟨c4, u2, c8, E4.inv, by omega, h8,
        (((Keep.refl _ _).jump h9 E8.inv.lens).pJumpIfFalse (.inl (by omega)) h11).closeDo h, by simp⟩
    | .postUntil e =>
      simp only at h
      seq h start c2 h2
      obtain ⟨rfl, rfl⟩ := pcNow_eq h2
      seq h u2 c3 h3
      obtain ⟨E3, l3⟩ := E0.step hn' (SStep.compileStmts _) h3
      seq h cond c4 h4
      obtain ⟨E4, l4⟩ := E3.step hn' (.compileCond e) h4
      seq h t c5 h5
      obtain ⟨t', ht, h5⟩ := CM.lift_ok.1 h5
      cases h5
      seq h u3 c6 h6
      seq h stop c7 h7
      obtain ⟨rfl, rfl⟩ := pcNow_eq h7
      exact ⟨c0, u2, c3, E0.inv, by omega, h3,
        (((Keep.refl _ _).step E3.inv (.compileCond e) h4).emit h6 E4.inv.lens).closeDo h, by simp⟩
    | .postWhile e =>
      simp only at h
      seq h start c2 h2
      obtain ⟨rfl, rfl⟩ := pcNow_eq h2
      seq h u2 c3 h3
      obtain ⟨E3, l3⟩ := E0.step hn' (SStep.compileStmts _) h3
      seq h cond c4 h4
      obtain ⟨E4, l4⟩ := E3.step hn' (.compileCond e) h4
      seq h toEnd c5 h5
      obtain ⟨E5, rfl, l5⟩ := E4.emit hn' (by simp [Instr.targets]) h5
      seq h u3 c6 h6
      seq h stop c7 h7
      obtain ⟨rfl, rfl⟩ := pcNow_eq h7
      seq h u4 c8 h8
      exact ⟨c0, u2, c3, E0.inv, by omega, h3,
        (((((Keep.refl _ _).step E3.inv (.compileCond e) h4).emit h5 E4.inv.lens).jump h6 E5.inv.lens).pJumpIfFalse
          (.inr (.inl (by omega))) h8).closeDo h, by simp⟩
  | .forLoop iter iterPos double start stop next body =>
    simp only [Spec.blocks, List.mem_singleton] at hb; subst hb
    unfold compileStmtBody at h
    seq h u c1 h1
    obtain ⟨E1, l1⟩ := (Ext.refl (n := 0) hi).step hn (.forIter _ _ _) h1
    seq h u1 c2 h2
    obtain ⟨E2, l2⟩ := E1.step hn (.compileAssign _ _ _) h2
    seq h startPc c3 h3
    obtain ⟨rfl, rfl⟩ := pcNow_eq h3
    seq h cond c4 h4
    obtain ⟨E4, l4⟩ := E2.step hn (.compileCond _) h4
    seq h toEnd c5 h5
    obtain ⟨E5, rfl, l5⟩ := E4.emit hn (by simp [Instr.targets]) h5
    seq h u2 c6 h6
    have := CM.modify_ok.1 h6; cases this
    have em := ext_mark (n := 0) (start := c2.cg.code.length) E5.inv (by omega)
    have E7 := Ext.refl (n := 0) (inv_pushFor em.inv)
    have l7 : ({ c5 with cg := c5.cg.markStmt c2.cg.code.length, forExit := [] :: c5.forExit } : Ctx).cg.code.length =
        c5.cg.code.length := rfl
    seq h u3 c7 h7
    obtain ⟨E8, l8⟩ := E7.step (Nat.zero_le _) (SStep.compileStmts _) h7
    seq h u4 c8 h8
    have e9 := SStep.compileAssign _ _ _ 0 _ _ _ E8.inv (Nat.zero_le _) h8
    seq h u5 c9 h9
    seq h endAddr c10 h10
    obtain ⟨rfl, rfl⟩ := pcNow_eq h10
    seq h u6 c11 h11
    exact ⟨_, u3, c7, E7.inv, E5.len, h7,
      ((((Keep.refl _ _).step E8.inv (.compileAssign _ _ _) h8).jump h9 e9.inv.lens).pJumpIfFalse
        (.inl (show c4.cg.code.length < c5.cg.code.length by omega)) h11).closeFor h, by simp⟩
  | .ifs branches =>
    unfold compileStmtBody at h
    seq h ends c1 h1
    seq h stop c2 h2
    obtain ⟨rfl, rfl⟩ := pcNow_eq h2
    obtain ⟨c8, u8, c9, p1, p2, p3, p4, p5⟩ := passed_branches branches hi hb h1
    refine ⟨c8, u8, c9, p1, p2, p3, p4.pJumps ?_ h, by simp⟩
    intro p hp
    obtain ⟨e, he, rfl⟩ := List.mem_map.1 hp
    exact (p5 e he).imp id .inl
  | .select e cases endPos =>
    unfold compileStmtBody at h
    seq h test c1 h1
    obtain ⟨E1, l1⟩ := (Ext.refl (n := 0) hi).step hn (.withSyms fun _ => .lift _) h1
    seq h testTy c2 h2
    obtain ⟨E2, l2⟩ := E1.step hn (.withSyms fun _ => .compileExpr _ _ _ _) h2
    seq h jp c3 h3
    obtain ⟨jumps, pending⟩ := jp
    obtain ⟨e3, hj, hp⟩ := ext_compileDispatch (n := 0) cases E2.inv (hn.trans E2.len) (by simp) h3
    have E3 := E2.trans e3
    seq h toEnd c4 h4
    obtain ⟨E4, rfl, l4⟩ := E3.emit hn (by simp [Instr.targets]) h4
    have key : ∃ c5, Ext 0 c c5 ∧ c5.cg.code.length = c4.cg.code.length ∧ (do
        let ends ← compileBodies cases jumps endPos
        let stop ← pcNow
        patchJump c3.cg.code.length stop endPos
        patchJumps stop (ends.map fun a => (a, endPos)) : CS Unit) c5 = .ok (a, c') := by
      cases pending with
      | none => exact ⟨c4, E4, rfl, h⟩
      | some p =>
        simp only at h
        seq h u c5 h5
        obtain ⟨E5, l5⟩ := E4.pJump (Nat.zero_le _) (by omega) h5
        exact ⟨c5, E5, l5, h⟩
    obtain ⟨c5, E5, l5, h⟩ := key
    seq h ends c6 h6
    seq h stop c7 h7
    obtain ⟨rfl, rfl⟩ := pcNow_eq h7
    seq h u c8 h8
    obtain ⟨c9, u9, c10, p1, p2, p3, p4, p5⟩ := passed_bodies cases jumps E5.inv hb
      (fun js h p hp => by have := (hj js h p hp).2; omega) h6
    refine ⟨c9, u9, c10, p1, E5.len.trans p2, p3, (p4.pJump (.inl (by omega)) h8).pJumps ?_ h, by simp⟩
    intro p hp
    obtain ⟨e, he, rfl⟩ := List.mem_map.1 hp
    exact (p5 e he).imp id .inl
  | .whileLoop e body =>
    simp only [Spec.blocks, List.mem_singleton] at hb; subst hb
    unfold compileStmtBody at h
    seq h start c2 h2
    obtain ⟨rfl, rfl⟩ := pcNow_eq h2
    seq h cond c3 h3
    obtain ⟨E3, l3⟩ := (Ext.refl (n := 0) hi).step hn (.compileCond _) h3
    seq h toEnd c4 h4
    obtain ⟨E4, rfl, l4⟩ := E3.emit hn (by simp [Instr.targets]) h4
    seq h u2 c8 h8
    obtain ⟨E8, l8⟩ := E4.step hn (SStep.compileStmts _) h8
    seq h u3 c9 h9
    seq h stop c10 h10
    obtain ⟨rfl, rfl⟩ := pcNow_eq h10
    exact ⟨c4, u2, c8, E4.inv, by omega, h8,
      ((Keep.refl _ _).jump h9 E8.inv.lens).pJumpIfFalse (.inl (by omega)) h, by simp⟩
  | .arrayAssign .. | .assign .. | .call .. | .data .. | .declare .. | .dim .. | .dimArray .. | .end .. | .exitDo ..
  | .exitFor .. | .exitFunction .. | .exitSub .. | .gosub .. | .goto .. | .label .. | .onError .. | .ret .. =>
    simp [Spec.blocks] at hb

/-- Whatever is found in a program is compiled at some point. -/
theorem passed_sub {sub ss : Stmts} (hs : Spec.Sub sub ss) {c c' : Ctx} {a : Unit} (hi : Inv c)
    (h : compileStmts ss c = .ok (a, c')) : Passed sub c c' [] := by
  induction hs generalizing c c' a with
  | here => exact ⟨c, a, c', hi, Nat.le_refl _, h, .refl _ _, by simp⟩
  | later _ ih =>
    unfold compileStmts at h
    seq h start c1 h1
    obtain ⟨rfl, rfl⟩ := pcNow_eq h1
    seq h u c2 h2
    obtain ⟨E2, l2⟩ := (Ext.refl (n := 0) hi).step (Nat.zero_le _) (SStep.compileStmtBody _) h2
    seq h u1 c3 h3
    have e3 := ext_markIf (n := 0) E2.inv (Nat.zero_le _) h3
    have l3 := e3.len
    obtain ⟨c8, u8, c9, p1, p2, p3, p4, p5⟩ := ih e3.inv h
    exact ⟨c8, u8, c9, p1, by omega, p3, p4, by simp⟩
  | inside hb _ ih =>
    unfold compileStmts at h
    seq h start c1 h1
    obtain ⟨rfl, rfl⟩ := pcNow_eq h1
    seq h u c2 h2
    obtain ⟨E2, l2⟩ := (Ext.refl (n := 0) hi).step (Nat.zero_le _) (SStep.compileStmtBody _) h2
    seq h u1 c3 h3
    have e3 := ext_markIf (n := 0) E2.inv (Nat.zero_le _) h3
    obtain ⟨c4, u4, c5, p1, p2, p3, p4, _⟩ := passed_block _ hi hb h2
    obtain ⟨c8, u8, c9, q1, q2, q3, q4, _⟩ := ih p1 p3
    exact ⟨c8, u8, c9, q1, by omega, q3,
      ((q4.trans (p4.weaken q2)).markIf h3).step e3.inv (.compileStmts _) h, by simp⟩

end EB
