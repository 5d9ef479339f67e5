import Verif.Lemmas.StmtCodeMain
/-!
# Every compiled statement has its code in the image
-/

namespace EB

open Spec (Opened)

theorem Good.stmts {ss : Stmts} {c c' : Ctx} {a : Unit} (h : Good c) (he : compileStmts ss c = .ok (a, c')) :
    Good c' ∧ Ext c.cg.code.length c c' := h.step (.compileStmts ss) (.compileStmts ss) he

theorem Good.cond {e : Expr} {c c' : Ctx} {a : Reg} (h : Good c) (he : compileCond e c = .ok (a, c')) :
    Good c' ∧ Ext c.cg.code.length c c' := h.step (.compileCond e) (.compileCond e) he

theorem compileCond_sy {e : Expr} {c c' : Ctx} {a : Reg} (he : compileCond e c = .ok (a, c')) : c'.sy = c.sy := withSyms_sy he

theorem Wired.cond {L : Link} {X : Nat → Prop} {lo : Nat} {c c' : Ctx} {T : Targets} {e : Expr} {r : Reg} (hw : Wired L X lo c' T)
    (hg : Good c) (he : compileCond e c = .ok (r, c')) (hlo : lo ≤ c.cg.code.length)
    (hx : ∀ i, c.cg.code.length ≤ i → i < c'.cg.code.length → ¬ X i) :
    Piece L c.sy (condCode c.sy e) c.cg.code.length c'.cg.code.length r :=
  hw.piece (f := fun sy => condCode sy e) hg he (fun _ => .bind (.lift _) fun _ => .bind (.compileExprAs _ _ _ _ _) fun _ => .pure _) hlo hx

theorem branches_facts (bs : Branches) {c c' : Ctx} {ends : List Nat} (h : compileBranches bs c = .ok (ends, c')) (hg : Good c) :
    Good c' ∧ Ext c.cg.code.length c c' ∧ ∀ e ∈ ends, Hole c' e ∧ c.cg.code.length ≤ e := by
  match bs with
  | .nil =>
    unfold compileBranches at h
    have := CM.pure_ok.1 h; cases this
    exact ⟨hg, .refl hg.inv, by simp⟩
  | .cons guard body rest =>
    have E0 := (ext_compileBranches (.cons guard body rest) hg.inv (Nat.le_refl _) h).1
    refine ⟨⟨E0.inv, XStep.compileBranches _ _ _ _ hg.ex h⟩, E0, ?_⟩
    unfold compileBranches at h
    seq h cond c1 h1
    obtain ⟨g1, e1⟩ := hg.cond h1
    seq h toNext c2 h2
    obtain ⟨g2, e2, rfl, l2, o2⟩ := g1.emit (by simp [Instr.targets]) h2
    seq h u c3 h3
    obtain ⟨g3, e3⟩ := g2.stmts h3
    have l1 := e1.len
    have l3 := e3.len
    split at h
    · seq h next c4 h4
      seq h u1 c5 h5
      have := CM.pure_ok.1 h; cases this
      simp
    · seq h toEnd c4 h4
      obtain ⟨g4, e4, rfl, l4, o4⟩ := g3.emit (by simp [Instr.targets]) h4
      seq h next c5 h5
      obtain ⟨rfl, rfl⟩ := pcNow_eq h5
      seq h u1 c6 h6
      obtain ⟨g6, l6, s6⟩ := g4.pSkip (Nat.le_refl _) h6
      seq h ends c7 h7
      have := CM.pure_ok.1 h; cases this
      obtain ⟨g7, e7, he⟩ := branches_facts rest h7 g6
      intro e hm
      rcases List.mem_cons.1 hm with rfl | hm
      · exact ⟨(o4.pSkip h6).ext e7, by omega⟩
      · exact ⟨(he e hm).1, by have := (he e hm).2; omega⟩
termination_by structural bs

theorem bodies_facts (cs : Cases) (jumps : List (List (Nat × LineCol))) {endPos : LineCol} {c c' : Ctx} {ends : List Nat}
    (h : compileBodies cs jumps endPos c = .ok (ends, c')) (hg : Good c) :
    Good c' ∧ c.cg.code.length ≤ c'.cg.code.length ∧ (∀ e ∈ ends, Hole c' e ∧ c.cg.code.length ≤ e) ∧ ∀ a, Hole c a → Hole c' a := by
  match cs, jumps with
  | .nil, _ =>
    unfold compileBodies at h
    have := CM.pure_ok.1 h; cases this
    exact ⟨hg, Nat.le_refl _, by simp, fun _ h => h⟩
  | .cons .., [] =>
    unfold compileBodies at h
    simp [CM.throw] at h
  | .cons _ body rest, js :: jumps =>
    unfold compileBodies at h
    seq h here c1 h1
    obtain ⟨rfl, rfl⟩ := pcNow_eq h1
    seq h u c2 h2
    have g2 := hg.pJumps (Nat.le_refl _) h2
    have l2 := (patchJumps_sy h2).2.1
    seq h u1 c3 h3
    obtain ⟨g3, e3⟩ := g2.stmts h3
    have l3 := e3.len
    split at h
    · have := CM.pure_ok.1 h; cases this
      exact ⟨g3, by omega, by simp, fun a ha => (ha.pJumps h2).ext e3⟩
    · seq h toEnd c4 h4
      obtain ⟨g4, e4, rfl, l4, o4⟩ := g3.emit (by simp [Instr.targets]) h4
      seq h ends c5 h5
      have := CM.pure_ok.1 h; cases this
      obtain ⟨g5, l5, he, hk⟩ := bodies_facts rest jumps h5 g4
      refine ⟨g5, by omega, ?_, fun a ha => hk a (((ha.pJumps h2).ext e3).ext e4)⟩
      intro e hm
      rcases List.mem_cons.1 hm with rfl | hm
      · exact ⟨hk _ o4, by omega⟩
      · exact ⟨(he e hm).1, by have := (he e hm).2; omega⟩
termination_by structural cs

theorem closeDo_facts {stop : Nat} {c c' : Ctx} {a : Unit} (h : closeDo stop c = .ok (a, c')) :
    c'.sy = c.sy ∧ c'.cg.code.length = c.cg.code.length := by
  unfold closeDo at h
  split at h
  · simp at h
  · exact ⟨(patchJumps_sy h).1, (patchJumps_sy h).2.1⟩

theorem closeFor_facts {stop : Nat} {c c' : Ctx} {a : Unit} (h : closeFor stop c = .ok (a, c')) :
    c'.sy = c.sy ∧ c'.cg.code.length = c.cg.code.length := by
  unfold closeFor at h
  split at h
  · simp at h
  · exact ⟨(patchJumps_sy h).1, (patchJumps_sy h).2.1⟩

theorem patchJumps_calExits {t : Nat} : ∀ {l : List (Nat × LineCol)} {c c' : Ctx} {u : Unit}, patchJumps t l c = .ok (u, c') →
    patchJumps t l { c with calExits := [] } = .ok (u, { c' with calExits := [] })
  | [], c, c', u, h => by
    have := CM.pure_ok.1 h
    cases this; rfl
  | (addr, pos) :: rest, c, c', u, h => by
    obtain ⟨_, c1, h1, h2⟩ := CM.bind_ok.1 h
    obtain ⟨t', ht, h3⟩ := patchJump_ok.1 h1
    cases h3
    exact CM.bind_ok.2 ⟨(), _, patchJump_ok.2 ⟨t', ht, rfl⟩, patchJumps_calExits h2⟩

theorem Wired.pushFor {L : Link} {X : Nat → Prop} {lo start : Nat} {c : Ctx} {T : Targets} {t : Nat}
    (hw : Wired L X lo { c with cg := c.cg.markStmt start, forExit := [] :: c.forExit } { T with fors := t :: T.fors }) :
    Wired L X lo { c with cg := c.cg.markStmt start } T := by
  have hf := hw.fors
  cases hf with
  | cons _ hf =>
    exact ⟨hw.metas, hw.marked, hw.unmarked, hw.code, hw.calls, hw.consts, hw.dos, hf, hw.ret, hw.callables, hw.within, hw.upcalls, hw.labels⟩

theorem Wired.epilog {L : Link} {lo skip start : Nat} {key : Str} {pos : LineCol} {saved : IdMap Str Proto} {c c' : Ctx} {T : Targets} {u : Unit}
    (hw : Wired L Nowhere lo c' T) (hg : Good c) (he : callableEpilog key skip start pos saved c = .ok (u, c'))
    (hs : Hole c skip) (hlo : lo ≤ skip) (hk : c.cg.callables.get? key = none) :
    Jumps L skip (c.cg.code.length + 1) ∧ L.gf.callables.get? key = some (start, c.cg.code.length + 1) ∧
      L.img.code[c.cg.code.length]? = some .ret ∧ Wired L (fun i => i = skip) lo c { T with ret := some c.cg.code.length } ∧
      c'.cg.code.length = c.cg.code.length + 1 ∧ c'.sy = { c.sy with locals := saved } := by
  unfold callableEpilog at he
  seq he r c6 h6
  obtain ⟨g6, e6, rfl, l6, o6⟩ := hg.emit (by simp [Instr.targets]) h6
  seq he cx c6' hx
  have := CM.get_ok.1 hx; cases this
  seq he u7 c7 h7
  have g7 := g6.pJumps (by omega) h7
  obtain ⟨p1, p2, p3, p4, p5, p6, p7, p8, p9, p10, p11, p12⟩ := patchJumps_sy h7
  seq he sa c7' hy
  obtain ⟨rfl, rfl⟩ := pcNow_eq hy
  seq he u8 c8 h8
  have := CM.modify_ok.1 h8; cases this
  seq he u9 c9 h9
  have := CM.modify_ok.1 he; cases this
  obtain ⟨t, ht, h3⟩ := patchJump_ok.1 h9
  have hc9 := congrArg Prod.snd h3
  simp only at hc9
  have hex : ∀ i, i ∈ ({ c7 with calExits := [] } : Ctx).exits → i ∈ c6.exits := by
    intro i hi
    unfold Ctx.exits at hi ⊢
    rw [← p4, ← p5]
    simp only [List.map_append, List.mem_append, List.append_nil] at hi ⊢
    exact .inl hi
  have s6 := o6
  have hs6 : Hole c6 skip := hs.ext e6
  have hs7 : Hole c7 skip := hs6.pJumps h7
  -- before the symbol table is put back
  have w9 : Wired L Nowhere lo c9 T := by
    refine ⟨hw.metas, hw.marked, hw.unmarked, hw.code, hw.calls, hw.consts, hw.dos, hw.fors, hw.ret, hw.callables, ⟨hw.within.1, hw.within.2⟩, hw.upcalls, hw.labels⟩
  have hh8 : Hole { c7 with calExits := [], cur := none, cg := c7.cg.defineCallable key start c7.cg.code.length } skip :=
    ⟨hs7.lt, fun h => hs6.closed (hex _ h), hs7.nofix⟩
  obtain ⟨j, w8⟩ := w9.pJump h9 hh8 hlo id
  have hcal := w8.callables key (start, c7.cg.code.length) (by
    show FMap.get? (FMap.insert _ _ _) key = _
    rw [FMap.get?_insert, if_pos rfl])
  rw [p2, l6] at j hcal
  have w7 : Wired L (fun i => i = skip) lo { c7 with calExits := [] } T := by
    refine ⟨w8.metas, w8.marked, w8.unmarked, fun i h1 h2 h3 => w8.code i h1 h2 fun h => h.elim id h3, w8.calls, w8.consts, w8.dos, w8.fors, w8.ret, ?_, w8.within,
      w8.upcalls, w8.labels⟩
    intro k v hkv
    refine w8.callables k v ?_
    show FMap.get? (FMap.insert _ _ _) k = _
    rw [FMap.get?_insert]
    split
    next h =>
      subst h
      have hkv : c7.cg.callables.get? k = some v := hkv
      have := emit_ok.1 h6
      rw [p9] at hkv
      cases this
      have hkv : c.cg.callables.get? k = some v := hkv
      rw [hk] at hkv
      cases hkv
    next => exact hkv
  have hmem : ∀ i, i ∈ c6.exits ↔ i ∈ ({ c6 with calExits := [] } : Ctx).exits ∨ i ∈ c6.calExits.map (·.1) := by
    intro i
    simp only [Ctx.exits, List.map_append, List.mem_append, List.append_nil]
  have hdis : ∀ p ∈ c6.calExits, p.1 ∉ ({ c6 with calExits := [] } : Ctx).exits := by
    intro p hp hin
    have hn := g6.ex.once
    simp only [Ctx.exits, List.map_append, List.append_nil] at hn hin
    exact (List.nodup_append.1 hn).2.2 _ (by simpa only [List.mem_append] using hin) _ (List.mem_map.2 ⟨p, hp, rfl⟩) rfl
  obtain ⟨q1, q2⟩ := w7.patched (c := c6) (patchJumps_calExits h7) rfl g6.ex hmem hdis (by
    rintro p hp rfl
    exact hs6.closed ((hmem _).2 (.inr (List.mem_map.2 ⟨p, hp, rfl⟩))))
  have w6 : Wired L (fun i => i = skip) lo c6 { T with ret := some c.cg.code.length } := by
    refine ⟨fun i h1 h2 => ?_, fun i m h1 h2 h3 => ?_, fun i m h1 h2 h3 => ?_, q2, fun i f h1 h2 h3 => w7.calls i f h1 (by show i < c7.cg.code.length; rw [p2]; exact h2) (by show c7.cg.fixups.get? i = _; rw [p3]; exact h3),
      p8 ▸ w7.consts, p4 ▸ w7.dos, p5 ▸ w7.fors, fun p hp hl => ⟨_, rfl, q1 p hp hl⟩, p9 ▸ w7.callables, ?_, p11 ▸ w7.upcalls, p12 ▸ w7.labels⟩
    · rw [w7.metas i h1 (by show i < c7.cg.code.length; rw [p2]; exact h2)]
      show (c7.cg.instrs[i]?).map _ = _
      rw [p7]
    · exact w7.marked i m h1 (by show i < c7.cg.code.length; rw [p2]; exact h2) (by show c7.cg.instrs[i]? = _; rw [p7]; exact h3)
    · exact w7.unmarked i m h1 (by show i < c7.cg.code.length; rw [p2]; exact h2) (by show c7.cg.instrs[i]? = _; rw [p7]; exact h3)
    · have := w7.within
      rw [show ({ c7 with calExits := [] } : Ctx).sy = c7.sy from rfl, p1] at this
      exact this
  refine ⟨j, hcal, w6.emit hg h6 (by have := hs.lt; omega) (by have := hs.lt; omega), w6.ext e6, ?_, ?_⟩
  · rw [hc9]
    simp only [Codegen.patch, Codegen.defineCallable, List.length_set]
    omega
  · rw [hc9]
    simp only [p1, onCg_sy h6]

/-- `IF` without its last jumps. -/
theorem none_of_nil {rest : Branches} (h : rest.isNil = true) : rest = .nil := by
  cases rest with
  | nil => rfl
  | cons => simp [Branches.isNil] at h

/-- What jumps to labels and returns emit. -/
theorem wild_emits {s : Stmt} {c c' : Ctx} {u : Unit} (hs : s.wild = true) (h : compileStmtBody s c = .ok (u, c')) :
    c.cg.code.length < c'.cg.code.length ∧ c'.sy = c.sy := by
  match s, hs with
  | .gosub label pos, _ =>
    unfold compileStmtBody at h
    obtain ⟨⟩ := emitFixup_ok.1 h
    simp [Codegen.addFixup, Codegen.push]
  | .goto label pos, _ =>
    unfold compileStmtBody at h
    obtain ⟨⟩ := emitFixup_ok.1 h
    simp [Codegen.addFixup, Codegen.push]
  | .ret pos, _ =>
    unfold compileStmtBody at h
    seq h a c1 h1
    have := CM.pure_ok.1 h; cases this
    refine ⟨?_, onCg_sy h1⟩
    obtain ⟨g, h1, rfl⟩ := onCg_ok.1 h1
    cases h1
    simp [Codegen.push]

mutual
/-- A compiled statement has its code in the image. -/
theorem stmtCode {L : Link} (s : Stmt) {c c' : Ctx} {T : Targets} {u : Unit} (h : compileStmtBody s c = .ok (u, c')) (hg : Good c)
    (hw : Wired L Nowhere c.cg.code.length c' T) : StmtCode L T c.sy c.cg.code.length s c'.cg.code.length c'.sy := by
  have simple : s.simple = true → StmtCode L T c.sy c.cg.code.length s c'.cg.code.length c'.sy := fun hs =>
    .simple hs (hw.part hg (Quiet.simple s hs) h (Nat.le_refl _) fun _ _ _ => id)
  have wild : s.wild = true → StmtCode L T c.sy c.cg.code.length s c'.cg.code.length c'.sy := fun hs => by
    obtain ⟨h1, h2⟩ := wild_emits hs h
    have hp := hw.part hg (Quiet.wild s hs) h (Nat.le_refl _) fun _ _ _ => id
    rw [h2] at hp ⊢
    exact .wild hs h1 hp
  match s with
  | .arrayAssign .. => exact simple rfl
  | .assign .. => exact simple rfl
  | .call .. => exact simple rfl
  | .data .. => exact simple rfl
  | .declare .. => exact simple rfl
  | .dim .. => exact simple rfl
  | .dimArray .. => exact simple rfl
  | .end .. => exact simple rfl
  | .label .. => exact simple rfl
  | .gosub label pos => exact wild rfl
  | .goto label pos => exact wild rfl
  | .onError .. => exact simple rfl
  | .ret pos =>
    exact wild rfl
  | .exitDo pos =>
    unfold compileStmtBody compileExitDo at h
    split at h
    · simp at h
    next top rest hd =>
      cases h
      have hf := hw.dos
      simp only at hf
      rcases hT : T.dos with _ | ⟨t, ts⟩
      · rw [hT] at hf; cases hf
      · rw [hT] at hf
        cases hf with
        | cons h1 _ =>
          have j := h1 (c.cg.code.length, pos) (by simp) (Nat.le_refl _)
          have hl : (c.cg.push .nop pos).code.length = c.cg.code.length + 1 := by simp [Codegen.push]
          simp only [hl]
          exact .exitDo hT j
  | .exitFor pos =>
    unfold compileStmtBody compileExitFor at h
    split at h
    · simp at h
    next top rest hd =>
      cases h
      have hf := hw.fors
      simp only at hf
      rcases hT : T.fors with _ | ⟨t, ts⟩
      · rw [hT] at hf; cases hf
      · rw [hT] at hf
        cases hf with
        | cons h1 _ =>
          have j := h1 (c.cg.code.length, pos) (by simp) (Nat.le_refl _)
          have hl : (c.cg.push .nop pos).code.length = c.cg.code.length + 1 := by simp [Codegen.push]
          simp only [hl]
          exact .exitFor hT j
  | .exitFunction pos =>
    unfold compileStmtBody compileExitCallable at h
    split at h
    · simp at h
    · cases h
      obtain ⟨t, hT, j⟩ := hw.ret (c.cg.code.length, pos) (by simp) (Nat.le_refl _)
      have hl : (c.cg.push .nop pos).code.length = c.cg.code.length + 1 := by simp [Codegen.push]
      simp only [hl]
      exact .exitFunction hT j
  | .exitSub pos =>
    unfold compileStmtBody compileExitCallable at h
    split at h
    · simp at h
    · cases h
      obtain ⟨t, hT, j⟩ := hw.ret (c.cg.code.length, pos) (by simp) (Nat.le_refl _)
      have hl : (c.cg.push .nop pos).code.length = c.cg.code.length + 1 := by simp [Codegen.push]
      simp only [hl]
      exact .exitSub hT j
  | .callable name pos params body endPos =>
    unfold compileStmtBody at h
    seq h u0 c1 h1
    obtain ⟨g1, e1⟩ := hg.step (.declareCallable _ _ _) (.declareCallable _ _ _) h1
    seq h cc c2 h2
    have := CM.get_ok.1 h2; cases this
    split at h
    · simp [CM.throw] at h
    next hd =>
    split at h
    · simp [CM.throw] at h
    next hc =>
    seq h r c4 h3
    obtain ⟨skip, start⟩ := r
    seq h u2 c5 h4
    obtain ⟨h3', hr⟩ := callableProlog_ok.1 h3
    cases hr
    obtain ⟨g2, e2, _, l2, o2⟩ := g1.emit (i := .nop) (pos := pos) (by simp [Instr.targets]) (emit_ok.2 rfl)
    have hcur : c1.cur = none := by simpa using hc
    have g3 : Good (enterScope name { c1 with cg := c1.cg.push .nop pos }) := by
      refine ⟨{ g2.inv with locals := IdMap.wf_empty, localLimit := Nat.zero_le _, calNone := by simp [enterScope] }, ?_⟩
      exact ⟨g2.ex.lens, g2.ex.lt, g2.ex.once, g2.ex.nofix, g2.ex.fixlt⟩
    have o3 : Hole (enterScope name { c1 with cg := c1.cg.push .nop pos }) c1.cg.code.length := ⟨o2.lt, o2.closed, o2.nofix⟩
    obtain ⟨g4, e4⟩ := g3.step (.prologBody _ _ _) (.prologBody _ _ _) h3'
    obtain ⟨g5, e5⟩ := g4.stmts h4
    have l1 : c1.cg.code.length = c.cg.code.length ∧ ∃ sy, c.sy.declareCallable name (userMd name params) = .ok sy ∧ c1 = { c with sy := sy } := by
      unfold declareCallable at h1
      split at h1
      next sy hsy => cases h1; exact ⟨rfl, sy, hsy, rfl⟩
      · simp at h1
    obtain ⟨l1, sy1, hsy1, hc1⟩ := l1
    have hloc : c1.sy.locals = c.sy.locals := by
      rw [hc1]
      unfold Syms.declareCallable at hsy1
      split at hsy1
      · simp at hsy1
      · split at hsy1
        · split at hsy1
          · simp at hsy1
          · cases hsy1; rfl
        · cases hsy1; rfl
    have l4 := e4.len
    have l5 := e5.len
    have l3 : (enterScope name { c1 with cg := c1.cg.push .nop pos }).cg.code.length = c.cg.code.length + 1 := by
      rw [← l1]
      exact l2
    have hnk : c5.cg.callables.get? (symKey name.name) = none := by
      cases hk : c5.cg.callables.get? (symKey name.name) with
      | none => rfl
      | some v =>
        have hi1 : c4.defined = c1.defined := e4.inside (by simp [enterScope])
        have hi2 : c5.defined = c4.defined := e5.inside (by rw [e4.cur]; simp [enterScope])
        have := g5.inv.defined _ _ hk
        rw [hi2, hi1] at this
        exact absurd this (by simpa using hd)
    obtain ⟨j, hcal, hret, w5, l', s'⟩ := hw.epilog g5 h ((o3.ext e4).ext e5) (by omega) hnk
    have w5' : Wired L Nowhere c4.cg.code.length c5 { T with ret := some c5.cg.code.length } :=
      (w5.raise (by omega)).clear fun i h1 h2 h3 => by omega
    have body := stmtsCode body h4 g4 w5'
    have w4 := w5.ext e5
    have pr := w4.part g3 (Quiet.prologBody _ _ _) h3' (by omega) fun i h1 h2 h3 => by omega
    have hs3 : (enterScope name { c1 with cg := c1.cg.push .nop pos }).sy = { sy1 with locals := .empty } := by
      rw [hc1]; rfl
    rw [hs3, l3] at pr
    rw [l1] at j hcal
    rw [l', s', hloc]
    exact .callable hsy1 j pr body hret hcal w5.within
  | .doLoop guard body =>
    unfold compileStmtBody at h
    seq h u0 c1 h1
    have := CM.modify_ok.1 h1; cases this
    have g0 : Good { c with doExit := [] :: c.doExit } := ⟨inv_pushDo hg.inv, exits_pushDo hg.ex⟩
    have hl0 : ({ c with doExit := [] :: c.doExit } : Ctx).cg.code.length = c.cg.code.length := rfl
    have hs0 : ({ c with doExit := [] :: c.doExit } : Ctx).sy = c.sy := rfl
    rw [← hl0] at hw ⊢
    rw [← hs0]
    generalize hc0 : ({ c with doExit := [] :: c.doExit } : Ctx) = c0 at *
    clear hc0 hl0 hs0 simple hg
    match guard with
    | .infinite =>
      simp only at h
      seq h start c2 h2
      obtain ⟨rfl, rfl⟩ := pcNow_eq h2
      seq h u1 c3 h3
      obtain ⟨g3, e3⟩ := g0.stmts h3
      have l3 := e3.len
      seq h u2 c4 h4
      obtain ⟨g4, e4, l4⟩ := g3.jump l3 h4
      seq h stop c5 h5
      obtain ⟨rfl, rfl⟩ := pcNow_eq h5
      obtain ⟨s6, l6⟩ := closeDo_facts h
      have w4 := hw.closeDo g4.ex h fun _ _ => id
      have j := w4.jump g3 h4 (by omega) id
      have b := stmtsCode body h3 g0 (w4.ext e4)
      rw [l6, s6, emitJump_sy h4, l4]
      rw [l4] at b
      exact .infinite b j
    | .preUntil e =>
      simp only at h
      seq h start c2 h2
      obtain ⟨rfl, rfl⟩ := pcNow_eq h2
      seq h cond c3 h3
      obtain ⟨g3, e3⟩ := g0.cond h3
      seq h toBody c4 h4
      obtain ⟨g4, e4, rfl, l4, o4⟩ := g3.emit (by simp [Instr.targets]) h4
      seq h toEnd c5 h5
      obtain ⟨g5, e5, rfl, l5, o5⟩ := g4.emit (by simp [Instr.targets]) h5
      seq h here c6 h6
      obtain ⟨rfl, rfl⟩ := pcNow_eq h6
      seq h u1 c7 h7
      obtain ⟨g7, l7, s7⟩ := g5.pSkip (Nat.le_refl _) h7
      seq h u2 c8 h8
      obtain ⟨g8, e8⟩ := g7.stmts h8
      have l3 := e3.len
      have l8 := e8.len
      seq h u3 c9 h9
      obtain ⟨g9, e9, l9⟩ := g8.jump (by omega) h9
      seq h stop c10 h10
      obtain ⟨rfl, rfl⟩ := pcNow_eq h10
      seq h u4 c11 h11
      obtain ⟨g11, l11, s11⟩ := g9.pJump (Nat.le_refl _) h11
      obtain ⟨s', l'⟩ := closeDo_facts h
      have w11 := hw.closeDo g11.ex h fun _ _ => id
      obtain ⟨j1, w9⟩ := w11.pJump h11 (((o5.pSkip h7).ext e8).ext e9) (by omega) id
      have j2 := w9.jump g8 h9 (by omega) (by simp only [Nowhere, false_or]; omega)
      have w8 := w9.ext e9
      have b := stmtsCode body h8 g7 ((w8.raise (by omega)).clear fun i q1 q2 q3 => by simp only [Nowhere, false_or] at q3; omega)
      have w7 := w8.ext e8
      obtain ⟨j3, w5⟩ := w7.pSkip h7 (o4.ext e5) (by omega) (by simp only [Nowhere, false_or]; omega)
      have w3 := (w5.ext e5).ext e4
      have p := w3.cond g0 h3 (Nat.le_refl _) fun i q1 q2 q3 => by simp only [Nowhere, false_or] at q3; omega
      rw [s7, onCg_sy h5, onCg_sy h4, compileCond_sy h3, l7, l5, l4] at b
      rw [l', s', s11, emitJump_sy h9, l11, l9]
      rw [l9] at b j1
      rw [l5, l4] at j3
      rw [l4] at j1
      exact .preUntil p j3 j1 b j2
    | .preWhile e =>
      simp only at h
      seq h start c2 h2
      obtain ⟨rfl, rfl⟩ := pcNow_eq h2
      seq h cond c3 h3
      obtain ⟨g3, e3⟩ := g0.cond h3
      seq h toEnd c4 h4
      obtain ⟨g4, e4, rfl, l4, o4⟩ := g3.emit (by simp [Instr.targets]) h4
      seq h u2 c8 h8
      obtain ⟨g8, e8⟩ := g4.stmts h8
      have l3 := e3.len
      have l8 := e8.len
      seq h u3 c9 h9
      obtain ⟨g9, e9, l9⟩ := g8.jump (by omega) h9
      seq h stop c10 h10
      obtain ⟨rfl, rfl⟩ := pcNow_eq h10
      seq h u4 c11 h11
      obtain ⟨g11, l11, s11⟩ := g9.pSkip (Nat.le_refl _) h11
      obtain ⟨s', l'⟩ := closeDo_facts h
      have w11 := hw.closeDo g11.ex h fun _ _ => id
      obtain ⟨j1, w9⟩ := w11.pSkip h11 ((o4.ext e8).ext e9) (by omega) id
      have j2 := w9.jump g8 h9 (by omega) (by simp only [Nowhere, false_or]; omega)
      have w8 := w9.ext e9
      have b := stmtsCode body h8 g4 ((w8.raise (by omega)).clear fun i q1 q2 q3 => by simp only [Nowhere, false_or] at q3; omega)
      have w3 := (w8.ext e8).ext e4
      have p := w3.cond g0 h3 (Nat.le_refl _) fun i q1 q2 q3 => by simp only [Nowhere, false_or] at q3; omega
      rw [onCg_sy h4, compileCond_sy h3, l4] at b
      rw [l', s', s11, emitJump_sy h9, l11, l9]
      rw [l9] at b j1
      exact .preWhile p j1 b j2
    | .postUntil e =>
      simp only at h
      seq h start c2 h2
      obtain ⟨rfl, rfl⟩ := pcNow_eq h2
      seq h u2 c3 h3
      obtain ⟨g3, e3⟩ := g0.stmts h3
      have l3 := e3.len
      seq h cond c4 h4
      obtain ⟨g4, e4⟩ := g3.cond h4
      have l4 := e4.len
      seq h t c5 h5
      have ht : mkTarget c0.cg.code.length e.startPos = .ok t ∧ c4 = c5 := by
        cases hm : mkTarget c0.cg.code.length e.startPos with
        | error err => rw [hm] at h5; simp [CM.lift] at h5
        | ok v => rw [hm] at h5; cases h5; exact ⟨rfl, rfl⟩
      obtain ⟨ht, rfl⟩ := ht
      have htn := mkTarget_ok ht
      seq h a c6 h6
      obtain ⟨g6, e6, rfl, l6, o6⟩ := g4.emit (by simp only [Instr.targets, List.mem_singleton, forall_eq]; omega) h6
      seq h stop c7 h7
      obtain ⟨rfl, rfl⟩ := pcNow_eq h7
      obtain ⟨s', l'⟩ := closeDo_facts h
      have w6 := hw.closeDo g6.ex h fun _ _ => id
      have j : Skips L c4.cg.code.length cond c0.cg.code.length := ⟨t, w6.emit g4 h6 (by omega) id, htn⟩
      have w4 := w6.ext e6
      have p := w4.cond g3 h4 (by omega) fun _ _ _ => id
      have b := stmtsCode body h3 g0 (w4.ext e4)
      rw [l', s', onCg_sy h6, compileCond_sy h4, l6]
      rw [l6] at b
      exact .postUntil b p j
    | .postWhile e =>
      simp only at h
      seq h start c2 h2
      obtain ⟨rfl, rfl⟩ := pcNow_eq h2
      seq h u2 c3 h3
      obtain ⟨g3, e3⟩ := g0.stmts h3
      have l3 := e3.len
      seq h cond c4 h4
      obtain ⟨g4, e4⟩ := g3.cond h4
      have l4 := e4.len
      seq h toEnd c5 h5
      obtain ⟨g5, e5, rfl, l5, o5⟩ := g4.emit (by simp [Instr.targets]) h5
      seq h u3 c6 h6
      obtain ⟨g6, e6, l6⟩ := g5.jump (by omega) h6
      seq h stop c7 h7
      obtain ⟨rfl, rfl⟩ := pcNow_eq h7
      seq h u4 c8 h8
      obtain ⟨g8, l8, s8⟩ := g6.pSkip (Nat.le_refl _) h8
      obtain ⟨s', l'⟩ := closeDo_facts h
      have w8 := hw.closeDo g8.ex h fun _ _ => id
      obtain ⟨j1, w6⟩ := w8.pSkip h8 (o5.ext e6) (by omega) id
      have j2 := w6.jump g5 h6 (by omega) (by simp only [Nowhere, false_or]; omega)
      have w4 := (w6.ext e6).ext e5
      have p := w4.cond g3 h4 (by omega) fun i q1 q2 q3 => by simp only [Nowhere, false_or] at q3; omega
      have b := stmtsCode body h3 g0 ((w4.ext e4).clear fun i q1 q2 q3 => by simp only [Nowhere, false_or] at q3; omega)
      rw [l', s', s8, emitJump_sy h6, onCg_sy h5, compileCond_sy h4, l8, l6, l5]
      rw [l6, l5] at b j1
      rw [l5] at j2
      exact .postWhile b p j1 j2
  | .forLoop iter iterPos double start stop next body =>
    unfold compileStmtBody at h
    seq h u0 c1 h1
    obtain ⟨g1, e1⟩ := hg.step (.forIter _ _ _) (.forIter _ _ _) h1
    seq h u1 c2 h2
    obtain ⟨g2, e2⟩ := g1.step (.compileAssign _ _ _) (.compileAssign _ _ _) h2
    seq h startPc c3 h3
    obtain ⟨rfl, rfl⟩ := pcNow_eq h3
    seq h cond c4 h4
    obtain ⟨g4, e4⟩ := g2.cond h4
    seq h toEnd c5 h5
    obtain ⟨g5, e5, rfl, l5, o5⟩ := g4.emit (by simp [Instr.targets]) h5
    have l1 := e1.len
    have l2 := e2.len
    have l4 := e4.len
    seq h u2 c6 h6
    have := CM.modify_ok.1 h6; cases this
    have em := ext_mark (n := c.cg.code.length) (start := c2.cg.code.length) g5.inv (by omega)
    have g6 : Good { c5 with cg := c5.cg.markStmt c2.cg.code.length, forExit := [] :: c5.forExit } := by
      refine ⟨inv_pushFor em.inv, ?_⟩
      exact ⟨by show (c5.cg.instrs.modify _ _).length = _; rw [List.length_modify]; exact g5.ex.lens, g5.ex.lt, g5.ex.once, g5.ex.nofix, g5.ex.fixlt⟩
    have o6 : Hole { c5 with cg := c5.cg.markStmt c2.cg.code.length, forExit := [] :: c5.forExit } c4.cg.code.length :=
      ⟨o5.lt, o5.closed, o5.nofix⟩
    have l6 : ({ c5 with cg := c5.cg.markStmt c2.cg.code.length, forExit := [] :: c5.forExit } : Ctx).cg.code.length = c5.cg.code.length := rfl
    have s6 : ({ c5 with cg := c5.cg.markStmt c2.cg.code.length, forExit := [] :: c5.forExit } : Ctx).sy = c5.sy := rfl
    have wback : ∀ X lo t, Wired L X lo { c5 with cg := c5.cg.markStmt c2.cg.code.length, forExit := [] :: c5.forExit } { T with fors := t :: T.fors } →
        Wired L X lo c2 T ∧ (c2.cg.code.length ≤ lo → Wired L X lo c5 T) := by
      intro X lo t w
      refine ⟨w.pushFor.ext ?_, fun h => w.pushFor.mark h⟩
      exact e4.trans ((e5.weaken l4).trans (ext_mark g5.inv (Nat.le_refl _)))
    generalize ({ c5 with cg := c5.cg.markStmt c2.cg.code.length, forExit := [] :: c5.forExit } : Ctx) = c0 at *
    seq h u3 c7 h7
    obtain ⟨g7, e7⟩ := g6.stmts h7
    have l7 := e7.len
    seq h u4 c8 h8
    obtain ⟨g8, e8⟩ := g7.step (.compileAssign _ _ _) (.compileAssign _ _ _) h8
    have l8 := e8.len
    seq h u5 c9 h9
    obtain ⟨g9, e9, l9⟩ := g8.jump (by omega) h9
    seq h endAddr c10 h10
    obtain ⟨rfl, rfl⟩ := pcNow_eq h10
    seq h u6 c11 h11
    obtain ⟨g11, l11, s11⟩ := g9.pSkip (Nat.le_refl _) h11
    obtain ⟨s', l'⟩ := closeFor_facts h
    have w11 := hw.closeFor g11.ex h fun _ _ => id
    obtain ⟨j1, w9⟩ := w11.pSkip h11 (((o6.ext e7).ext e8).ext e9) (by omega) id
    have j2 := w9.jump g8 h9 (by omega) (by simp only [Nowhere, false_or]; omega)
    have w8 := w9.ext e9
    have pn := w8.part g7 (Quiet.compileAssign _ _ _) h8 (by omega) fun i q1 q2 q3 => by simp only [Nowhere, false_or] at q3; omega
    have w7 := w8.ext e8
    have b := stmtsCode body h7 g6 ((w7.raise (by omega)).clear fun i q1 q2 q3 => by simp only [Nowhere, false_or] at q3; omega)
    have w2 := (wback _ _ _ (w7.ext e7)).1
    have w5 := (wback _ _ _ ((w7.ext e7).raise (lo' := c2.cg.code.length) (by omega))).2 (Nat.le_refl _)
    have w4 := w5.ext e5
    have pc := w4.cond g2 h4 (by omega) fun i q1 q2 q3 => by simp only [Nowhere, false_or] at q3; omega
    have pa := w2.part (x := do forIter iter iterPos double; compileAssign iter iterPos start) hg
      (.bind (.forIter _ _ _) fun _ => .compileAssign _ _ _) (CM.bind_ok.2 ⟨_, _, h1, h2⟩) (Nat.le_refl _)
      fun i q1 q2 q3 => by simp only [Nowhere, false_or] at q3; omega
    rw [s6, onCg_sy h5, compileCond_sy h4, l6, l5] at b
    rw [l', s', s11, emitJump_sy h9, l11, l9]
    rw [l9] at b j1
    exact .forLoop pa pc j1 b pn j2
  | .ifs branches =>
    unfold compileStmtBody at h
    seq h ends c1 h1
    seq h stop c2 h2
    obtain ⟨rfl, rfl⟩ := pcNow_eq h2
    obtain ⟨g1, e1, he⟩ := branches_facts branches h1 hg
    obtain ⟨q1, w1⟩ := hw.pJumps h
    have hj : ∀ e ∈ ends, Jumps L e c1.cg.code.length := fun e hm =>
      q1 (e, ⟨0, 0⟩) (List.mem_map.2 ⟨e, hm, rfl⟩) (he e hm).1 (he e hm).2 id
    have b := branchesCode branches h1 hg w1 (Nat.le_refl _) (fun i _ _ hX => by
      simpa [Nowhere] using hX) hj
    rw [(patchJumps_sy h).1, (patchJumps_sy h).2.1]
    exact .ifs b
  | .select e cases endPos =>
    unfold compileStmtBody at h
    seq h test c1 h1
    have ha : allocTemp c.sy 0 e.startPos = .ok test ∧ c = c1 := by
      obtain ⟨g', hh, hgg⟩ := withSyms_ok.1 h1
      cases hm : allocTemp c.sy 0 e.startPos with
      | error err => rw [hm] at hh; simp [CM.lift] at hh
      | ok v => rw [hm] at hh; cases hh; exact ⟨rfl, hgg.symm⟩
    obtain ⟨ha, rfl⟩ := ha
    seq h testTy c2 h2
    obtain ⟨g2, e2⟩ := hg.step (.withSyms fun _ => .compileExpr _ _ _ _) (.withSyms fun _ => .compileExpr _ _ _ _) h2
    have l2 := e2.len
    seq h jp c3 h3
    obtain ⟨jumps, pending⟩ := jp
    have F := dispatch_facts cases h3 g2 (by simp)
    have l3 := F.len
    seq h toEnd c4 h4
    obtain ⟨g4, e4, rfl, l4, o4⟩ := F.good.emit (by simp [Instr.targets]) h4
    have hpend : ∀ p, pending = some p → c2.cg.code.length ≤ p := by
      intro p hp
      rcases (F.next p hp).2.2 with ⟨_, h⟩ | h
      · cases h
      · exact h
    have key : ∃ c5, Good c5 ∧ c5.cg.code.length = c4.cg.code.length ∧ c5.sy = c4.sy ∧ (∀ a, Hole c4 a → Hole c5 a) ∧
        (∀ Y, Wired L Y c.cg.code.length c5 T → (∀ p, pending = some p → ¬ Y p) →
          (∀ p, pending = some p → Jumps L p c3.cg.code.length) ∧ Wired L (fun i => Y i ∨ pending = some i) c.cg.code.length c4 T) ∧ (do
        let ends ← compileBodies cases jumps endPos
        let stop ← pcNow
        patchJump c3.cg.code.length stop endPos
        patchJumps stop (ends.map fun a => (a, endPos)) : CS Unit) c5 = .ok (u, c') := by
      cases pending with
      | none =>
        exact ⟨c4, g4, rfl, rfl, fun _ h => h, fun Y w hy => ⟨by simp, { w with code := fun i h1 h2 h3 => w.code i h1 h2 fun h => h3 (.inl h) }⟩, h⟩
      | some p =>
        simp only at h
        seq h u c5 h5
        obtain ⟨a1, a2, a3⟩ := g4.pJump (by omega) h5
        refine ⟨c5, a1, a2, a3, fun a ha => ha.pJump h5, fun Y w hy => ?_, h⟩
        obtain ⟨b1, b2⟩ := w.pJump h5 ((F.next p rfl).1.ext e4) (by have := hpend p rfl; omega) (hy p rfl)
        refine ⟨fun q hq => by cases hq; exact b1, { b2 with code := fun i h1 h2 h3 => b2.code i h1 h2 fun h => h3 ?_ }⟩
        rcases h with h | rfl
        · exact .inl h
        · exact .inr rfl
    obtain ⟨c5, g5, l5, s5, k5, w54, h⟩ := key
    seq h ends c6 h6
    obtain ⟨g6, l6, he, k6⟩ := bodies_facts cases jumps h6 g5
    seq h stop c7 h7
    obtain ⟨rfl, rfl⟩ := pcNow_eq h7
    seq h u8 c8 h8
    obtain ⟨g8, l8, s8⟩ := g6.pJump (Nat.le_refl _) h8
    obtain ⟨q1, w8⟩ := hw.pJumps h
    have hends : ∀ i, i ∈ List.map (fun x => x.1) (List.map (fun a => (a, endPos)) ends) ↔ i ∈ ends := by
      intro i; simp
    have hj : ∀ e ∈ ends, Jumps L e c6.cg.code.length := fun e hm =>
      q1 (e, endPos) (List.mem_map.2 ⟨e, hm, rfl⟩) ((he e hm).1.pJump h8) (by have := (he e hm).2; show _ ≤ e; omega) id
    obtain ⟨j1, w6⟩ := w8.pJump h8 (k6 _ (k5 _ o4)) (by omega) (by
      simp only [Nowhere, false_or, hends]
      intro hm
      have := (he _ hm).2
      omega)
    obtain ⟨ts, bc, hts, w5⟩ := bodiesCode (L := L) cases jumps h6 g5 (fun l hl p hp => by
        have := F.holes l hl p hp
        refine ⟨k5 _ (this.1.ext e4), by omega, ?_⟩
        simp only [Nowhere, false_or, hends]
        have hlt := this.1.lt
        rintro (hm | hm)
        · have := (he _ hm).2
          omega
        · omega) F.once F.count w6 (by omega) (fun i q1 q2 q3 => by
        simp only [Nowhere, false_or, hends] at q3
        rcases q3 with q3 | q3
        · exact q3
        · omega) hj
    obtain ⟨np, w4⟩ := w54 _ w5 (fun p hp => by
      obtain ⟨a1, a2, _⟩ := F.next p hp
      have hlt := a1.lt
      simp only [Nowhere, false_or, hends]
      rintro ((hm | hm) | hm)
      · have := (he _ hm).2
        omega
      · omega
      · obtain ⟨q, hq, rfl⟩ := List.mem_map.1 hm
        obtain ⟨l, hl, hq⟩ := List.mem_flatten.1 hq
        have := a2 l hl q hq
        omega)
    have w3 := w4.ext e4
    obtain ⟨dc, _, w2⟩ := dispatchCode cases h3 g2 (by simp) w3 (by omega) (fun i q1 q2 q3 => by
      simp only [Nowhere, false_or, hends] at q3
      rcases q3 with ((hm | hm) | hm) | hm
      · have := (he _ hm).2
        omega
      · omega
      · obtain ⟨q, hq, rfl⟩ := List.mem_map.1 hm
        obtain ⟨l, hl, hq⟩ := List.mem_flatten.1 hq
        exact .inl ⟨l, hl, q, hq, rfl⟩
      · exact .inr hm) hts np
    have pe := w2.piece hg h2 (fun _ => .compileExpr _ _ _ _) (Nat.le_refl _) (fun i q1 q2 q3 => by
      simp only [Nowhere, false_or, hends] at q3
      rcases q3 with (((hm | hm) | hm) | hm) | hm
      · have := (he _ hm).2
        omega
      · omega
      · obtain ⟨q, hq, rfl⟩ := List.mem_map.1 hm
        obtain ⟨l, hl, hq⟩ := List.mem_flatten.1 hq
        have := (F.holes l hl q hq).2
        omega
      · have := hpend _ hm
        omega
      · cases hm)
    rw [withSyms_sy h2] at dc
    rw [s5, onCg_sy h4, F.sy, withSyms_sy h2, l5, l4] at bc
    rw [(patchJumps_sy h).1, (patchJumps_sy h).2.1, l8, s8]
    exact .select ha pe dc j1 bc
  | .whileLoop e body =>
    unfold compileStmtBody at h
    seq h start c2 h2
    obtain ⟨rfl, rfl⟩ := pcNow_eq h2
    seq h cond c3 h3
    obtain ⟨g3, e3⟩ := hg.cond h3
    seq h toEnd c4 h4
    obtain ⟨g4, e4, rfl, l4, o4⟩ := g3.emit (by simp [Instr.targets]) h4
    seq h u2 c8 h8
    obtain ⟨g8, e8⟩ := g4.stmts h8
    have l3 := e3.len
    have l8 := e8.len
    seq h u3 c9 h9
    obtain ⟨g9, e9, l9⟩ := g8.jump (by omega) h9
    seq h stop c10 h10
    obtain ⟨rfl, rfl⟩ := pcNow_eq h10
    obtain ⟨g11, l11, s11⟩ := g9.pSkip (Nat.le_refl _) h
    obtain ⟨j1, w9⟩ := hw.pSkip h ((o4.ext e8).ext e9) (by omega) id
    have j2 := w9.jump g8 h9 (by omega) (by simp only [Nowhere, false_or]; omega)
    have w8 := w9.ext e9
    have b := stmtsCode body h8 g4 ((w8.raise (by omega)).clear fun i q1 q2 q3 => by simp only [Nowhere, false_or] at q3; omega)
    have w3 := (w8.ext e8).ext e4
    have p := w3.cond hg h3 (Nat.le_refl _) fun i q1 q2 q3 => by simp only [Nowhere, false_or] at q3; omega
    rw [onCg_sy h4, compileCond_sy h3, l4] at b
    rw [s11, emitJump_sy h9, l11, l9]
    rw [l9] at j1
    exact .whileLoop p j1 b j2
termination_by structural s

theorem stmtsCode {L : Link} (ss : Stmts) {c c' : Ctx} {T : Targets} {u : Unit} (h : compileStmts ss c = .ok (u, c')) (hg : Good c)
    (hw : Wired L Nowhere c.cg.code.length c' T) : StmtsCode L T c.sy c.cg.code.length ss c'.cg.code.length c'.sy := by
  match ss with
  | .nil =>
    unfold compileStmts at h
    have := CM.pure_ok.1 h; cases this
    exact .nil
  | .cons s rest =>
    unfold compileStmts at h
    seq h start c1 h1
    obtain ⟨rfl, rfl⟩ := pcNow_eq h1
    seq h u1 c2 h2
    obtain ⟨g2, e2⟩ := hg.step (.compileStmtBody s) (.compileStmtBody s) h2
    have l2 := e2.len
    seq h u2 c3 h3
    have e3 := ext_markIf (n := c.cg.code.length) g2.inv (Nat.le_refl _) h3
    have g3 : Good c3 := ⟨e3.inv, XStep.markIf _ _ _ _ _ g2.ex h3⟩
    obtain ⟨g4, e4⟩ := g3.stmts h
    have h23 : c3.cg.code.length = c2.cg.code.length ∧ c3.sy = c2.sy := by
      unfold markIf at h3
      split at h3
      · cases h3; exact ⟨rfl, rfl⟩
      · cases h3; exact ⟨rfl, rfl⟩
    have w3 := hw.ext e4
    have w2 := w3.markIf h3 (Nat.le_refl _)
    have a := stmtCode s h2 hg w2
    have b := stmtsCode rest h g3 (hw.raise (by omega))
    rw [h23.1, h23.2] at b
    refine .cons a (fun hm hlt => ?_) b
    unfold markIf at h3
    rw [if_pos (by simp only [hm, Bool.true_and, decide_eq_true_eq]; omega)] at h3
    cases h3
    have hl : c.cg.code.length < c2.cg.instrs.length := by rw [g2.inv.lens]; exact hlt
    refine w3.marked _ { c2.cg.instrs[c.cg.code.length] with isStmtStart := true } (Nat.le_refl _) hlt ?_ rfl
    show (c2.cg.instrs.modify _ _)[c.cg.code.length]? = _
    rw [List.getElem?_modify, List.getElem?_eq_getElem hl]
    simp
termination_by structural ss

theorem branchesCode {L : Link} (bs : Branches) {X : Nat → Prop} {lo : Nat} {c c' : Ctx} {T : Targets} {ends : List Nat}
    (h : compileBranches bs c = .ok (ends, c')) (hg : Good c) (hw : Wired L X lo c' T) (hlo : lo ≤ c.cg.code.length)
    (hx : ∀ i, c.cg.code.length ≤ i → i < c'.cg.code.length → X i → i ∈ ends) (hj : ∀ e ∈ ends, Jumps L e c'.cg.code.length) :
    BranchesCode L T c.sy c.cg.code.length bs c'.cg.code.length c'.sy := by
  match bs with
  | .nil =>
    unfold compileBranches at h
    have := CM.pure_ok.1 h; cases this
    exact .nil
  | .cons guard body rest =>
    unfold compileBranches at h
    seq h cond c1 h1
    obtain ⟨g1, e1⟩ := hg.cond h1
    seq h toNext c2 h2
    obtain ⟨g2, e2, rfl, l2, o2⟩ := g1.emit (by simp [Instr.targets]) h2
    seq h u c3 h3
    obtain ⟨g3, e3⟩ := g2.stmts h3
    have l1 := e1.len
    have l3 := e3.len
    split at h
    next hn =>
      seq h next c4 h4
      obtain ⟨rfl, rfl⟩ := pcNow_eq h4
      seq h u1 c5 h5
      have := CM.pure_ok.1 h; cases this
      obtain ⟨g5, l5, s5⟩ := g3.pSkip (Nat.le_refl _) h5
      obtain ⟨j, w3⟩ := hw.pSkip h5 (o2.ext e3) (by omega) (fun hX => by have := hx _ (by omega) (by omega) hX; simp at this)
      have b := stmtsCode body h3 g2 ((w3.raise (by omega)).clear fun i q1 q2 q3 => by
        rcases q3 with q3 | q3
        · have := hx i (by omega) (by omega) q3; simp at this
        · omega)
      have w1 := (w3.ext e3).ext e2
      have p := w1.cond hg h1 hlo fun i q1 q2 q3 => by
        rcases q3 with q3 | q3
        · have := hx i (by omega) (by omega) q3; simp at this
        · omega
      rw [onCg_sy h2, compileCond_sy h1, l2] at b
      rw [l5, s5, none_of_nil hn]
      exact .last p j b
    next hn =>
      seq h toEnd c4 h4
      obtain ⟨g4, e4, rfl, l4, o4⟩ := g3.emit (by simp [Instr.targets]) h4
      seq h next c5 h5
      obtain ⟨rfl, rfl⟩ := pcNow_eq h5
      seq h u1 c6 h6
      obtain ⟨g6, l6, s6⟩ := g4.pSkip (Nat.le_refl _) h6
      seq h ends c7 h7
      have := CM.pure_ok.1 h; cases this
      obtain ⟨g7, e7, he⟩ := branches_facts rest h7 g6
      have l7 := e7.len
      have hxx : ∀ i, c.cg.code.length ≤ i → i < c'.cg.code.length → X i → c3.cg.code.length ≤ i := by
        intro i q1 q2 q3
        rcases List.mem_cons.1 (hx i q1 q2 q3) with h | h
        · omega
        · have := (he i h).2; omega
      have r := branchesCode rest h7 g6 hw (by omega) (fun i q1 q2 q3 => by
        rcases List.mem_cons.1 (hx i (by omega) q2 q3) with h | h
        · omega
        · exact h) (fun e hm => hj e (List.mem_cons_of_mem _ hm))
      have w6 := hw.ext e7
      obtain ⟨j, w4⟩ := w6.pSkip h6 ((o2.ext e3).ext e4) (by omega) (fun hX => by
        have := hxx _ (by omega) (by omega) hX; omega)
      have w3 := w4.ext e4
      have b := stmtsCode body h3 g2 ((w3.raise (by omega)).clear fun i q1 q2 q3 => by
        rcases q3 with q3 | q3
        · have := hxx i (by omega) (by omega) q3; omega
        · omega)
      have w1 := (w3.ext e3).ext e2
      have p := w1.cond hg h1 hlo fun i q1 q2 q3 => by
        rcases q3 with q3 | q3
        · have := hxx i (by omega) (by omega) q3; omega
        · omega
      rw [onCg_sy h2, compileCond_sy h1, l2] at b
      rw [s6, onCg_sy h4, l6, l4] at r
      rw [l4] at j
      exact .cons p j b (hj _ (List.mem_cons_self ..)) r
termination_by structural bs

theorem bodiesCode {L : Link} (cs : Cases) (jumps : List (List (Nat × LineCol))) {X : Nat → Prop} {lo : Nat} {c c' : Ctx} {T : Targets}
    {endPos : LineCol} {ends : List Nat} (h : compileBodies cs jumps endPos c = .ok (ends, c')) (hg : Good c)
    (hjs : ∀ l ∈ jumps, ∀ p ∈ l, Hole c p.1 ∧ lo ≤ p.1 ∧ ¬ X p.1) (hn : (jumps.flatten.map (·.1)).Nodup) (hc : jumps.length = cs.count)
    (hw : Wired L X lo c' T) (hlo : lo ≤ c.cg.code.length)
    (hx : ∀ i, c.cg.code.length ≤ i → i < c'.cg.code.length → X i → i ∈ ends) (hj : ∀ e ∈ ends, Jumps L e c'.cg.code.length) :
    ∃ ts, BodiesCode L T c.sy c.cg.code.length cs ts c'.cg.code.length c'.sy ∧
      List.Forall₂ (fun l t => ∀ p ∈ l, Jumps L p.1 t) jumps ts ∧ Wired L (fun i => X i ∨ i ∈ jumps.flatten.map (·.1)) lo c T := by
  match cs, jumps with
  | .nil, js =>
    unfold compileBodies at h
    have := CM.pure_ok.1 h; cases this
    have : js = [] := List.length_eq_zero_iff.1 hc
    subst this
    exact ⟨[], .nil, .nil, { hw with code := fun i h1 h2 h3 => hw.code i h1 h2 fun h => h3 (.inl h) }⟩
  | .cons .., [] =>
    unfold compileBodies at h
    simp [CM.throw] at h
  | .cons guards body rest, js :: jumps =>
    unfold compileBodies at h
    seq h here c1 h1
    obtain ⟨rfl, rfl⟩ := pcNow_eq h1
    seq h u c2 h2
    have g2 := hg.pJumps (Nat.le_refl _) h2
    have l2 := (patchJumps_sy h2).2.1
    have s2 := (patchJumps_sy h2).1
    seq h u1 c3 h3
    obtain ⟨g3, e3⟩ := g2.stmts h3
    have l3 := e3.len
    simp only [List.flatten_cons, List.map_append] at hn
    have hd := (List.nodup_append.1 hn).2.2
    split at h
    next hr =>
      have := CM.pure_ok.1 h; cases this
      have hr : rest = .nil := by
        cases rest with
        | nil => rfl
        | cons => simp [Cases.isNil] at hr
      subst hr
      have : jumps = [] := List.length_eq_zero_iff.1 (by simpa [Cases.count] using hc)
      subst this
      have b := stmtsCode body h3 g2 ((hw.raise (by omega)).clear fun i q1 q2 q3 => by
        have := hx i (by omega) (by omega) q3; simp at this)
      obtain ⟨q1, w⟩ := (hw.ext e3).pJumps h2
      rw [l2, s2] at b
      refine ⟨[c.cg.code.length], .last b, .cons (fun p hp => q1 p hp (hjs js (List.mem_cons_self ..) p hp).1
        (hjs js (List.mem_cons_self ..) p hp).2.1 (hjs js (List.mem_cons_self ..) p hp).2.2) .nil, ?_⟩
      simpa using w
    next hr =>
      seq h toEnd c4 h4
      obtain ⟨g4, e4, rfl, l4, o4⟩ := g3.emit (by simp [Instr.targets]) h4
      seq h ends c5 h5
      have := CM.pure_ok.1 h; cases this
      obtain ⟨g5, l5, he, hk⟩ := bodies_facts rest jumps h5 g4
      have hxx : ∀ i, c.cg.code.length ≤ i → i < c'.cg.code.length → X i → c3.cg.code.length ≤ i := by
        intro i q1 q2 q3
        rcases List.mem_cons.1 (hx i q1 q2 q3) with h | h
        · omega
        · have := (he i h).2; omega
      obtain ⟨ts, bc, hts, w4⟩ := bodiesCode (L := L) rest jumps h5 g4 (fun l hl p hp => by
          obtain ⟨a1, a2, a3⟩ := hjs l (List.mem_cons_of_mem _ hl) p hp
          exact ⟨((a1.pJumps h2).ext e3).ext e4, a2, a3⟩) (List.nodup_append.1 hn).2.1 (by simpa [Cases.count] using hc) hw (by omega)
        (fun i q1 q2 q3 => by
          rcases List.mem_cons.1 (hx i (by omega) q2 q3) with h | h
          · omega
          · exact h) (fun e hm => hj e (List.mem_cons_of_mem _ hm))
      have w3 := w4.ext e4
      have hin : ∀ i, i ∈ jumps.flatten.map (fun x => x.1) → i < c.cg.code.length := by
        intro i hi
        obtain ⟨p, hp, rfl⟩ := List.mem_map.1 hi
        obtain ⟨l, hl, hp⟩ := List.mem_flatten.1 hp
        exact (hjs l (List.mem_cons_of_mem _ hl) p hp).1.lt
      have b := stmtsCode body h3 g2 ((w3.raise (by omega)).clear fun i q1 q2 q3 => by
        rcases q3 with q3 | q3
        · have := hxx i (by omega) (by omega) q3; omega
        · have := hin i q3; omega)
      obtain ⟨q1, w⟩ := (w3.ext e3).pJumps h2
      rw [l2, s2] at b
      rw [onCg_sy h4, l4] at bc
      refine ⟨c.cg.code.length :: ts, .cons b (hj _ (List.mem_cons_self ..)) bc, .cons (fun p hp => ?_) hts, ?_⟩
      · obtain ⟨a1, a2, a3⟩ := hjs js (List.mem_cons_self ..) p hp
        refine q1 p hp a1 a2 fun h => ?_
        rcases h with h | h
        · exact a3 h
        · exact hd _ (List.mem_map.2 ⟨p, hp, rfl⟩) _ h rfl
      · refine { w with code := fun i h1 h2 h3 => w.code i h1 h2 fun h => h3 ?_ }
        simp only [List.flatten_cons, List.map_append, List.mem_append]
        rcases h with (h | h) | h
        · exact .inl h
        · exact .inr (.inr h)
        · exact .inr (.inl h)
termination_by structural cs
end

end EB
