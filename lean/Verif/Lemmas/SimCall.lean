import Verif.Lemmas.SimStmt
/-!
# The code of calls

A call runs the body of the definition in a frame of its own; the definitions are found in the text.
-/

namespace EB
open Spec

variable [Labels] [Watch] [Nest]

/-! ## Frames -/

section
variable {cs : List ConstantDatum} {S : Decls} {Γ Γ' : Env} {fp fp1 : Nat} {w w0 w1 : World} {m m1 m3 : Mach}

/-- What a callee starts with: the shared variables of the caller, and some scalars. -/
structure Entered (fp1 : Nat) (w : World) (m : Mach) (w0 : World) (m1 : Mach) : Prop where
  shared : ∀ n, w0.mem (.shared n) = w.mem (.shared n)
  scalars : ∀ n c, w0.mem (.local n) = some c → ∃ v, c = .scalar v
  room : w0.room = w.room
  trap : w0.trap = w.trap
  log : w0.log = w.log
  handler : m1.handler = m.handler
  regs : m1.regs = m.regs
  heap : m1.heap = m.heap
  fp : m1.fp = fp1

theorem Entered.own (h : Entered fp1 w m w0 m1) {i : Nat} (ho : OwnArr fp1 w0 m1 i) : ∃ n t d f, w.mem (.shared n) = some (.arr t d f) ∧
    DatumPtr.ofU64 (m.regs n) = some (.heap i) := by
  obtain ⟨p, t, d, f, h1, h2⟩ := ho
  cases p with
  | «local» n => obtain ⟨v, hv⟩ := h.scalars _ _ h1; cases hv
  | shared n =>
    rw [h.shared] at h1
    rw [h.regs] at h2
    exact ⟨n, t, d, f, h1, h2⟩

/-- Back in the frame of the caller. -/
theorem frame_back (hm : Models cs (wide S Γ) fp w m) (hle : fp ≤ fp1) (hloc : ∀ n c, w.mem (.local n) = some c → fp + n < fp1)
    (he : Entered fp1 w m w0 m1) (hk : Kept fp1 (Low fp1) w0 m1 w1 m3) (hm3 : Models cs (wide S Γ') fp1 w1 m3) :
    Kept fp (Low fp1) w m (goBack w w1) m3 ∧ Models cs (wide S Γ) fp (goBack w w1) m3 := by
  have hb := hm.base
  have regs : ∀ j, Low fp1 j → m3.regs j = m.regs j := fun j hj => by rw [hk.regs j hj, he.regs]
  have hlr : ∀ n c, w.mem (.local n) = some c → m3.regs (fp + n) = m.regs (fp + n) := fun n c h =>
    regs _ ⟨by omega, hloc n c h⟩
  have back : ∀ {n t d f i}, w1.mem (.shared n) = some (.arr t d f) → DatumPtr.ofU64 (m3.regs n) = some (.heap i) → i < m.heap.data.length →
      ∃ n t d f, w.mem (.shared n) = some (.arr t d f) ∧ DatumPtr.ofU64 (m.regs n) = some (.heap i) := by
    intro n t d f i h1 h2 h3
    exact he.own (hk.owners i (by rw [he.heap]; exact h3) ⟨.shared n, t, d, f, h1, h2⟩)
  have texts : ∀ (i : Nat) s, m.heap.data[i]? = some (.text s) → m3.heap.data[i]? = some (.text s) :=
    fun i s h => hk.texts i s (by rw [he.heap]; exact h)
  have arrays : ∀ (i : Nat) a, m.heap.data[i]? = some (.array a) →
      (¬ ∃ n t d f, w.mem (.shared n) = some (.arr t d f) ∧ DatumPtr.ofU64 (m.regs n) = some (.heap i)) → m3.heap.data[i]? = some (.array a) :=
    fun i a h hn => hk.arrays i a (by rw [he.heap]; exact h) fun ho => hn (he.own ho)
  refine ⟨⟨regs, texts, ?_, ?_, by rw [← he.heap]; exact hk.len, by rw [← he.heap]; exact hk.max⟩, hb, hm3.heap, hm3.room, ?_, ?_, ?_, hm3.trap⟩
  · intro i a h hn
    exact arrays i a h fun ⟨n, t, d, f, h1, h2⟩ => hn ⟨.shared n, t, d, f, h1, h2⟩
  · rintro i hi ⟨p, t, d, f, h1, h2⟩
    cases p with
    | «local» n =>
      refine ⟨.local n, t, d, f, h1, ?_⟩
      rw [← h2]
      show _ = DatumPtr.ofU64 (m3.regs (fp + n))
      rw [hlr n _ h1]
      rfl
    | shared n =>
      obtain ⟨n', t', d', f', h3, h4⟩ := back h1 h2 hi
      exact ⟨.shared n', t', d', f', h3, h4⟩
  · intro p c h
    cases p with
    | shared n => exact hm3.cells (.shared n) c h
    | «local» n =>
      have hc := hm.cells (.local n) c h
      show HoldsCell _ _ _ (m3.regs (fp + n))
      rw [hlr n c h]
      cases c with
      | scalar v => exact Holds.mono texts hc
      | arr t d f =>
        obtain ⟨i, a, h1, h2, h3, h4, h5⟩ := hc
        refine ⟨i, a, h1, arrays i a h2 ?_, h3, h4, fun s hs => ?_⟩
        · rintro ⟨n', t', d', f', h6, h7⟩
          have := hm.apart (.local n) (.shared n') _ _ _ _ _ _ i h h6 h1 h7
          cases this
        · obtain ⟨y, hy, hv⟩ := h5 s hs
          exact ⟨y, hy, Holds.mono texts hv⟩
  · intro p c h
    cases p with
    | shared n => exact hm3.typed (.shared n) c h
    | «local» n => exact hm.typed (.local n) c h
  · have mixed : ∀ {n k t d f t' d' f' i}, w.mem (.local n) = some (.arr t d f) → w1.mem (.shared k) = some (.arr t' d' f') →
        DatumPtr.ofU64 (m3.regs (fp + n)) = some (.heap i) → DatumPtr.ofU64 (m3.regs k) = some (.heap i) → False := by
      intro n k t d f t' d' f' i h1 h2 h3 h4
      rw [hlr n _ h1] at h3
      obtain ⟨i', a, h5, h6, _⟩ := hm.cells (.local n) _ h1
      have h5' : DatumPtr.ofU64 (m.regs (fp + n)) = some (.heap i') := h5
      rw [h5'] at h3
      cases h3
      obtain ⟨n', t', d', f', h7, h8⟩ := back h2 h4 (List.getElem?_eq_some_iff.1 h6).1
      have := hm.apart (.local n) (.shared n') _ _ _ _ _ _ i h1 h7 h5 h8
      cases this
    intro p q t d f t' d' f' i h1 h2 h3 h4
    cases p with
    | shared n =>
      cases q with
      | shared k => exact hm3.apart _ _ _ _ _ _ _ _ i h1 h2 h3 h4
      | «local» k => exact (mixed h2 h1 h4 h3).elim
    | «local» n =>
      cases q with
      | shared k => exact (mixed h1 h2 h3 h4).elim
      | «local» k =>
        have h3' : DatumPtr.ofU64 (m3.regs (fp + n)) = some (.heap i) := h3
        have h4' : DatumPtr.ofU64 (m3.regs (fp + k)) = some (.heap i) := h4
        rw [hlr n _ h1] at h3'
        rw [hlr k _ h2] at h4'
        exact hm.apart (.local n) (.local k) _ _ _ _ _ _ i h1 h2 h3' h4'

/-- At the start of the callee. -/
theorem enter_models (hm : Models cs (wide S Γ) fp w m) (hle : fp ≤ fp1) (he : Entered fp1 w m w0 m1)
    (hloc : ∀ n c, w0.mem (.local n) = some c → ∃ v, c = .scalar v ∧ Γ'.proto (.local n) = some (.scalar v.ty) ∧ Holds cs m.heap v (m.regs (fp1 + n))) :
    Models cs (wide S Γ') fp1 w0 m1 := by
  have hb := hm.base
  refine ⟨by omega, by rw [he.heap]; exact hm.heap, by rw [he.room, he.heap]; exact hm.room, ?_, ?_, ?_, by rw [he.trap, he.handler]; exact hm.trap⟩
  · intro p c h
    rw [he.heap, he.regs]
    cases p with
    | shared n => rw [he.shared] at h; exact hm.cells (.shared n) c h
    | «local» n => obtain ⟨v, rfl, _, h2⟩ := hloc n c h; exact h2
  · intro p c h
    cases p with
    | shared n => rw [he.shared] at h; exact hm.typed (.shared n) c h
    | «local» n => obtain ⟨v, rfl, h1, h2⟩ := hloc n c h; exact ⟨_, h1, rfl⟩
  · intro p q t d f t' d' f' i h1 h2 h3 h4
    rw [he.regs] at h3 h4
    cases p with
    | «local» n => obtain ⟨v, hv⟩ := he.scalars _ _ h1; cases hv
    | shared n =>
      cases q with
      | «local» n => obtain ⟨v, hv⟩ := he.scalars _ _ h2; cases hv
      | shared k =>
        rw [he.shared] at h1 h2
        exact hm.apart (.shared n) (.shared k) _ _ _ _ _ _ i h1 h2 h3 h4

end

/-! ## Definitions -/

section
variable {L : Link}

/-- The code of a definition. -/
inductive Located (L : Link) : Str → Def → Prop
  | mk {T : Targets} {name pos params body} {sy sy1 sy2 sy3 : Syms} {a m r Γ} : Scope sy Γ → sy.declareCallable name (userMd name params) = .ok sy1 →
      Part L (prologBody name pos params) { sy1 with locals := .empty } (a + 1) m sy2 →
      StmtsCode L { T with ret := some r } sy2 m body r sy3 → L.img.code[r]? = some .ret →
      L.gf.callables.get? (symKey name.name) = some (a + 1, r + 1) → L.Within sy3 →
      Located L (symKey name.name) ⟨name.ty, (Γ.declare name params).body name params, body⟩

mutual
theorem located_stmt {T : Targets} {sy sy' : Syms} {a b : Nat} {s : Stmt} (h : StmtCode L T sy a s b sy') : ∀ {Γ : Env}, Scope sy Γ →
    ∀ k f, (k, f) ∈ defsStmt Γ s → Located L k f := by
  intro Γ hs k f hk
  match h with
  | .simple hsim _ => revert hsim; cases s <;> (intro hsim; first | (simp [Stmt.simple] at hsim; done) | (simp [defsStmt] at hk))
  | .wild hw _ _ => revert hw; cases s <;> (intro hw; first | (simp [Stmt.wild] at hw; done) | (simp [defsStmt] at hk))
  | .exitDo .. | .exitFor .. | .exitFunction .. | .exitSub .. => simp [defsStmt] at hk
  | .callable hd _ hp hb hr hc hw =>
    simp only [defsStmt, List.mem_singleton, Prod.mk.injEq] at hk
    obtain ⟨rfl, rfl⟩ := hk
    exact .mk hs hd hp hb hr hc hw
  | .infinite hb _ => exact located_stmts hb hs k f hk
  | .preUntil _ _ _ hb _ => exact located_stmts hb hs k f hk
  | .preWhile _ _ hb _ => exact located_stmts hb hs k f hk
  | .postUntil hb _ _ => exact located_stmts hb hs k f hk
  | .postWhile hb _ _ _ => exact located_stmts hb hs k f hk
  | .forLoop ⟨c, c', hx, hi, rfl, rfl, _⟩ _ _ hb _ _ =>
    obtain ⟨c1, p1, p2, p3, p4⟩ := forStart_ok hi hs hx
    exact located_stmts hb (assign_scope p2.locals p1 p4) k f hk
  | .ifs hb => exact located_branches hb hs k f hk
  | .select _ _ _ _ hb => exact located_cases hb hs k f hk
  | .whileLoop _ _ hb _ => exact located_stmts hb hs k f hk
termination_by structural h

theorem located_stmts {T : Targets} {sy sy' : Syms} {a b : Nat} {ss : Stmts} (h : StmtsCode L T sy a ss b sy') : ∀ {Γ : Env}, Scope sy Γ →
    ∀ k f, (k, f) ∈ defsStmts Γ ss → Located L k f := by
  intro Γ hs k f hk
  match h with
  | .nil => simp [defsStmts] at hk
  | .cons h1 _ h2 =>
    simp only [defsStmts, List.mem_append] at hk
    rcases hk with hk | hk
    · exact located_stmt h1 hs k f hk
    · exact located_stmts h2 (stmt_scope h1 hs) k f hk
termination_by structural h

theorem located_branches {T : Targets} {sy sy' : Syms} {a b : Nat} {bs : Branches} (h : BranchesCode L T sy a bs b sy') : ∀ {Γ : Env}, Scope sy Γ →
    ∀ k f, (k, f) ∈ defsBranches Γ bs → Located L k f := by
  intro Γ hs k f hk
  match h with
  | .nil => simp [defsBranches] at hk
  | .last _ _ h1 =>
    simp only [defsBranches, List.mem_append, List.not_mem_nil, or_false] at hk
    exact located_stmts h1 hs k f hk
  | .cons _ _ h1 _ h2 =>
    simp only [defsBranches, List.mem_append] at hk
    rcases hk with hk | hk
    · exact located_stmts h1 hs k f hk
    · exact located_branches h2 (stmts_scope h1 hs) k f hk
termination_by structural h

theorem located_cases {T : Targets} {sy sy' : Syms} {a b : Nat} {cs : Cases} {ts : List Nat} (h : BodiesCode L T sy a cs ts b sy') : ∀ {Γ : Env}, Scope sy Γ →
    ∀ k f, (k, f) ∈ defsCases Γ cs → Located L k f := by
  intro Γ hs k f hk
  match h with
  | .nil => simp [defsCases] at hk
  | .last h1 =>
    simp only [defsCases, List.mem_append, List.not_mem_nil, or_false] at hk
    exact located_stmts h1 hs k f hk
  | .cons h1 _ h2 =>
    simp only [defsCases, List.mem_append] at hk
    rcases hk with hk | hk
    · exact located_stmts h1 hs k f hk
    · exact located_cases h2 (stmts_scope h1 hs) k f hk
termination_by structural h
end

omit [Labels] [Watch] [Nest] in
theorem findDef_mem {k : Str} {f : Def} : ∀ {l : List (Str × Def)}, findDef k l = some f → (k, f) ∈ l
  | (k', f') :: rest, h => by
    unfold findDef at h
    split at h
    next he => cases h; subst he; exact List.mem_cons_self
    · exact List.mem_cons_of_mem _ (findDef_mem h)


/-- Everyone who knows a callable knows the same signature. -/
theorem located_sig {key : Str} {f : Def} {params : List ExprType} {ret : Option ExprType} {sy : Syms} {Γ : Env} (h : Located L key f)
    (hs : Scope sy Γ) (hw : L.Within sy) (hk : Γ.callable key = some (.user params ret)) :
    ∃ (T : Targets) (name : VarRef) (pos : LineCol) (ps : List VarRef) (body : Stmts) (sy1 sy2 sy3 : Syms) (a m r : Nat) (Γ0 : Env),
      key = symKey name.name ∧ f = ⟨name.ty, (Γ0.declare name ps).body name ps, body⟩ ∧ Scope sy1 { Γ0.declare name ps with locals := [] } ∧
      Part L (prologBody name pos ps) sy1 (a + 1) m sy2 ∧ StmtsCode L { T with ret := some r } sy2 m body r sy3 ∧
      L.img.code[r]? = some .ret ∧ L.gf.callables.get? key = some (a + 1, r + 1) ∧ ret = name.ty ∧
      params = ps.map (fun p => p.ty.getD .integer) := by
  obtain ⟨hs0, hd, hp, hb, hr, hc, hw3⟩ := h
  rename_i T name pos ps body sy0 sy1 sy2 sy3 a m r Γ0
  refine ⟨T, name, pos, ps, body, _, sy2, sy3, a, m, r, Γ0, rfl, rfl, (hs0.declare hd).inner, hp, hb, hr, hc, ?_⟩
  have h1 := hp.before (SStep.prologBody _ _ _)
  obtain ⟨rfl, hprev⟩ := declareCallable_ok hd
  have hdef : L.syf.user.get? (symKey name.name) = some (userMd name ps) := h1.user _ _ (by
    show (sy0.user.insert _ _).get? _ = _
    rw [FMap.get?_insert]; simp)
  cases hg : sy.getCallable (symKey name.name) with
  | none => rw [hs.syms.none _ hg] at hk; cases hk
  | some md =>
    cases hu : md.userDefined with
    | false => rw [(hs.syms.builtin _ _ hg hu).1] at hk; cases hk
    | true =>
      obtain ⟨ps', h2, h3⟩ := hs.syms.user _ _ hg hu
      rw [hk] at h2
      simp only [Option.some.injEq, Sig.user.injEq] at h2
      obtain ⟨rfl, rfl⟩ := h2
      have hin : sy.user.get? (symKey name.name) = some md := by
        unfold Syms.getCallable at hg
        split at hg
        next md' h => rw [h]; exact hg
        next h => rw [hs.ups _ _ hg] at hu; cases hu
      have := hw.user _ _ hin
      rw [hdef] at this
      cases this
      refine ⟨rfl, ?_⟩
      obtain ⟨sing, h4, h5⟩ := h3.syns
      cases h4
      clear * - h5
      induction ps generalizing params with
      | nil => cases h5; rfl
      | cons p ps ih =>
        have : ∃ sep, paramSyntax (p :: ps) = .reqValue p.name (p.ty.getD .integer) sep :: paramSyntax ps := by
          cases ps <;> exact ⟨_, rfl⟩
        obtain ⟨sep, hsep⟩ := this
        rw [hsep] at h5
        cases h5 with
        | cons ha hb =>
          obtain ⟨n, sep', hx⟩ := ha
          cases hx
          rw [ih hb]; rfl

end

/-! ## The start of a call -/

section
variable {F : FloatOps} {L : Link} [Answers L.img] {S : Decls}

/-- The frame before the first instruction of a callable. -/
def entry (ret : Option ExprType) (vs : List Val) (w : World) : World := enter (ret.map fun _ => .double) vs w

theorem entry_set (t : ExprType) (ht : t ≠ .double) (vs : List Val) (w : World) :
    (entry (some t) vs w).set (.local 0) (some (.scalar (defaultVal t))) = enter (some t) vs w := by
  unfold World.set entry enter
  simp only [World.mk.injEq, and_true]
  funext p
  by_cases hp : p = .local 0
  · subst hp
    cases t <;> first | rfl | exact absurd rfl ht
  · rw [if_neg hp]
    cases p with
    | shared n => rfl
    | «local» n =>
      cases n with
      | zero => exact absurd rfl hp
      | succ n => rfl

theorem initial_holds {t : ExprType} (ht : t ≠ .double) {pos pos' : LineCol} {g g1 : Codegen} {value : U16} {gf : Codegen} {img : Image} {lo : Nat} {h : Heap}
    {r : Reg} (hg : GOk g) (hi : initial t pos g = .ok (value, g1)) (hl : Linked img gf lo (g1.push (.loadInt r value) pos')) :
    Holds img.constants h (defaultVal t) (value.setWidth 64) := by
  cases t with
  | boolean => cases hi; rfl
  | integer => cases hi; rfl
  | double => exact absurd rfl ht
  | text =>
    obtain ⟨e1, ec, ei, ef, eu, t, id, hk, rfl, _⟩ := getConstant_ok hi
    have hg1 := hg.ext e1
    have hl1 := hl.mono (gext_push rfl fun hw => .plain rfl) hg1
    obtain ⟨h3, h4⟩ := constant_read hg1 hl1 hk
    show (DatumPtr.ofU64 _).bind _ = _
    rw [ofNat_setWidth, (C02_datumPtr _ (by simp; omega)).2]
    simp only [Option.bind_some, DatumPtr.resolveString, h4]

theorem initial_ok {t : ExprType} {pos : LineCol} {g g1 : Codegen} {value : U16} (hg : GOk g) (hi : initial t pos g = .ok (value, g1)) :
    GOk g1 ∧ g1.code = g.code := by
  cases t with
  | boolean => cases hi; exact ⟨hg, rfl⟩
  | integer => cases hi; exact ⟨hg, rfl⟩
  | double => obtain ⟨e1, ec, _⟩ := getConstant_ok hi; exact ⟨hg.ext e1, ec⟩
  | text => obtain ⟨e1, ec, _⟩ := getConstant_ok hi; exact ⟨hg.ext e1, ec⟩

theorem prolog_run (hS : Shares L S) {name : VarRef} {pos : LineCol} {ps : List VarRef} {sy1 sy2 : Syms} {Γ : Env} {a b d : Nat} {vs : List Val} {w : World}
    {m : Mach} (hs : Scope sy1 { Γ with locals := [] }) (hp : Part L (prologBody name pos ps) sy1 a b sy2)
    (ha : At L.img (wide S (Γ.body name ps)) d (entry name.ty vs w) m a) :
    Scope sy2 (Γ.body name ps) ∧ ∃ m1, Passes F L.img (entry name.ty vs w) m (enter name.ty vs w) m1 ∧
      At L.img (wide S (Γ.body name ps)) d (enter name.ty vs w) m1 b := by
  obtain ⟨c, c', hx, hi, rfl, rfl, rfl, rfl, hg, hl, hw⟩ := hp
  obtain ⟨h1, h2⟩ := prologBody_ok hs rfl hx
  refine ⟨h1, ?_⟩
  cases ht : name.ty with
  | none =>
    rw [ht] at h2 ha
    simp only at h2
    rw [h2]
    exact ⟨m, .refl ha.quiet, ha⟩
  | some t =>
    rw [ht] at h2 ha
    simp only at h2
    obtain ⟨value, g1, h3, h4⟩ := h2
    obtain ⟨hg1, hc1⟩ := initial_ok hg h3
    rw [h4] at hl ⊢
    have hwd := wide_wider hS h1 hw
    obtain ⟨f1, f2⟩ := hl.fetch hg1 (by rw [hc1])
    rw [hc1] at f1
    have hpr : (wide S (Γ.body name ps)).proto (.local 0) = some (.scalar t) := by
      simp [Env.proto, wide, Env.body, ht]
    have hlen : (g1.push (.loadInt 64#8 value) pos).code.length = c.cg.code.length + 1 := by simp [Codegen.push, hc1]
    rw [hlen]
    by_cases hd : t = .double
    · subst hd
      have hf := free_place (p := .local 0) ha.models hwd.small hpr
      have hw0 : (entry (some .double) vs w).set (.local 0) none = entry (some .double) vs w := by
        have : ∀ p, ((entry (some .double) vs w).set (.local 0) none).mem p = (entry (some .double) vs w).mem p := by
          intro p
          simp only [World.set]
          split
          next h => subst h; rfl
          · rfl
        have h2 := funext this
        unfold World.set at h2 ⊢
        simp only at h2
        rw [h2]
      rw [hw0] at hf
      have hK : ¬ Low m.fp (m.regIndex 64#8) := by
        have := not_low (m := m) hwd.small hpr
        rw [← place_index hwd.small hpr] at this
        exact this
      have hm1 := models_set ha.models hwd.small (r := 64#8) hf (value.setWidth 64)
      have hk1 := kept_set ha.models hwd.small (r := 64#8) hf (value.setWidth 64) hK
      have hpass : Passes F L.img (entry (some .double) vs w) m (enter (some .double) vs w) (m.set 64#8 (value.setWidth 64)).next :=
        ⟨Go.one (by rw [ha.pc]; exact f1) rfl ha.quiet, ⟨rfl, rfl, rfl, ha.quiet⟩, hk1⟩
      exact ⟨_, hpass, hpass.at ha (by show m.pc + 1 = _; rw [ha.pc]) hm1⟩
    · obtain ⟨m1, p1, pc1, md1⟩ := write_place (F := F) (v := defaultVal t) (x := value.setWidth 64) hwd.small ha hpr f1 rfl (default_ty t)
        (initial_holds hd hg h3 hl)
      rw [entry_set t hd] at p1 md1
      exact ⟨m1, p1, p1.at ha pc1 md1⟩

/-- The frame of the callee. -/
structure Called (F : FloatOps) (img : Image) [Answers img] (l : Log) (m : Mach) (first : Reg) (m1 : Mach) : Prop where
  go : Go F img l m l m1
  stack : m1.stack = ⟨m.pc, m.fp, some first⟩ :: m.stack
  maxStack : m1.maxStack = m.maxStack

theorem call_start (hS : Shares L S) {key : Str} {f : Def} {params : List ExprType} {ret : Option ExprType} {sy : Syms} {Γ : Env} {cl : Calls} {d n : Nat}
    [Enough n] (hcl : CallsOk F L S cl d)
    (hun : ∀ {T : Targets} {sy sy' : Syms} {a b : Nat}, StmtsCode L T sy a f.body b sy' → Scope sy f.env →
      @UnitOk _ _ ⟨true⟩ F L _ S cl d (afterStmts f.env f.body))
    (hf : Located L key f) (hs : Scope sy Γ) (hw : L.Within sy) (hk : Γ.callable key = some (.user params ret))
    {vs : List Val} {p : LineCol} {first : Reg} {ins : Instr} {w : World} {m : Mach} (hfix : L.gf.fixupInstr p (.call first key) = .ok ins)
    (hi : L.img.code[m.pc]? = some ins) (hq : m.yieldPending = false) (hd : m.maxStack - m.stack.length = d + 1) (hlow : m.fp + 192 * (d + 1) + 256 ≤ 2 ^ 32)
    (hm : Models L.img.constants (wide S Γ) m.fp w m) (h64 : 64 ≤ first.toNat) (hty : vs.map Val.ty = params)
    (hargs : ∀ (j : Nat) v, vs[j]? = some v → Holds L.img.constants m.heap v (m.regs (m.fp + (first.toNat - 64) + (if ret.isSome then 1 else 0) + j))) :
    f.ret = ret ∧ (∀ t, ret = some t → f.env.proto (.local 0) = some (.scalar t)) ∧ Grow f.env (afterStmts f.env f.body) ∧
    ∃ w0 m1 r T, Called F L.img w.log m first m1 ∧ Entered (m.fp + (first.toNat - 64)) w m w0 m1 ∧ T.ret = some r ∧ L.img.code[r]? = some .ret ∧
      SPost F L.img (wide S (afterStmts f.env f.body)) T (fun _ => False) w0 m1 r (unit F n cl f.env f.body none (enter f.ret vs w)) := by
  letI : Nest := ⟨true⟩
  obtain ⟨T, name, pos, ps, body, sy1, sy2, sy3, a, b, r, Γ0, rfl, rfl, hs1, hp, hb, hr, hc, rfl, rfl⟩ := located_sig hf hs hw hk
  have hins : ∃ u : U16, ins = .call first u ∧ u.toNat = a + 1 := by
    simp only [Codegen.fixupInstr] at hfix
    rw [hc] at hfix
    simp only at hfix
    split at hfix
    next u hu => cases hfix; exact ⟨u, rfl, mkTarget_ok hu⟩
    · cases hfix
  obtain ⟨u, rfl, hu⟩ := hins
  obtain ⟨m1, e1⟩ : ∃ x : Mach, x = { m with
      stack := ⟨m.pc, m.fp, some first⟩ :: m.stack, pc := a + 1, fp := m.fp + (first.toNat - 64) } := ⟨_, rfl⟩
  have hcall : execInstr F L.img.constants m (.call first u) = .cont m1 := by
    show doCall m first u = _
    unfold doCall Mach.pushFrame
    rw [if_neg (by omega)]
    simp only
    rw [if_neg (show ¬ first.toNat < maxGlobal by unfold maxGlobal; omega), e1, hu]
    rfl
  have hq1 : m1.yieldPending = false := by rw [e1]; exact hq
  have called : Called F L.img w.log m first m1 :=
    ⟨Go.one hi hcall hq1, by rw [e1], by rw [e1]⟩
  have local_cell : ∀ {k c}, (entry name.ty vs w).mem (.local k) = some c →
      ∃ v j, c = .scalar v ∧ vs[j]? = some v ∧ k = (if name.ty.isSome then 1 else 0) + j := by
    intro k c hc
    unfold entry enter at hc
    cases hn : name.ty with
    | none =>
      rw [hn] at hc
      simp only [Option.map_none, List.nil_append, List.getElem?_map] at hc
      cases hv : vs[k]? with
      | none => rw [hv] at hc; simp at hc
      | some v => rw [hv] at hc; simp at hc; exact ⟨v, k, hc.symm, hv, by simp⟩
    | some t =>
      rw [hn] at hc
      cases k with
      | zero => simp [defaultResult] at hc
      | succ k =>
        simp only [Option.map_some, List.cons_append, List.nil_append, List.getElem?_cons_succ, List.getElem?_map] at hc
        cases hv : vs[k]? with
        | none => rw [hv] at hc; simp at hc
        | some v => rw [hv] at hc; simp at hc; exact ⟨v, k, hc.symm, hv, by simp; omega⟩
  have he : Entered (m.fp + (first.toNat - 64)) w m (entry name.ty vs w) m1 :=
    ⟨fun _ => rfl, fun k c hc => by obtain ⟨v, _, h, _⟩ := local_cell hc; exact ⟨v, h⟩, rfl, rfl, rfl, by rw [e1], by rw [e1], by rw [e1], by rw [e1]⟩
  have hproto : ∀ (j : Nat) v, vs[j]? = some v → ((Γ0.declare name ps).body name ps).proto (.local ((if name.ty.isSome then 1 else 0) + j)) = some (.scalar v.ty) := by
    intro j v hv
    have h1 : (ps.map fun p => p.ty.getD .integer)[j]? = some v.ty := by rw [← hty, List.getElem?_map, hv]; rfl
    rw [List.getElem?_map] at h1
    cases hpj : ps[j]? with
    | none => rw [hpj] at h1; simp at h1
    | some q =>
      rw [hpj] at h1
      simp only [Option.map_some, Option.some.injEq] at h1
      cases hn : name.ty <;> simp [Env.proto, Env.body, hn, hpj, h1, Nat.add_comm 1 j]
  have hm1 : Models L.img.constants (wide S ((Γ0.declare name ps).body name ps)) (m.fp + (first.toNat - 64)) (entry name.ty vs w) m1 := by
    refine enter_models hm (by omega) he fun k c hc => ?_
    obtain ⟨v, j, rfl, hj, rfl⟩ := local_cell hc
    refine ⟨v, rfl, hproto j v hj, ?_⟩
    have := hargs j v hj
    rwa [Nat.add_assoc] at this
  have hat : At L.img (wide S ((Γ0.declare name ps).body name ps)) d (entry name.ty vs w) m1 (a + 1) :=
    ⟨by rw [e1], hq1, he.fp.symm ▸ hm1, by rw [e1]; show m.maxStack - (m.stack.length + 1) = d; omega, by
      have := first.isLt
      rw [he.fp]; omega, by rw [e1]; exact ⟨fun h => by simp at h, fun h => by cases h⟩⟩
  obtain ⟨hs2, m2, p2, a2⟩ := prolog_run (F := F) hS hs1 hp hat
  refine ⟨rfl, ?_, grow_stmts _ _, _, m1, r, { T with ret := some r }, called, he, rfl, hr, (sim_unit hS hcl (hun hb hs2) hb hs2 rfl a2).after p2⟩
  intro t ht
  simp [Env.proto, Env.body, ht]

/-! ## The end of a call -/

theorem setAt_self (regs : Nat → BitVec 64) (i : Nat) : setAt regs i (regs i) = regs := by
  funext j
  unfold setAt
  split
  next h => rw [h]
  · rfl

/-- `RETURN` from a callable. -/
theorem call_end {img : Image} [Answers img] {l : Log} {m m1 m3 : Mach} {first : Reg} {w0 w1 : World} {r : Nat} (hc : Called F img l m first m1) (hlog : w0.log = l)
    (hp : Passes F img w0 m1 w1 m3) (hpc : m3.pc = r) (hr : img.code[r]? = some .ret) (h64 : 64 ≤ first.toNat)
    (hfp : m1.fp = m.fp + (first.toNat - 64)) :
    ∃ m4, Go F img l m w1.log m4 ∧ SameAct m m4 ∧ m4.pc = m.pc + 1 ∧ m4.regs = m3.regs ∧ m4.heap = m3.heap ∧ m4.handler = m3.handler := by
  have hst : m3.stack = ⟨m.pc, m.fp, some first⟩ :: m.stack := by rw [hp.act.stack, hc.stack]
  have hfp3 : m3.fp = m.fp + (first.toNat - 64) := by rw [hp.act.fp, hfp]
  obtain ⟨m4, e4⟩ : ∃ x : Mach, x = ({ m3 with stack := m.stack, pc := m.pc + 1, fp := m.fp } : Mach).set first (m3.regs m3.fp) := ⟨_, rfl⟩
  have hx : execInstr F img.constants m3 .ret = .cont m4 := by
    show doReturn m3 = _
    unfold doReturn
    rw [hst]
    simp only
    rw [e4]
  have hq : m4.yieldPending = false := by rw [e4]; exact hp.act.quiet
  refine ⟨m4, (hc.go.trans (hlog ▸ hp.go)).trans (Go.one (by rw [hpc]; exact hr) hx hq), ⟨by rw [e4]; rfl, by rw [e4]; rfl, ?_, hq⟩, by rw [e4]; rfl, ?_, by rw [e4]; rfl, by rw [e4]; rfl⟩
  · rw [e4]; show m3.maxStack = _; rw [hp.act.maxStack, hc.maxStack]
  · rw [e4]
    show setAt m3.regs (Mach.regIndex _ first) (m3.regs m3.fp) = _
    have : Mach.regIndex { m3 with stack := m.stack, pc := m.pc + 1, fp := m.fp } first = m3.fp := by
      unfold Mach.regIndex
      rw [if_neg (show ¬ first.toNat < maxGlobal by unfold maxGlobal; omega), hfp3]
      show first.toNat - 64 + m.fp = _
      omega
    rw [this]
    exact setAt_self _ _

omit [Watch] in
theorem Spec.Models.move {cs : List ConstantDatum} {Δ : Env} {fp : Nat} {w : World} {m m' : Mach} (h : Models cs Δ fp w m) (hr : m'.regs = m.regs)
    (hh : m'.heap = m.heap) (ht : m'.handler = m.handler) : Models cs Δ fp w m' := by
  refine ⟨h.base, ?_, ?_, ?_, h.typed, ?_, ht ▸ h.trap⟩
  · rw [hh]; exact h.heap
  · rw [hh]; exact h.room
  · rw [hh, hr]; exact h.cells
  · rw [hr]; exact h.apart

theorem Kept.move {K : Nat → Prop} {fp : Nat} {w w' : World} {m m1 m' : Mach} (h : Kept fp K w m w' m1) (hr : m'.regs = m1.regs)
    (hh : m'.heap = m1.heap) : Kept fp K w m w' m' := by
  refine ⟨?_, ?_, ?_, ?_, ?_, ?_⟩
  · rw [hr]; exact h.regs
  · rw [hh]; exact h.texts
  · rw [hh]; exact h.arrays
  · intro i hi ⟨p, t, d, f, h1, h2⟩
    exact h.owners i hi ⟨p, t, d, f, h1, by rw [← hr]; exact h2⟩
  · rw [hh]; exact h.len
  · rw [hh]; exact h.max

theorem limit_sub {w w1 : World} : ∀ p c, (limit w w1).mem p = some c → w1.mem p = some c := by
  intro p c h
  simp only [limit] at h
  split at h
  · exact h
  · cases h

theorem limit_dom {w w1 : World} : Dom w (limit w w1) := by
  intro p h
  simp [limit, h]

/-- What a function that leaves this behind gives. -/
theorem limit_models {cs : List ConstantDatum} {Δ : Env} {fp : Nat} {w w1 : World} {m : Mach} (h : Models cs Δ fp w1 m) :
    Models cs Δ fp (limit w w1) m := h.change rfl rfl limit_sub fun _ _ _ h => h

/-- The instruction for `GOSUB`. -/
theorem gosub_instr {p : LineCol} {label : Str} {ins : Instr} (h : L.gf.fixupInstr p (.gosub label) = .ok ins) :
    ∃ t u, L.gf.labels.get? (symKey label) = some t ∧ ins = .gosub u ∧ u.toNat = t := by
  unfold Codegen.fixupInstr at h
  simp only at h
  split at h
  · cases h
  next target hlab =>
    split at h
    next u hu => cases h; exact ⟨_, u, hlab, rfl, mkTarget_ok hu⟩
    · cases h

/-- `GOSUB`, given what happens at the label. -/
theorem gosub_post {Γ Γe : Env} {T T' : Targets} {lo d t b : Nat} {u : U16} {w : World} {m : Mach} {r : Res} (hgr : Grow Γ Γe)
    (hi : L.img.code[m.pc]? = some (.gosub u)) (hu : u.toNat = t) (ha : At L.img (wide S Γ) (d + 1) w m m.pc)
    (hr : ∀ m1, @At _ ⟨true⟩ L.img (wide S Γe) d w m1 t → SPost F L.img (wide S Γe) T (fun _ => False) w m1 b r) :
    SPost F L.img (wide S Γ) T' (Inside L.img lo) w m (m.pc + 1) (((gosubResult r).forget Γ).then fun _ w => .done w) := by
  obtain ⟨m1, e1⟩ : ∃ x : Mach, x = { m with stack := ⟨m.pc, m.fp, none⟩ :: m.stack, pc := t } := ⟨_, rfl⟩
  have hd := ha.depth
  have hlow := ha.low
  have hmod := ha.models
  have hx : execInstr F L.img.constants m (.gosub u) = .cont m1 := by
    show doGosub m u = _
    unfold doGosub Mach.pushFrame
    rw [if_neg (by omega), e1, hu]
  have hq1 : m1.yieldPending = false := by rw [e1]; exact ha.quiet
  have go1 : Go F L.img w.log m w.log m1 := Go.one hi hx hq1
  have hregs : m1.regs = m.regs := by rw [e1]
  have hheap : m1.heap = m.heap := by rw [e1]
  have hhand : m1.handler = m.handler := by rw [e1]
  have hfp : m1.fp = m.fp := by rw [e1]
  have hmax : m1.maxStack = m.maxStack := by rw [e1]
  have hst : m1.stack = ⟨m.pc, m.fp, none⟩ :: m.stack := by rw [e1]
  have hpc : m1.pc = t := by rw [e1]
  have back : ∀ {w' m'}, Kept m1.fp (Low m1.fp) w m1 w' m' → Kept m.fp (Low m.fp) w m (forget Γ w') m' := by
    intro w' m' hk
    rw [hfp] at hk
    have : Kept m.fp (Low m.fp) w m w m1 :=
      ⟨fun _ _ => by rw [hregs], fun _ _ h => by rw [hheap]; exact h, fun _ _ h _ => by rw [hheap]; exact h, by
        rintro i hi ⟨p, t, d, f, h1, h2⟩
        exact ⟨p, t, d, f, h1, by rw [← hregs]; exact h2⟩, by rw [hheap], by rw [hheap]⟩
    exact (this.trans hk).trans (kept_less (forget_sub Γ w'))
  have less : ∀ {fp w' m'}, Models L.img.constants (wide S Γe) fp w' m' → Models L.img.constants (wide S Γ) fp (forget Γ w') m' := by
    intro fp w' m' hm
    refine hm.change rfl rfl (forget_sub Γ w') ?_
    intro p q hp hq
    cases p with
    | shared n => exact hq
    | «local» n =>
      have hn : n < Γ.locals.length := by
        by_contra hn
        exact hp (by simp [Spec.forget, hn])
      obtain ⟨t, ht⟩ := hgr.locals
      simp only [Env.proto, wide] at hq ⊢
      rw [← ht, List.getElem?_append_left hn] at hq
      exact hq
  have hpost := hr m1 (by
    letI : Nest := ⟨true⟩
    refine ⟨hpc, hq1, ?_, by rw [hmax, hst]; simp only [List.length_cons]; omega, by rw [hfp]; omega, ?_⟩
    · rw [hfp]
      exact (hmod.move hregs hheap hhand).grow (hgr.fewer S)
    · rw [hst]; exact ⟨fun h => by simp at h, fun h => by cases h⟩)
  cases r with
  | back w1 =>
    obtain ⟨tr, htr, _, m3, p3, pc3, md3⟩ := hpost
    obtain ⟨m4, e4⟩ : ∃ x : Mach, x = { m3 with stack := m.stack, pc := m.pc + 1, fp := m.fp } := ⟨_, rfl⟩
    have hst3 : m3.stack = ⟨m.pc, m.fp, none⟩ :: m.stack := by rw [p3.act.stack, hst]
    have hq4 : m4.yieldPending = false := by rw [e4]; exact p3.act.quiet
    have go4 : Go F L.img w1.log m3 w1.log m4 := by
      refine .step (m1 := { m3 with stack := m.stack, pc := m.pc + 1, fp := m.fp, yieldPending := true }) (.cont (i := .ret) (by rw [pc3]; exact htr) ?_) ?_
      · show doReturn m3 = _
        unfold doReturn
        rw [hst3]
      · have : ({ m3 with stack := m.stack, pc := m.pc + 1, fp := m.fp, yieldPending := true } : Mach).calm = m4 := by
          rw [e4]
          have hq3 := p3.act.quiet
          cases m3
          simp only at hq3
          subst hq3
          rfl
        rw [this]
        exact .refl _ _
    have hfp3 : m3.fp = m.fp := by rw [p3.act.fp, hfp]
    refine ⟨m4, ⟨(go1.trans p3.go).trans go4, ⟨by rw [e4], by rw [e4], by rw [e4]; show m3.maxStack = _; rw [p3.act.maxStack, hmax], hq4⟩, ?_⟩, by rw [e4], ?_⟩
    · exact (back p3.kept).move (by rw [e4]) (by rw [e4])
    · have h4 : m4.fp = m.fp := by rw [e4]
      rw [h4]
      rw [hfp3] at md3
      exact (less md3).move (by rw [e4]) (by rw [e4]) (by rw [e4])
  | err pos' e w1 =>
    obtain ⟨m3, pc3, f3, k3, md3, hre⟩ := hpost
    rw [hfp] at md3
    exact ⟨m3, pc3, f3.before go1, back k3, less md3, fun h => (hre h).2.elim⟩
  | ended code w1 =>
    obtain ⟨m3, g3, f3, k3, md3⟩ := hpost
    rw [hfp] at md3
    exact ⟨m3, go1.trans g3, f3, back k3, less md3⟩
  | going l =>
    obtain ⟨m3, g3⟩ := hpost
    exact ⟨m3, g3.before go1⟩
  | _ => trivial

/-- Calls of definitions that are in the image. -/
theorem callsOk_at (hS : Shares L S) {defs : Str → Option Def} (hdefs : ∀ k f, defs k = some f → Located L k f) (n : Nat) [Enough n] :
    ∀ d, (∀ cr Γ ss, CallsOk F L S (callsAt F n (Answers.lib L.img) defs d cr Γ ss) d) ∧
      ∀ {cr : Bool} {T : Targets} {sy sy' : Syms} {a b : Nat} {Γ : Env} {ss : Stmts}, StmtsCode L T sy a ss b sy' → Scope sy Γ →
        @UnitOk _ _ ⟨cr⟩ F L _ S (callsAt F n (Answers.lib L.img) defs d cr Γ ss) d (afterStmts Γ ss) := by
  intro d
  induction d with
  | zero =>
    refine ⟨fun cr Γ0 ss0 => ?_, fun {cr T sy sy' a b Γ0 ss0} hcode hs0 => ?_⟩
    rotate_left
    · letI : Nest := ⟨cr⟩
      refine ⟨rfl, ?_⟩
      intro lo T' label pos p ins w m Γ hgr hfix hi hpos hin ha
      obtain ⟨t, u, hlab, rfl, hu⟩ := gosub_instr hfix
      refine SPost.fault (e := .outOfCallStack) hi ?_ ⟨hpos, hin⟩ ha.quiet ?_ |>.after (forget_passes Γ ha.quiet)
      · show doGosub m u = _
        unfold doGosub Mach.pushFrame
        rw [if_pos (by have := ha.depth; omega)]
      · exact (ha.forget (Grow.refl _)).models
    have fault : ∀ {m : Mach} {p : LineCol} {first : Reg} {key : Str} {ins : Instr}, L.gf.fixupInstr p (.call first key) = .ok ins →
        m.maxStack - m.stack.length = 0 → execInstr F L.img.constants m ins = m.raise .outOfCallStack := by
      intro m p first key ins hfix hd
      have hins : ∃ u : U16, ins = .call first u := by
        simp only [Codegen.fixupInstr] at hfix
        split at hfix
        · cases hfix
        · split at hfix
          · cases hfix; exact ⟨_, rfl⟩
          · cases hfix
      obtain ⟨u, rfl⟩ := hins
      show doCall m first u = _
      unfold doCall Mach.pushFrame
      rw [if_pos (by omega)]
    constructor
    · intro sy Γ hs hw
      refine ⟨rfl, ?_⟩
      intro lo key params t vs pos p first ins w m hk hfix hi hpos hin hq hd hlow hm h64 hloc hty hargs
      exact post_fault hi (fault hfix hd) ⟨hpos, hin⟩ hq hm
    · intro sy Γ hs hw lo key params vs pos p first ins w m T hk hfix hi hpos hin hq hd hlow hm h64 hloc hty hargs
      exact SPost.fault hi (fault hfix hd) ⟨hpos, hin⟩ hq hm
  | succ d ih =>
    refine ⟨fun cr Γ0 ss0 => ?_, fun {cr T sy sy' a b Γ0 ss0} hcode hs0 => ?_⟩
    rotate_left
    · letI : Nest := ⟨cr⟩
      refine ⟨rfl, ?_⟩
      intro lo T' label pos p ins w m Γ hgr hfix hi hpos hin ha
      obtain ⟨t, u, hlab, rfl, hu⟩ := gosub_instr hfix
      show SPost _ _ _ _ _ _ _ _ (((gosubResult (unit F n (callsAt F n (Answers.lib L.img) defs d true Γ0 ss0) Γ0 ss0 (some (symKey label)) w)).forget Γ).then
        fun _ w => .done w)
      exact gosub_post hgr hi hu ha fun m1 a1 =>
        @sim_unit_at _ _ ⟨true⟩ _ _ _ _ _ _ hS (ih.1 _ _ _) _ _ (ih.2 hcode hs0) _ _ _ _ _ _ _ _ _ _ _ _ hcode hs0 rfl ((hS.labels _ _).2 hlab) a1
    constructor
    · intro sy Γ hs hw
      refine ⟨rfl, ?_⟩
      intro lo key params t vs pos p first ins w m hk hfix hi hpos hin hq hd hlow hm h64 hloc hty hargs
      show Post _ _ _ _ _ _ _ _ _ (match defs key with
        | some f => fnResult w (unit F n (callsAt F n (Answers.lib L.img) defs d true f.env f.body) f.env f.body none (enter f.ret vs w))
        | none => .stuck)
      cases hf : defs key with
      | none => trivial
      | some f =>
        obtain ⟨h1, h2, h3, w0, m1, r, T, hc, he, hT, hr, hpost⟩ := call_start (n := n) hS (ih.1 true f.env f.body) ih.2 (hdefs _ _ hf) hs hw hk hfix hi hq hd hlow hm h64 hty
          (by simpa using hargs)
        have hl : ∀ k c, w.mem (.local k) = some c → m.fp + k < m.fp + (first.toNat - 64) := fun k c h => by have := hloc k c h; omega
        have fin : ∀ {w1 r}, L.img.code[r]? = some .ret → Lands F L.img (wide S (afterStmts f.env f.body)) w0 m1 w1 r →
            Post F L.img (wide S Γ) lo (fun j => 64 ≤ j ∧ j < m.fp + (first.toNat - 64)) w m (m.pc + 1)
              (fun v m' => v.ty = t ∧ Holds L.img.constants m'.heap v (m'.get first)) (fnResult w (.done w1)) := by
          rintro w1 r hr ⟨m3, p3, pc3, md3⟩
          obtain ⟨m4, g4, s4, pc4, r4, hp4, hh4⟩ := call_end hc he.log p3 pc3 hr h64 he.fp
          have md3' := md3
          rw [p3.act.fp, he.fp] at md3'
          obtain ⟨k5, md5⟩ := frame_back hm (by omega) hl he (he.fp ▸ p3.kept) md3'
          show Post _ _ _ _ _ _ _ _ _ (match w1.mem (.local 0) with
            | some (.scalar x) => .ok x (limit w (goBack w w1))
            | _ => .stuck)
          split
          next x hx =>
            refine ⟨m4, g4, pc4, s4, ?_, limit_models (md5.move r4 hp4 hh4), limit_dom, ?_, ?_⟩
            · exact (k5.move r4 hp4).trans (kept_less limit_sub)
            · obtain ⟨q, hq1, hq2⟩ := md3'.typed _ _ hx
              have := h3.fewer S (.local 0) (.scalar t) (h2 t rfl)
              rw [hq1] at this
              cases this
              exact hq2
            · have hcell := md3'.cells _ _ hx
              have : m4.get first = m3.regs (Place.index (m.fp + (first.toNat - 64)) (.local 0)) := by
                unfold Mach.get Mach.regIndex
                rw [if_neg (show ¬ first.toNat < maxGlobal by unfold maxGlobal; omega), r4, s4.fp]
                congr 1
                show first.toNat - 64 + m.fp = m.fp + (first.toNat - 64) + 0
                omega
              rw [hp4, this]
              exact hcell
          · trivial
        simp only
        revert hpost
        generalize unit F n (callsAt F n (Answers.lib L.img) defs d true f.env f.body) f.env f.body none (enter f.ret vs w) = res
        intro hpost
        cases res with
        | done w1 => exact fin hr hpost
        | leave w1 =>
          obtain ⟨t', ht', hl'⟩ := hpost
          rw [hT] at ht'
          cases ht'
          exact fin hr hl'
        | going l =>
          obtain ⟨m3, g3⟩ := hpost
          exact ⟨m3, (he.log ▸ g3).before hc.go⟩
        | err pos' e w1 =>
          obtain ⟨m3, pc3, f3, k3, md3, hre⟩ := hpost
          rw [he.fp] at k3 md3
          obtain ⟨k5, md5⟩ := frame_back hm (by omega) hl he k3 md3
          exact ⟨m3, pc3, (he.log ▸ f3).before hc.go, k5.trans (kept_less limit_sub), limit_models md5, limit_dom, fun h => (hre h).2.elim⟩
        | ended code w1 =>
          obtain ⟨m3, g3, f3, k3, md3⟩ := hpost
          rw [he.fp] at k3 md3
          obtain ⟨k5, md5⟩ := frame_back hm (by omega) hl he k3 md3
          exact ⟨m3, hc.go.trans (he.log ▸ g3), f3, k5.trans (kept_less limit_sub), limit_models md5, limit_dom⟩
        | back w1 =>
          obtain ⟨t', ht', _, hl'⟩ := hpost
          exact fin ht' hl'
        | jump k w1 => trivial
        | exitDo w1 => trivial
        | exitFor w1 => trivial
        | stuck => trivial
    · intro sy Γ hs hw lo key params vs pos p first ins w m T0 hk hfix hi hpos hin hq hd hlow hm h64 hloc hty hargs
      show SPost _ _ _ _ _ _ _ _ ((match defs key with
        | some f => subResult w (unit F n (callsAt F n (Answers.lib L.img) defs d true f.env f.body) f.env f.body none (enter f.ret vs w))
        | none => .stuck : Out Unit).then fun _ w => .done w)
      cases hf : defs key with
      | none => trivial
      | some f =>
        obtain ⟨h1, h2, h3, w0, m1, r, T, hc, he, hT, hr, hpost⟩ := call_start (n := n) hS (ih.1 true f.env f.body) ih.2 (hdefs _ _ hf) hs hw hk hfix hi hq hd hlow hm h64 hty
          (by simpa using hargs)
        have hl : ∀ k c, w.mem (.local k) = some c → m.fp + k < m.fp + (first.toNat - 64) := fun k c h => by have := hloc k c h; omega
        have weak : ∀ j, Low m.fp j → Low (m.fp + (first.toNat - 64)) j := fun j ⟨h1, h2⟩ => ⟨h1, by omega⟩
        have fin : ∀ {w1 r}, L.img.code[r]? = some .ret → Lands F L.img (wide S (afterStmts f.env f.body)) w0 m1 w1 r →
            Lands F L.img (wide S Γ) w m (goBack w w1) (m.pc + 1) := by
          rintro w1 r hr ⟨m3, p3, pc3, md3⟩
          obtain ⟨m4, g4, s4, pc4, r4, hp4, hh4⟩ := call_end hc he.log p3 pc3 hr h64 he.fp
          rw [p3.act.fp, he.fp] at md3
          obtain ⟨k5, md5⟩ := frame_back hm (by omega) hl he (he.fp ▸ p3.kept) md3
          exact ⟨m4, ⟨g4, s4, (k5.move r4 hp4).weaken weak⟩, pc4, s4.fp.symm ▸ md5.move r4 hp4 hh4⟩
        simp only
        revert hpost
        generalize unit F n (callsAt F n (Answers.lib L.img) defs d true f.env f.body) f.env f.body none (enter f.ret vs w) = res
        intro hpost
        cases res with
        | done w1 => exact fin hr hpost
        | leave w1 =>
          obtain ⟨t', ht', hl'⟩ := hpost
          rw [hT] at ht'
          cases ht'
          exact fin hr hl'
        | going l =>
          obtain ⟨m3, g3⟩ := hpost
          exact ⟨m3, (he.log ▸ g3).before hc.go⟩
        | err pos' e w1 =>
          obtain ⟨m3, pc3, f3, k3, md3, hre⟩ := hpost
          rw [he.fp] at k3 md3
          obtain ⟨k5, md5⟩ := frame_back hm (by omega) hl he k3 md3
          exact ⟨m3, pc3, (he.log ▸ f3).before hc.go, k5.weaken weak, md5, fun h => (hre h).2.elim⟩
        | ended code w1 =>
          obtain ⟨m3, g3, f3, k3, md3⟩ := hpost
          rw [he.fp] at k3 md3
          obtain ⟨k5, md5⟩ := frame_back hm (by omega) hl he k3 md3
          exact ⟨m3, hc.go.trans (he.log ▸ g3), f3, k5.weaken weak, md5⟩
        | back w1 =>
          obtain ⟨t', ht', _, hl'⟩ := hpost
          exact fin ht' hl'
        | jump k w1 => trivial
        | exitDo w1 => trivial
        | exitFor w1 => trivial
        | stuck => trivial

end

end EB
