import Verif.Lemmas.Scope
/-!
# Statements that emit code

Errors come from statements with code, and the code of a statement begins with a marked instruction.
-/

namespace EB
open Spec

/-- A code generation function that appends something. -/
def GMore {α : Type} (x : CG α) : Prop :=
  ∀ g a g', g.instrs.length = g.code.length → x g = .ok (a, g') → g.code.length < g'.code.length

namespace GMore
variable {α β : Type}

theorem left {x : CG α} {f : α → CG β} (hx : GMore x) (hs : GStep x) (hf : ∀ a, GStep (f a)) : GMore (x >>= f) := by
  intro g b g' hl h
  obtain ⟨a, g1, h1, h2⟩ := CM.bind_ok.1 h
  have e1 := hx _ _ _ hl h1
  have := (hf a _ _ _ ((hs _ _ _ hl h1).lens_eq hl) h2).len
  omega

theorem right {x : CG α} {f : α → CG β} (hx : GStep x) (hf : ∀ a, GMore (f a)) : GMore (x >>= f) := by
  intro g b g' hl h
  obtain ⟨a, g1, h1, h2⟩ := CM.bind_ok.1 h
  have e1 := hx _ _ _ hl h1
  have := hf a _ _ _ (e1.lens_eq hl) h2
  have := e1.len
  omega

theorem throw (e : CErr) : GMore (CM.throw e : CG α) := by
  intro g a g' _ h; cases h

theorem emit (i : Instr) (pos : LineCol) : GMore (emit i pos) := by
  intro g a g' _ h; cases h; simp [Codegen.push]

theorem emitThen (i : Instr) (pos : LineCol) {f : Nat → CG β} (hf : ∀ a, GStep (f a)) : GMore (EB.emit i pos >>= f) := by
  intro g b g' hl h
  obtain ⟨a, g1, h1, h2⟩ := CM.bind_ok.1 h
  cases h1
  have := (hf _ _ _ _ (by simp [Codegen.push, hl]) h2).len
  simp [Codegen.push] at this
  omega

end GMore

theorem GMore.loadConst (c : ConstantDatum) (reg : Reg) (pos : LineCol) : GMore (do
    let idx ← EB.getConstant c pos
    let _ ← EB.emit (.loadConst reg idx) pos : CG Unit) :=
  .right (.getConstant _ _) fun _ => .emitThen _ _ fun _ => .pure _

theorem GMore.emitValue (reg : Reg) (d : ConstantDatum) (pos : LineCol) : GMore (emitValue reg d pos) := by
  unfold EB.emitValue
  cases d with
  | boolean b => exact .emitThen _ _ fun _ => .pure _
  | double b => exact .loadConst _ _ _
  | integer i =>
    simp only
    split
    · exact .emitThen _ _ fun _ => .pure _
    · exact .loadConst _ _ _
  | text s => exact .right (.getConstant _ _) fun _ => .emitThen _ _ fun _ => .pure _

theorem GMore.emitDefault (reg : Reg) (t : ExprType) (pos : LineCol) : GMore (emitDefault reg t pos) := by
  unfold EB.emitDefault
  cases t <;> exact .emitThen _ _ fun _ => .pure _

theorem GMore.emitCall (md : Md) (key : Str) (ret : Option ExprType) (first : Reg) (lcs : List LineCol)
    (pos : LineCol) : GMore (emitCall md key ret first lcs pos) := by
  intro g a g' hl h
  unfold EB.emitCall at h
  split at h
  · obtain ⟨addr, g1, h1, h2⟩ := CM.bind_ok.1 h
    cases h1
    have := CM.modify_ok.1 h2
    cases this
    simp [Codegen.addFixup, Codegen.setArgs, Codegen.push]
  · obtain ⟨idx, g1, h1, h⟩ := CM.bind_ok.1 h
    obtain ⟨addr, g2, h2, h3⟩ := CM.bind_ok.1 h
    have e1 := (getUpcall_ok h1).1.len
    cases h2
    have := CM.modify_ok.1 h3
    cases this
    simp [Codegen.setArgs, Codegen.push]
    omega

theorem GMore.compileArgless (sy : Syms) (nt : Nat) (reg : Reg) (v : VarRef) (pos : LineCol) :
    GMore (compileArgless sy nt reg v pos) := by
  unfold EB.compileArgless
  split
  · exact .throw _
  · refine .right (.lift _) fun _ => ?_
    split
    · exact .throw _
    · split
      · exact .left (.emitCall _ _ _ _ _ _) (.emitCall _ _ _ _ _ _) fun _ => .pure _
      · split
        · exact .right (.getUpcall _ _ _) fun _ => .right (.lift _) fun _ => .emitThen _ _ fun _ =>
            .bind (.emit _ _ rfl) fun _ => .pure _
        · exact .left (.emitCall _ _ _ _ _ _) (.emitCall _ _ _ _ _ _) fun _ => .pure _

theorem GMore.compileExpr (sy : Syms) : (e : Expr) → (nt : Nat) → (reg : Reg) → GMore (compileExpr sy e nt reg)
  | .bool b pos, nt, reg => by simp only [EB.compileExpr]; exact .left (.emitValue _ _ _) (.emitValue _ _ _) fun _ => .pure _
  | .dbl b pos, nt, reg => by simp only [EB.compileExpr]; exact .left (.emitValue _ _ _) (.emitValue _ _ _) fun _ => .pure _
  | .int b pos, nt, reg => by simp only [EB.compileExpr]; exact .left (.emitValue _ _ _) (.emitValue _ _ _) fun _ => .pure _
  | .text b pos, nt, reg => by simp only [EB.compileExpr]; exact .left (.emitValue _ _ _) (.emitValue _ _ _) fun _ => .pure _
  | .sym v pos, nt, reg => by
    simp only [EB.compileExpr]
    split
    · exact .emitThen _ _ fun _ => .pure _
    · exact .throw _
    · exact .compileArgless _ _ _ _ _
    · exact .throw _
  | .un op e pos, nt, reg => by
    simp only [EB.compileExpr]
    exact .left (GMore.compileExpr sy e nt reg) (.compileExpr _ _ _ _) fun _ => .applyUn _ _ _ _ _ _
  | .bin op l r pos, nt, reg => by
    simp only [EB.compileExpr]
    exact .left (GMore.compileExpr sy l nt reg) (.compileExpr _ _ _ _) fun _ => .bind (.lift _) fun _ =>
      .bind (.compileExpr sy r _ _) fun _ => .applyBin _ _ _ _ _ _ _
  | .call v pos args, nt, reg => by
    simp only [EB.compileExpr]
    split
    · refine .right (.lift _) fun _ => ?_
      split
      · exact .throw _
      · refine .right (.lift _) fun _ => ?_
        split
        · exact .throw _
        · refine .right (.compileArgsFrom _ args _ _ _ _) fun _ => .right (.lift _) fun _ =>
            .left (.emitCall _ _ _ _ _ _) (.emitCall _ _ _ _ _ _) fun _ => ?_
          split
          · exact .bind (.emit _ _ rfl) fun _ => .pure _
          · exact .pure _
    · split
      · split
        · exact .throw _
        · exact .right (.compileSubs sy args _ _) fun _ => .right (.lift _) fun _ => .emitThen _ _ fun _ => .pure _
      · exact .throw _
      · exact .throw _
      · exact .throw _

theorem GMore.compileExprAs (sy : Syms) (e : Expr) (nt : Nat) (reg : Reg) (t : ExprType) :
    GMore (compileExprAs sy e nt reg t) := by
  unfold EB.compileExprAs
  exact .left (.compileExpr _ _ _ _) (.compileExpr _ _ _ _) fun _ => .castTo _ _ _ _

/-- A compilation function that appends something. -/
def SMore {α : Type} (x : CS α) : Prop :=
  ∀ c a c', Inv c → x c = .ok (a, c') → c.cg.code.length < c'.cg.code.length

namespace SMore
variable {α β : Type}

theorem right {x : CS α} {f : α → CS β} (hx : SStep x) (hf : ∀ a, SMore (f a)) : SMore (x >>= f) := by
  intro c b c' hi h
  obtain ⟨a, c1, h1, h2⟩ := CM.bind_ok.1 h
  have e1 := hx c.cg.code.length _ _ _ hi (Nat.le_refl _) h1
  have := hf a _ _ _ e1.inv h2
  have := e1.len
  omega

theorem onCg {x : CG α} (hx : GMore x) : SMore (onCg x) := by
  intro c a c' hi h
  obtain ⟨g, h1, rfl⟩ := onCg_ok.1 h
  exact hx _ _ _ hi.lens h1

theorem withSyms {f : Syms → CG α} (hx : ∀ sy, GMore (f sy)) : SMore (withSyms f) := by
  intro c a c' hi h
  obtain ⟨g, h1, rfl⟩ := withSyms_ok.1 h
  exact hx _ _ _ _ hi.lens h1

theorem assignErr {x : CS α} (hx : SMore x) : SMore (assignErr x) := fun c a c' hi h => hx c a c' hi (assignErr_ok h)

end SMore

theorem SMore.compileAssign (v : VarRef) (pos : LineCol) (e : Expr) : SMore (compileAssign v pos e) := by
  intro c a c' hi h
  unfold EB.compileAssign at h
  obtain ⟨r, c1, h1, h2⟩ := CM.bind_ok.1 h
  obtain ⟨reg, et, wd⟩ := r
  have e1 : Ext c.cg.code.length c c1 := by
    rcases assignDest_ok h1 with ⟨_, _, _, _, rfl⟩ | ⟨_, _, sy, _, _, hp, _, rfl⟩
    · exact .refl hi
    · obtain ⟨hk, hr, rfl⟩ := putLocal_ok hp
      have := (mkLocal_lt hr).1
      exact ext_locals hi (IdMap.ext_insert_new hk) (by rw [IdMap.len_insert_new]; omega)
  have := e1.len
  cases et with
  | some t =>
    simp only at h2
    split at h2
    · have := SMore.assignErr (.withSyms fun sy => .right (.lift _) fun _ =>
        .left (.compileExprAs _ _ _ _ _) (.compileExprAs _ _ _ _ _) fun _ => .bind (.emit _ _ rfl) fun _ => .pure _) _ _ _ e1.inv h2
      omega
    · have := SMore.assignErr (.withSyms fun sy => .compileExprAs _ _ _ _ _) _ _ _ e1.inv h2
      omega
  | none =>
    simp only at h2
    obtain ⟨t, c2, hw, h3⟩ := CM.bind_ok.1 h2
    obtain ⟨p, id, hg, rfl⟩ := fixupTypeS_ok h3
    have := SMore.withSyms (fun sy => .compileExpr _ _ _ _) _ _ _ e1.inv hw
    simp only
    omega

theorem SMore.compileCallStmt (v : VarRef) (pos : LineCol) (args : Args) : SMore (compileCallStmt v pos args) := by
  intro c a c' hi h
  unfold EB.compileCallStmt at h
  split at h
  · simp at h
  · split at h
    · simp at h
    · split at h
      · simp at h
      · refine (SMore.right (.defineNewArgs _ _ _) fun _ => .withSyms fun sy => ?_) c a c' hi h
        exact .right (.compileArgs _ _ _ _ _) fun _ => .emitCall _ _ _ _ _ _

theorem SMore.compileArrayAssign (v : VarRef) (pos : LineCol) (subs : List Expr) (e : Expr) :
    SMore (compileArrayAssign v pos subs e) := by
  refine .withSyms fun sy => ?_
  split
  · split
    · exact .throw _
    · exact .right (.lift _) fun _ => .right (.compileExprAs _ _ _ _ _) fun _ => .right (.compileSubs _ _ _ _) fun _ =>
        .right (.lift _) fun _ => .emitThen _ _ fun _ => .pure _
  · exact .throw _
  · exact .throw _
  · exact .throw _

theorem SMore.compileDimArray (name : Str) (pos : LineCol) (shared : Bool) (dims : List Expr) (ty : ExprType) :
    SMore (compileDimArray name pos shared dims ty) := by
  refine .right (.dimVar _ _ _ _) fun _ => .withSyms fun sy => .right (.compileSubs _ _ _ _) fun _ =>
    .right (.lift _) fun _ => ?_
  split
  · exact .throw _
  · exact .emitThen _ _ fun _ => .pure _
  · exact .throw _

theorem SMore.compileEnd (code : Option Expr) (pos : LineCol) : SMore (compileEnd code pos) := by
  have h : SMore (EB.withSyms fun sy => do
      let reg ← CM.lift (allocTemp sy 0 pos)
      match code with
      | some e => EB.compileExprAs sy e 1 reg .integer
      | none => do let _ ← EB.emit (.loadInt reg 0#16) pos
      let _ ← EB.emit (.end reg) pos : CS Unit) := by
    refine .withSyms fun sy => .right (.lift _) fun _ => ?_
    cases code with
    | some e => exact .right (.compileExprAs _ _ _ _ _) fun _ => .emitThen _ _ fun _ => .pure _
    | none => exact .right (.emit _ _ rfl) fun _ => .emitThen _ _ fun _ => .pure _
  unfold EB.compileEnd
  generalize code.bind staticEndCode = o
  cases o with
  | none => exact h
  | some p =>
    simp only
    split
    · exact .right (.throw _) fun _ => h
    · exact h

/-- The statements without code. -/
def Stmt.silent : Stmt → Bool
  | .label .. | .data .. | .declare .. => true
  | _ => false

theorem simple_emits {L : Link} {s : Stmt} {sy sy' : Syms} {a b : Nat} (h : s.simple = true) (hn : s.silent = false)
    (hp : Part L (compileStmtBody s) sy a b sy') : a < b := by
  obtain ⟨c, c', hx, hi, _, _, rfl, rfl, _⟩ := hp
  cases s with
  | arrayAssign => unfold compileStmtBody at hx; exact SMore.compileArrayAssign _ _ _ _ _ _ _ hi hx
  | assign => unfold compileStmtBody at hx; exact SMore.compileAssign _ _ _ _ _ _ hi hx
  | call => unfold compileStmtBody at hx; exact SMore.compileCallStmt _ _ _ _ _ _ hi hx
  | dim =>
    unfold compileStmtBody at hx
    exact SMore.right (.dimVar _ _ _ _) (fun _ => .onCg (.emitDefault _ _ _)) _ _ _ hi hx
  | dimArray => unfold compileStmtBody at hx; exact SMore.compileDimArray _ _ _ _ _ _ _ _ hi hx
  | «end» => unfold compileStmtBody at hx; exact SMore.compileEnd _ _ _ _ _ hi hx
  | onError k =>
    unfold compileStmtBody at hx
    cases k with
    | goto => 
      simp only at hx
      obtain ⟨⟩ := emitFixup_ok.1 hx
      simp [Codegen.addFixup, Codegen.push]
    | _ => 
      simp only at hx
      obtain ⟨_, c1, h1, h2⟩ := CM.bind_ok.1 hx
      cases h2
      exact SMore.onCg (.emit _ _) _ _ _ hi h1
  | _ => first | (simp [Stmt.silent] at hn; done) | (simp [Stmt.simple] at h; done)

theorem silent_still {L : Link} {s : Stmt} {sy sy' : Syms} {a b : Nat} (hn : s.silent = true)
    (hp : Part L (compileStmtBody s) sy a b sy') : a = b := by
  obtain ⟨c, c', hx, hi, _, _, rfl, rfl, _⟩ := hp
  cases s with
  | data =>
    unfold compileStmtBody at hx
    obtain ⟨ds, c1, h1, h2⟩ := CM.bind_ok.1 hx
    obtain ⟨_, _, h1⟩ := CM.lift_ok.1 h1
    cases h1
    have := CM.modify_ok.1 h2
    cases this
    rfl
  | declare =>
    unfold compileStmtBody at hx
    obtain ⟨ds, c1, h1, h2⟩ := CM.bind_ok.1 hx
    cases h1
    split at h2
    · cases h2
    · unfold declareCallable at h2
      split at h2
      · cases h2; rfl
      · cases h2
  | label =>
    unfold compileStmtBody at hx
    dsimp only at hx
    split at hx
    · cases hx
    · cases hx; rfl
  | _ => simp [Stmt.silent] at hn

theorem guard_mono {L : Link} {sy : Syms} {test : Reg} {tt : ExprType} {body a b : Nat} {gs : List CaseGuard}
    (h : GuardCode L sy test tt body a gs b) : a ≤ b := by
  induction h with
  | nil => exact Nat.le_refl _
  | cons hp _ _ _ ih =>
    obtain ⟨g, g', hx, hg, rfl, rfl, _⟩ := hp
    have := (GStep.compileGuard _ _ _ _ _ _ _ _ hg.lens hx).len
    omega

theorem dispatch_mono {L : Link} {sy : Syms} {test : Reg} {tt : ExprType} {a b : Nat} {cs : Cases} {ts : List Nat}
    (h : DispatchCode L sy test tt a cs ts b) : a ≤ b := by
  induction h with
  | nil => exact Nat.le_refl _
  | other _ _ ih => omega
  | cons hg _ _ ih => have := guard_mono hg; omega

theorem cond_mono {L : Link} {sy : Syms} {e : Expr} {a b : Nat} {r : Reg} (h : Piece L sy (condCode sy e) a b r) : a < b := by
  obtain ⟨g, g', hx, hg, rfl, rfl, _⟩ := h
  exact GMore.right (.lift _) (fun _ => .left (.compileExprAs _ _ _ _ _) (.compileExprAs _ _ _ _ _) fun _ => .pure _) _ _ _ hg.lens hx

theorem part_mono {L : Link} {x : CS Unit} (hx : SStep x) {sy sy' : Syms} {a b : Nat} (h : Part L x sy a b sy') : a ≤ b := by
  obtain ⟨c, c', hc, hi, _, _, rfl, rfl, _⟩ := h
  exact (hx _ _ _ _ hi (Nat.le_refl _) hc).len

mutual
theorem stmt_mono {L : Link} {T : Targets} {s : Stmt} {sy sy' : Syms} {a b : Nat} (h : StmtCode L T sy a s b sy') :
    a ≤ b ∧ (s.silent = false → (∀ hb : s = .ifs .nil, False) → a < b) := by
  match h with
  | .simple hs hp =>
    refine ⟨part_mono (.compileStmtBody _) hp, fun hn _ => simple_emits hs hn hp⟩
  | .wild hw hl _ => exact ⟨by omega, fun _ _ => hl⟩
  | .exitDo _ _ => exact ⟨by omega, fun _ _ => by omega⟩
  | .exitFor _ _ => exact ⟨by omega, fun _ _ => by omega⟩
  | .exitFunction _ _ => exact ⟨by omega, fun _ _ => by omega⟩
  | .exitSub _ _ => exact ⟨by omega, fun _ _ => by omega⟩
  | .callable _ _ hp hb _ _ _ =>
    have := part_mono (.prologBody _ _ _) hp
    have := stmts_mono hb
    exact ⟨by omega, fun _ _ => by omega⟩
  | .infinite hb _ => have := stmts_mono hb; exact ⟨by omega, fun _ _ => by omega⟩
  | .preUntil hp _ _ hb _ => have := stmts_mono hb; have := cond_mono hp; exact ⟨by omega, fun _ _ => by omega⟩
  | .preWhile hp _ hb _ => have := stmts_mono hb; have := cond_mono hp; exact ⟨by omega, fun _ _ => by omega⟩
  | .postUntil hb hp _ => have := stmts_mono hb; have := cond_mono hp; exact ⟨by omega, fun _ _ => by omega⟩
  | .postWhile hb hp _ _ => have := stmts_mono hb; have := cond_mono hp; exact ⟨by omega, fun _ _ => by omega⟩
  | .forLoop h1 hp _ hb h2 _ =>
    have := stmts_mono hb
    have := cond_mono hp
    have := part_mono (.bind (.forIter _ _ _) fun _ => .compileAssign _ _ _) h1
    have := part_mono (.compileAssign _ _ _) h2
    exact ⟨by omega, fun _ _ => by omega⟩
  | .ifs hb =>
    have := branches_mono hb
    exact ⟨this.1, fun _ hn => this.2 fun h => hn (by rw [h])⟩
  | .select _ hp hd _ hb =>
    obtain ⟨g, g', hx, hg, rfl, rfl, _⟩ := hp
    have := GMore.compileExpr _ _ _ _ _ _ _ hg.lens hx
    have := dispatch_mono hd
    have := bodies_mono hb
    exact ⟨by omega, fun _ _ => by omega⟩
  | .whileLoop hp _ hb _ => have := stmts_mono hb; have := cond_mono hp; exact ⟨by omega, fun _ _ => by omega⟩
termination_by structural h

theorem stmts_mono {L : Link} {T : Targets} {ss : Stmts} {sy sy' : Syms} {a b : Nat} (h : StmtsCode L T sy a ss b sy') : a ≤ b := by
  match h with
  | .nil => exact Nat.le_refl _
  | .cons h1 _ h2 => have := (stmt_mono h1).1; have := stmts_mono h2; omega
termination_by structural h

theorem branches_mono {L : Link} {T : Targets} {bs : Branches} {sy sy' : Syms} {a b : Nat} (h : BranchesCode L T sy a bs b sy') :
    a ≤ b ∧ (bs ≠ .nil → a < b) := by
  match h with
  | .nil => exact ⟨Nat.le_refl _, fun h => absurd rfl h⟩
  | .last hp _ hb => have := stmts_mono hb; have := cond_mono hp; exact ⟨by omega, fun _ => by omega⟩
  | .cons hp _ hb _ hr =>
    have := stmts_mono hb; have := cond_mono hp; have := (branches_mono hr).1
    exact ⟨by omega, fun _ => by omega⟩
termination_by structural h

theorem bodies_mono {L : Link} {T : Targets} {cs : Cases} {ts : List Nat} {sy sy' : Syms} {a b : Nat} (h : BodiesCode L T sy a cs ts b sy') : a ≤ b := by
  match h with
  | .nil => exact Nat.le_refl _
  | .last hb => exact stmts_mono hb
  | .cons hb _ hr => have := stmts_mono hb; have := bodies_mono hr; omega
termination_by structural h
end

/-- There is a marked instruction where the rest of the statements begins. -/
theorem continues_start {L : Link} {T : Targets} : ∀ {ss : Stmts} {sy sy' : Syms} {a b : Nat}, StmtsCode L T sy a ss b sy' →
    Stmts.continues ss = true → StmtStart L.img a
  | _, _, _, _, _, .nil, hc => by simp [Stmts.continues] at hc
  | .cons s rest, sy, sy', a, b, .cons (m := m) (sy1 := sy1) h1 hm h2, hc => by
    by_cases hs : s.silent = true
    · have hp : Part L (compileStmtBody s) sy a m sy1 := by
        cases h1 with
        | simple _ hp => exact hp
        | wild hw _ _ => cases s <;> first | (simp [Stmt.wild] at hw; done) | (simp [Stmt.silent] at hs)
        | _ => simp [Stmt.silent] at hs
      have := silent_still hs hp
      subst this
      refine continues_start h2 ?_
      cases s <;> first | (simp [Stmt.silent] at hs; done) | exact hc
    · have hs : s.silent = false := by simpa using hs
      have hn : ∀ hb : s = .ifs .nil, False := by
        rintro rfl; simp [Stmts.continues] at hc
      refine hm ?_ ((stmt_mono h1).2 hs hn)
      cases s <;> first | rfl | (simp [Stmt.silent] at hs; done) | (simp [Stmts.continues] at hc; done)

/-- Where the machine goes on after an error in a statement. -/
theorem resume_at {L : Link} {T : Targets} {s : Stmt} {rest : Stmts} {sy sy1 sy' : Syms} {a m b : Nat} (hs : Stmt.plain s = true)
    (hn : s.silent = false) (h1 : StmtCode L T sy a s m sy1) (h2 : StmtsCode L T sy1 m rest b sy')
    (hc : Stmts.continues rest = true) : nextStmtStart L.img a = m := by
  have hlt := (stmt_mono h1).2 hn (by rintro rfl; simp [Stmt.plain] at hs)
  have hp : Part L (compileStmtBody s) sy a m sy1 := by
    cases h1 with
    | simple _ hp => exact hp
    | wild _ _ hp => exact hp
    | _ => simp [Stmt.plain] at hs
  obtain ⟨c, c', hx, hi, _, _, rfl, rfl, _, hl, _⟩ := hp
  obtain ⟨k, hk⟩ : ∃ k, c'.cg.code.length = k + 1 := ⟨c'.cg.code.length - 1, by omega⟩
  have h3 : Inside L.img c.cg.code.length k := hl.inside k (by omega) (by omega)
  rw [← h3, hk]
  exact nextStmtStart_marked (hk ▸ continues_start h2 hc)

end EB
