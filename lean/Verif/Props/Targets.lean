import Verif.Props.Valid
/-!
# Where jumps and calls go (C21)

`C21_targets_inside` and `C21_labels` are in `Props/Compiler.lean`.
-/

namespace EB
open Spec

/-! ## Labels and callables that are not there -/

/-- `st` is one of the statements of a program, at any depth. -/
def Occurs (st : Stmt) (ss : Stmts) : Prop := ∃ rest, Sub (.cons st rest) ss

mutual
theorem resolved_block {L D : Str → Prop} {b : Stmts} : (s : Stmt) → (Γ : Env) → b ∈ blocks s → StmtResolved L D Γ s →
    ∃ Γ', StmtsResolved L D Γ' b := by
  intro s Γ hb h
  cases s with
  | callable name pos params body endPos =>
    simp only [blocks, List.mem_singleton] at hb; subst hb
    exact ⟨_, h⟩
  | doLoop guard body =>
    simp only [blocks, List.mem_singleton] at hb; subst hb
    exact ⟨_, h.2⟩
  | forLoop iter pos double start stop next body =>
    simp only [blocks, List.mem_singleton] at hb; subst hb
    exact ⟨_, h.2.2.1⟩
  | whileLoop e body =>
    simp only [blocks, List.mem_singleton] at hb; subst hb
    exact ⟨_, h.2⟩
  | ifs branches => exact resolved_branches branches Γ hb h
  | select e cases pos => exact resolved_cases cases Γ hb h.2.2
  | _ => simp [blocks] at hb

theorem resolved_branches {L D : Str → Prop} {b : Stmts} : (bs : Branches) → (Γ : Env) → b ∈ branchBodies bs →
    BranchesResolved L D Γ bs → ∃ Γ', StmtsResolved L D Γ' b := by
  intro bs Γ hb h
  cases bs with
  | nil => simp [branchBodies] at hb
  | cons g body rest =>
    rcases List.mem_cons.1 hb with rfl | hb
    · exact ⟨_, h.2.1⟩
    · exact resolved_branches rest _ hb h.2.2

theorem resolved_cases {L D : Str → Prop} {b : Stmts} : (cs : Cases) → (Γ : Env) → b ∈ caseBodies cs →
    CasesResolved L D Γ cs → ∃ Γ', StmtsResolved L D Γ' b := by
  intro cs Γ hb h
  cases cs with
  | nil => simp [caseBodies] at hb
  | cons g body rest =>
    rcases List.mem_cons.1 hb with rfl | hb
    · exact ⟨_, h.1⟩
    · exact resolved_cases rest _ hb h.2
end

theorem resolved_sub {L D : Str → Prop} {sub ss : Stmts} (hs : Sub sub ss) {Γ : Env} (h : StmtsResolved L D Γ ss) :
    ∃ Γ', StmtsResolved L D Γ' sub := by
  induction hs generalizing Γ with
  | here => exact ⟨Γ, h⟩
  | later _ ih => exact ih h.2
  | inside hb _ ih =>
    obtain ⟨Γ', h'⟩ := resolved_block _ _ hb h.1
    exact ih h'

/-- C21: if a chunk is accepted then every label that one of its statements jumps to stands in it or in an earlier
accepted chunk. -/
theorem C21_label_exists {up : FMap Str Md} {defs : List GlobalDef} (hup : ∀ k md, up.get? k = some md → md.userDefined = false)
    {c c' : Ctx} {img img' : Image} {B : Before} {src : Source} (h : Sofar up defs c img B)
    (hm : compileMore src c img = (.ok (), c', img')) {st : Stmt} {label : Str} {mk : U16 → Instr}
    (hst : jumpTo st = some (label, mk)) (ho : Occurs st src.stmts) : symKey label ∈ B.labels ++ labelsStmts src.stmts := by
  obtain ⟨rest, hs⟩ := ho
  obtain ⟨Γ, h1, h2⟩ := resolved_sub hs (C58_accepted hup h hm).2.resolved
  clear h2
  cases st <;> simp [jumpTo] at hst
  case goto l pos => obtain ⟨rfl, rfl⟩ := hst; exact h1
  case gosub l pos => obtain ⟨rfl, rfl⟩ := hst; exact h1
  case onError o =>
    cases o <;> simp at hst
    obtain ⟨rfl, rfl⟩ := hst; exact h1

/-- C21: a chunk that jumps to a label that stands nowhere is rejected, and nothing changes. -/
theorem C21_unknown_label {up : FMap Str Md} {defs : List GlobalDef} (hup : ∀ k md, up.get? k = some md → md.userDefined = false)
    {c : Ctx} {img : Image} {B : Before} {src : Source} (h : Sofar up defs c img B) {st : Stmt} {label : Str}
    {mk : U16 → Instr} (hst : jumpTo st = some (label, mk)) (ho : Occurs st src.stmts)
    (hno : symKey label ∉ B.labels ++ labelsStmts src.stmts) : ∃ e, compileMore src c img = (.error e, c, img) := by
  cases hm : compileMore src c img with
  | mk r s =>
    cases r with
    | ok u => exact absurd (C21_label_exists hup h (c' := s.1) (img' := s.2) hm hst ho) hno
    | error e => exact ⟨e, by have := compileMore_err hm; rw [← this.1, ← this.2]⟩

/-- A jump out of a loop to a label that is not there. -/
def Ex.lost : String := "DO
GOTO @away
LOOP
@here"

example (c : Ctx) (hc : Compiler.new [] [] = .ok c) : ∃ e, compileMore (Ex.text Ex.lost) c .default = (.error e, c, .default) := by
  refine C21_unknown_label (up := []) (defs := []) (fun k md h => by cases h) (.start hc) (st := .goto "away".toList ⟨2, 6⟩) rfl
    ⟨.nil, ?_⟩ ?_
  · exact .inside (block := .cons (.goto "away".toList ⟨2, 6⟩) .nil) (s := .doLoop .infinite (.cons (.goto "away".toList ⟨2, 6⟩) .nil))
      (by simp [blocks]) .here
  · decide +kernel

/-! ## Calls of the callables of the program -/

/-- What is left of a part of a chunk that was compiled between `c4` and `c2`. -/
theorem placed_of_keep {sub : Stmts} {c3 c4 c2 : Ctx} {u : Unit} {img : Image} (h : compileStmts sub c3 = .ok (u, c4))
    (K : Keep c3.cg.code.length c4 c2) (hlt : c2.cg.code.length < img.code.length)
    (hall : ∀ i, c3.cg.code.length ≤ i → i < c2.cg.code.length →
        (img.instrs[i]?).map (·.linecol) = (c2.cg.instrs[i]?).map (·.linecol) ∧
        (¬ Pending c2 i → img.code[i]? = c2.cg.code[i]?)) : Placed sub img c3.cg.code.length := by
  refine ⟨c3, c4, u, h, rfl, Nat.lt_of_le_of_lt K.len hlt, fun i hlo hhi => ?_⟩
  obtain ⟨h1, h2⟩ := hall i hlo (Nat.lt_of_lt_of_le hhi K.len)
  refine ⟨h1.trans (K.lines i hhi), fun hp => ?_⟩
  rw [h2 ?_]
  · exact K.code i hlo hhi fun ho => hp (.inl ho)
  · rintro (ho | hf)
    · rcases K.opened i ho with h | h
      · exact hp (.inl h)
      · omega
    · refine hp (.inr ?_)
      by_cases he : c2.cg.fixups.get? i = c4.cg.fixups.get? i
      · rw [← he]; exact hf
      · have := K.fixups i he; omega

theorem putParams_len {pos : LineCol} : ∀ {ps : List VarRef} {c c' : Ctx} {u : Unit}, putParams pos ps c = .ok (u, c') →
    c'.cg = c.cg := by
  intro ps
  induction ps with
  | nil => intro c c' u h; cases h; rfl
  | cons p ps ih =>
    intro c c' u h
    unfold putParams at h
    seq h r c1 h1
    rw [ih h]
    unfold putLocalS at h1
    split at h1
    · cases h1; rfl
    · simp at h1

theorem prolog_len {name : VarRef} {pos : LineCol} {params : List VarRef} {c c' : Ctx} {u : Unit}
    (h : prologBody name pos params c = .ok (u, c')) :
    c'.cg.code.length = c.cg.code.length + (if name.ty.isSome then 1 else 0) := by
  unfold prologBody at h
  cases ht : name.ty with
  | none =>
    rw [ht] at h
    simp only at h
    rw [putParams_len h]
    simp
  | some t =>
    rw [ht] at h
    simp only at h
    seq h r c1 h1
    have e1 : c1.cg.code.length = c.cg.code.length := by
      unfold putLocalS at h1
      split at h1
      · cases h1; rfl
      · simp at h1
    have hfin : ∀ {c2 : Ctx} {val : U16}, c2.cg.code.length = c1.cg.code.length →
        (do let _ ← onCg (emit (.loadInt r val) pos); putParams pos params : CS Unit) c2 = .ok (u, c') →
        c'.cg.code.length = c.cg.code.length + 1 := by
      intro c2 val e2 h
      seq h a c3 h3
      have := emit_ok.1 h3
      cases this
      rw [putParams_len h]
      simp [Codegen.push, e1, e2]
    cases t <;> simp only at h <;> seq h val c2 h2
    · cases h2; exact hfin rfl h
    · obtain ⟨g, hg, rfl⟩ := onCg_ok.1 h2
      exact hfin (by rw [(getConstant_ok hg).2.1]) h
    · cases h2; exact hfin rfl h
    · obtain ⟨g, hg, rfl⟩ := onCg_ok.1 h2
      exact hfin (by rw [(getConstant_ok hg).2.1]) h

/-- Where the definition of a callable is: a jump over it, the value of the function, the body. -/
theorem placed_callable {src : Source} {c c' : Ctx} {img img' : Image} {u : Unit} (hs : Synced c img)
    (h : compileMore src c img = (.ok u, c', img')) {name : VarRef} {pos endPos : LineCol} {params : List VarRef} {body rest : Stmts}
    (hsub : Sub (.cons (.callable name pos params body endPos) rest) src.stmts) :
    ∃ a e, c'.cg.callables.get? (symKey name.name) = some (a + 1, e) ∧
      Placed (.cons (.callable name pos params body endPos) rest) img' a ∧
      Placed body img' (a + 1 + (if name.ty.isSome then 1 else 0)) := by
  obtain ⟨c1, v, c2, h2, hi1, hlt, _, hcal, _, _, hall⟩ := found hs h hsub
  have hplace : Placed (.cons (.callable name pos params body endPos) rest) img' c1.cg.code.length :=
    ⟨c1, c2, v, h2, rfl, hlt, fun i a b => ⟨(hall i a b).1, (hall i a b).2.1⟩⟩
  unfold compileStmts at h2
  seq h2 st c3 h3
  obtain ⟨rfl, rfl⟩ := pcNow_eq h3
  seq h2 u1 c4 h4
  have e4 := SStep.compileStmtBody _ 0 _ _ _ hi1 (Nat.zero_le _) h4
  seq h2 u2 c5 h5
  have e5 := ext_markIf (n := 0) e4.inv (Nat.zero_le _) h5
  have K5 : Keep 0 c4 c5 := (Keep.refl _ _).markIf h5
  have K6 : Keep 0 c4 c2 := K5.step e5.inv (SStep.compileStmts rest) h2
  unfold compileStmtBody at h4
  seq h4 w1 d1 g1
  have E1 := SStep.declareCallable _ _ _ 0 _ _ _ hi1 (Nat.zero_le _) g1
  seq h4 w2 d2 g2
  have := CM.get_ok.1 g2; cases this
  split at h4
  · simp [CM.throw] at h4
  next hd =>
  split at h4
  · simp [CM.throw] at h4
  next hc =>
  seq h4 r d3 g3
  obtain ⟨skip, start⟩ := r
  seq h4 w4 d4 g4
  obtain ⟨g3', hr⟩ := callableProlog_ok.1 g3
  have hl1 : d1.cg.code.length = c1.cg.code.length := by
    unfold declareCallable at g1
    split at g1
    · cases g1; rfl
    · simp at g1
  have hl3 : d3.cg.code.length = c1.cg.code.length + 1 + (if name.ty.isSome then 1 else 0) := by
    rw [prolog_len g3']
    simp only [enterScope, Codegen.push, List.length_append, List.length_singleton, hl1]
  have hc0 : Ext 0 d1 { d1 with cg := d1.cg.push .nop pos } := ext_emit E1.inv (Nat.zero_le _) (by simp [Instr.targets])
  have hcs : Inv (enterScope name { d1 with cg := d1.cg.push .nop pos }) :=
    { hc0.inv with locals := IdMap.wf_empty, localLimit := Nat.zero_le _, calNone := by simp [enterScope] }
  have E3 := SStep.prologBody name pos params 0 _ _ _ hcs (Nat.zero_le _) g3'
  have E4 := SStep.compileStmts body 0 _ _ _ E3.inv (Nat.zero_le _) g4
  cases hr
  have hnk : d4.cg.callables.get? (symKey name.name) = none := by
    cases hk : d4.cg.callables.get? (symKey name.name) with
    | none => rfl
    | some v =>
      have := E4.inv.defined _ _ hk
      rw [(E3.trans E4).inside (by simp [enterScope])] at this
      exact absurd (List.contains_iff_mem.2 this) hd
  have K4 : Keep d3.cg.code.length d4 c4 := (Keep.refl _ _).epilog E4.inv.lens (by rw [hl3, hl1]; omega) hnk h4
  have K : Keep d3.cg.code.length d4 c2 := K4.trans (K6.weaken (Nat.zero_le _))
  have hcal4 : ∃ e, c4.cg.callables.get? (symKey name.name) = some (c1.cg.code.length + 1, e) := by
    unfold callableEpilog at h4
    seq h4 ret f1 k1
    seq h4 cx f2 k2
    have := CM.get_ok.1 k2; cases this
    seq h4 x3 f3 k3
    seq h4 skipAddr f4 k4
    seq h4 x5 f5 k5
    have := CM.modify_ok.1 k5; cases this
    seq h4 x6 f6 k6
    have := CM.modify_ok.1 h4; cases this
    obtain ⟨t, _, k7⟩ := patchJump_ok.1 k6
    cases k7
    exact ⟨skipAddr, by simp only [Codegen.patch, Codegen.defineCallable, FMap.get?_insert, if_pos, hl1]⟩
  obtain ⟨e, he⟩ := hcal4
  refine ⟨c1.cg.code.length, e, hcal _ _ (K6.callables _ _ he), hplace, ?_⟩
  rw [← hl3]
  refine placed_of_keep g4 K hlt fun i a b => ?_
  have := hall i (by omega) b
  exact ⟨this.1, this.2.1⟩

theorem sofar_builtin {up : FMap Str Md} {defs : List GlobalDef} {c : Ctx} {img : Image} {B : Before}
    (h : Sofar up defs c img B) : Synced c img ∧ c.sy.upcalls = up := by
  induction h with
  | start h =>
    refine ⟨synced_of_reached ⟨_, _, _, h, .refl _⟩, ?_⟩
    unfold Compiler.new at h
    simp only at h
    split at h
    next u c' hx =>
      cases h
      seq hx arrays c1 h1
      seq hx u1 c2 h2
      seq hx u2 c3 h3
      have := CM.pure_ok.1 hx; cases this
      have hi := inv_init up
      obtain ⟨E1, l1⟩ := (Ext.refl (n := 0) hi).step (Nat.zero_le _) (.prepareScalars _) h1
      obtain ⟨E2, l2⟩ := E1.step (Nat.zero_le _) (.prepareArrays _) h2
      have h3' := emit_ok.1 h3
      cases h3'
      exact E2.builtin
    next => cases h
  | accepted _ hm ih =>
    obtain ⟨d, hc, _⟩ := compileMore_ok hm
    obtain ⟨cE, h1, _, hinv, E, code, hcode, heq, _⟩ := compileTop_ok ih.1.idle hc
    refine ⟨synced_of_later (s := (_, _)) (s' := (_, _)) (.more (.refl _) ⟨_, hm⟩) ih.1, ?_⟩
    rw [heq]
    exact E.builtin.trans ih.2
  | rejected _ hm ih =>
    have := compileMore_err hm
    rw [this.1, this.2]
    exact ih

theorem callables_later {s s' : Ctx × Image} (hl : Later s s') (hs : Synced s.1 s.2) {k : Str} {v : Nat × Nat}
    (hk : s.1.cg.callables.get? k = some v) : s'.1.cg.callables.get? k = some v := by
  induction hl with
  | refl => exact hk
  | @more src s1 s2 hl' hm ih =>
    have hs1 := synced_of_later hl' hs
    obtain ⟨r, h⟩ := hm
    cases r with
    | error e => rw [(compileMore_err h).1]; exact ih
    | ok u =>
      obtain ⟨d, hc, _⟩ := compileMore_ok h
      obtain ⟨cE, h1, _, hinv, E, code, hcode, heq, _⟩ := compileTop_ok hs1.idle hc
      rw [heq]
      exact E.callables _ _ ih

/-- C21: calls go to what they name.  If a command that is called in an accepted chunk is not a built-in one, and is
defined in that chunk or an earlier accepted one, then the code of the call ends with a call instruction.  Its target is
the address behind the first instruction of the code of the definition.  There the value of a function is set, and then
comes the body. -/
theorem C21_calls {up : FMap Str Md} {defs : List GlobalDef} (hup : ∀ k md, up.get? k = some md → md.userDefined = false)
    {s0 s1 s s' : Ctx × Image} {src0 src : Source} {B : Before} (hr : Reached s0.1 s0.2)
    (h0 : compileMore src0 s0.1 s0.2 = (.ok (), s1)) (hl : Later s1 s')
    (hso : Sofar up defs s.1 s.2 B) (h1 : compileMore src s.1 s.2 = (.ok (), s'))
    {name v : VarRef} {pos npos endPos : LineCol} {args : Args} {params : List VarRef} {body rest rest0 : Stmts}
    (hname : symKey name.name = symKey v.name) (hb : up.get? (symKey v.name) = none)
    (hsub : Sub (.cons (.call v pos args) rest) src.stmts)
    (hsub0 : Sub (.cons (.callable name npos params body endPos) rest0) src0.stmts) :
    ∃ a b d reg t, Placed (.cons (.call v pos args) rest) s'.2 a ∧ a ≤ b ∧ s'.2.code[b]? = some (.call reg t) ∧
      Placed rest s'.2 (b + 1) ∧ Placed (.cons (.callable name npos params body endPos) rest0) s'.2 d ∧ t.toNat = d + 1 ∧
      Placed body s'.2 (t.toNat + (if name.ty.isSome then 1 else 0)) := by
  have hs0 := synced_of_reached hr
  have hs := (sofar_builtin hso).1
  have hs1 : Synced s1.1 s1.2 := synced_of_later (.more (.refl s0) ⟨.ok (), h0⟩) hs0
  obtain ⟨d, e, hcal, hpl, hplb⟩ := placed_callable hs0 h0 hsub0
  have hcal' := callables_later hl hs1 hcal
  have hpl' := placed_later hs1 hl hpl
  have hplb' := placed_later hs1 hl hplb
  obtain ⟨c1, w, c2, h2, hi1, hlt, _, _, huser, hbuilt, hall⟩ := found hs h1 hsub
  have hplace : Placed (.cons (.call v pos args) rest) s'.2 c1.cg.code.length :=
    ⟨c1, c2, w, h2, rfl, hlt, fun i a b => ⟨(hall i a b).1, (hall i a b).2.1⟩⟩
  obtain ⟨_, H'⟩ := sofar_here hup (.accepted hso (c' := s'.1) (img' := s'.2) h1)
  have hup' : s'.1.sy.upcalls = up := (sofar_builtin (.accepted hso (c' := s'.1) (img' := s'.2) h1)).2
  unfold compileStmts at h2
  seq h2 st c3 h3
  obtain ⟨rfl, rfl⟩ := pcNow_eq h3
  seq h2 u1 c4 h4
  have e4 := SStep.compileStmtBody _ 0 _ _ _ hi1 (Nat.zero_le _) h4
  seq h2 u2 c5 h5
  have e5 := ext_markIf (n := 0) e4.inv (Nat.zero_le _) h5
  have e6 := SStep.compileStmts rest 0 _ _ _ e5.inv (Nat.zero_le _) h2
  have l5 : c5.cg.code.length = c4.cg.code.length := by
    unfold markIf at h5
    split at h5 <;> cases h5 <;> rfl
  unfold compileStmtBody compileCallStmt at h4
  split at h4
  · simp at h4
  next md hmd =>
  split at h4
  · simp at h4
  split at h4
  · simp at h4
  next syn hsyn =>
  have hu : md.userDefined = true := by
    unfold Syms.getCallable at hmd
    cases hk : c1.sy.user.get? (symKey v.name) with
    | some md' =>
      rw [hk] at hmd
      cases hmd
      exact H'.user _ _ (huser _ _ (((e4.trans e5).trans e6).user _ _ hk))
    | none =>
      rw [hk] at hmd
      simp only at hmd
      have : c1.sy.upcalls = up := by rw [← hup', hbuilt, ((e4.trans e5).trans e6).builtin]
      rw [this, hb] at hmd
      cases hmd
  seq h4 x1 d1 g1
  obtain ⟨g, g2, rfl⟩ := withSyms_ok.1 h4
  have eD := SStep.defineNewArgs _ _ _ 0 _ _ _ hi1 (Nat.zero_le _) g1
  seq g2 fl gg g3
  obtain ⟨first, lcs⟩ := fl
  have eA := (GStep.compileArgs _ _ _ _ _ _ _ _ eD.inv.lens g3).len
  simp only at g2
  unfold emitCall at g2
  rw [if_pos hu] at g2
  seq g2 ad g4 k1
  cases k1
  cases g2
  have hL : gg.code.length + 1 = c5.cg.code.length := by
    rw [l5]
    simp [Codegen.addFixup, Codegen.setArgs, Codegen.push]
  have hl6 := e6.len
  have hle : c1.cg.code.length ≤ gg.code.length := Nat.le_trans eD.len eA
  have hf5 : c5.cg.fixups.get? gg.code.length = some (.call first (symKey v.name)) := by
    have : c5.cg.fixups = (gg.fixups.insert gg.code.length (.call first (symKey v.name))) := by
      unfold markIf at h5
      split at h5 <;> cases h5 <;> rfl
    rw [this]
    simp only [FMap.get?_insert, if_pos]
  have hfx : c2.cg.fixups.get? gg.code.length = some (.call first (symKey v.name)) := by
    by_contra hne
    have := e6.fixups gg.code.length (by rw [hf5]; exact hne)
    omega
  obtain ⟨m, ins, _, hins, hat⟩ := (hall gg.code.length hle (by omega)).2.2 _ hfx
  unfold Codegen.fixupInstr at hins
  simp only at hins
  rw [← hname, hcal'] at hins
  simp only at hins
  split at hins
  next t hm =>
    cases hins
    have ht := mkTarget_ok hm
    refine ⟨_, gg.code.length, d, first, t, hplace, hle, hat, ?_, hpl', ht, ?_⟩
    · rw [hL]
      exact placed_of_keep h2 (Keep.refl _ _) hlt fun i a b => ⟨(hall i (by omega) b).1, (hall i (by omega) b).2.1⟩
    · rw [ht]; exact hplb'
  · simp at hins

/-- `SUB greet(n%)` / `x = n% + one%` / `END SUB`, behind its call and a function. -/
def Ex.greet : Stmt := .callable ⟨"greet".toList, none⟩ ⟨6, 5⟩ [⟨"n".toList, some .integer⟩]
  (.cons (.assign ⟨"x".toList, none⟩ ⟨7, 1⟩ (.bin .add (.sym ⟨"n".toList, some .integer⟩ ⟨7, 5⟩) (.sym ⟨"one".toList, some .integer⟩ ⟨7, 10⟩) ⟨7, 8⟩)) .nil) ⟨8, 1⟩
/-- … `greet 3` -/
def Ex.greets : Stmt := .call ⟨"Greet".toList, none⟩ ⟨2, 1⟩ (.cons (.int 3#32 ⟨2, 7⟩) .end ⟨2, 8⟩ .nil)
/-- … the program. -/
def Ex.callee : Source :=
  ⟨.cons (.declare ⟨"greet".toList, none⟩ ⟨1, 13⟩ [⟨"n".toList, some .integer⟩])
  (.cons Ex.greets
  (.cons (.callable ⟨"one".toList, some .integer⟩ ⟨3, 10⟩ [] (.cons (.assign ⟨"one".toList, some .integer⟩ ⟨4, 1⟩ (.int 1#32 ⟨4, 8⟩)) .nil) ⟨5, 1⟩)
  (.cons Ex.greet .nil))), none⟩
/-- … and what it is compiled to. -/
@[irreducible] def Ex.called : Ctx × Image := (compileMore Ex.callee Ex.start .default).2

theorem Ex.called_ok : compileMore Ex.callee Ex.start .default = (.ok (), Ex.called.1, Ex.called.2) := by
  unfold Ex.called; exact Ex.done (by decide +kernel)

example : ∃ (b d : Nat) (reg : Reg) (t : U16), Ex.called.2.code[b]? = some (Instr.call reg t) ∧ Placed (.cons Ex.greet .nil) Ex.called.2 d ∧ t.toNat = d + 1 := by
  obtain ⟨_, b, d, reg, t, _, _, h1, _, h2, h3, _⟩ := C21_calls (up := []) (defs := []) (fun k md h => by cases h)
    (s0 := (Ex.start, .default)) (s := (Ex.start, .default)) (s' := Ex.called)
    Ex.reached0 Ex.called_ok (.refl _) (.start Ex.start_new) Ex.called_ok (name := ⟨"greet".toList, none⟩) (v := ⟨"Greet".toList, none⟩) rfl rfl (.later .here) (.later (.later (.later .here)))
  exact ⟨b, d, reg, t, h1, h2, h3⟩

example : Ex.called.2.code = [.loadInt 64#8 3#16, .call 64#8 7#16, .jump 6#16, .loadInt 64#8 0#16, .loadInt 64#8 1#16, .ret,
    .jump 11#16, .move 65#8 64#8, .call 66#8 3#16, .bin .addI 65#8 65#8 66#8, .ret, .eof] := by decide +kernel

end EB
