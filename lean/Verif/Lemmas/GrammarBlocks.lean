import Verif.Spec.Accepted
/-!
# Loops are closed in what the parser accepts
-/

namespace EB
open Spec

/-! ## Blocks are closed -/

/-- How often a token occurs. -/
def occurrences (t : Tok) (ts : List TokSpan) : Nat := ts.countP (fun x => decide (x.tok = t))

/-- The tokens that open and close loops. -/
def loopTok : Tok → Bool
  | .do | .loop | .for | .next => true
  | _ => false

/-- None of the tokens opens or closes a loop. -/
def NoLoopTok (ts : List TokSpan) : Prop := ∀ t ∈ ts, loopTok t.tok = false

/-- None of the tokens is an `EXIT` or a `RESUME`, which come before the same keywords. -/
def Plain (ts : List TokSpan) : Prop := ∀ t ∈ ts, t.tok ≠ .exit ∧ t.tok ≠ .resume

theorem quiet_nil : NoLoopTok [] := by simp [NoLoopTok]

theorem quiet_cons {t : TokSpan} {ts : List TokSpan} : NoLoopTok (t :: ts) ↔ loopTok t.tok = false ∧ NoLoopTok ts := by simp [NoLoopTok]

theorem quiet_append {ts ts' : List TokSpan} : NoLoopTok (ts ++ ts') ↔ NoLoopTok ts ∧ NoLoopTok ts' := by
  simp only [NoLoopTok, List.mem_append]
  exact ⟨fun h => ⟨fun t ht => h t (.inl ht), fun t ht => h t (.inr ht)⟩, fun h t ht => ht.elim (h.1 t) (h.2 t)⟩

theorem plain_cons {t : TokSpan} {ts : List TokSpan} : Plain (t :: ts) ↔ (t.tok ≠ .exit ∧ t.tok ≠ .resume) ∧ Plain ts := by simp [Plain]

theorem plain_append {ts ts' : List TokSpan} : Plain (ts ++ ts') ↔ Plain ts ∧ Plain ts' := by
  simp only [Plain, List.mem_append]
  exact ⟨fun h => ⟨fun t ht => h t (.inl ht), fun t ht => h t (.inr ht)⟩, fun h t ht => ht.elim (h.1 t) (h.2 t)⟩

theorem inExpr_quiet {ts : List TokSpan} (h : ∀ t ∈ ts, Tok.inExpr t.tok = true) : NoLoopTok ts := by
  intro t ht
  have := h t ht
  cases hk : t.tok <;> rw [hk] at this <;> first | rfl | cases this

theorem isLabel_quiet {t : Tok} {l : Str} (h : IsLabel t l) : loopTok t = false := by cases h <;> rfl
theorem isSep_quiet {t : Tok} {l : ArgSep} (h : IsSep t l) : loopTok t = false := by cases h <;> rfl
theorem isType_quiet {t : Tok} {l : ExprType} (h : IsType t l) : loopTok t = false := by cases h <;> rfl
theorem isCaseRel_quiet {t : Tok} {l : CaseRelOp} (h : IsCaseRel t l) : loopTok t = false := by cases h <;> rfl
theorem isCallable_quiet {t : Tok} {v w : VarRef} (h : IsCallable t v w) : loopTok t = false := by cases h <;> rfl

theorem likeArgs_quiet {after : LineCol} {ts : List TokSpan} {a : Args} (h : LikeArgs after ts a) : NoLoopTok ts := by
  induction h with
  | last h => exact inExpr_quiet h.1
  | more h hs _ ih => exact quiet_append.2 ⟨inExpr_quiet h.1, quiet_cons.2 ⟨isSep_quiet hs, ih⟩⟩

theorem isDatum_quiet {F : FloatOps} {ts : List TokSpan} {a : Expr} (h : IsDatum F ts a) : NoLoopTok ts := by
  cases h <;> simp [quiet_cons, quiet_nil, loopTok]

theorem isData_quiet {F : FloatOps} {ts : List TokSpan} {a : List (Option Expr)} (h : IsData F ts a) : NoLoopTok ts := by
  induction h with
  | one h => exact isDatum_quiet h
  | none => exact quiet_nil
  | more h _ ih => exact quiet_append.2 ⟨isDatum_quiet h, quiet_cons.2 ⟨rfl, ih⟩⟩
  | skip _ ih => exact quiet_cons.2 ⟨rfl, ih⟩

theorem isShared_quiet {ts : List TokSpan} {b : Bool} (h : IsShared ts b) : NoLoopTok ts := by
  cases h <;> simp [quiet_cons, quiet_nil, loopTok]

theorem isDimType_quiet {ts : List TokSpan} {ty : ExprType} (h : IsDimType ts ty) : NoLoopTok ts := by
  cases h with
  | default => exact quiet_nil
  | as h => exact quiet_cons.2 ⟨rfl, quiet_cons.2 ⟨isType_quiet h, quiet_nil⟩⟩

theorem isParam_quiet {ts : List TokSpan} {v : VarRef} (h : IsParam ts v) : NoLoopTok ts := by
  cases h with
  | name => exact quiet_cons.2 ⟨rfl, quiet_nil⟩
  | as h => exact quiet_cons.2 ⟨rfl, quiet_cons.2 ⟨rfl, quiet_cons.2 ⟨isType_quiet h, quiet_nil⟩⟩⟩

theorem isParams_quiet {ts : List TokSpan} {v : List VarRef} (h : IsParams ts v) : NoLoopTok ts := by
  induction h with
  | last h => exact quiet_append.2 ⟨isParam_quiet h, quiet_cons.2 ⟨rfl, quiet_nil⟩⟩
  | more h _ ih => exact quiet_append.2 ⟨isParam_quiet h, quiet_cons.2 ⟨rfl, ih⟩⟩

theorem isParamList_quiet {ts : List TokSpan} {v : List VarRef} (h : IsParamList ts v) : NoLoopTok ts := by
  cases h with
  | none => exact quiet_nil
  | some h => exact quiet_cons.2 ⟨rfl, isParams_quiet h⟩

theorem isStep_quiet {F : FloatOps} {p : LineCol} {ts : List TokSpan} {e : Expr} {a b : Bool} (h : IsStep F p ts e a b) : NoLoopTok ts := by
  cases h <;> simp [quiet_cons, quiet_nil, loopTok]

theorem likeGuard_quiet {ts : List TokSpan} {g : CaseGuard} (h : LikeGuard ts g) : NoLoopTok ts := by
  cases h with
  | is h he => exact quiet_cons.2 ⟨rfl, quiet_cons.2 ⟨isCaseRel_quiet h, inExpr_quiet he.1⟩⟩
  | eq he => exact inExpr_quiet he.1
  | to h1 h2 => exact quiet_append.2 ⟨inExpr_quiet h1.1, quiet_cons.2 ⟨rfl, inExpr_quiet h2.1⟩⟩

theorem likeGuards_quiet {ts : List TokSpan} {g : List CaseGuard} (h : LikeGuards ts g) : NoLoopTok ts := by
  induction h with
  | one h => exact likeGuard_quiet h
  | more h _ ih => exact quiet_append.2 ⟨likeGuard_quiet h, quiet_cons.2 ⟨rfl, ih⟩⟩

theorem likeSimple_quiet {F : FloatOps} {after : LineCol} {ts : List TokSpan} {s : Stmt} (h : LikeSimple F after ts s) (hp : Plain ts) :
    NoLoopTok ts := by
  cases h with
  | assign h => exact quiet_cons.2 ⟨rfl, quiet_cons.2 ⟨rfl, inExpr_quiet h.1⟩⟩
  | arrayAssign h h' =>
    exact quiet_cons.2 ⟨rfl, quiet_cons.2 ⟨rfl, quiet_append.2 ⟨inExpr_quiet h.1, quiet_cons.2 ⟨rfl, inExpr_quiet h'.1⟩⟩⟩⟩
  | command h => exact quiet_cons.2 ⟨rfl, inExpr_quiet h.1⟩
  | commandArgs h _ _ => exact quiet_cons.2 ⟨rfl, likeArgs_quiet h⟩
  | data h => exact quiet_cons.2 ⟨rfl, isData_quiet h⟩
  | «end» h => exact quiet_cons.2 ⟨rfl, inExpr_quiet h.1⟩
  | exitDo | exitFor | exitFunction | exitSub => exact absurd rfl (plain_cons.1 hp).1.1
  | gosub h | goto h => exact quiet_cons.2 ⟨rfl, quiet_cons.2 ⟨isLabel_quiet h, quiet_nil⟩⟩
  | onErrorGoto h _ => exact quiet_cons.2 ⟨rfl, quiet_cons.2 ⟨rfl, quiet_cons.2 ⟨rfl, quiet_cons.2 ⟨isLabel_quiet h, quiet_nil⟩⟩⟩⟩
  | onErrorReset => simp [quiet_cons, quiet_nil, loopTok]
  | onErrorResume => exact absurd rfl (plain_cons.1 (plain_cons.1 (plain_cons.1 hp).2).2).1.2
  | «return» => simp [quiet_cons, quiet_nil, loopTok]

/-- Every `DO` has its `LOOP` and every `FOR` its `NEXT`. -/
def Closed (ts : List TokSpan) : Prop :=
  occurrences .do ts = occurrences .loop ts ∧ occurrences .for ts = occurrences .next ts

theorem closed_nil : Closed [] := ⟨rfl, rfl⟩

theorem closed_append {ts ts' : List TokSpan} (h : Closed ts) (h' : Closed ts') : Closed (ts ++ ts') := by
  simp only [Closed, occurrences, List.countP_append] at *
  omega

theorem closed_cons {t : TokSpan} {ts : List TokSpan} (ht : loopTok t.tok = false) (h : Closed ts) : Closed (t :: ts) := by
  obtain ⟨t, p⟩ := t
  simp only [Closed, occurrences, List.countP_cons] at *
  cases t <;> first | exact absurd ht (by decide) | simpa using h

theorem closed_quiet {ts : List TokSpan} (h : NoLoopTok ts) : Closed ts := by
  induction ts with
  | nil => exact closed_nil
  | cons t ts ih => exact closed_cons (quiet_cons.1 h).1 (ih (quiet_cons.1 h).2)

theorem closed_do {p r : LineCol} {ts ts' : List TokSpan} (h : Closed ts) (h' : Closed ts') :
    Closed (⟨.do, p⟩ :: (ts ++ ⟨.loop, r⟩ :: ts')) := by
  simp only [Closed, occurrences, List.countP_append, List.countP_cons] at *
  simp
  omega

theorem closed_for {p r : LineCol} {ts : List TokSpan} (h : Closed ts) : Closed (⟨.for, p⟩ :: (ts ++ [⟨.next, r⟩])) := by
  simp only [Closed, occurrences, List.countP_append, List.countP_cons] at *
  simp
  omega

theorem accepts_closed {F : FloatOps} {ts : List TokSpan} {p : Portion} (h : Accepts F ts p) (hp : Plain ts) : Closed ts := by
  induction h with
  | simple h => exact closed_quiet (likeSimple_quiet h hp)
  | dim h h' => exact closed_cons rfl (closed_append (closed_quiet (isShared_quiet h)) (closed_cons rfl (closed_quiet (isDimType_quiet h'))))
  | dimArray h h1 _ h2 =>
    exact closed_cons rfl (closed_append (closed_quiet (isShared_quiet h)) (closed_cons rfl (closed_cons rfl
      (closed_append (closed_quiet (inExpr_quiet h1.1)) (closed_quiet (isDimType_quiet h2))))))
  | declare h h' => exact closed_cons rfl (closed_cons (isCallable_quiet h) (closed_cons rfl (closed_quiet (isParamList_quiet h'))))
  | @doForever p q tb ss r _ _ ih =>
    simp only [plain_cons, plain_append] at hp
    exact closed_do (ts := ⟨.eol, q⟩ :: tb) (closed_cons rfl (ih hp.2.2.1)) closed_nil
  | @doUntil p u te e q tb ss r _ h _ ih =>
    simp only [plain_cons, plain_append] at hp
    have := closed_do (p := p) (r := r) (ts := ⟨.until, u⟩ :: (te ++ ⟨.eol, q⟩ :: tb))
      (closed_cons rfl (closed_append (closed_quiet (inExpr_quiet h.1)) (closed_cons rfl (ih hp.2.2.2.2.1)))) closed_nil
    simpa using this
  | @doWhile p u te e q tb ss r _ h _ ih =>
    simp only [plain_cons, plain_append] at hp
    have := closed_do (p := p) (r := r) (ts := ⟨.while, u⟩ :: (te ++ ⟨.eol, q⟩ :: tb))
      (closed_cons rfl (closed_append (closed_quiet (inExpr_quiet h.1)) (closed_cons rfl (ih hp.2.2.2.2.1)))) closed_nil
    simpa using this
  | @loopUntil p q tb ss r u te e _ _ h ih =>
    simp only [plain_cons, plain_append] at hp
    exact closed_do (ts := ⟨.eol, q⟩ :: tb) (closed_cons rfl (ih hp.2.2.1)) (closed_cons rfl (closed_quiet (inExpr_quiet h.1)))
  | @loopWhile p q tb ss r u te e _ _ h ih =>
    simp only [plain_cons, plain_append] at hp
    exact closed_do (ts := ⟨.eol, q⟩ :: tb) (closed_cons rfl (ih hp.2.2.1)) (closed_cons rfl (closed_quiet (inExpr_quiet h.1)))
  | ifLine h h' =>
    simp only [plain_cons, plain_append] at hp
    exact closed_cons rfl (closed_append (closed_quiet (inExpr_quiet h.1)) (closed_cons rfl (closed_quiet (likeSimple_quiet h' hp.2.2.2))))
  | ifLineElse h h1 h2 =>
    simp only [plain_cons, plain_append] at hp
    exact closed_cons rfl (closed_append (closed_quiet (inExpr_quiet h.1)) (closed_cons rfl
      (closed_append (closed_quiet (likeSimple_quiet h1 hp.2.2.2.1)) (closed_cons rfl (closed_quiet (likeSimple_quiet h2 hp.2.2.2.2.2))))))
  | ifLineOnlyElse h h' =>
    simp only [plain_cons, plain_append] at hp
    exact closed_cons rfl (closed_append (closed_quiet (inExpr_quiet h.1)) (closed_cons rfl (closed_cons rfl
      (closed_quiet (likeSimple_quiet h' hp.2.2.2.2)))))
  | ifLineEmptyElse h h1 h2 =>
    simp only [plain_cons, plain_append] at hp
    refine closed_cons rfl (closed_append (closed_quiet (inExpr_quiet h.1)) (closed_cons rfl (closed_append ?_ (closed_cons rfl ?_))))
    · rcases h1 with ⟨rfl, _⟩ | ⟨a, h1, _⟩
      · exact closed_nil
      · exact closed_quiet (likeSimple_quiet h1 hp.2.2.2.1)
    · rcases h2 with ⟨l, rfl⟩ | ⟨rfl, _⟩
      · exact closed_cons rfl closed_nil
      · exact closed_nil
  | ifBlock h _ _ _ ih1 ih2 =>
    simp only [plain_cons, plain_append] at hp
    exact closed_cons rfl (closed_append (closed_quiet (inExpr_quiet h.1)) (closed_cons rfl (closed_cons rfl
      (closed_append (ih1 hp.2.2.2.2.1) (ih2 hp.2.2.2.2.2)))))
  | @forLoop p v ip q ts start to te stop tst step up dbl r tb ss n _ _ h1 h2 h3 _ ih =>
    simp only [plain_cons, plain_append] at hp
    have := closed_for (p := p) (r := n) (ts := ⟨.symbol v, ip⟩ :: ⟨.equal, q⟩ :: (ts ++ ⟨.to, to⟩ :: (te ++ (tst ++ ⟨.eol, r⟩ :: tb))))
      (closed_cons rfl (closed_cons rfl (closed_append (closed_quiet (inExpr_quiet h1.1)) (closed_cons rfl
        (closed_append (closed_quiet (inExpr_quiet h2.1)) (closed_append (closed_quiet (isStep_quiet h3)) (closed_cons rfl
          (ih hp.2.2.2.2.2.2.2.2.1))))))))
    simpa using this
  | callable h h1 _ _ ih =>
    simp only [plain_cons, plain_append] at hp
    exact closed_cons (isCallable_quiet h) (closed_cons rfl (closed_append (closed_quiet (isParamList_quiet h1)) (closed_cons rfl
      (closed_append (ih hp.2.2.2.2.1) (closed_cons rfl (closed_cons (isCallable_quiet h) closed_nil))))))
  | @select p q te e r blank tc cs endPos _ h _ ih =>
    simp only [plain_cons, plain_append] at hp
    refine closed_cons rfl (closed_cons rfl (closed_append (closed_quiet (inExpr_quiet h.1)) (closed_cons rfl
      (closed_append (closed_quiet ?_) (ih hp.2.2.2.2.2)))))
    intro t ht
    obtain ⟨_, _, rfl⟩ := List.mem_map.1 ht
    rfl
  | whileLoop h _ ih =>
    simp only [plain_cons, plain_append] at hp
    exact closed_cons rfl (closed_append (closed_quiet (inExpr_quiet h.1)) (closed_cons rfl
      (closed_append (ih hp.2.2.2.1) (closed_cons rfl closed_nil))))
  | noLines => exact closed_nil
  | blank _ ih => exact closed_cons rfl (ih (plain_cons.1 hp).2)
  | label h _ ih => exact closed_cons (isLabel_quiet h) (ih (plain_cons.1 hp).2)
  | line _ _ ih1 ih2 =>
    simp only [plain_cons, plain_append] at hp
    exact closed_append (ih1 hp.1) (closed_cons rfl (ih2 hp.2.2))
  | endElse h => exact closed_cons rfl (closed_quiet (inExpr_quiet h.1))
  | endIf => exact closed_cons rfl (closed_cons rfl closed_nil)
  | «else» _ ih =>
    simp only [plain_cons, plain_append] at hp
    exact closed_cons rfl (closed_cons rfl (closed_append (ih hp.2.2.1) (closed_cons rfl (closed_cons rfl closed_nil))))
  | elseIf h _ _ _ ih1 ih2 =>
    simp only [plain_cons, plain_append] at hp
    exact closed_cons rfl (closed_append (closed_quiet (inExpr_quiet h.1)) (closed_cons rfl (closed_cons rfl
      (closed_append (ih1 hp.2.2.2.2.1) (ih2 hp.2.2.2.2.2)))))
  | endSelect => exact closed_cons rfl (closed_cons rfl closed_nil)
  | caseElse _ ih =>
    simp only [plain_cons, plain_append] at hp
    exact closed_cons rfl (closed_cons rfl (closed_cons rfl (closed_append (ih hp.2.2.2.1) (closed_cons rfl (closed_cons rfl closed_nil)))))
  | case h _ _ _ ih1 ih2 =>
    simp only [plain_cons, plain_append] at hp
    exact closed_cons rfl (closed_append (closed_quiet (likeGuards_quiet h)) (closed_cons rfl
      (closed_append (ih1 hp.2.2.2.1) (ih2 hp.2.2.2.2))))

end EB
