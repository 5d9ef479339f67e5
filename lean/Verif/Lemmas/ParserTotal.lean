import Verif.Spec.Positions
import Verif.Spec.Crash
import Mathlib.Tactic.SplitIfs
import Mathlib.Tactic.ByContra
/-!
# The parser ends, does not panic, only uses positions of tokens, and builds tidy syntax trees
-/

namespace EB
open Spec

mutual
/-- All positions in an expression satisfy `P`, and it is tidy. -/
def ExprWell (P : LineCol → Prop) : Expr → Prop
  | .bool _ p | .dbl _ p | .int _ p | .text _ p | .sym _ p => P p
  | .un _ e p => ExprWell P e ∧ P p
  | .bin _ l r p => ExprWell P l ∧ ExprWell P r ∧ P p
  | .call _ p args => P p ∧ NoSkip args ∧ ArgsWell P args

/-- All positions in a list of arguments satisfy `P`, and it is tidy. -/
def ArgsWell (P : LineCol → Prop) : Args → Prop
  | .nil => True
  | .cons e _ p rest => ExprWell P e ∧ P p ∧ ArgsWell P rest
  | .skip _ p rest => P p ∧ ArgsWell P rest
end

/-- All positions in the guard of a `DO` satisfy `P`, and it is tidy. -/
def GuardWell (P : LineCol → Prop) : DoGuard → Prop
  | .infinite => True
  | .preUntil e | .preWhile e | .postUntil e | .postWhile e => ExprWell P e

/-- All positions in a guard of a `CASE` satisfy `P`, and it is tidy. -/
def CaseWell (P : LineCol → Prop) : CaseGuard → Prop
  | .is _ e => ExprWell P e
  | .to a b => ExprWell P a ∧ ExprWell P b

mutual
/-- All positions in a statement satisfy `P`, and it is tidy. -/
def StmtWell (P : LineCol → Prop) : Stmt → Prop
  | .arrayAssign _ p subs e => P p ∧ (∀ x ∈ subs, ExprWell P x) ∧ ExprWell P e
  | .assign _ p e => P p ∧ ExprWell P e
  | .call _ p args => P p ∧ ArgsWell P args
  | .callable _ p _ body q => P p ∧ StmtsWell P body ∧ P q
  | .data values => ∀ e, some e ∈ values → ExprWell P e ∧ IsLiteral e
  | .declare _ p _ => P p
  | .dim _ p _ _ => P p
  | .dimArray _ p _ dims _ => P p ∧ dims ≠ [] ∧ ∀ x ∈ dims, ExprWell P x
  | .doLoop g body => GuardWell P g ∧ StmtsWell P body
  | .end code p => (∀ e, code = some e → ExprWell P e) ∧ P p
  | .exitDo p | .exitFor p | .exitFunction p | .exitSub p => P p
  | .forLoop _ p _ a b c body => P p ∧ ExprWell P a ∧ ExprWell P b ∧ ExprWell P c ∧ StmtsWell P body
  | .gosub _ p | .goto _ p | .label _ p | .ret p => P p
  | .ifs bs => BranchesWell P bs
  | .onError (.goto _ p q) => P p ∧ P q
  | .onError (.reset p) | .onError (.resumeNext p) => P p
  | .select e cs p => ExprWell P e ∧ CasesWell P cs ∧ P p
  | .whileLoop e body => ExprWell P e ∧ StmtsWell P body

/-- All positions in some statements satisfy `P`, and it is tidy. -/
def StmtsWell (P : LineCol → Prop) : Stmts → Prop
  | .nil => True
  | .cons s rest => StmtWell P s ∧ StmtsWell P rest

/-- All positions in some branches satisfy `P`, and it is tidy. -/
def BranchesWell (P : LineCol → Prop) : Branches → Prop
  | .nil => True
  | .cons e body rest => ExprWell P e ∧ StmtsWell P body ∧ BranchesWell P rest

/-- All positions in some cases satisfy `P`, and it is tidy. -/
def CasesWell (P : LineCol → Prop) : Cases → Prop
  | .nil => True
  | .cons gs body rest => (∀ g ∈ gs, CaseWell P g) ∧ StmtsWell P body ∧ CasesWell P rest
end

mutual
theorem ExprWell.pos {P : LineCol → Prop} : ∀ {e : Expr}, ExprWell P e → ExprPos P e
  | .bool .., h | .dbl .., h | .int .., h | .text .., h | .sym .., h => h
  | .un _ e _, h => ⟨ExprWell.pos (e := e) h.1, h.2⟩
  | .bin _ l r _, h => ⟨ExprWell.pos (e := l) h.1, ExprWell.pos (e := r) h.2.1, h.2.2⟩
  | .call _ _ args, h => ⟨h.1, ArgsWell.pos (a := args) h.2.2⟩
theorem ArgsWell.pos {P : LineCol → Prop} : ∀ {a : Args}, ArgsWell P a → ArgsPos P a
  | .nil, _ => trivial
  | .cons e _ _ rest, h => ⟨ExprWell.pos (e := e) h.1, h.2.1, ArgsWell.pos (a := rest) h.2.2⟩
  | .skip _ _ rest, h => ⟨h.1, ArgsWell.pos (a := rest) h.2⟩
end

mutual
theorem ExprWell.tidy {P : LineCol → Prop} : ∀ {e : Expr}, ExprWell P e → TidyExpr e
  | .bool .., _ | .dbl .., _ | .int .., _ | .text .., _ | .sym .., _ => trivial
  | .un _ e _, h => ExprWell.tidy (e := e) h.1
  | .bin _ l r _, h => ⟨ExprWell.tidy (e := l) h.1, ExprWell.tidy (e := r) h.2.1⟩
  | .call _ _ args, h => ⟨h.2.1, ArgsWell.tidy (a := args) h.2.2⟩
theorem ArgsWell.tidy {P : LineCol → Prop} : ∀ {a : Args}, ArgsWell P a → TidyArgs a
  | .nil, _ => trivial
  | .cons e _ _ rest, h => ⟨ExprWell.tidy (e := e) h.1, ArgsWell.tidy (a := rest) h.2.2⟩
  | .skip _ _ rest, h => ArgsWell.tidy (a := rest) h.2
end

theorem GuardWell.pos {P : LineCol → Prop} : ∀ {g : DoGuard}, GuardWell P g → GuardPos P g
  | .infinite, _ => trivial
  | .preUntil _, h | .preWhile _, h | .postUntil _, h | .postWhile _, h => ExprWell.pos h

theorem GuardWell.tidy {P : LineCol → Prop} : ∀ {g : DoGuard}, GuardWell P g → TidyGuard g
  | .infinite, _ => trivial
  | .preUntil _, h | .preWhile _, h | .postUntil _, h | .postWhile _, h => ExprWell.tidy h

theorem CaseWell.pos {P : LineCol → Prop} : ∀ {g : CaseGuard}, CaseWell P g → CasePos P g
  | .is .., h => ExprWell.pos h
  | .to .., h => ⟨h.1.pos, h.2.pos⟩

theorem CaseWell.tidy {P : LineCol → Prop} : ∀ {g : CaseGuard}, CaseWell P g → TidyCase g
  | .is .., h => ExprWell.tidy h
  | .to .., h => ⟨h.1.tidy, h.2.tidy⟩

mutual
theorem StmtWell.pos {P : LineCol → Prop} : ∀ {s : Stmt}, StmtWell P s → StmtPos P s
  | .arrayAssign .., h => ⟨h.1, fun x hx => (h.2.1 x hx).pos, h.2.2.pos⟩
  | .assign .., h => ⟨h.1, h.2.pos⟩
  | .call .., h => ⟨h.1, h.2.pos⟩
  | .callable _ _ _ body _, h => ⟨h.1, StmtsWell.pos (ss := body) h.2.1, h.2.2⟩
  | .data _, h => fun e he => (h e he).1.pos
  | .declare .., h | .dim .., h => h
  | .dimArray .., h => ⟨h.1, fun x hx => (h.2.2 x hx).pos⟩
  | .doLoop _ body, h => ⟨h.1.pos, StmtsWell.pos (ss := body) h.2⟩
  | .end .., h => ⟨fun e he => (h.1 e he).pos, h.2⟩
  | .exitDo _, h | .exitFor _, h | .exitFunction _, h | .exitSub _, h => h
  | .forLoop _ _ _ _ _ _ body, h => ⟨h.1, h.2.1.pos, h.2.2.1.pos, h.2.2.2.1.pos, StmtsWell.pos (ss := body) h.2.2.2.2⟩
  | .gosub .., h | .goto .., h | .label .., h | .ret _, h => h
  | .ifs bs, h => BranchesWell.pos (bs := bs) h
  | .onError (.goto ..), h | .onError (.reset _), h | .onError (.resumeNext _), h => h
  | .select _ cs _, h => ⟨h.1.pos, CasesWell.pos (cs := cs) h.2.1, h.2.2⟩
  | .whileLoop _ body, h => ⟨h.1.pos, StmtsWell.pos (ss := body) h.2⟩
theorem StmtsWell.pos {P : LineCol → Prop} : ∀ {ss : Stmts}, StmtsWell P ss → StmtsPos P ss
  | .nil, _ => trivial
  | .cons s rest, h => ⟨StmtWell.pos (s := s) h.1, StmtsWell.pos (ss := rest) h.2⟩
theorem BranchesWell.pos {P : LineCol → Prop} : ∀ {bs : Branches}, BranchesWell P bs → BranchesPos P bs
  | .nil, _ => trivial
  | .cons _ body rest, h => ⟨h.1.pos, StmtsWell.pos (ss := body) h.2.1, BranchesWell.pos (bs := rest) h.2.2⟩
theorem CasesWell.pos {P : LineCol → Prop} : ∀ {cs : Cases}, CasesWell P cs → CasesPos P cs
  | .nil, _ => trivial
  | .cons _ body rest, h => ⟨fun g hg => (h.1 g hg).pos, StmtsWell.pos (ss := body) h.2.1, CasesWell.pos (cs := rest) h.2.2⟩
end

mutual
theorem StmtWell.tidy {P : LineCol → Prop} : ∀ {s : Stmt}, StmtWell P s → TidyStmt s
  | .arrayAssign .., h => ⟨fun x hx => (h.2.1 x hx).tidy, h.2.2.tidy⟩
  | .assign .., h => h.2.tidy
  | .call .., h => h.2.tidy
  | .callable _ _ _ body _, h => StmtsWell.tidy (ss := body) h.2.1
  | .data _, h => fun e he => (h e he).2
  | .declare .., _ | .dim .., _ => trivial
  | .dimArray .., h => ⟨h.2.1, fun x hx => (h.2.2 x hx).tidy⟩
  | .doLoop _ body, h => ⟨h.1.tidy, StmtsWell.tidy (ss := body) h.2⟩
  | .end .., h => fun e he => (h.1 e he).tidy
  | .exitDo _, _ | .exitFor _, _ | .exitFunction _, _ | .exitSub _, _ => trivial
  | .forLoop _ _ _ _ _ _ body, h => ⟨h.2.1.tidy, h.2.2.1.tidy, h.2.2.2.1.tidy, StmtsWell.tidy (ss := body) h.2.2.2.2⟩
  | .gosub .., _ | .goto .., _ | .label .., _ | .ret _, _ => trivial
  | .ifs bs, h => BranchesWell.tidy (bs := bs) h
  | .onError _, _ => trivial
  | .select _ cs _, h => ⟨h.1.tidy, CasesWell.tidy (cs := cs) h.2.1⟩
  | .whileLoop _ body, h => ⟨h.1.tidy, StmtsWell.tidy (ss := body) h.2⟩
theorem StmtsWell.tidy {P : LineCol → Prop} : ∀ {ss : Stmts}, StmtsWell P ss → TidyStmts ss
  | .nil, _ => trivial
  | .cons s rest, h => ⟨StmtWell.tidy (s := s) h.1, StmtsWell.tidy (ss := rest) h.2⟩
theorem BranchesWell.tidy {P : LineCol → Prop} : ∀ {bs : Branches}, BranchesWell P bs → TidyBranches bs
  | .nil, _ => trivial
  | .cons _ body rest, h => ⟨h.1.tidy, StmtsWell.tidy (ss := body) h.2.1, BranchesWell.tidy (bs := rest) h.2.2⟩
theorem CasesWell.tidy {P : LineCol → Prop} : ∀ {cs : Cases}, CasesWell P cs → TidyCases cs
  | .nil, _ => trivial
  | .cons _ body rest, h => ⟨fun g hg => (h.1 g hg).tidy, StmtsWell.tidy (ss := body) h.2.1, CasesWell.tidy (cs := rest) h.2.2⟩
end

/-- What may be relied on at every point of the stream. -/
structure TokGood (P : LineCol → Prop) (M : Prop) (s : TokStream) : Prop where
  pos : ∀ p, TokPos s p → P p
  neg : NegMin s → M

/-- What is left of a stream. -/
structure TokRest (s s' : TokStream) : Prop where
  toks : s'.toks <:+ s.toks
  eof : s'.eofPos = s.eofPos
  io : s'.io = s.io

theorem TokRest.refl (s : TokStream) : TokRest s s := ⟨List.suffix_refl _, rfl, rfl⟩

theorem TokRest.trans {a b c : TokStream} (h : TokRest a b) (k : TokRest b c) : TokRest a c :=
  ⟨k.toks.trans h.toks, k.eof.trans h.eof, k.io.trans h.io⟩

theorem TokRest.len {a b : TokStream} (h : TokRest a b) : b.toks.length ≤ a.toks.length := h.toks.length_le

theorem TokGood.rest {P : LineCol → Prop} {M : Prop} {s s' : TokStream} (h : TokGood P M s) (hr : TokRest s s') : TokGood P M s' := by
  refine ⟨fun p hp => h.pos p ?_, fun hn => h.neg ?_⟩
  · rcases hp with hp | ⟨t, ht, hp⟩
    · exact .inl (hp.trans hr.eof)
    · exact .inr ⟨t, hr.toks.subset ht, hp⟩
  · obtain ⟨a, b, hab⟩ := hn
    exact ⟨a, b, hab.trans hr.toks.isInfix⟩

/-- The errors that may come out. -/
def ErrPos (P : LineCol → Prop) (M : Prop) : PErr → Prop
  | .bad p _ => P p
  | .io p => P p
  | .panic => M
  | .fuel => False

/-- `x` on `s` ends with a result for which `Q` holds, or one of these errors. -/
def PSat (P : LineCol → Prop) (M : Prop) {α : Type} (x : PM α) (s : TokStream) (Q : α → TokStream → Prop) : Prop :=
  TokRest s (x s).2 ∧
  match (x s).1 with
  | .ok a => Q a (x s).2
  | .error e => ErrPos P M e

/-- The token that is seen next. -/
def Seen (s : TokStream) (t : TokSpan) : Prop := (∃ ts, s.toks = t :: ts) ∨ (s.toks = [] ∧ t.tok = .eof)

section
variable {P : LineCol → Prop} {M : Prop} {α β : Type} {s : TokStream}

theorem PSat.mono {x : PM α} {Q R : α → TokStream → Prop} (h : PSat P M x s Q)
    (hq : ∀ a s', TokRest s s' → Q a s' → R a s') : PSat P M x s R := by
  unfold PSat at *
  refine ⟨h.1, ?_⟩
  have h1 := h.1
  have h2 := h.2
  revert h1 h2
  cases (x s).1 with
  | ok a => exact fun h1 h2 => hq _ _ h1 h2
  | error e => exact fun _ h => h

theorem PSat.bind {x : PM α} {f : α → PM β} {Q : α → TokStream → Prop} {R : β → TokStream → Prop} (hg : TokGood P M s)
    (hx : PSat P M x s Q) (hf : ∀ a s', TokGood P M s' → s'.toks.length ≤ s.toks.length → Q a s' → PSat P M (f a) s' R) :
    PSat P M (x >>= f) s R := by
  unfold PSat at *
  obtain ⟨h1, h2⟩ := hx
  rcases hxs : x s with ⟨a | a, s'⟩
  · have e : (x >>= f) s = (.error a, s') := by
      show PM.bind x f s = _
      unfold PM.bind
      rw [hxs]
    rw [e]
    rw [hxs] at h1 h2
    exact ⟨h1, h2⟩
  · have e : (x >>= f) s = f a s' := by
      show PM.bind x f s = _
      unfold PM.bind
      rw [hxs]
    rw [e]
    rw [hxs] at h1 h2
    have := hf a s' (hg.rest h1) h1.len h2
    exact ⟨h1.trans this.1, this.2⟩

theorem PSat.pure {a : α} {Q : α → TokStream → Prop} (h : Q a s) : PSat P M (Pure.pure a : PM α) s Q := ⟨TokRest.refl _, h⟩

theorem PSat.bad {pos : LineCol} {msg : Str} {Q : α → TokStream → Prop} (h : P pos) : PSat P M (PM.bad pos msg : PM α) s Q :=
  ⟨TokRest.refl _, h⟩

theorem seen_peek (hg : TokGood P M s) : PSat P M peekT s fun t s' => s' = s ∧ P t.pos ∧ Seen s t := by
  unfold PSat peekT Seen
  obtain ⟨toks, E, io⟩ := s
  cases toks with
  | nil =>
    cases io with
    | true => exact ⟨TokRest.refl _, hg.pos _ (.inl rfl)⟩
    | false => exact ⟨TokRest.refl _, rfl, hg.pos _ (.inl rfl), .inr ⟨rfl, rfl⟩⟩
  | cons t ts => exact ⟨TokRest.refl _, rfl, hg.pos _ (.inr ⟨t, by simp, rfl⟩), .inl ⟨ts, rfl⟩⟩

theorem PSat.peek {f : TokSpan → PM β} {R : β → TokStream → Prop} (hg : TokGood P M s)
    (hf : ∀ t, P t.pos → Seen s t → PSat P M (f t) s R) : PSat P M (peekT >>= f) s R :=
  PSat.bind hg (seen_peek hg) fun t s' _ _ h => by obtain ⟨rfl, h1, h2⟩ := h; exact hf t h1 h2

theorem rest_tail (s : TokStream) : TokRest s { s with toks := s.toks.tail } := ⟨List.tail_suffix _, rfl, rfl⟩

theorem PSat.consume {f : Unit → PM β} {R : β → TokStream → Prop} (hg : TokGood P M s)
    (hf : ∀ s', TokGood P M s' → s'.toks = s.toks.tail → PSat P M (f ()) s' R) : PSat P M (consumeT >>= f) s R :=
  PSat.bind hg (Q := fun _ s' => s'.toks = s.toks.tail) ⟨rest_tail s, rfl⟩ fun _ s' h1 _ h => hf s' h1 h

theorem PSat.consume_last {R : Unit → TokStream → Prop} (hr : R () { s with toks := s.toks.tail }) : PSat P M consumeT s R :=
  ⟨rest_tail s, hr⟩

theorem PSat.read {f : TokSpan → PM β} {R : β → TokStream → Prop} (hg : TokGood P M s)
    (hf : ∀ t s', TokGood P M s' → P t.pos → Seen s t → s'.toks = s.toks.tail → PSat P M (f t) s' R) : PSat P M (readT >>= f) s R := by
  refine PSat.bind hg (Q := fun t s' => P t.pos ∧ Seen s t ∧ s'.toks = s.toks.tail) ?_ fun t s' h1 _ h => hf t s' h1 h.1 h.2.1 h.2.2
  exact PSat.peek hg fun t h1 h2 => PSat.consume hg fun s' h3 h4 => PSat.pure ⟨h1, h2, h4⟩

/-- A token that is not the end of the file is used up. -/
theorem Seen.used {t : TokSpan} (h : Seen s t) (ht : t.tok ≠ .eof) {s' : TokStream} (hs : s'.toks = s.toks.tail) :
    s'.toks.length + 1 = s.toks.length := by
  rcases h with ⟨ts, h⟩ | ⟨_, h⟩
  · rw [hs, h]; simp
  · exact absurd h ht

theorem len_tail {s' : TokStream} (hs : s'.toks = s.toks.tail) : s'.toks.length ≤ s.toks.length := by rw [hs]; simp

theorem PSat.expect {t : Tok} {msg : String} {f : TokSpan → PM β} {R : β → TokStream → Prop} (hg : TokGood P M s)
    (hf : ∀ p s', TokGood P M s' → P p.pos → s'.toks.length ≤ s.toks.length → PSat P M (f p) s' R) : PSat P M (expectT t msg >>= f) s R := by
  refine PSat.bind hg (Q := fun p _ => P p.pos) ?_ fun t s' h1 h2 h => hf t s' h1 h h2
  refine PSat.peek hg fun p h1 h2 => ?_
  split_ifs
  · exact PSat.bad h1
  · exact PSat.consume hg fun _ _ _ => PSat.pure h1

theorem PSat.expectAt {t : Tok} {pos : LineCol} {msg : Str} {f : Unit → PM β} {R : β → TokStream → Prop} (hg : TokGood P M s) (hp : P pos)
    (hf : ∀ s', TokGood P M s' → s'.toks.length ≤ s.toks.length → PSat P M (f ()) s' R) : PSat P M (expectAt t pos msg >>= f) s R := by
  refine PSat.bind hg (Q := fun _ _ => True) ?_ fun t s' h1 h2 _ => hf s' h1 h2
  refine PSat.peek hg fun p h1 h2 => ?_
  split_ifs
  · exact PSat.bad hp
  · exact PSat.consume_last trivial

theorem PSat.unannotated {v : VarRef} {pos : LineCol} {f : Str → PM β} {R : β → TokStream → Prop} (hg : TokGood P M s) (hp : P pos)
    (hf : ∀ n, PSat P M (f n) s R) : PSat P M (unannotated v pos >>= f) s R := by
  refine PSat.bind hg (Q := fun _ s' => s' = s) ?_ fun t s' h1 h2 h => h ▸ hf t
  unfold EB.unannotated
  split_ifs
  · exact PSat.bad hp
  · exact PSat.pure rfl

theorem PSat.lift {x : Except PErr α} {f : α → PM β} {R : β → TokStream → Prop} (hg : TokGood P M s)
    (he : ∀ e, x = .error e → ErrPos P M e) (hf : ∀ a, x = .ok a → PSat P M (f a) s R) : PSat P M (PM.lift x >>= f) s R := by
  refine PSat.bind hg (Q := fun a s' => s' = s ∧ x = .ok a) ?_ fun t s' h1 h2 h => h.1 ▸ hf t h.2
  unfold PSat PM.lift
  cases x with
  | ok a => exact ⟨TokRest.refl _, rfl, rfl⟩
  | error e => exact ⟨TokRest.refl _, he e rfl⟩

/-! ## Expressions -/

/-- The positions on the stack of operators. -/
def OpsPos (P : LineCol → Prop) (ops : List OpSpan) : Prop := ∀ o ∈ ops, P o.pos

/-- The positions on the stack of expressions. -/
def ExprsPos (P : LineCol → Prop) (es : List Expr) : Prop := ∀ e ∈ es, ExprWell P e

theorem ExprsPos.cons {e : Expr} {es : List Expr} (h : ExprWell P e) (hs : ExprsPos P es) : ExprsPos P (e :: es) := by
  intro x hx
  rcases List.mem_cons.1 hx with rfl | hx
  · exact h
  · exact hs x hx

theorem apply_pos {o : OpSpan} {es : List Expr} (ho : P o.pos) (he : ExprsPos P es) :
    match o.apply es with
    | .ok es' => ExprsPos P es'
    | .error e => ErrPos P M e := by
  unfold OpSpan.apply
  cases o.op with
  | leftParen => exact he
  | un u =>
    cases es with
    | nil => exact ho
    | cons e es => exact ExprsPos.cons ⟨he e (by simp), ho⟩ fun x hx => he x (by simp [hx])
  | bin b =>
    match es with
    | [] => exact ho
    | [_] => exact ho
    | r :: l :: es => exact ExprsPos.cons ⟨he l (by simp), he r (by simp), ho⟩ fun x hx => he x (by simp [hx])

theorem reduceFor_pos {p : Nat} {ops : List OpSpan} : ∀ {es : List Expr}, OpsPos P ops → ExprsPos P es →
    match reduceFor p ops es with
    | .ok (ops', es') => OpsPos P ops' ∧ ExprsPos P es'
    | .error e => ErrPos P M e := by
  induction ops with
  | nil => intro es h1 h2; exact ⟨h1, h2⟩
  | cons o os ih =>
    intro es h1 h2
    unfold reduceFor
    split_ifs
    · exact ⟨h1, h2⟩
    · have := apply_pos (M := M) (h1 o (by simp)) h2
      cases h : o.apply es with
      | error e => rw [h] at this; exact this
      | ok es' => rw [h] at this; exact ih (fun x hx => h1 x (by simp [hx])) this

theorem reduceParen_pos {ops : List OpSpan} : ∀ {es : List Expr}, OpsPos P ops → ExprsPos P es →
    ops.any (fun o => o.op = .leftParen) = true →
    match reduceParen ops es with
    | .ok (ops', es') => OpsPos P ops' ∧ ExprsPos P es'
    | .error e => ErrPos P M e := by
  induction ops with
  | nil => intro es h1 h2 h3; simp at h3
  | cons o os ih =>
    intro es h1 h2 h3
    unfold reduceParen
    have := apply_pos (M := M) (h1 o (by simp)) h2
    cases h : o.apply es with
    | error e => rw [h] at this; exact this
    | ok es' =>
      rw [h] at this
      simp only
      split_ifs with hl
      · exact ⟨fun x hx => h1 x (by simp [hx]), this⟩
      · exact ih (fun x hx => h1 x (by simp [hx])) this (by simpa [hl] using h3)

theorem reduceAll_pos {ops : List OpSpan} : ∀ {es : List Expr}, OpsPos P ops → ExprsPos P es →
    match reduceAll ops es with
    | .ok r => ∀ e, r = some e → ExprWell P e
    | .error e => ErrPos P M e := by
  induction ops with
  | nil => intro es h1 h2 e h; exact h2 e (by cases es <;> simp_all)
  | cons o os ih =>
    intro es h1 h2
    unfold reduceAll
    split_ifs
    · exact h1 o (by simp)
    · have := apply_pos (M := M) (h1 o (by simp)) h2
      cases h : o.apply es with
      | error e => rw [h] at this; exact this
      | ok es' => rw [h] at this; exact ih (fun x hx => h1 x (by simp [hx])) this

theorem operand_pos {t : TokSpan} {e : Expr} (hp : P t.pos) (h : t.operand = some e) : ExprWell P e ∧ t.tok ≠ .eof := by
  unfold TokSpan.operand at h
  split at h <;> first | (cases h; refine ⟨hp, ?_⟩; intro hc; simp_all) | cases h

/-- The result of `parse_expr`. -/
abbrev OptPos (P : LineCol → Prop) (r : Option Expr) (_ : TokStream) : Prop := ∀ e, r = some e → ExprWell P e

theorem OpsPos.cons {o : OpSpan} {ops : List OpSpan} (h : P o.pos) (hs : OpsPos P ops) : OpsPos P (o :: ops) := by
  intro x hx
  rcases List.mem_cons.1 hx with rfl | hx
  · exact h
  · exact hs x hx

theorem exprs_ends (T : TextOps) : ∀ n : Nat,
    (∀ (s : TokStream) (es : List Expr) (ops : List OpSpan) (need : Bool), TokGood P M s → 2 * s.toks.length + 1 ≤ n →
      ExprsPos P es → OpsPos P ops → PSat P M (exprLoop T n es ops need) s (OptPos P)) ∧
    (∀ s : TokStream, TokGood P M s → 2 * s.toks.length + 2 ≤ n → PSat P M (commaExprs T n) s fun a _ => NoSkip a ∧ ArgsWell P a) ∧
    (∀ (s : TokStream) (prev : Option Expr) (isFirst : Bool), TokGood P M s → 2 * s.toks.length + 1 ≤ n →
      (∀ e, prev = some e → ExprWell P e) → PSat P M (commaLoop T n prev isFirst) s fun a _ => NoSkip a ∧ ArgsWell P a) := by
  intro n
  induction n with
  | zero => exact ⟨fun s es ops need _ h => by omega, fun s _ h => by omega, fun s prev b _ h => by omega⟩
  | succ n ih =>
    obtain ⟨ih1, ih2, ih3⟩ := ih
    refine ⟨fun s es ops need hg hn he ho => ?_, fun s hg hn => ?_, fun s prev b hg hn hp => ?_⟩
    · unfold exprLoop
      refine PSat.peek hg fun t ht hs => ?_
      by_cases hend : t.tok.endsExpr ∨ (t.tok = .rightParen ∧ ¬ ops.any (fun o => o.op = .leftParen))
      · rw [if_pos hend]
        have := reduceAll_pos (M := M) ho he
        unfold PSat PM.lift
        refine ⟨TokRest.refl _, ?_⟩
        cases h : reduceAll ops es with
        | ok r => rw [h] at this; exact this
        | error e => rw [h] at this; exact this
      · rw [if_neg hend]
        have hne : t.tok ≠ .eof := by intro hc; exact hend (.inl (by rw [hc]; rfl))
        refine PSat.consume hg fun s1 hg1 hs1 => ?_
        have hl := hs.used hne hs1
        have go : ∀ {es ops need}, ExprsPos P es → OpsPos P ops → PSat P M (exprLoop T n es ops need) s1 (OptPos P) :=
          fun he ho => ih1 s1 _ _ _ hg1 (by omega) he ho
        have bin : ∀ (k : Nat) (o : ExprOp), PSat P M (do
            let (ops', es') ← PM.lift (reduceFor k ops es)
            exprLoop T n es' (⟨o, t.pos⟩ :: ops') true) s1 (OptPos P) := by
          intro k o
          have hr := reduceFor_pos (M := M) (p := k) ho he
          refine PSat.lift hg1 (fun e hx => by rw [hx] at hr; exact hr) fun a hx => ?_
          rw [hx] at hr
          exact go hr.2 (OpsPos.cons ht hr.1)
        split
        · rename_i e hop
          split_ifs
          · exact go (ExprsPos.cons (operand_pos ht hop).1 he) ho
          · exact PSat.bad ht
        · split
          · split
            · rename_i v p es'
              have hsym : P p := he (.sym v p) (by simp)
              split_ifs
              · exact go he (OpsPos.cons ht ho)
              · refine PSat.bind hg1 (ih2 s1 hg1 (by omega)) fun args s2 hg2 hl2 ha => ?_
                exact ih1 s2 _ _ _ hg2 (by omega) (ExprsPos.cons ⟨hsym, ha⟩ fun x hx => he x (by simp [hx])) ho
            · split_ifs
              · exact go he (OpsPos.cons ht ho)
              · exact PSat.bad ht
          · rename_i hrp
            have hany : ops.any (fun o => o.op = .leftParen) = true := by
              by_contra hc
              exact hend (.inr ⟨hrp, hc⟩)
            have hr := reduceParen_pos (M := M) ho he hany
            refine PSat.lift hg1 (fun e hx => by rw [hx] at hr; exact hr) fun a hx => ?_
            rw [hx] at hr
            exact go hr.2 hr.1
          · exact go he (OpsPos.cons ht ho)
          · split_ifs
            · exact go he (OpsPos.cons ht ho)
            · exact bin _ _
          · exact PSat.bad ht
          · split
            · exact bin _ _
            · exact PSat.bad ht
    · unfold commaExprs
      refine PSat.bind hg (ih1 s [] [] true hg (by omega) (by intro x hx; cases hx) (by intro x hx; cases hx)) fun a s1 hg1 hl1 ha => ?_
      exact ih3 s1 a true hg1 (by omega) ha
    · unfold commaLoop
      refine PSat.peek hg fun t ht hs => ?_
      split
      · refine PSat.consume hg fun s1 hg1 hs1 => ?_
        split
        · exact PSat.pure ⟨trivial, hp _ rfl, ht, trivial⟩
        · split_ifs
          · exact PSat.pure ⟨trivial, trivial⟩
          · exact PSat.bad ht
      · rename_i htok
        refine PSat.consume hg fun s1 hg1 hs1 => ?_
        have hl := hs.used (by rw [htok]; exact fun h => by cases h) hs1
        split
        · refine PSat.bind hg1 (ih1 s1 [] [] true hg1 (by omega) (by intro x hx; cases hx) (by intro x hx; cases hx)) fun a s2 hg2 hl2 ha => ?_
          refine PSat.bind hg2 (ih3 s2 a false hg2 (by omega) ha) fun r s3 _ _ hr => ?_
          exact PSat.pure ⟨hr.1, hp _ rfl, ht, hr.2⟩
        · exact PSat.bad ht
      · exact PSat.bad ht

theorem sat_parseExpr {T : TextOps} (hg : TokGood P M s) {first : Option Expr} (hf : ∀ e, first = some e → ExprWell P e) :
    PSat P M (parseExpr T first) s (OptPos P) := by
  have h : s.exprFuel = 2 * s.toks.length + 2 := rfl
  cases first with
  | none => exact (exprs_ends T s.exprFuel).1 s [] [] true hg (by omega) (by intro x hx; cases hx) (by intro x hx; cases hx)
  | some e =>
    exact (exprs_ends T s.exprFuel).1 s [e] [] false hg (by omega) (ExprsPos.cons (hf e rfl) (by intro x hx; cases hx)) (by intro x hx; cases hx)

theorem sat_expr {T : TextOps} (hg : TokGood P M s) : PSat P M (parseExpr T none) s (OptPos P) :=
  sat_parseExpr hg fun _ h => by cases h

theorem sat_comma {T : TextOps} (hg : TokGood P M s) : PSat P M (parseCommaExprs T) s fun a _ => NoSkip a ∧ ArgsWell P a := by
  have h : s.exprFuel = 2 * s.toks.length + 2 := rfl
  exact (exprs_ends T s.exprFuel).2.1 s hg (by omega)

theorem sat_required {T : TextOps} {msg : String} (hg : TokGood P M s) : PSat P M (parseRequired T msg) s fun e _ => ExprWell P e := by
  unfold parseRequired
  refine PSat.peek hg fun p hp _ => PSat.bind hg (sat_expr hg) fun a s1 _ _ ha => ?_
  split
  · exact PSat.pure (ha _ rfl)
  · exact PSat.bad hp

theorem args_exprs {a : Args} (h : ArgsWell P a) : ∀ e ∈ a.exprs, ExprWell P e := by
  match a with
  | .nil => intro e he; cases he
  | .cons x _ _ r =>
    intro e he
    rcases List.mem_cons.1 he with rfl | he
    · exact h.1
    · exact args_exprs h.2.2 e he
  | .skip _ _ r => exact args_exprs (a := r) h.2


theorem exprs_ne {a : Args} (h : NoSkip a) (hne : a = .nil → False) : a.exprs ≠ [] := by
  cases a with
  | nil => exact absurd rfl hne
  | cons => simp [Args.exprs]
  | skip => cases h

/-! ## Simple statements -/

/-- The result of the parsers of statements. -/
abbrev SPos (P : LineCol → Prop) (r : Stmt) (_ : TokStream) : Prop := StmtWell P r

theorem sat_assignment {T : TextOps} {v : VarRef} {pos : LineCol} (hg : TokGood P M s) (hp : P pos) :
    PSat P M (parseAssignment T v pos) s (SPos P) := by
  unfold parseAssignment
  refine PSat.bind hg (sat_required hg) fun e s1 hg1 _ he => PSat.peek hg1 fun t ht _ => ?_
  split_ifs
  · exact PSat.pure ⟨hp, he⟩
  · exact PSat.bad ht

theorem sat_arrayAssignment {T : TextOps} {v : VarRef} {pos : LineCol} {subs : List Expr} (hg : TokGood P M s) (hp : P pos)
    (hs : ∀ x ∈ subs, ExprWell P x) : PSat P M (parseArrayAssignment T v pos subs) s (SPos P) := by
  unfold parseArrayAssignment
  refine PSat.bind hg (sat_required hg) fun e s1 hg1 _ he => PSat.peek hg1 fun t ht _ => ?_
  split_ifs
  · exact PSat.pure ⟨hp, hs, he⟩
  · exact PSat.bad ht

theorem push_pos {e : Option Expr} {sep : ArgSep} {pos : LineCol} {rest : Args} (he : ∀ x, e = some x → ExprWell P x) (hp : P pos)
    (hr : ArgsWell P rest) : ArgsWell P (Args.push e sep pos rest) := by
  cases e with
  | none => exact ⟨hp, hr⟩
  | some e => exact ⟨he e rfl, hp, hr⟩

theorem argSep_used {t : Tok} {sep : ArgSep} (h : t.argSep = some sep) : t ≠ .eof := by
  intro hc; rw [hc] at h; cases h

theorem sat_builtinLoop {T : TextOps} : ∀ (n : Nat) (s : TokStream) (first : Option Expr) (b : Bool), TokGood P M s →
    s.toks.length + 1 ≤ n → (∀ e, first = some e → ExprWell P e) → PSat P M (builtinLoop T n first b) s fun a _ => ArgsWell P a := by
  intro n
  induction n with
  | zero => intro s f b _ h; omega
  | succ n ih =>
    intro s f b hg hn hf
    unfold builtinLoop
    refine PSat.bind hg (sat_parseExpr hg hf) fun e s1 hg1 hl1 he => PSat.peek hg1 fun t ht hs => ?_
    split
    · split
      · exact PSat.pure ⟨he _ rfl, ht, trivial⟩
      · split_ifs
        · exact PSat.pure trivial
        · exact PSat.pure ⟨ht, trivial⟩
    · split
      · rename_i sep hsep
        refine PSat.consume hg1 fun s2 hg2 hs2 => ?_
        have := hs.used (argSep_used hsep) hs2
        refine PSat.bind hg2 (ih s2 none false hg2 (by omega) fun _ h => by cases h) fun r s3 _ _ hr => PSat.pure ?_
        exact push_pos he ht hr
      · exact PSat.bad ht

theorem sat_builtinCall {T : TextOps} {v : VarRef} {pos : LineCol} {first : Option Expr} (hg : TokGood P M s) (hp : P pos)
    (hf : ∀ e, first = some e → ExprWell P e) : PSat P M (parseBuiltinCall T v pos first) s (SPos P) := by
  unfold parseBuiltinCall
  refine PSat.unannotated hg hp fun n => ?_
  refine PSat.bind hg (x := fun s => builtinLoop T (s.toks.length + 1) first true s) (sat_builtinLoop _ s first true hg (Nat.le_refl _) hf)
    fun a s1 _ _ ha => PSat.pure ⟨hp, ha⟩

theorem sat_arrayOrBuiltin {T : TextOps} {v : VarRef} {pos : LineCol} (hg : TokGood P M s) (hp : P pos) :
    PSat P M (parseArrayOrBuiltin T v pos) s (SPos P) := by
  unfold parseArrayOrBuiltin
  refine PSat.peek hg fun t ht _ => ?_
  split
  · refine PSat.consume hg fun s1 hg1 _ => PSat.bind hg1 (sat_comma hg1) fun a s2 hg2 _ ha => PSat.peek hg2 fun q hq _ => ?_
    split
    · exact PSat.consume hg2 fun s3 hg3 _ => sat_arrayAssignment hg3 hp (args_exprs ha.2)
    · split
      · rename_i e he
        exact sat_builtinCall hg2 hp fun x hx => by cases hx; exact args_exprs ha.2 e (by rw [he]; simp)
      · exact PSat.bad ht
  · exact sat_builtinCall hg hp fun _ h => by cases h

theorem PSat.skip {x : PM α} {Q : α → TokStream → Prop} (hx : PSat P M x s Q) : PSat P M x s fun _ _ => True :=
  hx.mono fun _ _ _ _ => trivial

theorem sat_asType {T : TextOps} (hg : TokGood P M s) : PSat P M (parseAsType T) s fun _ _ => True := by
  unfold parseAsType
  refine PSat.read hg fun t s1 hg1 ht _ _ => ?_
  split
  · exact PSat.pure trivial
  · exact PSat.bad ht

theorem sat_negI32 {i : I32} (hm : i = BitVec.intMin 32 → M) : PSat P M (negI32 i) s fun _ _ => True := by
  unfold negI32
  split_ifs with h
  · exact ⟨TokRest.refl _, hm h⟩
  · exact PSat.pure trivial

/-- A minus sign and the literal that cannot be negated. -/
theorem negMin_of {t u : TokSpan} {s1 : TokStream} {i : I32} (hg : TokGood P M s) (ht : t.tok = .minus) (hs : Seen s t)
    (h1 : s1.toks = s.toks.tail) (hu : u.tok = .integer i) (hs1 : Seen s1 u) (hi : i = BitVec.intMin 32) : M := by
  refine hg.neg ⟨t.pos, u.pos, ?_⟩
  rcases hs with ⟨ts, hs⟩ | ⟨_, hs⟩
  · rcases hs1 with ⟨us, hs1⟩ | ⟨_, hs1⟩
    · rw [hs] at h1
      have h1 : s1.toks = ts := h1
      rw [hs, ← h1, hs1]
      obtain ⟨tk, tp⟩ := t
      obtain ⟨uk, up⟩ := u
      dsimp only at ht hu
      subst ht hu hi
      exact ⟨[], us, rfl⟩
    · rw [hu] at hs1; cases hs1
  · rw [ht] at hs; cases hs

theorem sat_negDatum {F : FloatOps} {t : TokSpan} {s1 : TokStream} (hg : TokGood P M s) (hg1 : TokGood P M s1) (ht : P t.pos)
    (hm : t.tok = .minus) (hs : Seen s t) (h1 : s1.toks = s.toks.tail) :
    PSat P M (parseNegDatum F t.pos) s1 fun e _ => ExprWell P e ∧ IsLiteral e := by
  unfold parseNegDatum
  refine PSat.read hg1 fun u s2 hg2 hu hs2 h2 => ?_
  cases hk : u.tok
  case double d => exact PSat.pure ⟨ht, trivial⟩
  case integer i => exact PSat.bind hg2 (sat_negI32 fun h => negMin_of hg hm hs h1 hk hs2 h) fun j s3 _ _ _ => PSat.pure ⟨ht, trivial⟩
  all_goals exact PSat.bad ht

theorem sat_datum {T : TextOps} {F : FloatOps} (hg : TokGood P M s) :
    PSat P M (parseDatum T F) s fun r s' => (∀ e, r = some e → ExprWell P e ∧ IsLiteral e) ∧ (s.toks ≠ [] → s'.toks.length < s.toks.length) := by
  have hne : ∀ {s' : TokStream}, s'.toks = s.toks.tail → s.toks ≠ [] → s'.toks.length < s.toks.length := by
    intro s' h1 h2
    rw [h1]
    cases h : s.toks with
    | nil => exact absurd h h2
    | cons t ts => exact Nat.lt_succ_self _
  unfold parseDatum
  refine PSat.read hg fun t s1 hg1 ht hs h1 => ?_
  cases hk : t.tok
  case boolean v => exact PSat.pure ⟨fun e he => by cases he; exact ⟨ht, trivial⟩, hne h1⟩
  case double v => exact PSat.pure ⟨fun e he => by cases he; exact ⟨ht, trivial⟩, hne h1⟩
  case integer v => exact PSat.pure ⟨fun e he => by cases he; exact ⟨ht, trivial⟩, hne h1⟩
  case text v => exact PSat.pure ⟨fun e he => by cases he; exact ⟨ht, trivial⟩, hne h1⟩
  case minus =>
    refine PSat.bind hg1 (sat_negDatum hg hg1 ht hk hs h1) fun e s2 _ hl2 he => PSat.pure ⟨fun x hx => by cases hx; exact he, fun h => ?_⟩
    have := hne h1 h
    omega
  case comma => exact PSat.pure ⟨fun e he => (by cases he), hne h1⟩
  all_goals exact PSat.bad ht

theorem endsSimple_eof : Tok.endsSimple .eof = true := rfl

theorem seen_nonempty {t : TokSpan} (h : Seen s t) (ht : t.tok ≠ .eof) : s.toks ≠ [] := by
  rcases h with ⟨ts, h⟩ | ⟨_, h⟩
  · rw [h]; simp
  · exact absurd h ht

theorem sat_dataLoop {T : TextOps} {F : FloatOps} : ∀ (n : Nat) (s : TokStream), TokGood P M s → s.toks.length + 1 ≤ n →
    PSat P M (dataLoop T F n) s fun r _ => ∀ e, some e ∈ r → ExprWell P e ∧ IsLiteral e := by
  intro n
  induction n with
  | zero => intro s _ h; omega
  | succ n ih =>
    intro s hg hn
    unfold dataLoop
    refine PSat.peek hg fun t ht hs => ?_
    by_cases hend : t.tok.endsSimple
    · rw [if_pos hend]
      exact PSat.pure (fun e he => by simp at he)
    · rw [if_neg hend]
      have hne : t.tok ≠ .eof := by intro hc; rw [hc] at hend; exact hend rfl
      refine PSat.bind hg (sat_datum hg) fun r s1 hg1 hl1 hr => ?_
      have hl := hr.2 (seen_nonempty hs hne)
      split
      · refine PSat.bind hg1 (ih s1 hg1 (by omega)) fun rest s2 _ _ hrest => PSat.pure fun e he => ?_
        rcases List.mem_cons.1 he with he | he
        · cases he
        · exact hrest e he
      · rename_i x
        refine PSat.peek hg1 fun q hq hsq => ?_
        split
        · exact PSat.pure fun e he => by
            rcases List.mem_cons.1 he with he | he
            · cases he; exact hr.1 _ rfl
            · cases he
        · split
          · refine PSat.consume hg1 fun s2 hg2 h2 => ?_
            have := len_tail h2
            refine PSat.bind hg2 (ih s2 hg2 (by omega)) fun rest s3 _ _ hrest => PSat.pure fun e he => ?_
            rcases List.mem_cons.1 he with he | he
            · cases he; exact hr.1 _ rfl
            · exact hrest e he
          · exact PSat.bad hq

theorem sat_data {T : TextOps} {F : FloatOps} (hg : TokGood P M s) : PSat P M (parseData T F) s (SPos P) := by
  unfold parseData
  exact PSat.bind hg (x := fun s => dataLoop T F (s.toks.length + 1) s) (sat_dataLoop _ s hg (Nat.le_refl _))
    fun r s1 _ _ hr => PSat.pure hr

theorem sat_dimAs {T : TextOps} (hg : TokGood P M s) : PSat P M (parseDimAs T) s fun _ _ => True := by
  unfold parseDimAs
  refine PSat.peek hg fun t ht _ => PSat.bind hg (Q := fun _ _ => True) ?_ fun ty s1 hg1 _ _ => PSat.peek hg1 fun q hq _ => ?_
  · split
    · exact PSat.pure trivial
    · split
      · exact PSat.consume hg fun s1 hg1 _ => sat_asType hg1
      · exact PSat.bad ht
  · split_ifs
    · exact PSat.pure trivial
    · exact PSat.bad hq

theorem sat_dim {T : TextOps} (hg : TokGood P M s) : PSat P M (parseDim T) s (SPos P) := by
  unfold parseDim
  refine PSat.peek hg fun t ht _ => ?_
  dsimp only
  split
  rotate_left
  have hg1 := hg
  rotate_left
  refine PSat.consume hg fun s1 hg1 _ => ?_
  all_goals
    refine PSat.read hg1 fun u s2 hg2 hu _ _ => ?_
    split
    · refine PSat.unannotated hg2 hu fun n => PSat.peek hg2 fun q hq _ => ?_
      split
      · refine PSat.consume hg2 fun s3 hg3 _ => PSat.bind hg3 (sat_comma hg3) fun a s4 hg4 _ ha => ?_
        split
        · exact PSat.bad hq
        · rename_i hne
          exact PSat.bind hg4 (sat_dimAs hg4) fun ty s5 _ _ _ => PSat.pure ⟨hu, exprs_ne ha.1 hne, args_exprs ha.2⟩
      · exact PSat.bind hg2 (sat_dimAs hg2) fun ty s5 _ _ _ => PSat.pure hu
    · exact PSat.bad hu

theorem sat_doGuard {T : TextOps} {part : String} (hg : TokGood P M s) :
    PSat P M (parseDoGuard T part) s fun r _ => ∀ e b, r = some (e, b) → ExprWell P e := by
  unfold parseDoGuard
  refine PSat.peek hg fun t ht _ => ?_
  split
  · exact PSat.consume hg fun s1 hg1 _ => PSat.bind hg1 (sat_required hg1) fun e s2 _ _ he => PSat.pure fun x b h => by cases h; exact he
  · exact PSat.consume hg fun s1 hg1 _ => PSat.bind hg1 (sat_required hg1) fun e s2 _ _ he => PSat.pure fun x b h => by cases h; exact he
  · exact PSat.pure fun x b h => by cases h
  · exact PSat.pure fun x b h => by cases h
  · exact PSat.consume hg fun s1 hg1 _ => PSat.bad ht

theorem sat_maybeEnd {T : TextOps} {pos : LineCol} (hg : TokGood P M s) (hp : P pos) :
    PSat P M (maybeParseEnd T pos) s fun r _ => ∀ st, r = .inl st → StmtWell P st := by
  unfold maybeParseEnd
  refine PSat.peek hg fun t ht _ => ?_
  split
  · exact PSat.pure fun st h => by cases h
  · exact PSat.pure fun st h => by cases h
  · exact PSat.pure fun st h => by cases h
  · exact PSat.pure fun st h => by cases h
  · exact PSat.bind hg (sat_expr hg) fun e s2 _ _ he => PSat.pure fun x h => by cases h; exact ⟨he, hp⟩

theorem sat_end {T : TextOps} {pos : LineCol} (hg : TokGood P M s) (hp : P pos) : PSat P M (parseEnd T pos) s (SPos P) := by
  unfold parseEnd
  refine PSat.bind hg (sat_maybeEnd hg hp) fun r s1 hg1 _ hr => ?_
  split
  · exact PSat.pure (hr _ rfl)
  · exact PSat.bad hp

theorem sat_exit {pos : LineCol} (hg : TokGood P M s) (hp : P pos) : PSat P M (parseExit pos) s (SPos P) := by
  unfold parseExit
  refine PSat.peek hg fun t ht _ => ?_
  split
  · exact PSat.consume hg fun s1 hg1 _ => PSat.pure hp
  · exact PSat.consume hg fun s1 hg1 _ => PSat.pure hp
  · exact PSat.consume hg fun s1 hg1 _ => PSat.pure hp
  · exact PSat.consume hg fun s1 hg1 _ => PSat.pure hp
  · exact PSat.bad ht

theorem sat_gosub (hg : TokGood P M s) : PSat P M parseGosub s (SPos P) := by
  unfold parseGosub
  refine PSat.read hg fun t s1 hg1 ht _ _ => ?_
  split
  · exact PSat.pure ht
  · exact PSat.bad ht

theorem sat_goto (hg : TokGood P M s) : PSat P M parseGoto s (SPos P) := by
  unfold parseGoto
  refine PSat.read hg fun t s1 hg1 ht _ _ => ?_
  split
  · exact PSat.pure ht
  · exact PSat.bad ht

theorem sat_on {pos : LineCol} (hg : TokGood P M s) (hp : P pos) : PSat P M (parseOn pos) s (SPos P) := by
  unfold parseOn
  refine PSat.expect hg fun p s1 hg1 _ _ => PSat.read hg1 fun t s2 hg2 ht _ _ => ?_
  split
  · refine PSat.read hg2 fun u s3 hg3 hu _ _ => ?_
    split
    · exact PSat.pure hp
    · split
      · exact PSat.pure ⟨hu, hp⟩
      · exact PSat.bad hu
  · exact PSat.expect hg2 fun p s3 hg3 _ _ => PSat.pure hp
  · exact PSat.bad ht

theorem sat_symbol {T : TextOps} {v : VarRef} {pos : LineCol} (hg : TokGood P M s) (hp : P pos) :
    PSat P M (parseSymbolStmt T v pos) s (SPos P) := by
  unfold parseSymbolStmt
  refine PSat.peek hg fun t ht _ => ?_
  split
  · exact PSat.consume hg fun s1 hg1 _ => sat_assignment hg1 hp
  · exact sat_arrayOrBuiltin hg hp

/-- The result of a line of an `IF`: nothing only at the end of a line. -/
theorem sat_uniline {T : TextOps} {F : FloatOps} (hg : TokGood P M s) :
    PSat P M (parseUniline T F) s fun r _ => (∀ st, r = some st → StmtWell P st) ∧
      (r = none → ∀ t, Seen s t → t.tok.endsLine = true) := by
  have same : ∀ {t u : TokSpan}, Seen s t → Seen s u → t.tok = u.tok := by
    intro t u h1 h2
    rcases h1 with ⟨ts, h1⟩ | ⟨h1, k1⟩ <;> rcases h2 with ⟨us, h2⟩ | ⟨h2, k2⟩
    · rw [h1] at h2; cases h2; rfl
    · rw [h1] at h2; cases h2
    · rw [h1] at h2; cases h2
    · rw [k1, k2]
  have wrap : ∀ {s1 : TokStream} {x : PM Stmt}, TokGood P M s1 → PSat P M x s1 (SPos P) →
      PSat P M (do let r ← x; pure (some r)) s1 fun r _ => (∀ st, r = some st → StmtWell P st) ∧
      (r = none → ∀ t, Seen s t → t.tok.endsLine = true) := fun hg1 hx =>
    PSat.bind hg1 hx fun r s2 _ _ hr => PSat.pure ⟨fun st h => by cases h; exact hr, fun h => by cases h⟩
  unfold parseUniline
  refine PSat.read hg fun t s1 hg1 ht hs _ => ?_
  split
  · exact wrap hg1 (sat_data hg1)
  · exact wrap hg1 (sat_end hg1 ht)
  · rename_i h
    exact PSat.pure ⟨fun st h => (by cases h), fun _ u hu => by rw [← same hs hu, h]; rfl⟩
  · rename_i h
    exact PSat.pure ⟨fun st h => (by cases h), fun _ u hu => by rw [← same hs hu, h]; rfl⟩
  · exact wrap hg1 (sat_exit hg1 ht)
  · exact wrap hg1 (sat_gosub hg1)
  · exact wrap hg1 (sat_goto hg1)
  · exact wrap hg1 (sat_on hg1 ht)
  · exact PSat.pure ⟨fun st h => by cases h; exact ht, fun h => by cases h⟩
  · exact wrap hg1 (sat_symbol hg1 ht)
  · exact PSat.bad ht
  · exact PSat.bad ht

theorem ofOption_pos {r : Option Stmt} (h : ∀ st, r = some st → StmtWell P st) : StmtsWell P (Stmts.ofOption r) := by
  cases r with
  | none => trivial
  | some st => exact ⟨h st rfl, trivial⟩

/-- The bodies of an `IF`. -/
abbrev IfPos (P : LineCol → Prop) (r : Stmts × Branches) (_ : TokStream) : Prop := StmtsWell P r.1 ∧ BranchesWell P r.2

theorem sat_ifUniline {T : TextOps} {F : FloatOps} (hg : TokGood P M s) (hend : ∀ t, Seen s t → t.tok.endsLine = false) :
    PSat P M (parseIfUniline T F) s (IfPos P) := by
  unfold parseIfUniline
  refine PSat.peek hg fun t ht hst => PSat.bind hg (Q := fun b _ => StmtsWell P b) ?_ fun b s1 hg1 _ hb => PSat.peek hg1 fun q hq _ => ?_
  · split
    · exact PSat.pure trivial
    · refine PSat.bind hg (sat_uniline hg) fun r s1 _ _ hr => ?_
      split
      · exact PSat.pure (ofOption_pos hr.1)
      · have h1 := hr.2 rfl t hst
        rw [hend t hst] at h1
        cases h1
  · split
    · refine PSat.consume hg1 fun s2 hg2 _ => PSat.bind hg2 (sat_uniline hg2) fun r s3 _ _ hr => PSat.pure ?_
      exact ⟨hb, hq, ofOption_pos hr.1, trivial⟩
    · exact PSat.pure ⟨hb, trivial⟩

theorem sat_step {F : FloatOps} {pos : LineCol} (hg : TokGood P M s) (hp : P pos) :
    PSat P M (parseStep F pos) s fun r _ => ExprWell P r.step := by
  unfold parseStep
  refine PSat.peek hg fun t ht _ => ?_
  split
  · exact PSat.pure hp
  · refine PSat.consume hg fun s1 hg1 _ => PSat.peek hg1 fun q hq hsq => ?_
    cases hk : q.tok
    case double d => exact PSat.consume hg1 fun s2 hg2 _ => PSat.pure hq
    case integer d => exact PSat.consume hg1 fun s2 hg2 _ => PSat.pure hq
    case minus =>
      refine PSat.consume hg1 fun s2 hg2 h2 => PSat.peek hg2 fun r hr hsr => ?_
      cases hi : r.tok
      case double d => exact PSat.consume hg2 fun s3 hg3 _ => PSat.pure hr
      case integer i =>
        exact PSat.consume hg2 fun s3 hg3 _ => PSat.bind hg3 (sat_negI32 fun h => negMin_of hg1 hk hsq h2 hi hsr h)
          fun j s4 _ _ _ => PSat.pure hr
      all_goals exact PSat.bad hr
    all_goals exact PSat.bad hq

theorem sat_forIter (hg : TokGood P M s) : PSat P M parseForIter s fun r _ => P r.2 := by
  unfold parseForIter
  refine PSat.read hg fun t s1 hg1 ht _ _ => ?_
  split
  · split_ifs
    · exact PSat.pure ht
    · exact PSat.bad ht
  · exact PSat.bad ht

theorem sat_paramLoop {T : TextOps} : ∀ (n : Nat) (s : TokStream), TokGood P M s → s.toks.length + 1 ≤ n →
    PSat P M (paramLoop T n) s fun _ _ => True := by
  intro n
  induction n with
  | zero => intro s _ h; omega
  | succ n ih =>
    intro s hg hn
    unfold paramLoop
    refine PSat.read hg fun t s1 hg1 ht hs h1 => ?_
    split
    · rename_i v hv
      have hl := hs.used (by rw [hv]; exact fun h => by cases h) h1
      refine PSat.peek hg1 fun p hp _ => PSat.bind hg1 (Q := fun _ _ => True) ?_ fun v' s2 hg2 hl2 _ => ?_
      · split
        · exact PSat.consume hg1 fun s2 hg2 _ => PSat.unannotated hg2 ht fun n => PSat.bind hg2 (sat_asType hg2) fun ty s3 _ _ _ => PSat.pure trivial
        · exact PSat.pure trivial
      · refine PSat.read hg2 fun u s3 hg3 hu _ h3 => ?_
        have := len_tail h3
        split
        · exact PSat.bind hg3 (ih s3 hg3 (by omega)) fun r s4 _ _ _ => PSat.pure trivial
        · exact PSat.pure trivial
        · exact PSat.bad hu
    · exact PSat.bad ht

theorem sat_callableArgs {T : TextOps} (hg : TokGood P M s) : PSat P M (parseCallableArgs T) s fun _ _ => True := by
  unfold parseCallableArgs
  refine PSat.peek hg fun t ht _ => ?_
  split
  · exact PSat.consume hg fun s1 hg1 _ => sat_paramLoop _ s1 hg1 (Nat.le_refl _)
  · exact PSat.pure trivial

theorem sat_signature {T : TextOps} {d f : Bool} (hg : TokGood P M s) : PSat P M (parseSignature T d f) s fun r _ => P r.2.1 := by
  unfold parseSignature
  refine PSat.read hg fun t s1 hg1 ht _ _ => ?_
  split
  · refine PSat.bind hg1 (Q := fun _ _ => True) ?_ fun n s2 hg2 _ _ => PSat.bind hg2 (sat_callableArgs hg2) fun ps s3 hg3 _ _ =>
      PSat.peek hg3 fun p hp _ => ?_
    · split
      · exact PSat.pure trivial
      · exact PSat.pure trivial
      · exact PSat.pure trivial
      · exact PSat.bad ht
    · split
      · exact PSat.pure ht
      · exact PSat.bad hp
  · exact PSat.bad ht

theorem sat_declare {T : TextOps} (hg : TokGood P M s) : PSat P M (parseDeclare T) s (SPos P) := by
  unfold parseDeclare
  refine PSat.read hg fun t s1 hg1 ht _ _ => ?_
  split
  · exact PSat.bind hg1 (sat_signature hg1) fun r s2 _ _ hr => PSat.pure hr
  · exact PSat.bind hg1 (sat_signature hg1) fun r s2 _ _ hr => PSat.pure hr
  · exact PSat.bad ht

theorem sat_caseGuard {T : TextOps} (hg : TokGood P M s) : PSat P M (parseCaseGuard T) s fun g _ => CaseWell P g := by
  unfold parseCaseGuard
  refine PSat.peek hg fun t ht _ => ?_
  split
  · refine PSat.consume hg fun s1 hg1 _ => PSat.read hg1 fun u s2 hg2 hu _ _ => ?_
    split
    · exact PSat.bind hg2 (sat_required hg2) fun e s3 _ _ he => PSat.pure he
    · exact PSat.bad hu
  · refine PSat.bind hg (sat_required hg) fun e s1 hg1 _ he => PSat.peek hg1 fun q hq _ => ?_
    split
    · exact PSat.pure he
    · exact PSat.pure he
    · exact PSat.consume hg1 fun s2 hg2 _ => PSat.bind hg2 (sat_required hg2) fun e' s3 _ _ he' => PSat.pure ⟨he, he'⟩
    · exact PSat.bad hq

theorem sat_caseGuardLoop {T : TextOps} : ∀ (n : Nat) (s : TokStream) (b : Bool), TokGood P M s → s.toks.length + 1 ≤ n →
    PSat P M (caseGuardLoop T n b) s fun r _ => ∀ g ∈ r, CaseWell P g := by
  intro n
  induction n with
  | zero => intro s b _ h; omega
  | succ n ih =>
    intro s b hg hn
    unfold caseGuardLoop
    refine PSat.peek hg fun t ht _ => ?_
    split
    · refine PSat.consume hg fun s1 hg1 _ => ?_
      split
      · refine PSat.peek hg1 fun q hq _ => ?_
        split
        · exact PSat.pure fun g hg => by cases hg
        · exact PSat.bad hq
      · exact PSat.bad ht
    · refine PSat.bind hg (sat_caseGuard hg) fun g s1 hg1 hl1 hgp => PSat.peek hg1 fun q hq hsq => ?_
      split
      · exact PSat.pure fun x hx => by rcases List.mem_cons.1 hx with rfl | hx; exact hgp; cases hx
      · rename_i hc
        refine PSat.consume hg1 fun s2 hg2 h2 => ?_
        have := hsq.used (by rw [hc]; exact fun h => by cases h) h2
        refine PSat.bind hg2 (ih s2 false hg2 (by omega)) fun r s3 _ _ hr => PSat.pure fun x hx => ?_
        rcases List.mem_cons.1 hx with rfl | hx
        · exact hgp
        · exact hr x hx
      · exact PSat.bad hq

theorem sat_caseGuards {T : TextOps} (hg : TokGood P M s) : PSat P M (parseCaseGuards T) s fun r _ => ∀ g ∈ r, CaseWell P g :=
  sat_caseGuardLoop _ s true hg (Nat.le_refl _)

/-! ## Recovery -/

theorem skipTo_psat {stop : Tok → Bool} (hg : TokGood P M s) : PSat P M (skipTo stop) s fun _ _ => True := by
  unfold PSat skipTo
  have hr : TokRest s { s with toks := s.toks.dropWhile fun t => !stop t.tok } := ⟨List.dropWhile_suffix _, rfl, rfl⟩
  dsimp only
  split_ifs
  · exact ⟨hr, hg.pos _ (.inl rfl)⟩
  · exact ⟨hr, trivial⟩

theorem sat_resetStmt (hg : TokGood P M s) : PSat P M resetStmt s fun _ _ => True :=
  PSat.bind hg (skipTo_psat hg) fun _ _ _ _ _ => PSat.consume_last trivial

theorem sat_resetDo (hg : TokGood P M s) : PSat P M resetDo s fun _ _ => True :=
  PSat.bind hg (skipTo_psat hg) fun _ s1 hg1 _ _ => PSat.consume hg1 fun s2 hg2 _ =>
    PSat.bind hg2 (skipTo_psat hg2) fun _ s3 hg3 _ _ => sat_resetStmt hg3

theorem sat_resetEnd {kw : Tok} {pos : LineCol} {msg : String} (hg : TokGood P M s) (hp : P pos) :
    PSat P M (resetEnd kw pos msg) s fun _ _ => True := by
  unfold resetEnd
  refine PSat.bind hg (skipTo_psat hg) fun _ s1 hg1 _ _ => PSat.peek hg1 fun t ht _ => ?_
  dsimp only
  split
  · exact PSat.consume hg1 fun s2 hg2 _ => PSat.expectAt hg2 hp fun s3 hg3 _ => sat_resetStmt hg3
  · exact sat_resetStmt hg1

theorem sat_resetKw {kw : Tok} (hg : TokGood P M s) : PSat P M (resetKw kw) s fun _ _ => True :=
  PSat.bind hg (skipTo_psat hg) fun _ s1 hg1 _ _ => PSat.consume hg1 fun s2 hg2 _ => sat_resetStmt hg2

theorem dropToEnd_suffix (kw : Tok) : ∀ l : List TokSpan, dropToEnd kw l <:+ l
  | [] => List.suffix_refl _
  | t :: ts => by
    unfold dropToEnd
    split_ifs with h
    · cases ts with
      | nil => exact List.nil_suffix
      | cons u us =>
        simp only
        split_ifs
        · exact (List.suffix_cons u us).trans (List.suffix_cons t _)
        · exact ((dropToEnd_suffix kw us).trans (List.suffix_cons u us)).trans (List.suffix_cons t _)
    · exact (dropToEnd_suffix kw ts).trans (List.suffix_cons t _)

theorem sat_resetCallable {kw : Tok} (hg : TokGood P M s) : PSat P M (resetCallable kw) s fun _ _ => True := by
  have hr : TokRest s { s with toks := dropToEnd kw s.toks } := ⟨dropToEnd_suffix _ _, rfl, rfl⟩
  unfold PSat resetCallable
  dsimp only
  split_ifs
  · exact ⟨hr, hg.pos _ (.inl rfl)⟩
  · have := sat_resetStmt (hg.rest hr)
    exact ⟨hr.trans this.1, this.2⟩

theorem PSat.orReset {x : PM α} {r : PM Unit} {Q : α → TokStream → Prop} (hg : TokGood P M s) (hx : PSat P M x s Q)
    (hr : ∀ s', TokGood P M s' → PSat P M r s' fun _ _ => True) : PSat P M (orReset x r) s Q := by
  unfold PSat EB.orReset at *
  obtain ⟨h1, h2⟩ := hx
  rcases hxs : x s with ⟨a | a, s'⟩
  · rw [hxs] at h1 h2
    have h3 := hr s' (hg.rest h1)
    have reset : ∀ e, ErrPos P M e →
        TokRest s (match r s' with | (.ok (), s'') => ((.error e : Except PErr α), s'') | (.error e', s'') => (.error e', s'')).2 ∧
        match (match r s' with | (.ok (), s'') => ((.error e : Except PErr α), s'') | (.error e', s'') => (.error e', s'')).1 with
        | .ok a => Q a (match r s' with | (.ok (), s'') => ((.error e : Except PErr α), s'') | (.error e', s'') => (.error e', s'')).2
        | .error e => ErrPos P M e := by
      intro e he
      unfold PSat at h3
      rcases hrs : r s' with ⟨b | b, s''⟩
      · rw [hrs] at h3; exact ⟨h1.trans h3.1, h3.2⟩
      · rw [hrs] at h3; exact ⟨h1.trans h3.1, he⟩
    cases a with
    | bad p m => exact reset _ h2
    | io p => exact reset _ h2
    | panic => exact ⟨h1, h2⟩
    | fuel => exact ⟨h1, h2⟩
  · rw [hxs] at h1 h2
    exact ⟨h1, h2⟩

/-! ## Statements with bodies -/

theorem sat_doGuards {pos : LineCol} {a b : Option (Expr × Bool)} (hp : P pos) (ha : ∀ e k, a = some (e, k) → ExprWell P e)
    (hb : ∀ e k, b = some (e, k) → ExprWell P e) : PSat P M (doGuard pos a b) s fun g _ => GuardWell P g := by
  match a, b with
  | none, none => exact PSat.pure trivial
  | some (e, true), none => exact PSat.pure (ha e _ rfl)
  | some (e, false), none => exact PSat.pure (ha e _ rfl)
  | none, some (e, true) => exact PSat.pure (hb e _ rfl)
  | none, some (e, false) => exact PSat.pure (hb e _ rfl)
  | some (_, true), some _ => exact PSat.bad hp
  | some (_, false), some _ => exact PSat.bad hp

theorem sat_endOfStmt {T : TextOps} (hg : TokGood P M s) : PSat P M (endOfStmt T) s fun _ _ => True := by
  unfold endOfStmt
  refine PSat.peek hg fun t ht _ => ?_
  split
  · exact PSat.pure trivial
  · exact PSat.consume_last trivial
  · exact PSat.bad ht

theorem startPos_pos : ∀ {e : Expr}, ExprWell P e → P e.startPos
  | .bool _ _, h => h
  | .dbl _ _, h => h
  | .int _ _, h => h
  | .text _ _, h => h
  | .sym _ _, h => h
  | .un _ _ _, h => h.2
  | .bin _ l _ _, h => startPos_pos (e := l) h.1
  | .call _ _ _, h => h.1

theorem sat_forHead {T : TextOps} {F : FloatOps} {pos : LineCol} (hg : TokGood P M s) (hp : P pos) :
    PSat P M (parseForHead T F pos) s fun mk _ => ∀ body, StmtsWell P body → StmtWell P (mk body) := by
  unfold parseForHead
  refine PSat.bind hg (sat_forIter hg) fun it s1 hg1 _ hit => PSat.expect hg1 fun _ s2 hg2 _ _ =>
    PSat.bind hg2 (sat_required hg2) fun a s3 hg3 _ ha => PSat.expect hg3 fun _to s4 hg4 hto _ =>
    PSat.bind hg4 (sat_required hg4) fun b s5 hg5 _ hb => PSat.bind hg5 (sat_step hg5 hp) fun st s6 hg6 _ hst =>
    PSat.bind hg6 (Q := fun c _ => ExprWell P c) ?_ fun c s7 hg7 _ hc => PSat.expect hg7 fun _ s8 hg8 _ _ => PSat.pure fun body hbody => ?_
  · split
    · exact PSat.pure ⟨hit, hb, hto⟩
    · exact PSat.pure ⟨hit, hb, hto⟩
    · exact PSat.bad (startPos_pos hst)
  · exact ⟨hit, ha, hc, ⟨hit, hst, hto⟩, hbody⟩

/-- The result of `parse_one`: nothing only when the file ends or the line is empty, and otherwise something was used. -/
def OnePos (P : LineCol → Prop) (s : TokStream) (r : Option Stmt) (s' : TokStream) : Prop :=
  (∀ st, r = some st → StmtWell P st ∧ s'.toks.length < s.toks.length) ∧ (r = none → ∀ t, Seen s t → t.tok.endsLine = true)

/-- The claims about the functions that call each other. -/
structure StmtsSat (P : LineCol → Prop) (M : Prop) (T : TextOps) (F : FloatOps) (n : Nat) : Prop where
  «until» : ∀ (s : TokStream) (d : Tok), TokGood P M s → 8 * s.toks.length + 9 ≤ n →
    PSat P M (parseUntil T F n d) s fun r _ => StmtsWell P r
  «do» : ∀ (s : TokStream) (pos : LineCol), TokGood P M s → P pos → 8 * s.toks.length + 10 ≤ n → PSat P M (parseDo T F n pos) s (SPos P)
  ifs : ∀ (s : TokStream) (pos : LineCol) (b : Bool), TokGood P M s → P pos → 8 * s.toks.length + 9 ≤ n →
    PSat P M (ifLoop T F n pos b) s (IfPos P)
  «if» : ∀ (s : TokStream) (pos : LineCol), TokGood P M s → P pos → 8 * s.toks.length + 10 ≤ n → PSat P M (parseIf T F n pos) s (SPos P)
  «for» : ∀ (s : TokStream) (pos : LineCol), TokGood P M s → P pos → 8 * s.toks.length + 10 ≤ n → PSat P M (parseFor T F n pos) s (SPos P)
  body : ∀ (s : TokStream) (pos : LineCol) (kw : Tok), TokGood P M s → P pos → 8 * s.toks.length + 9 ≤ n →
    PSat P M (bodyLoop T F n pos kw) s fun r _ => StmtsWell P r.1 ∧ P r.2
  callable : ∀ (s : TokStream) (pos : LineCol) (b : Bool), TokGood P M s → P pos → 8 * s.toks.length + 10 ≤ n →
    PSat P M (parseCallable T F n pos b) s (SPos P)
  cases : ∀ (s : TokStream) (pos : LineCol) (a b : Bool), TokGood P M s → P pos → 8 * s.toks.length + 9 ≤ n →
    PSat P M (selectLoop T F n pos a b) s fun r _ => StmtsWell P r.1 ∧ CasesWell P r.2.1 ∧ P r.2.2
  select : ∀ (s : TokStream) (pos : LineCol), TokGood P M s → P pos → 8 * s.toks.length + 10 ≤ n → PSat P M (parseSelect T F n pos) s (SPos P)
  «while» : ∀ (s : TokStream) (pos : LineCol), TokGood P M s → P pos → 8 * s.toks.length + 10 ≤ n → PSat P M (parseWhile T F n pos) s (SPos P)
  stmt : ∀ (s : TokStream) (t : TokSpan), TokGood P M s → P t.pos → 8 * s.toks.length + 11 ≤ n → PSat P M (parseBody T F n t) s (SPos P)
  one : ∀ (s : TokStream), TokGood P M s → 8 * s.toks.length + 7 ≤ n → PSat P M (parseOne T F n) s (OnePos P s)
  safe : ∀ (s : TokStream), TokGood P M s → 8 * s.toks.length + 8 ≤ n → PSat P M (parseOneSafe T F n) s (OnePos P s)

theorem seen_same {t u : TokSpan} (h1 : Seen s t) (h2 : Seen s u) : t.tok = u.tok := by
  rcases h1 with ⟨ts, h1⟩ | ⟨h1, k1⟩ <;> rcases h2 with ⟨us, h2⟩ | ⟨h2, k2⟩
  · rw [h1] at h2; cases h2; rfl
  · rw [h1] at h2; cases h2
  · rw [h1] at h2; cases h2
  · rw [k1, k2]

theorem stmts_sat (T : TextOps) (F : FloatOps) : ∀ n : Nat, StmtsSat P M T F n := by
  intro n
  induction n with
  | zero =>
    constructor <;> intros <;> omega
  | succ n ih =>
    refine ⟨fun s d hg hn => ?_, fun s pos hg hp hn => ?_, fun s pos b hg hp hn => ?_, fun s pos hg hp hn => ?_, fun s pos hg hp hn => ?_,
      fun s pos kw hg hp hn => ?_, fun s pos b hg hp hn => ?_, fun s pos a b hg hp hn => ?_, fun s pos hg hp hn => ?_,
      fun s pos hg hp hn => ?_, fun s t hg hp hn => ?_, fun s hg hn => ?_, fun s hg hn => ?_⟩
    · unfold parseUntil
      refine PSat.peek hg fun t ht hs => ?_
      split
      · exact PSat.pure trivial
      · split
        · rename_i he
          refine PSat.consume hg fun s1 hg1 h1 => ih.until s1 d hg1 ?_
          have := hs.used (by rw [he]; exact fun h => by cases h) h1
          omega
        · refine PSat.bind hg (ih.safe s hg (by omega)) fun r s1 hg1 _ hr => ?_
          split
          · rename_i st
            have := (hr.1 st rfl).2
            exact PSat.bind hg1 (ih.until s1 d hg1 (by omega)) fun rest s2 _ _ hrest => PSat.pure ⟨(hr.1 st rfl).1, hrest⟩
          · exact PSat.pure trivial
    · unfold parseDo
      refine PSat.bind hg (sat_doGuard hg) fun a s1 hg1 _ ha => PSat.expect hg1 fun _ s2 hg2 _ _ =>
        PSat.bind hg2 (ih.until s2 .loop hg2 (by omega)) fun body s3 hg3 _ hb => PSat.expectAt hg3 hp fun s4 hg4 _ =>
        PSat.bind hg4 (sat_doGuard hg4) fun b s5 hg5 _ hb2 => PSat.bind hg5 (sat_doGuards hp ha hb2) fun g s6 _ _ hgd => PSat.pure ⟨hgd, hb⟩
    · have dflt : PSat P M (do
          match ← parseOneSafe T F n with
          | some s => do
            let (body, rest) ← ifLoop T F n pos b
            pure (Stmts.cons s body, rest)
          | none => do
            expectAt .if pos "IF without END IF".toList
            pure (.nil, .nil)) s (IfPos P) := by
        refine PSat.bind hg (ih.safe s hg (by omega)) fun r s1 hg1 _ hr => ?_
        split
        · rename_i st
          have := (hr.1 st rfl).2
          exact PSat.bind hg1 (ih.ifs s1 pos b hg1 hp (by omega)) fun rest s2 _ _ hrest => PSat.pure ⟨⟨(hr.1 st rfl).1, hrest.1⟩, hrest.2⟩
        · exact PSat.expectAt hg1 hp fun s2 hg2 _ => PSat.pure ⟨trivial, trivial⟩
      unfold ifLoop
      refine PSat.peek hg fun t ht hs => ?_
      have used : ∀ {s1 : TokStream} {k : Tok}, t.tok = k → k ≠ .eof → s1.toks = s.toks.tail → s1.toks.length + 1 = s.toks.length :=
        fun h1 h2 h3 => hs.used (h1 ▸ h2) h3
      cases hk : t.tok
      case eol =>
        refine PSat.consume hg fun s1 hg1 h1 => ih.ifs s1 pos b hg1 hp ?_
        have := used hk (fun h => by cases h) h1
        omega
      case «elseif» =>
        dsimp only
        split
        · exact PSat.bad ht
        · refine PSat.consume hg fun s1 hg1 h1 => ?_
          have := used hk (fun h => by cases h) h1
          refine PSat.bind hg1 (sat_required hg1) fun e s2 hg2 hl2 he => PSat.expect hg2 fun _ s3 hg3 _ hl3 => PSat.expect hg3 fun _ s4 hg4 _ hl4 =>
            PSat.bind hg4 (ih.ifs s4 pos b hg4 hp (by omega)) fun r s5 _ _ hr => PSat.pure ⟨trivial, he, hr.1, hr.2⟩
      case «else» =>
        dsimp only
        split
        · exact PSat.bad ht
        · refine PSat.consume hg fun s1 hg1 h1 => ?_
          have := used hk (fun h => by cases h) h1
          refine PSat.expect hg1 fun _ s4 hg4 _ hl4 =>
            PSat.bind hg4 (ih.ifs s4 pos true hg4 hp (by omega)) fun r s5 _ _ hr => PSat.pure ⟨trivial, ht, hr.1, hr.2⟩
      case «end» =>
        refine PSat.consume hg fun s1 hg1 h1 => ?_
        have := used hk (fun h => by cases h) h1
        refine PSat.bind hg1 (sat_maybeEnd hg1 ht) fun r s2 hg2 hl2 hr => ?_
        split
        · exact PSat.bind hg2 (ih.ifs s2 pos b hg2 hp (by omega)) fun r' s5 _ _ hr' => PSat.pure ⟨⟨hr _ rfl, hr'.1⟩, hr'.2⟩
        · exact PSat.expectAt hg2 hp fun s2 hg2 _ => PSat.pure ⟨trivial, trivial⟩
        · exact PSat.bad ht
      all_goals exact dflt
    · unfold parseIf
      refine PSat.bind hg (sat_required hg) fun e s1 hg1 hl1 he => PSat.expect hg1 fun _ s2 hg2 _ hl2 => PSat.peek hg2 fun t ht hs => ?_
      refine PSat.bind hg2 (Q := IfPos P) ?_ fun r s3 _ _ hr => PSat.pure ⟨he, hr.1, hr.2⟩
      split
      · exact ih.ifs s2 pos false hg2 hp (by omega)
      · rename_i hend
        exact sat_ifUniline hg2 fun u hu => by rw [seen_same hu hs]; simpa using hend
    · unfold parseFor
      exact PSat.bind hg (sat_forHead hg hp) fun mk s1 hg1 hl1 hmk => PSat.bind hg1 (ih.until s1 .next hg1 (by omega)) fun body s2 hg2 _ hb =>
        PSat.expectAt hg2 hp fun s3 _ _ => PSat.pure (hmk body hb)
    · have dflt : PSat P M (do
          match ← parseOneSafe T F n with
          | some s => do
            let (body, e) ← bodyLoop T F n pos kw
            pure (Stmts.cons s body, e)
          | none => PM.bad pos (kw.show T ++ " without END ".toList ++ kw.show T)) s fun r _ => StmtsWell P r.1 ∧ P r.2 := by
        refine PSat.bind hg (ih.safe s hg (by omega)) fun r s1 hg1 _ hr => ?_
        split
        · rename_i st
          have := (hr.1 st rfl).2
          exact PSat.bind hg1 (ih.body s1 pos kw hg1 hp (by omega)) fun rest s2 _ _ hrest => PSat.pure ⟨⟨(hr.1 st rfl).1, hrest.1⟩, hrest.2⟩
        · exact PSat.bad hp
      unfold bodyLoop
      refine PSat.peek hg fun t ht hs => ?_
      have used : ∀ {s1 : TokStream} {k : Tok}, t.tok = k → k ≠ .eof → s1.toks = s.toks.tail → s1.toks.length + 1 = s.toks.length :=
        fun h1 h2 h3 => hs.used (h1 ▸ h2) h3
      cases hk : t.tok
      case eof => exact PSat.expectAt hg hp fun s2 hg2 _ => PSat.pure ⟨trivial, ht⟩
      case eol =>
        refine PSat.consume hg fun s1 hg1 h1 => ih.body s1 pos kw hg1 hp ?_
        have := used hk (fun h => by cases h) h1
        omega
      case function => exact PSat.bad ht
      case sub => exact PSat.bad ht
      case «end» =>
        refine PSat.consume hg fun s1 hg1 h1 => ?_
        have := used hk (fun h => by cases h) h1
        refine PSat.bind hg1 (sat_maybeEnd hg1 ht) fun r s2 hg2 hl2 hr => ?_
        split
        · exact PSat.bind hg2 (ih.body s2 pos kw hg2 hp (by omega)) fun r' s5 _ _ hr' => PSat.pure ⟨⟨hr _ rfl, hr'.1⟩, hr'.2⟩
        · split
          · exact PSat.expectAt hg2 hp fun s2 hg2 _ => PSat.pure ⟨trivial, ht⟩
          · exact PSat.bad ht
      all_goals exact dflt
    · unfold parseCallable
      exact PSat.bind hg (sat_signature hg) fun sg s1 hg1 hl1 hsg => PSat.bind hg1 (ih.body s1 pos _ hg1 hp (by omega)) fun r s2 _ _ hr =>
        PSat.pure ⟨hsg, hr.1, hr.2⟩
    · have dflt : (∀ t, Seen s t → t.tok.endsLine = false) → ∀ t : TokSpan, P t.pos → PSat P M (
          if a then PM.bad t.pos "Expected CASE after SELECT CASE before any statement".toList
          else do
            match ← parseOneSafe T F n with
            | some s => do
              let (body, rest, e) ← selectLoop T F n pos a b
              pure (Stmts.cons s body, rest, e)
            | none => selectLoop T F n pos a b) s fun r _ => StmtsWell P r.1 ∧ CasesWell P r.2.1 ∧ P r.2.2 := by
        intro hend t ht
        split
        · exact PSat.bad ht
        · refine PSat.bind hg (PSat.mono (ih.safe s hg (by omega)) fun r s' _ hr => hr) fun r s1 hg1 hl1 hr => ?_
          split
          · rename_i st
            have := (hr.1 st rfl).2
            exact PSat.bind hg1 (ih.cases s1 pos a b hg1 hp (by omega)) fun rest s2 _ _ hrest =>
              PSat.pure ⟨⟨(hr.1 st rfl).1, hrest.1⟩, hrest.2⟩
          · exfalso
            obtain ⟨u, hu⟩ : ∃ u, Seen s u := by
              cases h : s.toks with
              | nil => exact ⟨⟨.eof, s.eofPos⟩, .inr ⟨h, rfl⟩⟩
              | cons u us => exact ⟨u, .inl ⟨us, h⟩⟩
            have h1 := hr.2 rfl u hu
            rw [hend u hu] at h1
            cases h1
      unfold selectLoop
      refine PSat.peek hg fun t ht hs => ?_
      have used : ∀ {s1 : TokStream} {k : Tok}, t.tok = k → k ≠ .eof → s1.toks = s.toks.tail → s1.toks.length + 1 = s.toks.length :=
        fun h1 h2 h3 => hs.used (h1 ▸ h2) h3
      cases hk : t.tok
      case eof => exact PSat.expectAt hg hp fun s2 hg2 _ => PSat.pure ⟨trivial, trivial, ht⟩
      case eol =>
        refine PSat.consume hg fun s1 hg1 h1 => ih.cases s1 pos a b hg1 hp ?_
        have := used hk (fun h => by cases h) h1
        omega
      case case =>
        refine PSat.consume hg fun s1 hg1 h1 => ?_
        have := used hk (fun h => by cases h) h1
        refine PSat.bind hg1 (sat_caseGuards hg1) fun gs s2 hg2 hl2 hgs => PSat.expect hg2 fun _ s3 hg3 _ hl3 => ?_
        dsimp only
        split
        · split <;> exact PSat.bad ht
        · exact PSat.bind hg3 (ih.cases s3 pos _ _ hg3 hp (by omega)) fun r s4 _ _ hr => PSat.pure ⟨trivial, ⟨hgs, hr.1, hr.2.1⟩, hr.2.2⟩
      case «end» =>
        refine PSat.consume hg fun s1 hg1 h1 => ?_
        have := used hk (fun h => by cases h) h1
        refine PSat.bind hg1 (sat_maybeEnd hg1 ht) fun r s2 hg2 hl2 hr => ?_
        split
        · split
          · exact PSat.bad ht
          · exact PSat.bind hg2 (ih.cases s2 pos a b hg2 hp (by omega)) fun r' s5 _ _ hr' => PSat.pure ⟨⟨hr _ rfl, hr'.1⟩, hr'.2⟩
        · exact PSat.expectAt hg2 hp fun s2 hg2 _ => PSat.pure ⟨trivial, trivial, ht⟩
        · split <;> exact PSat.bad ht
      all_goals exact dflt (fun u hu => by rw [← seen_same hs hu, hk]; rfl) t ht
    · unfold parseSelect
      exact PSat.expect hg fun _ s1 hg1 _ hl1 => PSat.bind hg1 (sat_required hg1) fun e s2 hg2 hl2 he => PSat.expect hg2 fun _ s3 hg3 _ hl3 =>
        PSat.bind hg3 (ih.cases s3 pos true false hg3 hp (by omega)) fun r s4 _ _ hr => PSat.pure ⟨he, hr.2.1, hr.2.2⟩
    · unfold parseWhile
      exact PSat.bind hg (sat_required hg) fun e s2 hg2 hl2 he => PSat.expect hg2 fun _ s3 hg3 _ hl3 =>
        PSat.bind hg3 (ih.until s3 .wend hg3 (by omega)) fun body s4 hg4 _ hb => PSat.expectAt hg4 hp fun s5 _ _ => PSat.pure ⟨he, hb⟩
    · unfold parseBody
      cases hk : t.tok
      case data => exact sat_data hg
      case declare => exact sat_declare hg
      case dim => exact sat_dim hg
      case «do» => exact PSat.orReset hg (ih.do s t.pos hg hp (by omega)) fun _ h => sat_resetDo h
      case «end» => exact sat_end hg hp
      case exit => exact sat_exit hg hp
      case «if» => exact PSat.orReset hg (ih.if s t.pos hg hp (by omega)) fun _ h => sat_resetEnd h hp
      case «for» => exact PSat.orReset hg (ih.for s t.pos hg hp (by omega)) fun _ h => sat_resetKw h
      case function => exact PSat.orReset hg (ih.callable s t.pos _ hg hp (by omega)) fun _ h => sat_resetCallable h
      case gosub => exact sat_gosub hg
      case goto => exact sat_goto hg
      case on => exact sat_on hg hp
      case «return» => exact PSat.pure hp
      case select => exact PSat.orReset hg (ih.select s t.pos hg hp (by omega)) fun _ h => sat_resetEnd h hp
      case sub => exact PSat.orReset hg (ih.callable s t.pos _ hg hp (by omega)) fun _ h => sat_resetCallable h
      case symbol v => exact sat_symbol hg hp
      case «while» => exact PSat.orReset hg (ih.while s t.pos hg hp (by omega)) fun _ h => sat_resetKw h
      all_goals exact PSat.bad hp
    · unfold parseOne
      refine PSat.peek hg fun t ht hs => ?_
      by_cases heol : t.tok = .eol
      · rw [heol]
        refine PSat.consume hg fun s1 hg1 h1 => ?_
        have hl := hs.used (by rw [heol]; exact fun h => by cases h) h1
        refine (ih.one s1 hg1 (by omega)).mono fun r s' _ hr => ⟨fun st h => ⟨(hr.1 st h).1, ?_⟩, fun _ u hu => ?_⟩
        · have := (hr.1 st h).2; omega
        · rw [← seen_same hs hu, heol]; rfl
      · by_cases heof : t.tok = .eof
        · rw [heof]
          exact PSat.pure ⟨fun st h => (by cases h), fun _ u hu => by rw [← seen_same hs hu, heof]; rfl⟩
        · have rest : PSat P M (do
              consumeT
              match t.tok.labelName with
              | some l => pure (some (.label l t.pos))
              | none => do
                let s ← parseBody T F n t
                endOfStmt T
                pure (some s)) s (OnePos P s) := by
            refine PSat.consume hg fun s1 hg1 h1 => ?_
            have hl := hs.used heof h1
            split
            · exact PSat.pure ⟨fun st h => (by cases h; exact ⟨ht, by omega⟩), fun h => by cases h⟩
            · refine PSat.bind hg1 (ih.stmt s1 t hg1 ht (by omega)) fun st s2 hg2 hl2 hst => PSat.bind hg2 (sat_endOfStmt hg2) fun _ s3 _ hl3 _ =>
                PSat.pure ⟨fun x h => (by cases h; exact ⟨hst, by omega⟩), fun h => by cases h⟩
          cases hk : t.tok <;> first | exact absurd hk heol | exact absurd hk heof | (rw [hk] at rest; exact rest)
    · unfold parseOneSafe
      exact PSat.orReset hg (ih.one s hg (by omega)) fun _ h => sat_resetStmt h

theorem parseAll_sat (T : TextOps) (F : FloatOps) : ∀ (n : Nat) (s : TokStream), TokGood P M s → s.toks.length + 1 ≤ n →
    (∀ st ∈ (parseAll T F n s).1, StmtWell P st) ∧ ∀ e, (parseAll T F n s).2 = some e → ErrPos P M e := by
  intro n
  induction n with
  | zero => intro s _ h; omega
  | succ n ih =>
    intro s hg hn
    have h := (stmts_sat (P := P) (M := M) T F s.stmtFuel).safe s hg (Nat.le_refl _)
    unfold parseAll
    unfold PSat at h
    rcases hs : parseOneSafe T F s.stmtFuel s with ⟨e | (_ | st), s'⟩
    · rw [hs] at h
      exact ⟨fun st hst => (by cases hst), fun e' he => by cases he; exact h.2⟩
    · exact ⟨fun st hst => (by cases hst), fun e' he => by cases he⟩
    · rw [hs] at h
      have h1 := (h.2.1 st rfl)
      have hl : s'.toks.length < s.toks.length := h1.2
      have h2 := ih s' (hg.rest h.1) (by omega)
      simp only
      refine ⟨fun x hx => ?_, h2.2⟩
      rcases List.mem_cons.1 hx with rfl | hx
      · exact h1.1
      · exact h2.1 x hx

theorem ofList_pos {l : List Stmt} (h : ∀ st ∈ l, StmtWell P st) : StmtsWell P (Stmts.ofList l) := by
  induction l with
  | nil => trivial
  | cons a l ih => exact ⟨h a (by simp), ih fun x hx => h x (by simp [hx])⟩

end

end EB
