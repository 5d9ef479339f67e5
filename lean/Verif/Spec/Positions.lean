import Verif.Model.Parser
import Verif.Model.Vm
import Verif.Spec.Lexer
/-!
# Positions in a program

Which positions occur in a syntax tree, an error or a stream of tokens.
-/

namespace EB.Spec

mutual
/-- All positions in an expression satisfy `P`. -/
def ExprPos (P : LineCol → Prop) : Expr → Prop
  | .bool _ p | .dbl _ p | .int _ p | .text _ p | .sym _ p => P p
  | .un _ e p => ExprPos P e ∧ P p
  | .bin _ l r p => ExprPos P l ∧ ExprPos P r ∧ P p
  | .call _ p args => P p ∧ ArgsPos P args

/-- All positions in a list of arguments satisfy `P`. -/
def ArgsPos (P : LineCol → Prop) : Args → Prop
  | .nil => True
  | .cons e _ p rest => ExprPos P e ∧ P p ∧ ArgsPos P rest
  | .skip _ p rest => P p ∧ ArgsPos P rest
end

/-- All positions in the guard of a `DO` satisfy `P`. -/
def GuardPos (P : LineCol → Prop) : DoGuard → Prop
  | .infinite => True
  | .preUntil e | .preWhile e | .postUntil e | .postWhile e => ExprPos P e

/-- All positions in a guard of a `CASE` satisfy `P`. -/
def CasePos (P : LineCol → Prop) : CaseGuard → Prop
  | .is _ e => ExprPos P e
  | .to a b => ExprPos P a ∧ ExprPos P b

mutual
/-- All positions in a statement satisfy `P`. -/
def StmtPos (P : LineCol → Prop) : Stmt → Prop
  | .arrayAssign _ p subs e => P p ∧ (∀ x ∈ subs, ExprPos P x) ∧ ExprPos P e
  | .assign _ p e => P p ∧ ExprPos P e
  | .call _ p args => P p ∧ ArgsPos P args
  | .callable _ p _ body q => P p ∧ StmtsPos P body ∧ P q
  | .data values => ∀ e, some e ∈ values → ExprPos P e
  | .declare _ p _ => P p
  | .dim _ p _ _ => P p
  | .dimArray _ p _ dims _ => P p ∧ ∀ x ∈ dims, ExprPos P x
  | .doLoop g body => GuardPos P g ∧ StmtsPos P body
  | .end code p => (∀ e, code = some e → ExprPos P e) ∧ P p
  | .exitDo p | .exitFor p | .exitFunction p | .exitSub p => P p
  | .forLoop _ p _ a b c body => P p ∧ ExprPos P a ∧ ExprPos P b ∧ ExprPos P c ∧ StmtsPos P body
  | .gosub _ p | .goto _ p | .label _ p | .ret p => P p
  | .ifs bs => BranchesPos P bs
  | .onError (.goto _ p q) => P p ∧ P q
  | .onError (.reset p) | .onError (.resumeNext p) => P p
  | .select e cs p => ExprPos P e ∧ CasesPos P cs ∧ P p
  | .whileLoop e body => ExprPos P e ∧ StmtsPos P body

/-- All positions in some statements satisfy `P`. -/
def StmtsPos (P : LineCol → Prop) : Stmts → Prop
  | .nil => True
  | .cons s rest => StmtPos P s ∧ StmtsPos P rest

/-- All positions in some branches satisfy `P`. -/
def BranchesPos (P : LineCol → Prop) : Branches → Prop
  | .nil => True
  | .cons e body rest => ExprPos P e ∧ StmtsPos P body ∧ BranchesPos P rest

/-- All positions in some cases satisfy `P`. -/
def CasesPos (P : LineCol → Prop) : Cases → Prop
  | .nil => True
  | .cons gs body rest => (∀ g ∈ gs, CasePos P g) ∧ StmtsPos P body ∧ CasesPos P rest
end

/-- `p` is the position of a token or of the end of the text. -/
def TokPos (s : TokStream) (p : LineCol) : Prop := p = s.eofPos ∨ ∃ t ∈ s.toks, t.pos = p

/-- A minus sign is followed by the literal that stands for -2147483648, such as `&x80000000`. -/
def NegMin (s : TokStream) : Prop :=
  ∃ a b, [(⟨.minus, a⟩ : TokSpan), ⟨.integer (BitVec.intMin 32), b⟩] <:+: s.toks

/-- Something that can be pointed at stands at `p` in a text: a token, a character that starts no token,
or the end of the text. -/
def Points (T : TextOps) (text : Str) (p : LineCol) : Prop :=
  p = posOf text ∨ ∃ before lex rest, text = before ++ lex ++ rest ∧ p = posOf before ∧
    ((∃ tok, Lexeme T lex tok rest) ∨ (lex ≠ [] ∧ NoToken T (lex ++ rest)))

/-- The position that an error of the compiler reports. -/
def errorAt : CErr → Option LineCol
  | .alreadyDefined p _ | .arrayUsedAsScalar p _ | .binaryOpType p _ _ _ | .callableSyntax p _
  | .cannotNest p | .duplicateLabel p _ | .incompatibleAnnotation p _ | .incompatibleTypes p _ _
  | .invalidEndCode p | .io p | .notAFunction p _ | .misplacedExit p _ | .notAnArray p _
  | .notANumber p _ | .outOfConstants p | .outOfRegisters p _ | .outOfUpcalls p | .parse p _
  | .tooManyDims p _ | .typeMismatch p _ _ | .undefinedSymbol p _ | .unknownLabel p _
  | .wrongSubscripts p _ _ | .targetTooFar p _ => some p
  | .panic => none

/-- When a built-in callable says where an error is, it is at one of its arguments. -/
def HostPos {H : Type} (host : Host H) : Prop :=
  ∀ idx first poss regs heap last img st p msg,
    (host.exec idx first poss regs heap last img st).2.2.2 = .error (some p, msg) → p ∈ poss

end EB.Spec
