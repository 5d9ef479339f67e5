import Verif.Spec.Grammar
/-!
# What may be accepted besides the programs of the grammar

The grammar of `Spec.Grammar` with three more productions, which are marked with "Not in the grammar".  Expressions are only
required to be expressions if their tokens are none of the malformed sequences that `Spec.Regular` lists.
-/

namespace EB.Spec

/-- The tokens that expressions are made of. -/
def Tok.inExpr : Tok → Bool
  | .boolean _ | .double _ | .integer _ | .text _ | .symbol _ | .leftParen | .rightParen | .comma | .not | .minus | .plus | .multiply
  | .divide | .modulo | .exponent | .equal | .notEqual | .less | .lessEqual | .greater | .greaterEqual | .and | .or | .xor | .shiftLeft
  | .shiftRight => true
  | _ => false

/-- The tokens are those of an expression, or none. -/
def MaybeExpr (ts : List TokSpan) (r : Option Expr) : Prop :=
  (∀ t ∈ ts, Tok.inExpr t.tok = true) ∧
    (Regular .eof .eof ts → (ts = [] ∧ r = none) ∨ ∃ e, r = some e ∧ IsExpr ts e)

/-- The tokens are those of an expression. -/
def LikeExpr (ts : List TokSpan) (e : Expr) : Prop := MaybeExpr ts (some e)

/-- The tokens are those of expressions between commas and a closing parenthesis, which may also be alone. -/
def LikeSubscripts (v : VarRef) (ts : List TokSpan) (es : List Expr) : Prop :=
  (∀ t ∈ ts, Tok.inExpr t.tok = true) ∧
    (Regular (.symbol v) .leftParen ts → (es = [] ∧ ∃ rp, ts = [⟨.rightParen, rp⟩]) ∨
      ∃ a : TreeArgs, a.Canonical ∧ a.toks = ts ∧ a.exprs = es)

/-- One argument of a command, which may be missing. -/
def argument (e : Option Expr) (sep : ArgSep) (pos : LineCol) (rest : Args) : Args :=
  match e with
  | some e => .cons e sep pos rest
  | none => .skip sep pos rest

/-- The arguments of a command. -/
inductive LikeArgs (after : LineCol) : List TokSpan → Args → Prop
  | last {te r} : MaybeExpr te r → LikeArgs after te (argument r .end after .nil)
  | more {te r t sep p ts a} : MaybeExpr te r → IsSep t sep → LikeArgs after ts a →
      LikeArgs after (te ++ ⟨t, p⟩ :: ts) (argument r sep p a)

/-- The statements that can be in an `IF` of one line.  `after` is the position behind the statement. -/
inductive LikeSimple (F : FloatOps) (after : LineCol) : List TokSpan → Stmt → Prop
  | assign {v p q te e} : LikeExpr te e → LikeSimple F after (⟨.symbol v, p⟩ :: ⟨.equal, q⟩ :: te) (.assign v p e)
  /-- Not in the grammar: there may be no subscripts at all, as in `v() = e`. -/
  | arrayAssign {v p q r ts subs te e} : LikeSubscripts v ts subs → LikeExpr te e →
      LikeSimple F after (⟨.symbol v, p⟩ :: ⟨.leftParen, q⟩ :: (ts ++ ⟨.equal, r⟩ :: te)) (.arrayAssign v p subs e)
  | command {name p te} : MaybeExpr te none → LikeSimple F after (⟨.symbol ⟨name, none⟩, p⟩ :: te) (.call ⟨name.map asciiUpper, none⟩ p .nil)
  | commandArgs {name p ta a} : LikeArgs after ta a → a ≠ .skip .end after .nil → ¬ LikeElement ta →
      LikeSimple F after (⟨.symbol ⟨name, none⟩, p⟩ :: ta) (.call ⟨name.map asciiUpper, none⟩ p a)
  | data {p ts vs} : IsData F ts vs → LikeSimple F after (⟨.data, p⟩ :: ts) (.data vs)
  | end {p te r} : MaybeExpr te r → LikeSimple F after (⟨.end, p⟩ :: te) (.end r p)
  | exitDo {p q} : LikeSimple F after [⟨.exit, p⟩, ⟨.do, q⟩] (.exitDo p)
  | exitFor {p q} : LikeSimple F after [⟨.exit, p⟩, ⟨.for, q⟩] (.exitFor p)
  | exitFunction {p q} : LikeSimple F after [⟨.exit, p⟩, ⟨.function, q⟩] (.exitFunction p)
  | exitSub {p q} : LikeSimple F after [⟨.exit, p⟩, ⟨.sub, q⟩] (.exitSub p)
  | gosub {p t l q} : IsLabel t l → LikeSimple F after [⟨.gosub, p⟩, ⟨t, q⟩] (.gosub l q)
  | goto {p t l q} : IsLabel t l → LikeSimple F after [⟨.goto, p⟩, ⟨t, q⟩] (.goto l q)
  | onErrorGoto {p q r t l u} : IsLabel t l → t ≠ .integer 0 →
      LikeSimple F after [⟨.on, p⟩, ⟨.error, q⟩, ⟨.goto, r⟩, ⟨t, u⟩] (.onError (.goto l u p))
  | onErrorReset {p q r u} : LikeSimple F after [⟨.on, p⟩, ⟨.error, q⟩, ⟨.goto, r⟩, ⟨.integer 0, u⟩] (.onError (.reset p))
  | onErrorResume {p q r u} : LikeSimple F after [⟨.on, p⟩, ⟨.error, q⟩, ⟨.resume, r⟩, ⟨.next, u⟩] (.onError (.resumeNext p))
  | return {p} : LikeSimple F after [⟨.return, p⟩] (.ret p)

/-- One guard of a `CASE`. -/
inductive LikeGuard : List TokSpan → CaseGuard → Prop
  | is {p t op q te e} : IsCaseRel t op → LikeExpr te e → LikeGuard (⟨.is, p⟩ :: ⟨t, q⟩ :: te) (.is op e)
  | eq {te e} : LikeExpr te e → LikeGuard te (.is .eq e)
  | to {te e p tf f} : LikeExpr te e → LikeExpr tf f → LikeGuard (te ++ ⟨.to, p⟩ :: tf) (.to e f)

/-- The guards of a `CASE`. -/
inductive LikeGuards : List TokSpan → List CaseGuard → Prop
  | one {tg g} : LikeGuard tg g → LikeGuards tg [g]
  | more {tg g p ts gs} : LikeGuard tg g → LikeGuards ts gs → LikeGuards (tg ++ ⟨.comma, p⟩ :: ts) (g :: gs)

/-- The tokens start with this one. -/
def StartsWith (t : Tok) (ts : List TokSpan) : Prop := ∃ p ts', ts = ⟨t, p⟩ :: ts'

/-- What tokens can be accepted as. -/
inductive Portion where
  /-- A statement, and the token behind it. -/
  | stmt (s : Stmt) (next : TokSpan)
  /-- Whole lines, and the token behind them. -/
  | lines (ss : Stmts) (next : Tok)
  /-- The rest of an `IF` after its first branch. -/
  | branches (bs : Branches)
  /-- The cases of a `SELECT`, and the position of its end. -/
  | cases (cs : Cases) (endPos : LineCol)

/-- The tokens may be accepted as the piece of a program. -/
inductive Accepts (F : FloatOps) : List TokSpan → Portion → Prop
  | simple {next : TokSpan} {ts s} : LikeSimple F next.pos ts s → Accepts F ts (.stmt s next)
  | dim {p tsh sh name q tt ty next} : IsShared tsh sh → IsDimType tt ty →
      Accepts F (⟨.dim, p⟩ :: (tsh ++ ⟨.symbol ⟨name, none⟩, q⟩ :: tt)) (.stmt (.dim name q sh ty) next)
  | dimArray {p tsh sh name q lp ta es tt ty next} : IsShared tsh sh → LikeSubscripts ⟨name, none⟩ ta es → es ≠ [] → IsDimType tt ty →
      Accepts F (⟨.dim, p⟩ :: (tsh ++ ⟨.symbol ⟨name, none⟩, q⟩ :: ⟨.leftParen, lp⟩ :: (ta ++ tt)))
        (.stmt (.dimArray name q sh es ty) next)
  | declare {p kw q v name r tp vs next} : IsCallable kw v name → IsParamList tp vs →
      Accepts F (⟨.declare, p⟩ :: ⟨kw, q⟩ :: ⟨.symbol v, r⟩ :: tp) (.stmt (.declare name r vs) next)
  | doForever {p q tb ss r next} : Accepts F tb (.lines ss .loop) →
      Accepts F (⟨.do, p⟩ :: ⟨.eol, q⟩ :: (tb ++ [⟨.loop, r⟩])) (.stmt (.doLoop .infinite ss) next)
  | doUntil {p u te e q tb ss r next} : LikeExpr te e → Accepts F tb (.lines ss .loop) →
      Accepts F (⟨.do, p⟩ :: ⟨.until, u⟩ :: (te ++ ⟨.eol, q⟩ :: (tb ++ [⟨.loop, r⟩]))) (.stmt (.doLoop (.preUntil e) ss) next)
  | doWhile {p u te e q tb ss r next} : LikeExpr te e → Accepts F tb (.lines ss .loop) →
      Accepts F (⟨.do, p⟩ :: ⟨.while, u⟩ :: (te ++ ⟨.eol, q⟩ :: (tb ++ [⟨.loop, r⟩]))) (.stmt (.doLoop (.preWhile e) ss) next)
  | loopUntil {p q tb ss r u te e next} : Accepts F tb (.lines ss .loop) → LikeExpr te e →
      Accepts F (⟨.do, p⟩ :: ⟨.eol, q⟩ :: (tb ++ ⟨.loop, r⟩ :: ⟨.until, u⟩ :: te)) (.stmt (.doLoop (.postUntil e) ss) next)
  | loopWhile {p q tb ss r u te e next} : Accepts F tb (.lines ss .loop) → LikeExpr te e →
      Accepts F (⟨.do, p⟩ :: ⟨.eol, q⟩ :: (tb ++ ⟨.loop, r⟩ :: ⟨.while, u⟩ :: te)) (.stmt (.doLoop (.postWhile e) ss) next)
  | ifLine {p te e q ta a} {next : TokSpan} : LikeExpr te e → LikeSimple F next.pos ta a →
      Accepts F (⟨.if, p⟩ :: (te ++ ⟨.then, q⟩ :: ta)) (.stmt (.ifs (.cons e (.cons a .nil) .nil)) next)
  | ifLineElse {p te e q ta a r tb b} {next : TokSpan} : LikeExpr te e → LikeSimple F r ta a → LikeSimple F next.pos tb b →
      Accepts F (⟨.if, p⟩ :: (te ++ ⟨.then, q⟩ :: (ta ++ ⟨.else, r⟩ :: tb)))
        (.stmt (.ifs (.cons e (.cons a .nil) (.cons (.bool true r) (.cons b .nil) .nil))) next)
  | ifLineOnlyElse {p te e q r tb b} {next : TokSpan} : LikeExpr te e → LikeSimple F next.pos tb b →
      Accepts F (⟨.if, p⟩ :: (te ++ ⟨.then, q⟩ :: ⟨.else, r⟩ :: tb))
        (.stmt (.ifs (.cons e .nil (.cons (.bool true r) (.cons b .nil) .nil))) next)
  /-- Not in the grammar: an `IF` of one line may end in `ELSE` if an empty line or the end of the text follows. -/
  | ifLineEmptyElse {p te e q ta body r tl} {next : TokSpan} : LikeExpr te e →
      (ta = [] ∧ body = .nil) ∨ (∃ a, LikeSimple F r ta a ∧ body = .cons a .nil) →
      (∃ l, tl = [⟨.eol, l⟩]) ∨ (tl = [] ∧ next.tok = .eof) →
      Accepts F (⟨.if, p⟩ :: (te ++ ⟨.then, q⟩ :: (ta ++ ⟨.else, r⟩ :: tl)))
        (.stmt (.ifs (.cons e body (.cons (.bool true r) .nil .nil))) next)
  | ifBlock {p te e q r tb ss n tr bs next} : LikeExpr te e → Accepts F tb (.lines ss n) → Accepts F tr (.branches bs) → StartsWith n tr →
      Accepts F (⟨.if, p⟩ :: (te ++ ⟨.then, q⟩ :: ⟨.eol, r⟩ :: (tb ++ tr))) (.stmt (.ifs (.cons e ss bs)) next)
  | forLoop {p v ip q ts start to te stop tst step up dbl r tb ss n next} : v.ty = none ∨ v.ty = some .double ∨ v.ty = some .integer →
      LikeExpr ts start → LikeExpr te stop → IsStep F p tst step up dbl → Accepts F tb (.lines ss .next) →
      Accepts F (⟨.for, p⟩ :: ⟨.symbol v, ip⟩ :: ⟨.equal, q⟩ :: (ts ++ ⟨.to, to⟩ :: (te ++ (tst ++ ⟨.eol, r⟩ :: (tb ++ [⟨.next, n⟩])))))
        (.stmt (.forLoop v ip dbl start (.bin (if up then .le else .ge) (.sym v ip) stop to) (.bin .add (.sym v ip) step to) ss) next)
  | callable {p kw v name q tp vs r tb ss e f next} : IsCallable kw v name → IsParamList tp vs → Accepts F tb (.lines ss .end) →
      noCallables ss →
      Accepts F (⟨kw, p⟩ :: ⟨.symbol v, q⟩ :: (tp ++ ⟨.eol, r⟩ :: (tb ++ [⟨.end, e⟩, ⟨kw, f⟩]))) (.stmt (.callable name q vs ss e) next)
  | select {p q te e r} {blank : List LineCol} {tc cs endPos next} : LikeExpr te e → Accepts F tc (.cases cs endPos) →
      Accepts F (⟨.select, p⟩ :: ⟨.case, q⟩ :: (te ++ ⟨.eol, r⟩ :: (blank.map (⟨.eol, ·⟩) ++ tc))) (.stmt (.select e cs endPos) next)
  | whileLoop {p te e q tb ss r next} : LikeExpr te e → Accepts F tb (.lines ss .wend) →
      Accepts F (⟨.while, p⟩ :: (te ++ ⟨.eol, q⟩ :: (tb ++ [⟨.wend, r⟩]))) (.stmt (.whileLoop e ss) next)
  -- whole lines
  | noLines {n} : Accepts F [] (.lines .nil n)
  | blank {p ts ss n} : Accepts F ts (.lines ss n) → Accepts F (⟨.eol, p⟩ :: ts) (.lines ss n)
  | label {t l p ts ss n} : IsLabel t l → Accepts F ts (.lines ss n) → Accepts F (⟨t, p⟩ :: ts) (.lines (.cons (.label l p) ss) n)
  | line {tst s p ts ss n} : Accepts F tst (.stmt s ⟨.eol, p⟩) → Accepts F ts (.lines ss n) →
      Accepts F (tst ++ ⟨.eol, p⟩ :: ts) (.lines (.cons s ss) n)
  /-- Not in the grammar: no line end is needed between an `END` and the `ELSE` of the `IF` around it. -/
  | endElse {p te r} : MaybeExpr te r → Accepts F (⟨.end, p⟩ :: te) (.lines (.cons (.end r p) .nil) .else)
  -- the rest of an `IF`
  | endIf {p q} : Accepts F [⟨.end, p⟩, ⟨.if, q⟩] (.branches .nil)
  | else {p q tb ss r u} : Accepts F tb (.lines ss .end) →
      Accepts F (⟨.else, p⟩ :: ⟨.eol, q⟩ :: (tb ++ [⟨.end, r⟩, ⟨.if, u⟩])) (.branches (.cons (.bool true p) ss .nil))
  | elseIf {p te e q r tb ss n tr bs} : LikeExpr te e → Accepts F tb (.lines ss n) → Accepts F tr (.branches bs) → StartsWith n tr →
      Accepts F (⟨.elseif, p⟩ :: (te ++ ⟨.then, q⟩ :: ⟨.eol, r⟩ :: (tb ++ tr))) (.branches (.cons e ss bs))
  -- the cases of a `SELECT`
  | endSelect {p q} : Accepts F [⟨.end, p⟩, ⟨.select, q⟩] (.cases .nil p)
  | caseElse {p q r tb ss e u} : Accepts F tb (.lines ss .end) →
      Accepts F (⟨.case, p⟩ :: ⟨.else, q⟩ :: ⟨.eol, r⟩ :: (tb ++ [⟨.end, e⟩, ⟨.select, u⟩])) (.cases (.cons [] ss .nil) e)
  | case {p tg gs q tb ss n tr cs e} : LikeGuards tg gs → Accepts F tb (.lines ss n) → Accepts F tr (.cases cs e) → StartsWith n tr →
      Accepts F (⟨.case, p⟩ :: (tg ++ ⟨.eol, q⟩ :: (tb ++ tr))) (.cases (.cons gs ss cs) e)

/-- The tokens may be accepted as a program: lines, of which the last one may end with the text, at `E`. -/
inductive MayBeProgram (F : FloatOps) (E : LineCol) : List TokSpan → List Stmt → Prop
  | lines {ts ss} : Accepts F ts (.lines (Stmts.ofList ss) .eof) → MayBeProgram F E ts ss
  | last {ts ss tst s} : Accepts F ts (.lines (Stmts.ofList ss) .eof) → Accepts F tst (.stmt s ⟨.eof, E⟩) →
      MayBeProgram F E (ts ++ tst) (ss ++ [s])

end EB.Spec
