import Verif.Spec.Expr
import Verif.Model.Arith
/-!
# The grammar of statements

Written without reference to the parser: which tokens write which statements.  Labels and line numbers, line ends
(newlines and colons) and keywords are tokens.  Every relation lists the ways to write something.
-/

namespace EB.Spec

/-- The tokens write the expression: see `Spec.Expr`. -/
def IsExpr (ts : List TokSpan) (e : Expr) : Prop := ∃ t : Tree, t.Canonical ∧ t.toks = ts ∧ t.expr = e

/-- The expressions of an argument list. -/
def TreeArgs.exprs : TreeArgs → List Expr
  | .last t _ => [t.expr]
  | .more t _ r => t.expr :: r.exprs

/-- Labels: `@name`, or a line number. -/
inductive IsLabel : Tok → Str → Prop
  | name (s : Str) : IsLabel (.label s) s
  | number (i : I32) : IsLabel (.integer i) (showI32 i)

/-- The names of types. -/
inductive IsType : Tok → ExprType → Prop
  | boolean : IsType .booleanName .boolean
  | double : IsType .doubleName .double
  | integer : IsType .integerName .integer
  | text : IsType .textName .text

/-! ## Simple statements -/

/-- What separates the arguments of commands. -/
inductive IsSep : Tok → ArgSep → Prop
  | short : IsSep .semicolon .short
  | long : IsSep .comma .long
  | as : IsSep .as .as

/-- The arguments of a command.  Each one may be missing.  `after` is the position behind the statement. -/
inductive CommandArgs (after : LineCol) : List TokSpan → Args → Prop
  | one {te e} : IsExpr te e → CommandArgs after te (.cons e .end after .nil)
  | none : CommandArgs after [] (.skip .end after .nil)
  | more {te e t sep p ts a} : IsExpr te e → IsSep t sep → CommandArgs after ts a →
      CommandArgs after (te ++ ⟨t, p⟩ :: ts) (.cons e sep p a)
  | skip {t sep p ts a} : IsSep t sep → CommandArgs after ts a → CommandArgs after (⟨t, p⟩ :: ts) (.skip sep p a)

/-- The tokens start with subscripts and an equal sign. -/
def LikeElement (ts : List TokSpan) : Prop :=
  ∃ (lp : LineCol) (a : TreeArgs) (q : LineCol) (rest : List TokSpan), ts = ⟨.leftParen, lp⟩ :: (a.toks ++ ⟨.equal, q⟩ :: rest)

/-- One value of `DATA`. -/
inductive IsDatum (F : FloatOps) : List TokSpan → Expr → Prop
  | bool (b p) : IsDatum F [⟨.boolean b, p⟩] (.bool b p)
  | dbl (d p) : IsDatum F [⟨.double d, p⟩] (.dbl d p)
  | int (i p) : IsDatum F [⟨.integer i, p⟩] (.int i p)
  | text (s p) : IsDatum F [⟨.text s, p⟩] (.text s p)
  | negDbl (d p q) : IsDatum F [⟨.minus, p⟩, ⟨.double d, q⟩] (.dbl (F.neg d) p)
  | negInt (i p q) : i ≠ BitVec.intMin 32 → IsDatum F [⟨.minus, p⟩, ⟨.integer i, q⟩] (.int (-i) p)

/-- The values of `DATA`.  Each one may be missing. -/
inductive IsData (F : FloatOps) : List TokSpan → List (Option Expr) → Prop
  | one {td e} : IsDatum F td e → IsData F td [some e]
  | none : IsData F [] [none]
  | more {td e p ts vs} : IsDatum F td e → IsData F ts vs → IsData F (td ++ ⟨.comma, p⟩ :: ts) (some e :: vs)
  | skip {p ts vs} : IsData F ts vs → IsData F (⟨.comma, p⟩ :: ts) (none :: vs)

/-- The statements that can be in an `IF` of one line.  `after` is the position behind the statement. -/
inductive IsSimple (F : FloatOps) (after : LineCol) : List TokSpan → Stmt → Prop
  | assign {v p q te e} : IsExpr te e → IsSimple F after (⟨.symbol v, p⟩ :: ⟨.equal, q⟩ :: te) (.assign v p e)
  | arrayAssign {v p q r te e} (a : TreeArgs) : a.Canonical → IsExpr te e →
      IsSimple F after (⟨.symbol v, p⟩ :: ⟨.leftParen, q⟩ :: (a.toks ++ ⟨.equal, r⟩ :: te)) (.arrayAssign v p a.exprs e)
  | command {name p} : IsSimple F after [⟨.symbol ⟨name, none⟩, p⟩] (.call ⟨name.map asciiUpper, none⟩ p .nil)
  | commandArgs {name p ta a} : CommandArgs after ta a → ta ≠ [] → ¬ LikeElement ta →
      IsSimple F after (⟨.symbol ⟨name, none⟩, p⟩ :: ta) (.call ⟨name.map asciiUpper, none⟩ p a)
  | data {p ts vs} : IsData F ts vs → IsSimple F after (⟨.data, p⟩ :: ts) (.data vs)
  | end {p} : IsSimple F after [⟨.end, p⟩] (.end none p)
  | endCode {p te e} : IsExpr te e → IsSimple F after (⟨.end, p⟩ :: te) (.end (some e) p)
  | exitDo {p q} : IsSimple F after [⟨.exit, p⟩, ⟨.do, q⟩] (.exitDo p)
  | exitFor {p q} : IsSimple F after [⟨.exit, p⟩, ⟨.for, q⟩] (.exitFor p)
  | exitFunction {p q} : IsSimple F after [⟨.exit, p⟩, ⟨.function, q⟩] (.exitFunction p)
  | exitSub {p q} : IsSimple F after [⟨.exit, p⟩, ⟨.sub, q⟩] (.exitSub p)
  | gosub {p t l q} : IsLabel t l → IsSimple F after [⟨.gosub, p⟩, ⟨t, q⟩] (.gosub l q)
  | goto {p t l q} : IsLabel t l → IsSimple F after [⟨.goto, p⟩, ⟨t, q⟩] (.goto l q)
  | onErrorGoto {p q r t l u} : IsLabel t l → t ≠ .integer 0 →
      IsSimple F after [⟨.on, p⟩, ⟨.error, q⟩, ⟨.goto, r⟩, ⟨t, u⟩] (.onError (.goto l u p))
  | onErrorReset {p q r u} : IsSimple F after [⟨.on, p⟩, ⟨.error, q⟩, ⟨.goto, r⟩, ⟨.integer 0, u⟩] (.onError (.reset p))
  | onErrorResume {p q r u} : IsSimple F after [⟨.on, p⟩, ⟨.error, q⟩, ⟨.resume, r⟩, ⟨.next, u⟩] (.onError (.resumeNext p))
  | return {p} : IsSimple F after [⟨.return, p⟩] (.ret p)

/-! ## Declarations -/

/-- The type of a `DIM`; integer if it is not given. -/
inductive IsDimType : List TokSpan → ExprType → Prop
  | default : IsDimType [] .integer
  | as {p t ty q} : IsType t ty → IsDimType [⟨.as, p⟩, ⟨t, q⟩] ty

/-- The optional `SHARED`. -/
inductive IsShared : List TokSpan → Bool → Prop
  | no : IsShared [] false
  | yes {p} : IsShared [⟨.shared, p⟩] true

/-- One parameter. -/
inductive IsParam : List TokSpan → VarRef → Prop
  | name (v p) : IsParam [⟨.symbol v, p⟩] v
  | as {name p q t ty r} : IsType t ty → IsParam [⟨.symbol ⟨name, none⟩, p⟩, ⟨.as, q⟩, ⟨t, r⟩] ⟨name, some ty⟩

/-- Parameters up to the closing parenthesis. -/
inductive IsParams : List TokSpan → List VarRef → Prop
  | last {tp v p} : IsParam tp v → IsParams (tp ++ [⟨.rightParen, p⟩]) [v]
  | more {tp v p ts vs} : IsParam tp v → IsParams ts vs → IsParams (tp ++ ⟨.comma, p⟩ :: ts) (v :: vs)

/-- A parameter list. -/
inductive IsParamList : List TokSpan → List VarRef → Prop
  | none : IsParamList [] []
  | some {p ts vs} : IsParams ts vs → IsParamList (⟨.leftParen, p⟩ :: ts) vs

/-- `FUNCTION` and `SUB`, with the names that they take.  Functions return integers unless the name says otherwise. -/
inductive IsCallable : Tok → VarRef → VarRef → Prop
  | function (name t) : IsCallable .function ⟨name, some t⟩ ⟨name, some t⟩
  | functionInt (name) : IsCallable .function ⟨name, none⟩ ⟨name, some .integer⟩
  | sub (name) : IsCallable .sub ⟨name, none⟩ ⟨name, none⟩

/-! ## Parts of compound statements -/

/-- The optional `STEP` of a `FOR` at `pos`: its value, whether it counts up, and whether it is a double. -/
inductive IsStep (F : FloatOps) (pos : LineCol) : List TokSpan → Expr → Bool → Bool → Prop
  | none : IsStep F pos [] (.int 1 pos) true false
  | int {p i q} : i.toInt ≠ 0 → IsStep F pos [⟨.step, p⟩, ⟨.integer i, q⟩] (.int i q) (decide (0 < i.toInt)) false
  | negInt {p r i q} : i.toInt ≠ 0 → i ≠ BitVec.intMin 32 →
      IsStep F pos [⟨.step, p⟩, ⟨.minus, r⟩, ⟨.integer i, q⟩] (.int (-i) q) (decide (i.toInt < 0)) false
  | dbl {p d q} : F.eq d 0 = false → IsStep F pos [⟨.step, p⟩, ⟨.double d, q⟩] (.dbl d q) true true
  | negDbl {p r d q} : F.eq d 0 = false → IsStep F pos [⟨.step, p⟩, ⟨.minus, r⟩, ⟨.double d, q⟩] (.dbl (F.neg d) q) false true

/-- The relations of `CASE IS`. -/
inductive IsCaseRel : Tok → CaseRelOp → Prop
  | eq : IsCaseRel .equal .eq
  | ne : IsCaseRel .notEqual .ne
  | lt : IsCaseRel .less .lt
  | le : IsCaseRel .lessEqual .le
  | gt : IsCaseRel .greater .gt
  | ge : IsCaseRel .greaterEqual .ge

/-- One guard of a `CASE`. -/
inductive IsGuard : List TokSpan → CaseGuard → Prop
  | is {p t op q te e} : IsCaseRel t op → IsExpr te e → IsGuard (⟨.is, p⟩ :: ⟨t, q⟩ :: te) (.is op e)
  | eq {te e} : IsExpr te e → IsGuard te (.is .eq e)
  | to {te e p tf f} : IsExpr te e → IsExpr tf f → IsGuard (te ++ ⟨.to, p⟩ :: tf) (.to e f)

/-- The guards of a `CASE`. -/
inductive IsGuards : List TokSpan → List CaseGuard → Prop
  | one {tg g} : IsGuard tg g → IsGuards tg [g]
  | more {tg g p ts gs} : IsGuard tg g → IsGuards ts gs → IsGuards (tg ++ ⟨.comma, p⟩ :: ts) (g :: gs)

/-- None of the statements is the definition of a function or subroutine. -/
def noCallables : Stmts → Prop
  | .nil => True
  | .cons (.callable ..) _ => False
  | .cons _ ss => noCallables ss

/-! ## Statements -/

/-- What tokens can write. -/
inductive Part where
  /-- A statement, and the position behind it. -/
  | stmt (s : Stmt) (after : LineCol)
  /-- Whole lines. -/
  | lines (ss : Stmts)
  /-- The rest of an `IF` after its first branch. -/
  | branches (bs : Branches)
  /-- The cases of a `SELECT`, and the position of its end. -/
  | cases (cs : Cases) (endPos : LineCol)

/-- The tokens write the part of a program. -/
inductive Writes (F : FloatOps) : List TokSpan → Part → Prop
  | simple {after ts s} : IsSimple F after ts s → Writes F ts (.stmt s after)
  | dim {p tsh sh name q tt ty after} : IsShared tsh sh → IsDimType tt ty →
      Writes F (⟨.dim, p⟩ :: (tsh ++ ⟨.symbol ⟨name, none⟩, q⟩ :: tt)) (.stmt (.dim name q sh ty) after)
  | dimArray {p tsh sh name q lp tt ty after} (a : TreeArgs) : IsShared tsh sh → a.Canonical → IsDimType tt ty →
      Writes F (⟨.dim, p⟩ :: (tsh ++ ⟨.symbol ⟨name, none⟩, q⟩ :: ⟨.leftParen, lp⟩ :: (a.toks ++ tt)))
        (.stmt (.dimArray name q sh a.exprs ty) after)
  | declare {p kw q v name r tp vs after} : IsCallable kw v name → IsParamList tp vs →
      Writes F (⟨.declare, p⟩ :: ⟨kw, q⟩ :: ⟨.symbol v, r⟩ :: tp) (.stmt (.declare name r vs) after)
  | doForever {p q tb ss r after} : Writes F tb (.lines ss) →
      Writes F (⟨.do, p⟩ :: ⟨.eol, q⟩ :: (tb ++ [⟨.loop, r⟩])) (.stmt (.doLoop .infinite ss) after)
  | doUntil {p u te e q tb ss r after} : IsExpr te e → Writes F tb (.lines ss) →
      Writes F (⟨.do, p⟩ :: ⟨.until, u⟩ :: (te ++ ⟨.eol, q⟩ :: (tb ++ [⟨.loop, r⟩]))) (.stmt (.doLoop (.preUntil e) ss) after)
  | doWhile {p u te e q tb ss r after} : IsExpr te e → Writes F tb (.lines ss) →
      Writes F (⟨.do, p⟩ :: ⟨.while, u⟩ :: (te ++ ⟨.eol, q⟩ :: (tb ++ [⟨.loop, r⟩]))) (.stmt (.doLoop (.preWhile e) ss) after)
  | loopUntil {p q tb ss r u te e after} : Writes F tb (.lines ss) → IsExpr te e →
      Writes F (⟨.do, p⟩ :: ⟨.eol, q⟩ :: (tb ++ ⟨.loop, r⟩ :: ⟨.until, u⟩ :: te)) (.stmt (.doLoop (.postUntil e) ss) after)
  | loopWhile {p q tb ss r u te e after} : Writes F tb (.lines ss) → IsExpr te e →
      Writes F (⟨.do, p⟩ :: ⟨.eol, q⟩ :: (tb ++ ⟨.loop, r⟩ :: ⟨.while, u⟩ :: te)) (.stmt (.doLoop (.postWhile e) ss) after)
  | ifLine {p te e q ta a after} : IsExpr te e → IsSimple F after ta a →
      Writes F (⟨.if, p⟩ :: (te ++ ⟨.then, q⟩ :: ta)) (.stmt (.ifs (.cons e (.cons a .nil) .nil)) after)
  | ifLineElse {p te e q ta a r tb b after} : IsExpr te e → IsSimple F r ta a → IsSimple F after tb b →
      Writes F (⟨.if, p⟩ :: (te ++ ⟨.then, q⟩ :: (ta ++ ⟨.else, r⟩ :: tb)))
        (.stmt (.ifs (.cons e (.cons a .nil) (.cons (.bool true r) (.cons b .nil) .nil))) after)
  | ifLineOnlyElse {p te e q r tb b after} : IsExpr te e → IsSimple F after tb b →
      Writes F (⟨.if, p⟩ :: (te ++ ⟨.then, q⟩ :: ⟨.else, r⟩ :: tb))
        (.stmt (.ifs (.cons e .nil (.cons (.bool true r) (.cons b .nil) .nil))) after)
  | ifBlock {p te e q r tb ss tr bs after} : IsExpr te e → Writes F tb (.lines ss) → Writes F tr (.branches bs) →
      Writes F (⟨.if, p⟩ :: (te ++ ⟨.then, q⟩ :: ⟨.eol, r⟩ :: (tb ++ tr))) (.stmt (.ifs (.cons e ss bs)) after)
  | forLoop {p v ip q ts start to te stop tst step up dbl r tb ss n after} : v.ty = none ∨ v.ty = some .double ∨ v.ty = some .integer →
      IsExpr ts start → IsExpr te stop → IsStep F p tst step up dbl → Writes F tb (.lines ss) →
      Writes F (⟨.for, p⟩ :: ⟨.symbol v, ip⟩ :: ⟨.equal, q⟩ :: (ts ++ ⟨.to, to⟩ :: (te ++ (tst ++ ⟨.eol, r⟩ :: (tb ++ [⟨.next, n⟩])))))
        (.stmt (.forLoop v ip dbl start (.bin (if up then .le else .ge) (.sym v ip) stop to) (.bin .add (.sym v ip) step to) ss) after)
  | callable {p kw v name q tp vs r tb ss e f after} : IsCallable kw v name → IsParamList tp vs → Writes F tb (.lines ss) →
      noCallables ss →
      Writes F (⟨kw, p⟩ :: ⟨.symbol v, q⟩ :: (tp ++ ⟨.eol, r⟩ :: (tb ++ [⟨.end, e⟩, ⟨kw, f⟩]))) (.stmt (.callable name q vs ss e) after)
  | select {p q te e r} {blank : List LineCol} {tc cs endPos after} : IsExpr te e → Writes F tc (.cases cs endPos) →
      Writes F (⟨.select, p⟩ :: ⟨.case, q⟩ :: (te ++ ⟨.eol, r⟩ :: (blank.map (⟨.eol, ·⟩) ++ tc))) (.stmt (.select e cs endPos) after)
  | whileLoop {p te e q tb ss r after} : IsExpr te e → Writes F tb (.lines ss) →
      Writes F (⟨.while, p⟩ :: (te ++ ⟨.eol, q⟩ :: (tb ++ [⟨.wend, r⟩]))) (.stmt (.whileLoop e ss) after)
  -- whole lines
  | noLines : Writes F [] (.lines .nil)
  | blank {p ts ss} : Writes F ts (.lines ss) → Writes F (⟨.eol, p⟩ :: ts) (.lines ss)
  | label {t l p ts ss} : IsLabel t l → Writes F ts (.lines ss) → Writes F (⟨t, p⟩ :: ts) (.lines (.cons (.label l p) ss))
  | line {tst s p ts ss} : Writes F tst (.stmt s p) → Writes F ts (.lines ss) → Writes F (tst ++ ⟨.eol, p⟩ :: ts) (.lines (.cons s ss))
  -- the rest of an `IF`
  | endIf {p q} : Writes F [⟨.end, p⟩, ⟨.if, q⟩] (.branches .nil)
  | else {p q tb ss r u} : Writes F tb (.lines ss) →
      Writes F (⟨.else, p⟩ :: ⟨.eol, q⟩ :: (tb ++ [⟨.end, r⟩, ⟨.if, u⟩])) (.branches (.cons (.bool true p) ss .nil))
  | elseIf {p te e q r tb ss tr bs} : IsExpr te e → Writes F tb (.lines ss) → Writes F tr (.branches bs) →
      Writes F (⟨.elseif, p⟩ :: (te ++ ⟨.then, q⟩ :: ⟨.eol, r⟩ :: (tb ++ tr))) (.branches (.cons e ss bs))
  -- the cases of a `SELECT`
  | endSelect {p q} : Writes F [⟨.end, p⟩, ⟨.select, q⟩] (.cases .nil p)
  | caseElse {p q r tb ss e u} : Writes F tb (.lines ss) →
      Writes F (⟨.case, p⟩ :: ⟨.else, q⟩ :: ⟨.eol, r⟩ :: (tb ++ [⟨.end, e⟩, ⟨.select, u⟩])) (.cases (.cons [] ss .nil) e)
  | case {p tg gs q tb ss tr cs e} : IsGuards tg gs → Writes F tb (.lines ss) → Writes F tr (.cases cs e) →
      Writes F (⟨.case, p⟩ :: (tg ++ ⟨.eol, q⟩ :: (tb ++ tr))) (.cases (.cons gs ss cs) e)

/-- A program: lines, of which the last one may end with the text, at `E`. -/
inductive IsProgram (F : FloatOps) (E : LineCol) : List TokSpan → List Stmt → Prop
  | lines {ts ss} : Writes F ts (.lines (Stmts.ofList ss)) → IsProgram F E ts ss
  | last {ts ss tst s} : Writes F ts (.lines (Stmts.ofList ss)) → Writes F tst (.stmt s E) → IsProgram F E (ts ++ tst) (ss ++ [s])

end EB.Spec
