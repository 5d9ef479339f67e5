import Verif.Spec.Program
/-!
# Which programs are valid

Written without reference to the compiler.  `Γ` says which variables and callables are known at a place of the
program text; `afterStmt` (see `Spec.Exec`) says how a statement changes it.
-/

namespace EB.Spec

/-! ## Calls -/

/-- A name may say the type of what it names. -/
def Annotated (v : VarRef) (t : ExprType) : Prop := v.ty = none ∨ v.ty = some t

/-- The callable never takes arguments. -/
def NoArgs (md : Md) : Prop := md.syntaxes = [] ∨ md.syntaxes = [⟨[], none⟩]

/-- That many arguments fit the syntax. -/
def Counts (s : Syntax) (n : Nat) : Prop :=
  match s.repeated with
  | none => n = s.singular.length
  | some r => s.singular.length + (if r.requireOne then 1 else 0) ≤ n

/-- The first syntax for that many arguments. -/
inductive SyntaxFor : List Syntax → Nat → Syntax → Prop
  | here {s rest n} : Counts s n → SyntaxFor (s :: rest) n s
  | later {s rest n s'} : ¬ Counts s n → SyntaxFor rest n s' → SyntaxFor (s :: rest) n s'

/-- What may stand behind an argument; `mayEnd` if the arguments may end there although more could follow. -/
def SepFits (syn : SepSyn) (mayEnd : Prop) (sep : ArgSep) : Prop :=
  match syn with
  | .exactly s => sep = s ∨ (sep = .end ∧ mayEnd)
  | .oneOf ss => (sep = .end ∧ mayEnd) ∨ (sep ≠ .end ∧ sep ∈ ss)
  | .end => True

/-- With that many arguments there are only singular ones, and repeated ones may follow but need not. -/
def MayEnd (s : Syntax) (n : Nat) : Prop := n = s.singular.length ∧ ∃ r, s.repeated = some r ∧ r.requireOne = false

/-- The variable is an array, or not. -/
def Proto.isArray : Proto → Bool
  | .array .. => true
  | .scalar _ => false

/-! ## Expressions -/

mutual
/-- The expression can be used, and has that type. -/
inductive WellTyped (Γ : Env) : Expr → ExprType → Prop
  | bool {b pos} : WellTyped Γ (.bool b pos) .boolean
  | dbl {d pos} : WellTyped Γ (.dbl d pos) .double
  | int {i pos} : WellTyped Γ (.int i pos) .integer
  | text {s pos} : WellTyped Γ (.text s pos) .text
  /-- a variable -/
  | var {v pos place t} : nameRef Γ.locals Γ.shared v = .var place (.scalar t) → WellTyped Γ (.sym v pos) t
  /-- a function without arguments -/
  | argless {v pos md t} : nameRef Γ.locals Γ.shared v = .undefined → Γ.md (symKey v.name) = some md →
      md.returnType = some t → Annotated v t → NoArgs md → WellTyped Γ (.sym v pos) t
  | un {op e pos t t'} : WellTyped Γ e t → unType op t = some t' → WellTyped Γ (.un op e pos) t'
  | bin {op l r pos lt rt t} : WellTyped Γ l lt → WellTyped Γ r rt → binType op lt rt = some t →
      WellTyped Γ (.bin op l r pos) t
  /-- a function with arguments -/
  | call {v pos args md syn t} : Γ.md (symKey v.name) = some md → md.returnType = some t → Annotated v t →
      ¬ NoArgs md → SyntaxFor md.syntaxes args.length syn →
      ArgsFit Γ syn.repeated (MayEnd syn args.length) syn.singular args → WellTyped Γ (.call v pos args) t
  /-- an element of an array -/
  | elem {v pos args place t} : Γ.md (symKey v.name) = none →
      nameRef Γ.locals Γ.shared v = .var place (.array t args.length) → SubsFit Γ args → WellTyped Γ (.call v pos args) t

/-- All of them are there and can be converted to integers. -/
inductive SubsFit (Γ : Env) : Args → Prop
  | nil : SubsFit Γ .nil
  | cons {e sep pos rest t} : WellTyped Γ e t → Converts t .integer → SubsFit Γ rest → SubsFit Γ (.cons e sep pos rest)

/-- The arguments are those of the syntax: first the singular ones, then the repeated ones. -/
inductive ArgsFit (Γ : Env) : Option RepSyn → Prop → List SingSyn → Args → Prop
  | done {rep mayEnd} : ArgsFit Γ rep mayEnd [] .nil
  | value {rep mayEnd name want s syns e sep pos rest t} : WellTyped Γ e t → Converts t want → SepFits s (syns = [] ∧ mayEnd) sep →
      ArgsFit Γ rep mayEnd syns rest → ArgsFit Γ rep mayEnd (.reqValue name want s :: syns) (.cons e sep pos rest)
  | ref {rep mayEnd name array define s syns v vpos sep pos rest place p} : nameRef Γ.locals Γ.shared v = .var place p →
      Proto.isArray p = array → SepFits s (syns = [] ∧ mayEnd) sep → ArgsFit Γ rep mayEnd syns rest →
      ArgsFit Γ rep mayEnd (.reqRef name array define s :: syns) (.cons (.sym v vpos) sep pos rest)
  | optional {rep mayEnd name want s syns e sep pos rest t} : WellTyped Γ e t → Converts t want → SepFits s (syns = [] ∧ mayEnd) sep →
      ArgsFit Γ rep mayEnd syns rest → ArgsFit Γ rep mayEnd (.optValue name want s :: syns) (.cons e sep pos rest)
  | omitted {rep mayEnd name want s syns sep pos rest} : SepFits s (syns = [] ∧ mayEnd) sep →
      ArgsFit Γ rep mayEnd syns rest → ArgsFit Γ rep mayEnd (.optValue name want s :: syns) (.skip sep pos rest)
  | any {rep mayEnd name missing s syns e sep pos rest t} : WellTyped Γ e t → SepFits s (syns = [] ∧ mayEnd) sep →
      ArgsFit Γ rep mayEnd syns rest → ArgsFit Γ rep mayEnd (.anyValue name missing s :: syns) (.cons e sep pos rest)
  /-- also if `missing` says that the value must be there: finding F41 -/
  | anyOmitted {rep mayEnd name missing s syns sep pos rest} : SepFits s (syns = [] ∧ mayEnd) sep →
      ArgsFit Γ rep mayEnd syns rest → ArgsFit Γ rep mayEnd (.anyValue name missing s :: syns) (.skip sep pos rest)
  | more {rep mayEnd r e sep pos rest t} : rep = some r → r.typeSyn = .anyValue → WellTyped Γ e t → SepFits r.sep True sep →
      ArgsFit Γ rep mayEnd [] rest → ArgsFit Γ rep mayEnd [] (.cons e sep pos rest)
  | moreValue {rep mayEnd r want e sep pos rest t} : rep = some r → r.typeSyn = .typed want → WellTyped Γ e t → Converts t want →
      SepFits r.sep True sep → ArgsFit Γ rep mayEnd [] rest → ArgsFit Γ rep mayEnd [] (.cons e sep pos rest)
  | moreRef {rep mayEnd r v vpos sep pos rest place t} : rep = some r → r.typeSyn = .varRef →
      nameRef Γ.locals Γ.shared v = .var place (.scalar t) → SepFits r.sep True sep →
      ArgsFit Γ rep mayEnd [] rest → ArgsFit Γ rep mayEnd [] (.cons (.sym v vpos) sep pos rest)
  | moreOmitted {rep mayEnd r sep pos rest} : rep = some r → r.allowMissing = true → SepFits r.sep True sep →
      ArgsFit Γ rep mayEnd [] rest → ArgsFit Γ rep mayEnd [] (.skip sep pos rest)
end

/-- The expression can stand where that type is wanted. -/
def Usable (Γ : Env) (e : Expr) (want : ExprType) : Prop := ∃ t, WellTyped Γ e t ∧ Converts t want

/-! ## Statements -/

/-- What a statement is in: a `DO`, a `FOR`, a callable.  A loop also counts for the callables in it (finding F42). -/
structure Around where
  inDo : Bool
  inFor : Bool
  inside : Option CallableKind

/-- The first assignment to a variable declares it, as a variable of the type of the value if the name says none;
in the value the variable is known already, as an integer. -/
def AssignOk (Γ : Env) (v : VarRef) (e : Expr) : Prop :=
  match nameRef Γ.locals Γ.shared v with
  | .var _ (.scalar t) => Usable Γ e t
  | .var _ (.array ..) => False
  | .wrongType => False
  | .undefined => Γ.md (symKey v.name) = none ∧
    match v.ty with
    | some t => Usable (Γ.addLocal (symKey v.name) (.scalar t)) e t
    | none => ∃ t, WellTyped (Γ.addLocal (symKey v.name) (.scalar .integer)) e t

/-- The name is free for a new variable. -/
def FreeName (Γ : Env) (shared : Bool) (name : Str) : Prop :=
  Γ.md (symKey name) = none ∧ position (symKey name) (if shared then Γ.shared else Γ.locals) = none

/-- The name can be declared as a callable: again only in the same way. -/
def DeclareOk (Γ : Env) (name : VarRef) (params : List VarRef) : Prop :=
  position (symKey name.name) Γ.shared = none ∧
    ∀ md, Γ.md (symKey name.name) = some md → md.userDefined = true → md = declared name params

/-- A literal value of `DATA`. -/
def IsLiteral : Expr → Prop
  | .bool .. | .dbl .. | .int .. | .text .. => True
  | _ => False

/-- A literal exit code. -/
def literalCode : Expr → Option Int
  | .int i _ => some i.toInt
  | .un .neg (.int i _) _ => if i = BitVec.intMin 32 then none else some (-i.toInt)
  | _ => none

/-- What a `CASE` can compare. -/
def Comparable (op : CaseRelOp) (l r : ExprType) : Prop :=
  ((l = .integer ∨ l = .double) ∧ (r = .integer ∨ r = .double)) ∨ (l = .text ∧ r = .text) ∨
    (l = .boolean ∧ r = .boolean ∧ (op = .eq ∨ op = .ne))

/-- A guard for a value of that type. -/
def GuardOk (Γ : Env) (t : ExprType) : CaseGuard → Prop
  | .is op e => ∃ t', WellTyped Γ e t' ∧ Comparable op t t'
  | .to lo hi => (∃ t', WellTyped Γ lo t' ∧ Comparable .ge t t') ∧ ∃ t', WellTyped Γ hi t' ∧ Comparable .le t t'

/-- The guards of all cases. -/
def GuardsOk (Γ : Env) (t : ExprType) : Cases → Prop
  | .nil => True
  | .cons gs _ rest => (∀ g ∈ gs, GuardOk Γ t g) ∧ GuardsOk Γ t rest

mutual
/-- The statement is valid where it stands. -/
def StmtOk (Γ : Env) (A : Around) : Stmt → Prop
  | .assign v _ e => AssignOk Γ v e
  | .arrayAssign v _ subs e => ∃ place t, nameRef Γ.locals Γ.shared v = .var place (.array t subs.length) ∧ Usable Γ e t ∧
      ∀ s ∈ subs, Usable Γ s .integer
  | .call v pos args => ∃ md syn, Γ.md (symKey v.name) = some md ∧ md.returnType = none ∧ SyntaxFor md.syntaxes args.length syn ∧
      ArgsFit (afterStmt Γ (.call v pos args)) syn.repeated (MayEnd syn args.length) syn.singular args
  | .callable name _ params body _ => DeclareOk Γ name params ∧ A.inside = none ∧
      (((Γ.declare name params).body name params).locals.map (·.1)).Nodup ∧
      StmtsOk ((Γ.declare name params).body name params) { A with inside := some (if name.ty.isSome then .function else .sub) } body
  | .data values => ∀ e, some e ∈ values → IsLiteral e
  | .declare name _ params => A.inside = none ∧ DeclareOk Γ name params
  | .dim name _ shared _ => FreeName Γ shared name
  | .dimArray name pos shared dims ty => FreeName Γ shared name ∧ 1 ≤ dims.length ∧ dims.length ≤ 15 ∧
      ∀ d ∈ dims, Usable (afterStmt Γ (.dimArray name pos shared dims ty)) d .integer
  | .doLoop guard body =>
    (match guard with
      | .preUntil e | .preWhile e => WellTyped Γ e .boolean
      | .postUntil e | .postWhile e => WellTyped (afterStmts Γ body) e .boolean
      | .infinite => True) ∧ StmtsOk Γ { A with inDo := true } body
  | .end code _ => ∀ e, code = some e → Usable Γ e .integer ∧ ∀ i, literalCode e = some i → 0 ≤ i ∧ i ≤ 127
  | .exitDo _ => A.inDo = true
  | .exitFor _ => A.inFor = true
  | .exitFunction _ => A.inside = some .function
  | .exitSub _ => A.inside = some .sub
  | .forLoop iter _ double start stop next body =>
    let Γ1 := forVar Γ iter double
    let Γ2 := afterAssign Γ1 iter start
    (double = true → iter.ty = none → nameRef Γ.locals Γ.shared iter = .undefined → Γ.md (symKey iter.name) = none) ∧
    AssignOk Γ1 iter start ∧ WellTyped Γ2 stop .boolean ∧ StmtsOk Γ2 { A with inFor := true } body ∧
    AssignOk (afterStmts Γ2 body) iter next
  | .gosub .. | .goto .. | .label .. | .onError _ | .ret _ => True
  | .ifs branches => BranchesOk Γ A branches
  | .select e cases _ => (∃ t, WellTyped Γ e t ∧ GuardsOk Γ t cases) ∧ CasesOk Γ A cases
  | .whileLoop e body => WellTyped Γ e .boolean ∧ StmtsOk Γ A body

/-- The statements are valid in this order. -/
def StmtsOk (Γ : Env) (A : Around) : Stmts → Prop
  | .nil => True
  | .cons s rest => StmtOk Γ A s ∧ StmtsOk (afterStmt Γ s) A rest

/-- The branches of an `IF`. -/
def BranchesOk (Γ : Env) (A : Around) : Branches → Prop
  | .nil => True
  | .cons guard body rest => WellTyped Γ guard .boolean ∧ StmtsOk Γ A body ∧ BranchesOk (afterStmts Γ body) A rest

/-- The bodies of the cases of a `SELECT`. -/
def CasesOk (Γ : Env) (A : Around) : Cases → Prop
  | .nil => True
  | .cons _ body rest => StmtsOk Γ A body ∧ CasesOk (afterStmts Γ body) A rest
end

/-! ## References between statements -/

mutual
/-- The labels of statements, in order. -/
def labelsStmt : Stmt → List Str
  | .label name _ => [symKey name]
  | .callable _ _ _ body _ | .doLoop _ body | .forLoop _ _ _ _ _ _ body | .whileLoop _ body => labelsStmts body
  | .ifs branches => labelsBranches branches
  | .select _ cases _ => labelsCases cases
  | .assign .. | .call .. | .declare .. | .dim .. | .dimArray .. | .arrayAssign .. | .data .. | .end .. | .exitDo ..
  | .exitFor .. | .exitFunction .. | .exitSub .. | .gosub .. | .goto .. | .onError .. | .ret .. => []
def labelsStmts : Stmts → List Str
  | .nil => []
  | .cons s rest => labelsStmt s ++ labelsStmts rest
def labelsBranches : Branches → List Str
  | .nil => []
  | .cons _ body rest => labelsStmts body ++ labelsBranches rest
def labelsCases : Cases → List Str
  | .nil => []
  | .cons _ body rest => labelsStmts body ++ labelsCases rest
end

mutual
/-- The callables that statements define, in the order in which their definitions end. -/
def bodiesStmt : Stmt → List Str
  | .callable name _ _ body _ => bodiesStmts body ++ [symKey name.name]
  | .doLoop _ body | .forLoop _ _ _ _ _ _ body | .whileLoop _ body => bodiesStmts body
  | .ifs branches => bodiesBranches branches
  | .select _ cases _ => bodiesCases cases
  | .assign .. | .call .. | .declare .. | .dim .. | .dimArray .. | .arrayAssign .. | .data .. | .end .. | .exitDo ..
  | .exitFor .. | .exitFunction .. | .exitSub .. | .gosub .. | .goto .. | .label .. | .onError .. | .ret .. => []
def bodiesStmts : Stmts → List Str
  | .nil => []
  | .cons s rest => bodiesStmt s ++ bodiesStmts rest
def bodiesBranches : Branches → List Str
  | .nil => []
  | .cons _ body rest => bodiesStmts body ++ bodiesBranches rest
def bodiesCases : Cases → List Str
  | .nil => []
  | .cons _ body rest => bodiesStmts body ++ bodiesCases rest
end

section
-- `L`: there is such a label.  `D`: there is such a callable.
variable (L D : Str → Prop)

/-- If it is a callable of the program then it is defined. -/
def Defined (Γ : Env) (k : Str) : Prop := ∀ md, Γ.md k = some md → md.userDefined = true → D k

mutual
/-- All functions of the program that the expression calls are defined. -/
def CallsDefined (Γ : Env) : Expr → Prop
  | .bool .. | .dbl .. | .int .. | .text .. => True
  | .sym v _ => nameRef Γ.locals Γ.shared v = .undefined → Defined D Γ (symKey v.name)
  | .un _ e _ => CallsDefined Γ e
  | .bin _ l r _ => CallsDefined Γ l ∧ CallsDefined Γ r
  | .call v _ args => Defined D Γ (symKey v.name) ∧ ArgsDefined Γ args
def ArgsDefined (Γ : Env) : Args → Prop
  | .nil => True
  | .skip _ _ rest => ArgsDefined Γ rest
  | .cons e _ _ rest => CallsDefined Γ e ∧ ArgsDefined Γ rest
end

/-- In the value of an assignment a new variable is known already. -/
def assignEnv (Γ : Env) (v : VarRef) : Env :=
  if nameRef Γ.locals Γ.shared v = .undefined then Γ.addLocal (symKey v.name) (.scalar (v.ty.getD .integer)) else Γ

/-- … the same in a guard. -/
def GuardDefined (Γ : Env) : CaseGuard → Prop
  | .is _ e => CallsDefined D Γ e
  | .to lo hi => CallsDefined D Γ lo ∧ CallsDefined D Γ hi

/-- … in the guards of all cases. -/
def GuardsDefined (Γ : Env) : Cases → Prop
  | .nil => True
  | .cons gs _ rest => (∀ g ∈ gs, GuardDefined D Γ g) ∧ GuardsDefined Γ rest

mutual
/-- Jumps go to labels that exist, and the callables of the program that are called are defined. -/
def StmtResolved (Γ : Env) : Stmt → Prop
  | .assign v _ e => CallsDefined D (assignEnv Γ v) e
  | .arrayAssign _ _ subs e => CallsDefined D Γ e ∧ ∀ s ∈ subs, CallsDefined D Γ s
  | .call v pos args => Defined D Γ (symKey v.name) ∧ ArgsDefined D (afterStmt Γ (.call v pos args)) args
  | .callable name _ params body _ => StmtsResolved ((Γ.declare name params).body name params) body
  | .dimArray name pos shared dims ty => ∀ d ∈ dims, CallsDefined D (afterStmt Γ (.dimArray name pos shared dims ty)) d
  | .doLoop guard body =>
    (match guard with
      | .preUntil e | .preWhile e => CallsDefined D Γ e
      | .postUntil e | .postWhile e => CallsDefined D (afterStmts Γ body) e
      | .infinite => True) ∧ StmtsResolved Γ body
  | .end code _ => ∀ e, code = some e → CallsDefined D Γ e
  | .forLoop iter _ double start stop next body =>
    let Γ1 := forVar Γ iter double
    let Γ2 := afterAssign Γ1 iter start
    CallsDefined D (assignEnv Γ1 iter) start ∧ CallsDefined D Γ2 stop ∧ StmtsResolved Γ2 body ∧
    CallsDefined D (assignEnv (afterStmts Γ2 body) iter) next
  | .gosub label _ | .goto label _ | .onError (.goto label _ _) => L (symKey label)
  | .ifs branches => BranchesResolved Γ branches
  | .select e cases _ => CallsDefined D Γ e ∧ GuardsDefined D Γ cases ∧ CasesResolved Γ cases
  | .whileLoop e body => CallsDefined D Γ e ∧ StmtsResolved Γ body
  | .data .. | .declare .. | .dim .. | .exitDo .. | .exitFor .. | .exitFunction .. | .exitSub .. | .label ..
  | .onError (.reset _) | .onError (.resumeNext _) | .ret .. => True
def StmtsResolved (Γ : Env) : Stmts → Prop
  | .nil => True
  | .cons s rest => StmtResolved Γ s ∧ StmtsResolved (afterStmt Γ s) rest
def BranchesResolved (Γ : Env) : Branches → Prop
  | .nil => True
  | .cons guard body rest => CallsDefined D Γ guard ∧ StmtsResolved Γ body ∧ BranchesResolved (afterStmts Γ body) rest
def CasesResolved (Γ : Env) : Cases → Prop
  | .nil => True
  | .cons _ body rest => StmtsResolved Γ body ∧ CasesResolved (afterStmts Γ body) rest
end
end

/-! ## Programs -/

/-- The errors that say that a table of the compiler is full: they depend on the size of the program. -/
def Limit : CErr → Prop
  | .outOfConstants _ | .outOfRegisters _ _ | .outOfUpcalls _ | .targetTooFar _ _ => True
  | _ => False

/-- What earlier parts of a program have left: what is known, the labels, and the callables that are defined. -/
structure Before where
  env : Env
  labels : List Str
  bodies : List Str

/-- The next part of a program is valid: its statements are, no label and no callable is there twice, and all that
is referred to is there. -/
structure ValidPart (B : Before) (ss : Stmts) : Prop where
  stmts : StmtsOk B.env ⟨false, false, none⟩ ss
  labels : (B.labels ++ labelsStmts ss).Nodup
  bodies : (B.bodies ++ bodiesStmts ss).Nodup
  resolved : StmtsResolved (· ∈ B.labels ++ labelsStmts ss) (· ∈ B.bodies ++ bodiesStmts ss) B.env ss

/-- What it leaves. -/
def Before.after (B : Before) (ss : Stmts) : Before :=
  ⟨afterStmts B.env ss, B.labels ++ labelsStmts ss, B.bodies ++ bodiesStmts ss⟩

/-- The predefined variables. -/
def predefine (Γ : Env) : List GlobalDef → Env
  | [] => Γ
  | .scalar name ty _ :: rest => predefine (Γ.add true (symKey name) (.scalar ty)) rest
  | .array name ty dims :: rest => predefine (Γ.add true (symKey name) (.array ty dims.length)) rest

/-- Before the first part of a program: the commands and functions `up`, and the variables `defs`. -/
def Before.start (up : FMap Str Md) (defs : List GlobalDef) : Before := ⟨predefine (builtins up) defs, [], []⟩

/-- Sessions: what the parts of the program that have been accepted leave. -/
inductive Sofar (up : FMap Str Md) (defs : List GlobalDef) : Ctx → Image → Before → Prop
  | start {c : Ctx} : Compiler.new up defs = .ok c → Sofar up defs c .default (.start up defs)
  | accepted {c c' : Ctx} {img img' : Image} {B : Before} {src : Source} : Sofar up defs c img B →
    compileMore src c img = (.ok (), c', img') → Sofar up defs c' img' (B.after src.stmts)
  | rejected {c c' : Ctx} {img img' : Image} {B : Before} {src : Source} {e : CErr} : Sofar up defs c img B →
    compileMore src c img = (.error e, c', img') → Sofar up defs c' img' B

end EB.Spec
