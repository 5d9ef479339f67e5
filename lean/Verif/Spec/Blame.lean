import Verif.Spec.Valid
import Verif.Spec.Machine
/-!
# What is wrong with an expression

`Blame Γ e err`: the error `err` names something that is wrong with the expression `e`, with the types that play a
role.  Written without reference to the compiler.
-/

namespace EB.Spec

/-- The error for a value of type `t` where one of type `want` is needed. -/
def wrongValue (pos : LineCol) (t want : ExprType) : CErr :=
  if want = .integer ∨ want = .double then .notANumber pos t else .typeMismatch pos t want

/-- What is wrong with a variable that a callable wants to have a reference to.  `define` if it would make a new one. -/
inductive BlameRef (Γ : Env) (define : Bool) (v : VarRef) (pos : LineCol) : CErr → Prop
  | undefined : nameRef Γ.locals Γ.shared v = .undefined → define = false → BlameRef Γ define v pos (.undefinedSymbol pos v)
  | callable {md} : nameRef Γ.locals Γ.shared v = .undefined → define = true → Γ.md (symKey v.name) = some md →
      BlameRef Γ define v pos (.notAFunction pos v)
  /-- no variable can be made in an expression -/
  | new : nameRef Γ.locals Γ.shared v = .undefined → define = true → Γ.md (symKey v.name) = none →
      BlameRef Γ define v pos .panic
  | annotation : nameRef Γ.locals Γ.shared v = .wrongType → BlameRef Γ define v pos (.incompatibleAnnotation pos v)

mutual
/-- The error says what is wrong with the expression. -/
inductive Blame (Γ : Env) : Expr → CErr → Prop
  /-- a name that is not known -/
  | undefined {v pos} : nameRef Γ.locals Γ.shared v = .undefined → Γ.md (symKey v.name) = none →
      Blame Γ (.sym v pos) (.undefinedSymbol pos v)
  /-- a variable of another type -/
  | annotation {v pos} : nameRef Γ.locals Γ.shared v = .wrongType → Blame Γ (.sym v pos) (.incompatibleAnnotation pos v)
  /-- an array without subscripts -/
  | array {v pos place t n} : nameRef Γ.locals Γ.shared v = .var place (.array t n) →
      Blame Γ (.sym v pos) (.arrayUsedAsScalar pos v)
  /-- a command -/
  | command {v pos md} : nameRef Γ.locals Γ.shared v = .undefined → Γ.md (symKey v.name) = some md → md.returnType = none →
      Blame Γ (.sym v pos) (.notAFunction pos v)
  /-- a function of another type -/
  | functionType {v pos md t} : nameRef Γ.locals Γ.shared v = .undefined → Γ.md (symKey v.name) = some md →
      md.returnType = some t → ¬ Annotated v t → Blame Γ (.sym v pos) (.incompatibleAnnotation pos v)
  /-- a function with arguments, without them -/
  | noArguments {v pos md} : nameRef Γ.locals Γ.shared v = .undefined → Γ.md (symKey v.name) = some md → ¬ NoArgs md →
      Blame Γ (.sym v pos) (.callableSyntax pos md.name)
  /-- `-` of something that is no number -/
  | neg {e pos t} : WellTyped Γ e t → unType .neg t = none → Blame Γ (.un .neg e pos) (.notANumber pos t)
  /-- `NOT` of a text or double -/
  | not {e pos t} : WellTyped Γ e t → unType .not t = none → Blame Γ (.un .not e pos) (.typeMismatch pos t .integer)
  /-- an operator between values that it is not for: the error has the operator and both types -/
  | bin {op l r pos lt rt} : WellTyped Γ l lt → WellTyped Γ r rt → binType op lt rt = none →
      Blame Γ (.bin op l r pos) (.binaryOpType pos op.name lt rt)
  | operand {op e pos err} : Blame Γ e err → Blame Γ (.un op e pos) err
  | left {op l r pos err} : Blame Γ l err → Blame Γ (.bin op l r pos) err
  | right {op l r pos lt err} : WellTyped Γ l lt → Blame Γ r err → Blame Γ (.bin op l r pos) err
  /-- a call of a command -/
  | callCommand {v pos args md} : Γ.md (symKey v.name) = some md → md.returnType = none →
      Blame Γ (.call v pos args) (.notAFunction pos v)
  /-- a call of a function of another type -/
  | callType {v pos args md t} : Γ.md (symKey v.name) = some md → md.returnType = some t → ¬ Annotated v t →
      Blame Γ (.call v pos args) (.incompatibleAnnotation pos v)
  /-- a call with arguments of a function without them -/
  | callArgs {v pos args md} : Γ.md (symKey v.name) = some md → NoArgs md → Blame Γ (.call v pos args) (.callableSyntax pos md.name)
  /-- a call with the wrong number of arguments -/
  | callCount {v pos args md} : Γ.md (symKey v.name) = some md → (∀ syn, ¬ SyntaxFor md.syntaxes args.length syn) →
      Blame Γ (.call v pos args) (.callableSyntax pos md.name)
  /-- a call with wrong arguments -/
  | callWith {v pos args md syn err} : Γ.md (symKey v.name) = some md → SyntaxFor md.syntaxes args.length syn →
      BlameArgs Γ md syn.repeated (MayEnd syn args.length) syn.singular args err → Blame Γ (.call v pos args) err
  /-- an element of something that is not known -/
  | noArray {v pos args} : Γ.md (symKey v.name) = none → nameRef Γ.locals Γ.shared v = .undefined →
      Blame Γ (.call v pos args) (.undefinedSymbol pos v)
  | arrayType {v pos args} : Γ.md (symKey v.name) = none → nameRef Γ.locals Γ.shared v = .wrongType →
      Blame Γ (.call v pos args) (.incompatibleAnnotation pos v)
  | scalar {v pos args place t} : Γ.md (symKey v.name) = none →
      nameRef Γ.locals Γ.shared v = .var place (.scalar t) → Blame Γ (.call v pos args) (.notAFunction pos v)
  | dimensions {v pos args place t n} : Γ.md (symKey v.name) = none →
      nameRef Γ.locals Γ.shared v = .var place (.array t n) → args.length ≠ n →
      Blame Γ (.call v pos args) (.wrongSubscripts pos n args.length)
  | subscript {v pos args place t n err} : Γ.md (symKey v.name) = none →
      nameRef Γ.locals Γ.shared v = .var place (.array t n) → args.length = n → BlameSubs Γ args err →
      Blame Γ (.call v pos args) err

/-- The error says what is wrong with the subscripts. -/
inductive BlameSubs (Γ : Env) : Args → CErr → Prop
  | expr {e sep pos rest err} : Blame Γ e err → BlameSubs Γ (.cons e sep pos rest) err
  | type {e sep pos rest t} : WellTyped Γ e t → ¬ Converts t .integer →
      BlameSubs Γ (.cons e sep pos rest) (.notANumber e.startPos t)
  | rest {e sep pos rest t err} : WellTyped Γ e t → Converts t .integer → BlameSubs Γ rest err →
      BlameSubs Γ (.cons e sep pos rest) err

/-- The error says what is wrong with the arguments of `md`, which are to be the ones of a syntax (see `ArgsFit`). -/
inductive BlameArgs (Γ : Env) : Md → Option RepSyn → Prop → List SingSyn → Args → CErr → Prop
  /-- an argument that is wrong itself, where a value is wanted -/
  | expr {md rep mayEnd syns e sep pos rest err} : Blame Γ e err → BlameArgs Γ md rep mayEnd syns (.cons e sep pos rest) err
  /-- an argument of the wrong type -/
  | value {md rep mayEnd name want s syns e sep pos rest t} : WellTyped Γ e t → ¬ Converts t want →
      BlameArgs Γ md rep mayEnd (.reqValue name want s :: syns) (.cons e sep pos rest) (wrongValue e.startPos t want)
  | optional {md rep mayEnd name want s syns e sep pos rest t} : WellTyped Γ e t → ¬ Converts t want →
      BlameArgs Γ md rep mayEnd (.optValue name want s :: syns) (.cons e sep pos rest) (wrongValue e.startPos t want)
  | more {md r mayEnd want e sep pos rest t} : r.typeSyn = .typed want → WellTyped Γ e t → ¬ Converts t want →
      BlameArgs Γ md (some r) mayEnd [] (.cons e sep pos rest) (wrongValue e.startPos t want)
  /-- a variable that cannot be referred to -/
  | ref {md rep mayEnd name array define s syns v vpos sep pos rest err} : BlameRef Γ define v vpos err →
      BlameArgs Γ md rep mayEnd (.reqRef name array define s :: syns) (.cons (.sym v vpos) sep pos rest) err
  | moreRef {md r mayEnd v vpos sep pos rest err} : r.typeSyn = .varRef → BlameRef Γ true v vpos err →
      BlameArgs Γ md (some r) mayEnd [] (.cons (.sym v vpos) sep pos rest) err
  /-- anything else: a wrong separator, an argument that is left out, a value in place of a variable -/
  | shape {md rep mayEnd syns args pos} : ¬ ArgsFit Γ rep mayEnd syns args →
      BlameArgs Γ md rep mayEnd syns args (.callableSyntax pos md.name)
  /-- the arguments that follow -/
  | later {md rep mayEnd syn syns e sep pos rest err} : BlameArgs Γ md rep mayEnd syns rest err →
      BlameArgs Γ md rep mayEnd (syn :: syns) (.cons e sep pos rest) err
  | laterSkip {md rep mayEnd syn syns sep pos rest err} : BlameArgs Γ md rep mayEnd syns rest err →
      BlameArgs Γ md rep mayEnd (syn :: syns) (.skip sep pos rest) err
  | laterMore {md rep mayEnd e sep pos rest err} : BlameArgs Γ md rep mayEnd [] rest err →
      BlameArgs Γ md rep mayEnd [] (.cons e sep pos rest) err
  | laterMoreSkip {md rep mayEnd sep pos rest err} : BlameArgs Γ md rep mayEnd [] rest err →
      BlameArgs Γ md rep mayEnd [] (.skip sep pos rest) err
end

/-! ## Values at run time -/

/-- Every variable that has a content has one of its type. -/
def RightTypes (Γ : Env) (w : World) : Prop := ∀ p q c, Γ.proto p = some q → w.mem p = some c → c.Of q

/-- The functions of the program return values of their types and leave the variables right. -/
def ReturnsRight (Γ : Env) (cl : Calls) : Prop :=
  ∀ k vs pos w v w', RightTypes Γ w → cl.fn k vs pos w = .ok v w' →
    RightTypes Γ w' ∧ ∀ params t, Γ.callable k = some (.user params (some t)) → v.ty = t

end EB.Spec
