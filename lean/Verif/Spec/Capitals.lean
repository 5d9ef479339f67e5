import Verif.Model.CompStmt
/-!
# Programs that differ only in the case of names

The program with all names of variables, arrays, functions, subroutines and labels in capitals.  Two programs differ only in the case
of their names if they are the same in capitals.
-/

namespace EB.Spec

/-- A name in capitals. -/
def capName (s : Str) : Str := s.map asciiUpper

/-- A reference in capitals. -/
def capVar (v : VarRef) : VarRef := ⟨capName v.name, v.ty⟩

mutual
/-- An expression with its names in capitals. -/
def capExpr : Expr → Expr
  | .bool b p => .bool b p
  | .dbl d p => .dbl d p
  | .int i p => .int i p
  | .text s p => .text s p
  | .sym v p => .sym (capVar v) p
  | .un op e p => .un op (capExpr e) p
  | .bin op l r p => .bin op (capExpr l) (capExpr r) p
  | .call v p args => .call (capVar v) p (capArgs args)

/-- Arguments with their names in capitals. -/
def capArgs : Args → Args
  | .nil => .nil
  | .cons e sep p rest => .cons (capExpr e) sep p (capArgs rest)
  | .skip sep p rest => .skip sep p (capArgs rest)
end

/-- The guard of a `CASE`. -/
def capCase : CaseGuard → CaseGuard
  | .is op e => .is op (capExpr e)
  | .to lo hi => .to (capExpr lo) (capExpr hi)

/-- The guard of a `DO`. -/
def capDo : DoGuard → DoGuard
  | .infinite => .infinite
  | .preUntil e => .preUntil (capExpr e)
  | .preWhile e => .preWhile (capExpr e)
  | .postUntil e => .postUntil (capExpr e)
  | .postWhile e => .postWhile (capExpr e)

/-- An `ON ERROR`. -/
def capOnError : OnError → OnError
  | .goto label lp p => .goto (capName label) lp p
  | .reset p => .reset p
  | .resumeNext p => .resumeNext p

/-- A parameter list: it is only changed if `params` says so. -/
def capParams (params : Bool) (vs : List VarRef) : List VarRef := if params then vs.map capVar else vs

mutual
/-- A statement with its names in capitals.  Parameter lists are only changed if `params` says so. -/
def capStmt (params : Bool) : Stmt → Stmt
  | .arrayAssign v p subs e => .arrayAssign (capVar v) p (subs.map capExpr) (capExpr e)
  | .assign v p e => .assign (capVar v) p (capExpr e)
  | .call v p args => .call (capVar v) p (capArgs args)
  | .callable name p vs body q => .callable (capVar name) p (capParams params vs) (capStmts params body) q
  | .data values => .data (values.map (Option.map capExpr))
  | .declare name p vs => .declare (capVar name) p (capParams params vs)
  | .dim name p sh ty => .dim (capName name) p sh ty
  | .dimArray name p sh dims ty => .dimArray (capName name) p sh (dims.map capExpr) ty
  | .doLoop g body => .doLoop (capDo g) (capStmts params body)
  | .end code p => .end (code.map capExpr) p
  | .exitDo p => .exitDo p
  | .exitFor p => .exitFor p
  | .exitFunction p => .exitFunction p
  | .exitSub p => .exitSub p
  | .forLoop v p dbl start stop next body => .forLoop (capVar v) p dbl (capExpr start) (capExpr stop) (capExpr next) (capStmts params body)
  | .gosub label p => .gosub (capName label) p
  | .goto label p => .goto (capName label) p
  | .ifs bs => .ifs (capBranches params bs)
  | .label name p => .label (capName name) p
  | .onError o => .onError (capOnError o)
  | .ret p => .ret p
  | .select e cs p => .select (capExpr e) (capCases params cs) p
  | .whileLoop e body => .whileLoop (capExpr e) (capStmts params body)

/-- Statements with their names in capitals. -/
def capStmts (params : Bool) : Stmts → Stmts
  | .nil => .nil
  | .cons s rest => .cons (capStmt params s) (capStmts params rest)

/-- Branches with their names in capitals. -/
def capBranches (params : Bool) : Branches → Branches
  | .nil => .nil
  | .cons g body rest => .cons (capExpr g) (capStmts params body) (capBranches params rest)

/-- Cases with their names in capitals. -/
def capCases (params : Bool) : Cases → Cases
  | .nil => .nil
  | .cons gs body rest => .cons (gs.map capCase) (capStmts params body) (capCases params rest)
end

/-- The two programs differ only in the case of names. -/
def SameButCase (p q : Stmts) : Prop := capStmts true p = capStmts true q

/-- The two programs differ only in the case of names, and parameter lists are spelled in the same way. -/
def SameButCaseOfUses (p q : Stmts) : Prop := capStmts false p = capStmts false q

/-- An error with the names in it in capitals. -/
def capErr : CErr → CErr
  | .alreadyDefined p v => .alreadyDefined p (capVar v)
  | .arrayUsedAsScalar p v => .arrayUsedAsScalar p (capVar v)
  | .duplicateLabel p l => .duplicateLabel p (capName l)
  | .incompatibleAnnotation p v => .incompatibleAnnotation p (capVar v)
  | .notAFunction p v => .notAFunction p (capVar v)
  | .notAnArray p v => .notAnArray p (capVar v)
  | .undefinedSymbol p v => .undefinedSymbol p (capVar v)
  | .unknownLabel p l => .unknownLabel p (capName l)
  | e => e

end EB.Spec
