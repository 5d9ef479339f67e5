import Verif.Model.CompStmt
/-!
# The items of the `DATA` statements of a program
-/

namespace EB.Spec

/-- The value of a literal in the source. -/
def constantOf : Expr → Option ConstantDatum
  | .bool b _ => some (.boolean b)
  | .dbl b _ => some (.double b)
  | .int i _ => some (.integer i)
  | .text s _ => some (.text s)
  | _ => none

mutual
/-- The items of a statement, with those of the statements in it, in the order of the source. -/
def Stmt.items : Stmt → List (Option ConstantDatum)
  | .data values => values.map fun v => v.bind constantOf
  | .callable _ _ _ body _ => Stmts.items body
  | .doLoop _ body => Stmts.items body
  | .forLoop _ _ _ _ _ _ body => Stmts.items body
  | .whileLoop _ body => Stmts.items body
  | .ifs branches => Branches.items branches
  | .select _ cases _ => Cases.items cases
  | .arrayAssign .. | .assign .. | .call .. | .declare .. | .dim .. | .dimArray .. | .end .. | .exitDo .. | .exitFor ..
  | .exitFunction .. | .exitSub .. | .gosub .. | .goto .. | .label .. | .onError .. | .ret .. => []

/-- The items of a program. -/
def Stmts.items : Stmts → List (Option ConstantDatum)
  | .nil => []
  | .cons s rest => Stmt.items s ++ Stmts.items rest

/-- The items of the branches of an `IF`. -/
def Branches.items : Branches → List (Option ConstantDatum)
  | .nil => []
  | .cons _ body rest => Stmts.items body ++ Branches.items rest

/-- The items of the cases of a `SELECT`. -/
def Cases.items : Cases → List (Option ConstantDatum)
  | .nil => []
  | .cons _ body rest => Stmts.items body ++ Cases.items rest
end

end EB.Spec
