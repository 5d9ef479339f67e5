import Verif.Spec.Exec
/-!
# Which names a piece of the program text assigns to
-/

namespace EB.Spec

/-- The name is one of the arguments: a built-in command may assign to it. -/
def passed (k : Str) : Args → Bool
  | .nil => false
  | .cons (.sym v _) _ _ rest => symKey v.name == k || passed k rest
  | .cons _ _ _ rest => passed k rest
  | .skip _ _ rest => passed k rest

mutual
/-- The name is assigned to in the statement, or passed to a command, not counting the bodies of other functions.
What a `GOSUB` does is not in the statement: it may assign to any name. -/
def assigns (k : Str) : Stmt → Bool
  | .assign v .. | .arrayAssign v .. => symKey v.name == k
  | .doLoop _ body | .whileLoop _ body => assignsIn k body
  | .forLoop iter _ _ _ _ _ body => symKey iter.name == k || assignsIn k body
  | .ifs branches => assignsBranches k branches
  | .select _ cases _ => assignsCases k cases
  | .call _ _ args => passed k args
  | .gosub .. => true
  | .callable .. | .data .. | .declare .. | .dim .. | .dimArray .. | .end .. | .exitDo .. | .exitFor ..
  | .exitFunction .. | .exitSub .. | .goto .. | .label .. | .onError .. | .ret .. => false

/-- … in some statements. -/
def assignsIn (k : Str) : Stmts → Bool
  | .nil => false
  | .cons s rest => assigns k s || assignsIn k rest

/-- … in the branches of an `IF`. -/
def assignsBranches (k : Str) : Branches → Bool
  | .nil => false
  | .cons _ body rest => assignsIn k body || assignsBranches k rest

/-- … in the cases of a `SELECT`. -/
def assignsCases (k : Str) : Cases → Bool
  | .nil => false
  | .cons _ body rest => assignsIn k body || assignsCases k rest
end

end EB.Spec
