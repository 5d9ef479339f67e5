import Verif.Model.Lexer
import Verif.Model.Ast
/-!
# The grammar of expressions

Written without reference to the parser: expressions are trees with explicit parentheses, with the
tokens that write them and the abstract syntax that they stand for.
-/

namespace EB.Spec

/-! ## Operators -/

/-- The binary operators, from the loosest to the tightest. -/
def levels : List (List SrcBin) :=
  [[.and, .or, .xor], [.eq, .ne, .lt, .le, .gt, .ge], [.shl, .shr], [.add, .sub], [.mul, .div, .mod],
   [/- the prefix operators -/], [.pow]]

/-- How tightly a binary operator binds. -/
def strength (op : SrcBin) : Nat := levels.findIdx (fun l => l.contains op)

/-- How tightly the prefix operators bind: tighter than products, looser than powers. -/
def prefixStrength : Nat := 5

/-- The token of a binary operator. -/
def binTok : SrcBin → Tok
  | .add => .plus | .sub => .minus | .mul => .multiply | .div => .divide | .mod => .modulo | .pow => .exponent
  | .eq => .equal | .ne => .notEqual | .lt => .less | .le => .lessEqual | .gt => .greater | .ge => .greaterEqual
  | .and => .and | .or => .or | .xor => .xor | .shl => .shiftLeft | .shr => .shiftRight

/-- The token of a prefix operator. -/
def unTok : SrcUn → Tok
  | .neg => .minus
  | .not => .not

/-! ## Trees -/

mutual
/-- An expression as written, with the positions of its tokens. -/
inductive Tree where
  | bool (v : Bool) (pos : LineCol)
  | dbl (bits : BitVec 64) (pos : LineCol)
  | int (v : I32) (pos : LineCol)
  | text (s : Str) (pos : LineCol)
  | sym (v : VarRef) (pos : LineCol)
  /-- `v()` -/
  | call0 (v : VarRef) (pos lp rp : LineCol)
  /-- `v(args)` -/
  | call (v : VarRef) (pos lp : LineCol) (args : TreeArgs)
  | paren (lp : LineCol) (t : Tree) (rp : LineCol)
  | un (op : SrcUn) (pos : LineCol) (t : Tree)
  | bin (op : SrcBin) (pos : LineCol) (l r : Tree)

/-- Arguments up to the closing parenthesis. -/
inductive TreeArgs where
  | last (t : Tree) (rp : LineCol)
  | more (t : Tree) (comma : LineCol) (rest : TreeArgs)
end

mutual
/-- The tokens of an expression. -/
def Tree.toks : Tree → List TokSpan
  | .bool v p => [⟨.boolean v, p⟩]
  | .dbl b p => [⟨.double b, p⟩]
  | .int v p => [⟨.integer v, p⟩]
  | .text s p => [⟨.text s, p⟩]
  | .sym v p => [⟨.symbol v, p⟩]
  | .call0 v p lp rp => [⟨.symbol v, p⟩, ⟨.leftParen, lp⟩, ⟨.rightParen, rp⟩]
  | .call v p lp args => ⟨.symbol v, p⟩ :: ⟨.leftParen, lp⟩ :: args.toks
  | .paren lp t rp => ⟨.leftParen, lp⟩ :: (t.toks ++ [⟨.rightParen, rp⟩])
  | .un op p t => ⟨unTok op, p⟩ :: t.toks
  | .bin op p l r => l.toks ++ ⟨binTok op, p⟩ :: r.toks

/-- The tokens of arguments, with the closing parenthesis. -/
def TreeArgs.toks : TreeArgs → List TokSpan
  | .last t rp => t.toks ++ [⟨.rightParen, rp⟩]
  | .more t c r => t.toks ++ ⟨.comma, c⟩ :: r.toks
end

mutual
/-- What an expression stands for: parentheses only group. -/
def Tree.expr : Tree → Expr
  | .bool v p => .bool v p
  | .dbl b p => .dbl b p
  | .int v p => .int v p
  | .text s p => .text s p
  | .sym v p => .sym v p
  | .call0 v p _ _ => .call v p .nil
  | .call v p _ args => .call v p args.args
  | .paren _ t _ => t.expr
  | .un op p t => .un op t.expr p
  | .bin op p l r => .bin op l.expr r.expr p

/-- What arguments stand for. -/
def TreeArgs.args : TreeArgs → Args
  | .last t rp => .cons t.expr .end rp .nil
  | .more t c r => .cons t.expr .long c r.args
end

/-! ## Precedence -/

/-- The strengths of the operators that are open at the right edge of an expression: what follows
could be taken for their right operand. -/
def Tree.rightEdge : Tree → List Nat
  | .bin op _ _ r => strength op :: r.rightEdge
  | .un _ _ t => prefixStrength :: t.rightEdge
  | _ => []

/-- The strengths of the binary operators that are open at the left edge of an expression. -/
def Tree.leftEdge : Tree → List Nat
  | .bin op _ l _ => strength op :: l.leftEdge
  | _ => []

mutual
/-- The tree respects precedence and associates to the left: the operators open at the right edge
of a left operand bind at least as tightly as the operator, and those open at the left edge of a
right operand, or of the operand of a prefix operator, bind more tightly. -/
def Tree.Canonical : Tree → Prop
  | .call _ _ _ args => args.Canonical
  | .paren _ t _ => t.Canonical
  | .un _ _ t => t.Canonical ∧ ∀ k ∈ t.leftEdge, prefixStrength < k
  | .bin op _ l r =>
    l.Canonical ∧ r.Canonical ∧ (∀ k ∈ l.rightEdge, strength op ≤ k) ∧ (∀ k ∈ r.leftEdge, strength op < k)
  | _ => True

/-- All arguments respect precedence. -/
def TreeArgs.Canonical : TreeArgs → Prop
  | .last t _ => t.Canonical
  | .more t _ r => t.Canonical ∧ r.Canonical
end

/-! ## Precedence, by splitting -/

/-- An operand that is no operator applied to others. -/
def Tree.Primary : Tree → Prop
  | .un _ _ _ => False
  | .bin _ _ _ _ => False
  | _ => True

/-- An operand followed by binary operators with their right operands. -/
abbrev Chain := List (SrcBin × LineCol × Tree)

/-- The tokens of an operand followed by a chain. -/
def chainToks (a : Tree) (xs : Chain) : List TokSpan :=
  a.toks ++ xs.flatMap (fun x => ⟨binTok x.1, x.2.1⟩ :: x.2.2.toks)

/-- `a` followed by the chain groups as the tree: the operator that is applied last is the
rightmost among those that bind the loosest. -/
inductive Groups : Tree → Chain → Tree → Prop
  | one (a : Tree) : Groups a [] a
  | split {a : Tree} {xs : Chain} {l : Tree} (op : SrcBin) (pos : LineCol) {b : Tree} {ys : Chain} {r : Tree}
      (left : Groups a xs l) (right : Groups b ys r)
      (weakest : ∀ x ∈ xs, strength op ≤ strength x.1) (rightmost : ∀ y ∈ ys, strength op < strength y.1) :
      Groups a (xs ++ (op, pos, b) :: ys) (.bin op pos l r)

/-! ## Redundant parentheses -/

mutual
/-- The second tree is the first one with more parentheses around some of its parts.  Positions
may differ. -/
inductive Parens : Tree → Tree → Prop
  | bool (v : Bool) (p q : LineCol) : Parens (.bool v p) (.bool v q)
  | dbl (v : BitVec 64) (p q : LineCol) : Parens (.dbl v p) (.dbl v q)
  | int (v : I32) (p q : LineCol) : Parens (.int v p) (.int v q)
  | text (v : Str) (p q : LineCol) : Parens (.text v p) (.text v q)
  | sym (v : VarRef) (p q : LineCol) : Parens (.sym v p) (.sym v q)
  | call0 (v : VarRef) (p lp rp p' lp' rp' : LineCol) : Parens (.call0 v p lp rp) (.call0 v p' lp' rp')
  | call (v : VarRef) (p lp p' lp' : LineCol) {a a' : TreeArgs} (h : ParensArgs a a') : Parens (.call v p lp a) (.call v p' lp' a')
  | paren (lp rp lp' rp' : LineCol) {t t' : Tree} (h : Parens t t') : Parens (.paren lp t rp) (.paren lp' t' rp')
  | un (op : SrcUn) (p p' : LineCol) {t t' : Tree} (h : Parens t t') : Parens (.un op p t) (.un op p' t')
  | bin (op : SrcBin) (p p' : LineCol) {l l' r r' : Tree} (h : Parens l l') (h' : Parens r r') :
      Parens (.bin op p l r) (.bin op p' l' r')
  | around (lp rp : LineCol) {t t' : Tree} (h : Parens t t') : Parens t (.paren lp t' rp)

inductive ParensArgs : TreeArgs → TreeArgs → Prop
  | last (rp rp' : LineCol) {t t' : Tree} (h : Parens t t') : ParensArgs (.last t rp) (.last t' rp')
  | more (c c' : LineCol) {t t' : Tree} {a a' : TreeArgs} (h : Parens t t') (h' : ParensArgs a a') :
      ParensArgs (.more t c a) (.more t' c' a')
end

mutual
/-- The expression without its positions. -/
def noPos : Expr → Expr
  | .bool v _ => .bool v ⟨0, 0⟩
  | .dbl v _ => .dbl v ⟨0, 0⟩
  | .int v _ => .int v ⟨0, 0⟩
  | .text v _ => .text v ⟨0, 0⟩
  | .sym v _ => .sym v ⟨0, 0⟩
  | .bin op l r _ => .bin op (noPos l) (noPos r) ⟨0, 0⟩
  | .un op e _ => .un op (noPos e) ⟨0, 0⟩
  | .call v _ a => .call v ⟨0, 0⟩ (noPosArgs a)

def noPosArgs : Args → Args
  | .nil => .nil
  | .cons e sep _ rest => .cons (noPos e) sep ⟨0, 0⟩ (noPosArgs rest)
  | .skip sep _ rest => .skip sep ⟨0, 0⟩ (noPosArgs rest)
end

/-! ## Where an expression ends -/

/-- Tokens after which an expression cannot go on. -/
def endTokens : List Tok := [.eof, .eol, .as, .comma, .else, .semicolon, .then, .to, .step, .rightParen]

/-- The tokens that follow are none or begin with one that ends an expression. -/
def Ends (rest : List TokSpan) : Prop := ∀ t, rest.head? = some t → t.tok ∈ endTokens

/-! ## Necessary conditions -/

/-- The depth of the parentheses after some tokens, or `none` if one is closed that was not
opened. -/
def depthAfter : Nat → List TokSpan → Option Nat
  | d, [] => some d
  | d, t :: ts =>
    match t.tok with
    | .leftParen => depthAfter (d + 1) ts
    | .rightParen => if d = 0 then none else depthAfter (d - 1) ts
    | _ => depthAfter d ts

/-- A literal or a name. -/
def Tok.isOperand : Tok → Bool
  | .boolean _ | .double _ | .integer _ | .text _ | .symbol _ => true
  | _ => false

/-- No literal or name directly after another one. -/
def NoTwoOperands : Tok → List TokSpan → Prop
  | _, [] => True
  | b, t :: ts => ¬ (Tok.isOperand b = true ∧ Tok.isOperand t.tok = true) ∧ NoTwoOperands t.tok ts

/-! ## Malformed sequences that the parser takes -/

/-- A token that ends an operand. -/
def Tok.endsOperand : Tok → Bool
  | .boolean _ | .double _ | .integer _ | .text _ | .symbol _ | .rightParen => true
  | _ => false

/-- A token after which `()` is an empty argument list. -/
def Tok.isSymbol : Tok → Bool
  | .symbol _ => true
  | _ => false

/-- The sequences of tokens that are no expressions but that the parser takes as such: an operand
followed by `NOT`, `()` that is not an argument list, and `)(`.  The second argument are the two
tokens before. -/
def Regular : Tok → Tok → List TokSpan → Prop
  | _, _, [] => True
  | a, b, t :: ts =>
    ¬ (Tok.endsOperand b = true ∧ t.tok = .not) ∧
    ¬ (Tok.isSymbol a = false ∧ b = .leftParen ∧ t.tok = .rightParen) ∧
    ¬ (b = .rightParen ∧ t.tok = .leftParen) ∧ Regular b t.tok ts

instance instDecidableRegular : (a b : Tok) → (ts : List TokSpan) → Decidable (Regular a b ts)
  | _, _, [] => isTrue trivial
  | a, b, t :: ts => by
    have := instDecidableRegular b t.tok ts
    unfold Regular
    infer_instance

end EB.Spec
