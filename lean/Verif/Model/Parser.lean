import Verif.Model.Lexer
import Verif.Model.CompStmt
/-!
# The parser

Models core/src/parser.rs.  Recursive functions take a bound on the number of calls, computed from
the number of tokens by the outermost function; running out of it would be the error `fuel`.
-/

namespace EB

/-- `parser::Error` (core/src/parser.rs 25-35).  `panic` is a failed assertion or an arithmetic
overflow, `fuel` is not an error of the code but an exhausted bound of the model. -/
inductive PErr where
  | bad (pos : LineCol) (msg : Str)
  | io (pos : LineCol)
  | panic
  | fuel
  deriving DecidableEq, Repr

/-- A parser function: takes and returns the token stream, also when it fails. -/
def PM (α : Type) := TokStream → Except PErr α × TokStream

namespace PM
variable {α β : Type}

/-- Rust sequencing with `?`. -/
def bind (x : PM α) (f : α → PM β) : PM β := fun s =>
  match x s with
  | (.ok a, s') => f a s'
  | (.error e, s') => (.error e, s')

/-- `Ok(a)` without effects. -/
def pure (a : α) : PM α := fun s => (.ok a, s)

instance : Monad PM where
  pure := PM.pure
  bind := PM.bind

/-- `return Err(e)`. -/
def throw (e : PErr) : PM α := fun s => (.error e, s)

/-- `return Err(Error::Bad(pos, msg))`. -/
def bad (pos : LineCol) (msg : Str) : PM α := throw (.bad pos msg)

/-- `x?` for a plain result. -/
def lift (x : Except PErr α) : PM α := fun s => (x, s)

end PM

/-- `PeekableLexer::peek` (core/src/lexer.rs 757-767). -/
def peekT : PM TokSpan := fun s =>
  match s.toks with
  | t :: _ => (.ok t, s)
  | [] => if s.io then (.error (.io s.eofPos), s) else (.ok ⟨.eof, s.eofPos⟩, s)

/-- `PeekableLexer::consume_peeked` (core/src/lexer.rs 748-755).  The end of the file is never used
up. -/
def consumeT : PM Unit := fun s => (.ok (), { s with toks := s.toks.tail })

/-- `PeekableLexer::read` (core/src/lexer.rs 769-781). -/
def readT : PM TokSpan := do
  let t ← peekT
  consumeT
  pure t

/-- `expect_and_consume` (core/src/parser.rs 275-283). -/
def expectT (t : Tok) (msg : String) : PM TokSpan := do
  let p ← peekT
  if p.tok ≠ t then PM.bad p.pos msg.toList
  else do
    consumeT
    pure p

/-- `expect_and_consume_with_pos` (core/src/parser.rs 285-300). -/
def expectAt (t : Tok) (pos : LineCol) (msg : Str) : PM Unit := do
  let p ← peekT
  if p.tok ≠ t then PM.bad pos msg else consumeT

/-- `vref_to_unannotated_string` (core/src/parser.rs 46-54). -/
def unannotated (v : VarRef) (pos : LineCol) : PM Str :=
  if v.ty ≠ none then PM.bad pos ("Type annotation not allowed in ".toList ++ v.show) else pure v.name

/-! ## Expressions -/

/-- `ExprOp` (core/src/parser.rs 82-128). -/
inductive ExprOp where
  | leftParen
  | un (op : SrcUn)
  | bin (op : SrcBin)
  deriving DecidableEq, Repr

/-- `ExprOp::priority` for binary operators (core/src/parser.rs 157-186). -/
def SrcBin.priority : SrcBin → Nat
  | .pow => 6
  | .mul | .div | .mod => 4
  | .add | .sub => 3
  | .shl | .shr => 2
  | .eq | .ne | .lt | .le | .gt | .ge => 1
  | .and | .or | .xor => 0

/-- `ExprOp::priority` (core/src/parser.rs 157-186). -/
def ExprOp.priority : ExprOp → Nat
  | .leftParen => 6
  | .un _ => 5
  | .bin o => o.priority

/-- `ExprOp::from` (core/src/parser.rs 132-153), together with the list of tokens on which it is
called (core/src/parser.rs 921-936). -/
def Tok.binOp : Tok → Option SrcBin
  | .equal => some .eq
  | .notEqual => some .ne
  | .less => some .lt
  | .lessEqual => some .le
  | .greater => some .gt
  | .greaterEqual => some .ge
  | .plus => some .add
  | .multiply => some .mul
  | .divide => some .div
  | .modulo => some .mod
  | .exponent => some .pow
  | .and => some .and
  | .or => some .or
  | .xor => some .xor
  | .shiftLeft => some .shl
  | .shiftRight => some .shr
  | _ => none

/-- `ExprOpSpan` (core/src/parser.rs 189-196). -/
structure OpSpan where
  op : ExprOp
  pos : LineCol
  deriving DecidableEq, Repr

/-- "Not enough values to apply operator" (core/src/parser.rs 212, 225). -/
def notEnough {α : Type} (pos : LineCol) : Except PErr α :=
  .error (.bad pos "Not enough values to apply operator".toList)

/-- `ExprOpSpan::apply` (core/src/parser.rs 204-260).  The head of the list is the top of the
stack. -/
def OpSpan.apply (o : OpSpan) (es : List Expr) : Except PErr (List Expr) :=
  match o.op with
  | .leftParen => .ok es
  | .un u =>
    match es with
    | e :: es => .ok (.un u e o.pos :: es)
    | [] => notEnough o.pos
  | .bin b =>
    match es with
    | r :: l :: es => .ok (.bin b l r o.pos :: es)
    | _ => notEnough o.pos

/-- The loop that applies the operators binding at least as tightly as `p`
(core/src/parser.rs 909-915, 938-944). -/
def reduceFor (p : Nat) : List OpSpan → List Expr → Except PErr (List OpSpan × List Expr)
  | [], es => .ok ([], es)
  | o :: os, es =>
    if o.op = .leftParen ∨ o.op.priority < p then .ok (o :: os, es)
    else
      match o.apply es with
      | .error e => .error e
      | .ok es => reduceFor p os es

/-- The loop for a right parenthesis (core/src/parser.rs 887-895). -/
def reduceParen : List OpSpan → List Expr → Except PErr (List OpSpan × List Expr)
  | [], _ => .error .panic
  | o :: os, es =>
    match o.apply es with
    | .error e => .error e
    | .ok es => if o.op = .leftParen then .ok (os, es) else reduceParen os es

/-- The loop at the end of an expression (core/src/parser.rs 999-1008). -/
def reduceAll : List OpSpan → List Expr → Except PErr (Option Expr)
  | [], es => .ok es.head?
  | o :: os, es =>
    if o.op = .leftParen then .error (.bad o.pos "Unbalanced parenthesis".toList)
    else
      match o.apply es with
      | .error e => .error e
      | .ok es => reduceAll os es

/-- The tokens that end an expression (core/src/parser.rs 808-816). -/
def Tok.endsExpr : Tok → Bool
  | .eof | .eol | .as | .comma | .else | .semicolon | .then | .to | .step => true
  | _ => false

/-- The tokens that are operands (core/src/parser.rs 830-844). -/
def TokSpan.operand (t : TokSpan) : Option Expr :=
  match t.tok with
  | .boolean b => some (.bool b t.pos)
  | .double d => some (.dbl d t.pos)
  | .integer i => some (.int i t.pos)
  | .text s => some (.text s t.pos)
  | .symbol v => some (.sym v t.pos)
  | _ => none

mutual
/-- The loop of `parse_expr` (core/src/parser.rs 795-1008): `es` and `ops` are the two stacks. -/
def exprLoop (T : TextOps) : Nat → List Expr → List OpSpan → Bool → PM (Option Expr)
  | 0, _, _, _ => PM.throw .fuel
  | n + 1, es, ops, need => do
    let t ← peekT
    if t.tok.endsExpr ∨ (t.tok = .rightParen ∧ ¬ ops.any (fun o => o.op = .leftParen)) then
      PM.lift (reduceAll ops es)
    else do
      consumeT
      match t.operand with
      | some e =>
        if need then exprLoop T n (e :: es) ops false
        else PM.bad t.pos "Unexpected value in expression".toList
      | none =>
        match t.tok with
        | .leftParen =>
          match es with
          | .sym v p :: es' =>
            if need then exprLoop T n (.sym v p :: es') (⟨.leftParen, t.pos⟩ :: ops) true
            else do
              let args ← commaExprs T n
              exprLoop T n (.call v p args :: es') ops false
          | es =>
            if need then exprLoop T n es (⟨.leftParen, t.pos⟩ :: ops) true
            else PM.bad t.pos "Unexpected ( in expression".toList
        | .rightParen => do
          let (ops', es') ← PM.lift (reduceParen ops es)
          exprLoop T n es' ops' false
        | .not => exprLoop T n es (⟨.un .not, t.pos⟩ :: ops) true
        | .minus =>
          if need then exprLoop T n es (⟨.un .neg, t.pos⟩ :: ops) true
          else do
            let (ops', es') ← PM.lift (reduceFor (SrcBin.priority .sub) ops es)
            exprLoop T n es' (⟨.bin .sub, t.pos⟩ :: ops') true
        | .bad msg => PM.bad t.pos msg
        | tok =>
          match tok.binOp with
          | some o => do
            let (ops', es') ← PM.lift (reduceFor o.priority ops es)
            exprLoop T n es' (⟨.bin o, t.pos⟩ :: ops') true
          | none => PM.bad t.pos "Unexpected keyword in expression".toList

/-- `parse_comma_separated_exprs` (core/src/parser.rs 729-774). -/
def commaExprs (T : TextOps) : Nat → PM Args
  | 0 => PM.throw .fuel
  | n + 1 => do
    let prev ← exprLoop T n [] [] true
    commaLoop T n prev true

/-- The loop of `parse_comma_separated_exprs` (core/src/parser.rs 739-771); the arguments read
before are prepended by the callers. -/
def commaLoop (T : TextOps) : Nat → Option Expr → Bool → PM Args
  | 0, _, _ => PM.throw .fuel
  | n + 1, prev, isFirst => do
    let t ← peekT
    match t.tok with
    | .rightParen => do
      consumeT
      match prev with
      | some e => pure (.cons e .end t.pos .nil)
      | none => if isFirst then pure .nil else PM.bad t.pos "Missing expression".toList
    | .comma => do
      consumeT
      match prev with
      | some e => do
        let prev' ← exprLoop T n [] [] true
        let rest ← commaLoop T n prev' false
        pure (.cons e .long t.pos rest)
      | none => PM.bad t.pos "Missing expression".toList
    | tok => PM.bad t.pos ("Unexpected ".toList ++ tok.show T)
end

/-- A number of calls that is enough for any expression of the stream. -/
def TokStream.exprFuel (s : TokStream) : Nat := 2 * s.toks.length + 2

/-- `parse_expr` (core/src/parser.rs 776-1009). -/
def parseExpr (T : TextOps) (first : Option Expr) : PM (Option Expr) := fun s =>
  match first with
  | some e => exprLoop T s.exprFuel [e] [] false s
  | none => exprLoop T s.exprFuel [] [] true s

/-- `parse_comma_separated_exprs` (core/src/parser.rs 729-774). -/
def parseCommaExprs (T : TextOps) : PM Args := fun s => commaExprs T s.exprFuel s

/-- `parse_required_expr` (core/src/parser.rs 1011-1019). -/
def parseRequired (T : TextOps) (msg : String) : PM Expr := do
  let p ← peekT
  match ← parseExpr T none with
  | some e => pure e
  | none => PM.bad p.pos msg.toList

/-- `argspans_to_exprs` (core/src/parser.rs 56-72) and the `unwrap` in
`parse_array_or_builtin_call` (core/src/parser.rs 407); arguments without expression do not occur
there. -/
def Args.exprs : Args → List Expr
  | .nil => []
  | .cons e _ _ r => e :: r.exprs
  | .skip _ _ r => r.exprs

/-! ## Simple statements -/

/-- The tokens that end a simple statement (core/src/parser.rs 327, 345, 367). -/
def Tok.endsSimple : Tok → Bool
  | .eof | .eol | .else => true
  | _ => false

/-- `parse_assignment` (core/src/parser.rs 321-331). -/
def parseAssignment (T : TextOps) (v : VarRef) (pos : LineCol) : PM Stmt := do
  let e ← parseRequired T "Missing expression in assignment"
  let next ← peekT
  if next.tok.endsSimple then pure (.assign v pos e)
  else PM.bad next.pos ("Unexpected ".toList ++ next.tok.show T ++ " in assignment".toList)

/-- `parse_array_assignment` (core/src/parser.rs 333-349). -/
def parseArrayAssignment (T : TextOps) (v : VarRef) (pos : LineCol) (subs : List Expr) : PM Stmt := do
  let e ← parseRequired T "Missing expression in array assignment"
  let next ← peekT
  if next.tok.endsSimple then pure (.arrayAssign v pos subs e)
  else PM.bad next.pos ("Unexpected ".toList ++ next.tok.show T ++ " in array assignment".toList)

/-- One element of an argument list. -/
def Args.push (e : Option Expr) (sep : ArgSep) (pos : LineCol) (rest : Args) : Args :=
  match e with
  | some e => .cons e sep pos rest
  | none => .skip sep pos rest

/-- The separators of `parse_builtin_call` (core/src/parser.rs 373-384). -/
def Tok.argSep : Tok → Option ArgSep
  | .semicolon => some .short
  | .comma => some .long
  | .as => some .as
  | _ => none

/-- The loop of `parse_builtin_call` (core/src/parser.rs 361-392); `isFirst` is `args.is_empty()`. -/
def builtinLoop (T : TextOps) : Nat → Option Expr → Bool → PM Args
  | 0, _, _ => PM.throw .fuel
  | n + 1, first, isFirst => do
    let e ← parseExpr T first
    let p ← peekT
    if p.tok.endsSimple then
      match e with
      | some e => pure (.cons e .end p.pos .nil)
      | none => if isFirst then pure .nil else pure (.skip .end p.pos .nil)
    else
      match p.tok.argSep with
      | some sep => do
        consumeT
        let rest ← builtinLoop T n none false
        pure (Args.push e sep p.pos rest)
      | none => PM.bad p.pos "Expected comma, semicolon, or end of statement".toList

/-- `parse_builtin_call` (core/src/parser.rs 351-394). -/
def parseBuiltinCall (T : TextOps) (v : VarRef) (pos : LineCol) (first : Option Expr) : PM Stmt := do
  let name ← unannotated v pos
  let args ← fun s => builtinLoop T (s.toks.length + 1) first true s
  pure (.call ⟨symKey name, none⟩ pos args)

/-- `parse_array_or_builtin_call` (core/src/parser.rs 396-426). -/
def parseArrayOrBuiltin (T : TextOps) (v : VarRef) (pos : LineCol) : PM Stmt := do
  let p ← peekT
  if p.tok = .leftParen then do
    consumeT
    let args ← parseCommaExprs T
    let q ← peekT
    if q.tok = .equal then do
      consumeT
      parseArrayAssignment T v pos args.exprs
    else
      match args.exprs with
      | [e] => parseBuiltinCall T v pos (some e)
      | _ => PM.bad p.pos "Expected expression".toList
  else parseBuiltinCall T v pos none

/-- The type names of `parse_as_type` (core/src/parser.rs 435-438). -/
def Tok.typeName : Tok → Option ExprType
  | .booleanName => some .boolean
  | .doubleName => some .double
  | .integerName => some .integer
  | .textName => some .text
  | _ => none

/-- `parse_as_type` (core/src/parser.rs 428-444); the position is not used later. -/
def parseAsType (T : TextOps) : PM ExprType := do
  let t ← readT
  match t.tok.typeName with
  | some ty => pure ty
  | none =>
    PM.bad t.pos ("Invalid type name ".toList ++ t.tok.show T ++ " in AS type definition".toList)

/-- `-i` on `i32` with overflow checks. -/
def negI32 (i : I32) : PM I32 := if i = BitVec.intMin 32 then PM.throw .panic else pure (-i)

/-- The literal after a minus sign in `DATA` (core/src/parser.rs 474-492). -/
def parseNegDatum (F : FloatOps) (pos : LineCol) : PM Expr := do
  let t ← readT
  match t.tok with
  | .double d => pure (.dbl (F.neg d) pos)
  | .integer i => do
    let j ← negI32 i
    pure (.int j pos)
  | _ => PM.bad pos "Expected number after -".toList

/-- One datum (core/src/parser.rs 459-509): `none` for a comma. -/
def parseDatum (T : TextOps) (F : FloatOps) : PM (Option Expr) := do
  let t ← readT
  match t.tok with
  | .boolean b => pure (some (.bool b t.pos))
  | .double d => pure (some (.dbl d t.pos))
  | .integer i => pure (some (.int i t.pos))
  | .text s => pure (some (.text s t.pos))
  | .minus => do
    let e ← parseNegDatum F t.pos
    pure (some e)
  | .comma => pure none
  | tok => PM.bad t.pos ("Unexpected ".toList ++ tok.show T ++ " in DATA statement".toList)

/-- The loop of `parse_data` (core/src/parser.rs 447-530). -/
def dataLoop (T : TextOps) (F : FloatOps) : Nat → PM (List (Option Expr))
  | 0 => PM.throw .fuel
  | n + 1 => do
    let p ← peekT
    if p.tok.endsSimple then pure [none]
    else
      match ← parseDatum T F with
      | none => do
        let rest ← dataLoop T F n
        pure (none :: rest)
      | some e => do
        let q ← peekT
        if q.tok.endsSimple then pure [some e]
        else if q.tok = .comma then do
          consumeT
          let rest ← dataLoop T F n
          pure (some e :: rest)
        else PM.bad q.pos ("Expected comma after datum but found ".toList ++ q.tok.show T)

/-- `parse_data` (core/src/parser.rs 446-530). -/
def parseData (T : TextOps) (F : FloatOps) : PM Stmt := do
  let values ← fun s => dataLoop T F (s.toks.length + 1) s
  pure (.data values)

/-- The tokens that end a `DIM` statement or the guard of a `DO`. -/
def Tok.endsLine : Tok → Bool
  | .eof | .eol => true
  | _ => false

/-- `parse_dim_as` (core/src/parser.rs 532-552). -/
def parseDimAs (T : TextOps) : PM ExprType := do
  let p ← peekT
  let ty ← (if p.tok.endsLine then pure .integer
    else if p.tok = .as then do
      consumeT
      parseAsType T
    else PM.bad p.pos "Expected AS or end of statement".toList)
  let next ← peekT
  if next.tok.endsLine then pure ty
  else PM.bad next.pos ("Unexpected ".toList ++ next.tok.show T ++ " in DIM statement".toList)

/-- `parse_dim` (core/src/parser.rs 554-603). -/
def parseDim (T : TextOps) : PM Stmt := do
  let p ← peekT
  let shared := decide (p.tok = .shared)
  if shared then consumeT else pure ()
  let t ← readT
  match t.tok with
  | .symbol v => do
    let name ← unannotated v t.pos
    let q ← peekT
    if q.tok = .leftParen then do
      consumeT
      let dims ← parseCommaExprs T
      match dims with
      | .nil => PM.bad q.pos "Arrays require at least one dimension".toList
      | dims => do
        let ty ← parseDimAs T
        pure (.dimArray name t.pos shared dims.exprs ty)
    else do
      let ty ← parseDimAs T
      pure (.dim name t.pos shared ty)
  | _ => PM.bad t.pos "Expected variable name after DIM".toList

/-- `parse_do_guard` (core/src/parser.rs 605-633): the flag tells `UNTIL` from `WHILE`. -/
def parseDoGuard (T : TextOps) (part : String) : PM (Option (Expr × Bool)) := do
  let p ← peekT
  match p.tok with
  | .until => do
    consumeT
    let e ← parseRequired T "No expression in UNTIL clause"
    pure (some (e, true))
  | .while => do
    consumeT
    let e ← parseRequired T "No expression in WHILE clause"
    pure (some (e, false))
  | .eof | .eol => pure none
  | _ => do
    consumeT
    PM.bad p.pos ("Expecting newline, UNTIL or WHILE after ".toList ++ part.toList)

/-- `maybe_parse_end` (core/src/parser.rs 687-700): the other result is the token after `END`. -/
def maybeParseEnd (T : TextOps) (pos : LineCol) : PM (Stmt ⊕ Tok) := do
  let p ← peekT
  match p.tok with
  | .function => pure (.inr .function)
  | .if => pure (.inr .if)
  | .select => pure (.inr .select)
  | .sub => pure (.inr .sub)
  | _ => do
    let code ← parseExpr T none
    pure (.inl (.end code pos))

/-- `END x without x`. -/
def endWithout {α : Type} (T : TextOps) (pos : LineCol) (t : Tok) : PM α :=
  PM.bad pos ("END ".toList ++ t.show T ++ " without ".toList ++ t.show T)

/-- `parse_end` (core/src/parser.rs 702-708). -/
def parseEnd (T : TextOps) (pos : LineCol) : PM Stmt := do
  match ← maybeParseEnd T pos with
  | .inl s => pure s
  | .inr t => endWithout T pos t

/-- `parse_exit` (core/src/parser.rs 710-727). -/
def parseExit (pos : LineCol) : PM Stmt := do
  let p ← peekT
  match p.tok with
  | .do => do
    consumeT
    pure (.exitDo pos)
  | .for => do
    consumeT
    pure (.exitFor pos)
  | .function => do
    consumeT
    pure (.exitFunction pos)
  | .sub => do
    consumeT
    pure (.exitSub pos)
  | _ => PM.bad p.pos "Expecting DO, FOR, FUNCTION or SUB after EXIT".toList

/-- The name of a label given by a token: labels and line numbers. -/
def Tok.labelName : Tok → Option Str
  | .integer i => some (showI32 i)
  | .label s => some s
  | _ => none

/-- `parse_gosub` (core/src/parser.rs 1021-1034). -/
def parseGosub : PM Stmt := do
  let t ← readT
  match t.tok.labelName with
  | some l => pure (.gosub l t.pos)
  | none => PM.bad t.pos "Expected label name after GOSUB".toList

/-- `parse_goto` (core/src/parser.rs 1036-1049). -/
def parseGoto : PM Stmt := do
  let t ← readT
  match t.tok.labelName with
  | some l => pure (.goto l t.pos)
  | none => PM.bad t.pos "Expected label name after GOTO".toList

/-- `parse_on` (core/src/parser.rs 1553-1585). -/
def parseOn (pos : LineCol) : PM Stmt := do
  let _ ← expectT .error "Expected ERROR after ON"
  let t ← readT
  match t.tok with
  | .goto => do
    let u ← readT
    if u.tok = .integer 0 then pure (.onError (.reset pos))
    else
      match u.tok.labelName with
      | some l => pure (.onError (.goto l u.pos pos))
      | none => PM.bad u.pos "Expected label name or 0 after ON ERROR GOTO".toList
  | .resume => do
    let _ ← expectT .next "Expected NEXT after ON ERROR RESUME"
    pure (.onError (.resumeNext pos))
  | _ => PM.bad t.pos "Expected GOTO or RESUME after ON ERROR".toList

/-- The `Symbol` case of `parse_uniline` and `parse_one` (core/src/parser.rs 1855-1863,
1955-1963). -/
def parseSymbolStmt (T : TextOps) (v : VarRef) (pos : LineCol) : PM Stmt := do
  let p ← peekT
  if p.tok = .equal then do
    consumeT
    parseAssignment T v pos
  else parseArrayOrBuiltin T v pos

/-- `parse_uniline` (core/src/parser.rs 1836-1867). -/
def parseUniline (T : TextOps) (F : FloatOps) : PM (Option Stmt) := do
  let t ← readT
  match t.tok with
  | .data => do
    let s ← parseData T F
    pure (some s)
  | .end => do
    let s ← parseEnd T t.pos
    pure (some s)
  | .eof | .eol => pure none
  | .exit => do
    let s ← parseExit t.pos
    pure (some s)
  | .gosub => do
    let s ← parseGosub
    pure (some s)
  | .goto => do
    let s ← parseGoto
    pure (some s)
  | .on => do
    let s ← parseOn t.pos
    pure (some s)
  | .return => pure (some (.ret t.pos))
  | .symbol v => do
    let s ← parseSymbolStmt T v t.pos
    pure (some s)
  | .bad msg => PM.bad t.pos msg
  | tok => PM.bad t.pos ("Unexpected ".toList ++ tok.show T ++ " in uniline IF branch".toList)

/-- The body of a branch with at most one statement. -/
def Stmts.ofOption : Option Stmt → Stmts
  | none => .nil
  | some s => .cons s .nil

/-- `parse_if_uniline` (core/src/parser.rs 1051-1080): the body of the first branch and the other
branch. -/
def parseIfUniline (T : TextOps) (F : FloatOps) : PM (Stmts × Branches) := do
  let p ← peekT
  let body ← (if p.tok = .else then pure Stmts.nil
    else do
      match ← parseUniline T F with
      | some s => pure (Stmts.ofOption (some s))
      | none => PM.throw .panic)
  let q ← peekT
  if q.tok = .else then do
    consumeT
    let s ← parseUniline T F
    pure (body, .cons (.bool true q.pos) (Stmts.ofOption s) .nil)
  else pure (body, .nil)

/-- How a step compares with zero, together with the step (core/src/parser.rs 1196-1248). -/
structure StepInfo where
  step : Expr
  sign : Ordering
  isDouble : Bool

/-- `parse_step` (core/src/parser.rs 1196-1248). -/
def parseStep (F : FloatOps) (defaultPos : LineCol) : PM StepInfo := do
  let p ← peekT
  if p.tok ≠ .step then pure ⟨.int 1 defaultPos, .gt, false⟩
  else do
    consumeT
    let q ← peekT
    match q.tok with
    | .double d => do
      consumeT
      pure ⟨.dbl d q.pos, if F.eq d 0 then .eq else .gt, true⟩
    | .integer i => do
      consumeT
      pure ⟨.int i q.pos, compare i.toInt 0, false⟩
    | .minus => do
      consumeT
      let r ← peekT
      match r.tok with
      | .double d => do
        consumeT
        pure ⟨.dbl (F.neg d) r.pos, if F.eq d 0 then .eq else .lt, true⟩
      | .integer i => do
        consumeT
        let j ← negI32 i
        pure ⟨.int j r.pos, compare j.toInt 0, false⟩
      | _ => PM.bad r.pos "STEP needs a literal number".toList
    | _ => PM.bad q.pos "STEP needs a literal number".toList

/-- The name of the iterator of a `FOR` (core/src/parser.rs 1252-1270). -/
def parseForIter : PM (VarRef × LineCol) := do
  let t ← readT
  match t.tok with
  | .symbol v =>
    if v.ty = none ∨ v.ty = some .double ∨ v.ty = some .integer then pure (v, t.pos)
    else PM.bad t.pos "Iterator name in FOR statement must be a numeric reference".toList
  | _ => PM.bad t.pos "No iterator name in FOR statement".toList

/-- The loop of `parse_callable_args` (core/src/parser.rs 1345-1379). -/
def paramLoop (T : TextOps) : Nat → PM (List VarRef)
  | 0 => PM.throw .fuel
  | n + 1 => do
    let t ← readT
    match t.tok with
    | .symbol v => do
      let p ← peekT
      let v' ← (if p.tok = .as then do
          consumeT
          let name ← unannotated v t.pos
          let ty ← parseAsType T
          pure (⟨name, some ty⟩ : VarRef)
        else pure v)
      let u ← readT
      match u.tok with
      | .comma => do
        let rest ← paramLoop T n
        pure (v' :: rest)
      | .rightParen => pure [v']
      | _ => PM.bad u.pos "Expected comma, AS, or end of parameters list".toList
    | _ => PM.bad t.pos "Expected a parameter name".toList

/-- `parse_callable_args` (core/src/parser.rs 1337-1382). -/
def parseCallableArgs (T : TextOps) : PM (List VarRef) := do
  let p ← peekT
  if p.tok = .leftParen then do
    consumeT
    fun s => paramLoop T (s.toks.length + 1) s
  else pure []

/-- `parse_callable_signature` (core/src/parser.rs 1472-1516). -/
def parseSignature (T : TextOps) (isDeclare isFunction : Bool) :
    PM (VarRef × LineCol × List VarRef) := do
  let kw := if isFunction then "FUNCTION".toList else "SUB".toList
  let t ← readT
  match t.tok with
  | .symbol v => do
    let name ← (match v.ty, isFunction with
      | none, true => pure (⟨v.name, some .integer⟩ : VarRef)
      | some _, true => pure v
      | none, false => pure v
      | some _, false =>
        PM.bad t.pos "SUBs cannot return a value so type annotations are not allowed".toList)
    let params ← parseCallableArgs T
    let p ← peekT
    if p.tok = .eol ∨ (p.tok = .eof ∧ isDeclare) then pure (name, t.pos, params)
    else PM.bad p.pos ("Expected newline after ".toList ++ kw ++ " name".toList)
  | _ => PM.bad t.pos ("Expected a name after ".toList ++ kw)

/-- `parse_declare` (core/src/parser.rs 1454-1470). -/
def parseDeclare (T : TextOps) : PM Stmt := do
  let t ← readT
  match t.tok with
  | .function => do
    let (name, pos, params) ← parseSignature T true true
    pure (.declare name pos params)
  | .sub => do
    let (name, pos, params) ← parseSignature T true false
    pure (.declare name pos params)
  | _ => PM.bad t.pos "Expected FUNCTION or SUB after DECLARE".toList

/-- The relational operators of `CASE IS` (core/src/parser.rs 1619-1632). -/
def Tok.caseRelOp : Tok → Option CaseRelOp
  | .equal => some .eq
  | .notEqual => some .ne
  | .less => some .lt
  | .lessEqual => some .le
  | .greater => some .gt
  | .greaterEqual => some .ge
  | _ => none

/-- One guard of a `CASE` other than `ELSE` (core/src/parser.rs 1615-1661). -/
def parseCaseGuard (T : TextOps) : PM CaseGuard := do
  let p ← peekT
  if p.tok = .is then do
    consumeT
    let t ← readT
    match t.tok.caseRelOp with
    | some op => do
      let e ← parseRequired T "Missing expression after relational operator"
      pure (.is op e)
    | none => PM.bad t.pos "Expected relational operator".toList
  else do
    let e ← parseRequired T "Missing expression in CASE guard"
    let q ← peekT
    match q.tok with
    | .eol | .comma => pure (.is .eq e)
    | .to => do
      consumeT
      let e' ← parseRequired T "Missing expression after TO in CASE guard"
      pure (.to e e')
    | _ => PM.bad q.pos "Expected comma, newline, or TO after expression".toList

/-- The loop of `parse_case_guards` (core/src/parser.rs 1587-1681). -/
def caseGuardLoop (T : TextOps) : Nat → Bool → PM (List CaseGuard)
  | 0, _ => PM.throw .fuel
  | n + 1, isFirst => do
    let p ← peekT
    if p.tok = .else then do
      consumeT
      if isFirst then do
        let q ← peekT
        if q.tok.endsLine then pure []
        else PM.bad q.pos "Expected newline after CASE ELSE".toList
      else PM.bad p.pos "CASE ELSE must be on its own".toList
    else do
      let g ← parseCaseGuard T
      let q ← peekT
      match q.tok with
      | .eol => pure [g]
      | .comma => do
        consumeT
        let rest ← caseGuardLoop T n false
        pure (g :: rest)
      | _ => PM.bad q.pos "Expected comma, newline, or TO after expression".toList

/-- `parse_case_guards` (core/src/parser.rs 1587-1681). -/
def parseCaseGuards (T : TextOps) : PM (List CaseGuard) := fun s =>
  caseGuardLoop T (s.toks.length + 1) true s

/-! ## Recovery after errors -/

/-- Consumes tokens until one satisfies `stop`, or the end. -/
def skipTo (stop : Tok → Bool) : PM Unit := fun s =>
  let rest := s.toks.dropWhile (fun t => !stop t.tok)
  if rest = [] ∧ s.io then (.error (.io s.eofPos), { s with toks := rest })
  else (.ok (), { s with toks := rest })

/-- `reset` (core/src/parser.rs 1992-2007). -/
def resetStmt : PM Unit := do
  skipTo (fun t => t = .eol)
  consumeT

/-- `reset_do` (core/src/parser.rs 662-685). -/
def resetDo : PM Unit := do
  skipTo (fun t => t = .loop)
  consumeT
  skipTo (fun t => t = .eol)
  resetStmt

/-- `reset_if` and `reset_select` (core/src/parser.rs 1178-1194, 1786-1806). -/
def resetEnd (kw : Tok) (pos : LineCol) (msg : String) : PM Unit := do
  skipTo (fun t => t = .end)
  let p ← peekT
  if p.tok = .end then do
    consumeT
    expectAt kw pos msg.toList
  else pure ()
  resetStmt

/-- `reset_for` and `reset_while` (core/src/parser.rs 1320-1335, 1819-1834). -/
def resetKw (kw : Tok) : PM Unit := do
  skipTo (fun t => t = kw)
  consumeT
  resetStmt

/-- The tokens after the next `END` followed by `kw` (core/src/parser.rs 1534-1549). -/
def dropToEnd (kw : Tok) : List TokSpan → List TokSpan
  | [] => []
  | t :: ts =>
    if t.tok = .end then
      match ts with
      | [] => []
      | u :: us => if u.tok = kw then us else dropToEnd kw us
    else dropToEnd kw ts

/-- `reset_callable` (core/src/parser.rs 1532-1551). -/
def resetCallable (kw : Tok) : PM Unit := fun s =>
  let rest := dropToEnd kw s.toks
  if rest = [] ∧ s.io then (.error (.io s.eofPos), { s with toks := rest })
  else resetStmt { s with toks := rest }

/-- `if result.is_err() { reset()? } result` (core/src/parser.rs 1889-1893 and so on). -/
def orReset {α : Type} (x : PM α) (reset : PM Unit) : PM α := fun s =>
  match x s with
  | (.ok a, s') => (.ok a, s')
  | (.error .panic, s') => (.error .panic, s')
  | (.error .fuel, s') => (.error .fuel, s')
  | (.error e, s') =>
    match reset s' with
    | (.ok (), s'') => (.error e, s'')
    | (.error e', s'') => (.error e', s'')

/-! ## Statements with bodies -/

/-- The guard of a `DO` from the two places (core/src/parser.rs 645-657). -/
def doGuard (pos : LineCol) : Option (Expr × Bool) → Option (Expr × Bool) → PM DoGuard
  | none, none => pure .infinite
  | some (e, true), none => pure (.preUntil e)
  | some (e, false), none => pure (.preWhile e)
  | none, some (e, true) => pure (.postUntil e)
  | none, some (e, false) => pure (.postWhile e)
  | some _, some _ =>
    PM.bad pos "DO loop cannot have pre and post guards at the same time".toList

/-- The end of a statement in `parse_one` (core/src/parser.rs 1975-1987). -/
def endOfStmt (T : TextOps) : PM Unit := do
  let t ← peekT
  match t.tok with
  | .eof => pure ()
  | .eol => consumeT
  | tok => PM.bad t.pos ("Expected newline but found ".toList ++ tok.show T)

/-- The part of `parse_for` before the body (core/src/parser.rs 1251-1304). -/
def parseForHead (T : TextOps) (F : FloatOps) (pos : LineCol) : PM (Stmts → Stmt) := do
  let (iter, iterPos) ← parseForIter
  let _ ← expectT .equal "No equal sign in FOR statement"
  let start ← parseRequired T "No start expression in FOR statement"
  let to ← expectT .to "No TO in FOR statement"
  let stop ← parseRequired T "No end expression in FOR statement"
  let st ← parseStep F pos
  let cond ← (match st.sign with
    | .gt => pure (Expr.bin .le (.sym iter iterPos) stop to.pos)
    | .lt => pure (Expr.bin .ge (.sym iter iterPos) stop to.pos)
    | .eq => PM.bad st.step.startPos "Infinite FOR loop; STEP cannot be 0".toList)
  let _ ← expectT .eol "Expecting newline after FOR"
  pure (.forLoop iter iterPos st.isDouble start cond (.bin .add (.sym iter iterPos) st.step to.pos))

mutual
/-- `parse_until` (core/src/parser.rs 302-319). -/
def parseUntil (T : TextOps) (F : FloatOps) : Nat → Tok → PM Stmts
  | 0, _ => PM.throw .fuel
  | n + 1, delim => do
    let p ← peekT
    if p.tok = delim then pure .nil
    else if p.tok = .eol then do
      consumeT
      parseUntil T F n delim
    else
      match ← parseOneSafe T F n with
      | some s => do
        let rest ← parseUntil T F n delim
        pure (.cons s rest)
      | none => pure .nil

/-- `parse_do` (core/src/parser.rs 635-660). -/
def parseDo (T : TextOps) (F : FloatOps) : Nat → LineCol → PM Stmt
  | 0, _ => PM.throw .fuel
  | n + 1, pos => do
    let pre ← parseDoGuard T "DO"
    let _ ← expectT .eol "Expecting newline after DO"
    let body ← parseUntil T F n .loop
    expectAt .loop pos "DO without LOOP".toList
    let post ← parseDoGuard T "LOOP"
    let g ← doGuard pos pre post
    pure (.doLoop g body)

/-- `parse_if_multiline` (core/src/parser.rs 1082-1160): what remains of the current branch and the
branches after it. -/
def ifLoop (T : TextOps) (F : FloatOps) : Nat → LineCol → Bool → PM (Stmts × Branches)
  | 0, _, _ => PM.throw .fuel
  | n + 1, pos, last => do
    let p ← peekT
    match p.tok with
    | .eol => do
      consumeT
      ifLoop T F n pos last
    | .elseif =>
      if last then PM.bad p.pos "Unexpected ELSEIF after ELSE".toList
      else do
        consumeT
        let e ← parseRequired T "No expression in ELSEIF statement"
        let _ ← expectT .then "No THEN in ELSEIF statement"
        let _ ← expectT .eol "Expecting newline after THEN"
        let (body, rest) ← ifLoop T F n pos last
        pure (.nil, .cons e body rest)
    | .else =>
      if last then PM.bad p.pos "Duplicate ELSE after ELSE".toList
      else do
        consumeT
        let _ ← expectT .eol "Expecting newline after ELSE"
        let (body, rest) ← ifLoop T F n pos true
        pure (.nil, .cons (.bool true p.pos) body rest)
    | .end => do
      consumeT
      match ← maybeParseEnd T p.pos with
      | .inl s => do
        let (body, rest) ← ifLoop T F n pos last
        pure (.cons s body, rest)
      | .inr .if => do
        expectAt .if pos "IF without END IF".toList
        pure (.nil, .nil)
      | .inr t => endWithout T p.pos t
    | _ =>
      match ← parseOneSafe T F n with
      | some s => do
        let (body, rest) ← ifLoop T F n pos last
        pure (.cons s body, rest)
      | none => do
        expectAt .if pos "IF without END IF".toList
        pure (.nil, .nil)

/-- `parse_if` (core/src/parser.rs 1162-1176). -/
def parseIf (T : TextOps) (F : FloatOps) : Nat → LineCol → PM Stmt
  | 0, _ => PM.throw .fuel
  | n + 1, pos => do
    let e ← parseRequired T "No expression in IF statement"
    let _ ← expectT .then "No THEN in IF statement"
    let p ← peekT
    let (body, rest) ← (if p.tok.endsLine then ifLoop T F n pos false else parseIfUniline T F)
    pure (.ifs (.cons e body rest))

/-- `parse_for` (core/src/parser.rs 1250-1318). -/
def parseFor (T : TextOps) (F : FloatOps) : Nat → LineCol → PM Stmt
  | 0, _ => PM.throw .fuel
  | n + 1, pos => do
    let mk ← parseForHead T F pos
    let body ← parseUntil T F n .next
    expectAt .next pos "FOR without NEXT".toList
    pure (mk body)

/-- The loop of `parse_callable_body` (core/src/parser.rs 1384-1452): the remaining statements and
the position of the end. -/
def bodyLoop (T : TextOps) (F : FloatOps) : Nat → LineCol → Tok → PM (Stmts × LineCol)
  | 0, _, _ => PM.throw .fuel
  | n + 1, pos, kw => do
    let p ← peekT
    let noEnd := kw.show T ++ " without END ".toList ++ kw.show T
    match p.tok with
    | .eof => do
      expectAt kw pos noEnd
      pure (.nil, p.pos)
    | .eol => do
      consumeT
      bodyLoop T F n pos kw
    | .function | .sub => PM.bad p.pos "Cannot nest FUNCTION or SUB definitions".toList
    | .end => do
      consumeT
      match ← maybeParseEnd T p.pos with
      | .inl s => do
        let (body, e) ← bodyLoop T F n pos kw
        pure (.cons s body, e)
      | .inr t =>
        if t = kw then do
          expectAt kw pos noEnd
          pure (.nil, p.pos)
        else endWithout T p.pos t
    | _ =>
      match ← parseOneSafe T F n with
      | some s => do
        let (body, e) ← bodyLoop T F n pos kw
        pure (.cons s body, e)
      | none => PM.bad pos noEnd

/-- `parse_function` and `parse_sub` (core/src/parser.rs 1518-1530). -/
def parseCallable (T : TextOps) (F : FloatOps) : Nat → LineCol → Bool → PM Stmt
  | 0, _, _ => PM.throw .fuel
  | n + 1, pos, isFunction => do
    let (name, namePos, params) ← parseSignature T false isFunction
    let (body, e) ← bodyLoop T F n pos (if isFunction then .function else .sub)
    pure (.callable name namePos params body e)

/-- The loop of `parse_select` (core/src/parser.rs 1690-1781): what remains of the current case, the
cases after it and the position of the end.  `isFirst` is `cases.is_empty()`. -/
def selectLoop (T : TextOps) (F : FloatOps) :
    Nat → LineCol → Bool → Bool → PM (Stmts × Cases × LineCol)
  | 0, _, _, _ => PM.throw .fuel
  | n + 1, pos, isFirst, last => do
    let p ← peekT
    let noEnd := "SELECT without END SELECT".toList
    let noCase := "Expected CASE after SELECT CASE before any statement".toList
    match p.tok with
    | .eof => do
      expectAt .select pos noEnd
      pure (.nil, .nil, p.pos)
    | .eol => do
      consumeT
      selectLoop T F n pos isFirst last
    | .case => do
      consumeT
      let guards ← parseCaseGuards T
      let _ ← expectT .eol "Expecting newline after CASE"
      let isLast := guards.isEmpty
      if last then
        if isLast then PM.bad p.pos "CASE ELSE must be unique".toList
        else PM.bad p.pos "CASE ELSE is not last".toList
      else do
        let (body, rest, e) ← selectLoop T F n pos false isLast
        pure (.nil, .cons guards body rest, e)
    | .end => do
      consumeT
      match ← maybeParseEnd T p.pos with
      | .inl s =>
        if isFirst then PM.bad p.pos noCase
        else do
          let (body, rest, e) ← selectLoop T F n pos isFirst last
          pure (.cons s body, rest, e)
      | .inr .select => do
        expectAt .select pos noEnd
        pure (.nil, .nil, p.pos)
      | .inr t => if isFirst then PM.bad p.pos noCase else endWithout T p.pos t
    | _ =>
      if isFirst then PM.bad p.pos noCase
      else
        match ← parseOneSafe T F n with
        | some s => do
          let (body, rest, e) ← selectLoop T F n pos isFirst last
          pure (.cons s body, rest, e)
        | none => selectLoop T F n pos isFirst last

/-- `parse_select` (core/src/parser.rs 1683-1784). -/
def parseSelect (T : TextOps) (F : FloatOps) : Nat → LineCol → PM Stmt
  | 0, _ => PM.throw .fuel
  | n + 1, pos => do
    let _ ← expectT .case "Expecting CASE after SELECT"
    let e ← parseRequired T "No expression in SELECT CASE statement"
    let _ ← expectT .eol "Expecting newline after SELECT CASE"
    let (_, cases, endPos) ← selectLoop T F n pos true false
    pure (.select e cases endPos)

/-- `parse_while` (core/src/parser.rs 1808-1817). -/
def parseWhile (T : TextOps) (F : FloatOps) : Nat → LineCol → PM Stmt
  | 0, _ => PM.throw .fuel
  | n + 1, pos => do
    let e ← parseRequired T "No expression in WHILE statement"
    let _ ← expectT .eol "Expecting newline after WHILE"
    let body ← parseUntil T F n .wend
    expectAt .wend pos "WHILE without WEND".toList
    pure (.whileLoop e body)

/-- The statements of `parse_one` that must be followed by the end of the line
(core/src/parser.rs 1884-1973). -/
def parseBody (T : TextOps) (F : FloatOps) : Nat → TokSpan → PM Stmt
  | 0, _ => PM.throw .fuel
  | n + 1, t =>
    match t.tok with
    | .data => parseData T F
    | .declare => parseDeclare T
    | .dim => parseDim T
    | .do => orReset (parseDo T F n t.pos) resetDo
    | .end => parseEnd T t.pos
    | .exit => parseExit t.pos
    | .if => orReset (parseIf T F n t.pos) (resetEnd .if t.pos "IF without END IF")
    | .for => orReset (parseFor T F n t.pos) (resetKw .next)
    | .function => orReset (parseCallable T F n t.pos true) (resetCallable .function)
    | .gosub => parseGosub
    | .goto => parseGoto
    | .on => parseOn t.pos
    | .return => pure (.ret t.pos)
    | .select => orReset (parseSelect T F n t.pos) (resetEnd .select t.pos "SELECT without END SELECT")
    | .sub => orReset (parseCallable T F n t.pos false) (resetCallable .sub)
    | .symbol v => parseSymbolStmt T v t.pos
    | .while => orReset (parseWhile T F n t.pos) (resetKw .wend)
    | .bad msg => PM.bad t.pos msg
    | tok => PM.bad t.pos ("Unexpected ".toList ++ tok.show T ++ " in statement".toList)

/-- `parse_one` (core/src/parser.rs 1869-1990). -/
def parseOne (T : TextOps) (F : FloatOps) : Nat → PM (Option Stmt)
  | 0 => PM.throw .fuel
  | n + 1 => do
    let p ← peekT
    match p.tok with
    | .eol => do
      consumeT
      parseOne T F n
    | .eof => pure none
    | tok => do
      consumeT
      match tok.labelName with
      | some l => pure (some (.label l p.pos))
      | none => do
        let s ← parseBody T F n p
        endOfStmt T
        pure (some s)

/-- `parse_one_safe` (core/src/parser.rs 2009-2018). -/
def parseOneSafe (T : TextOps) (F : FloatOps) : Nat → PM (Option Stmt)
  | 0 => PM.throw .fuel
  | n + 1 => orReset (parseOne T F n) resetStmt
end

/-- A number of calls that is enough for any statement of the stream. -/
def TokStream.stmtFuel (s : TokStream) : Nat := 8 * s.toks.length + 8

/-- The conversion of parser errors (core/src/compiler/mod.rs 201-208). -/
def PErr.toCErr : PErr → CErr
  | .bad pos msg => .parse pos msg
  | .io pos => .io pos
  | .panic => .panic
  | .fuel => .panic

/-- `StatementIter` (core/src/parser.rs 2021-2033) run to the first error or the end. -/
def parseAll (T : TextOps) (F : FloatOps) : Nat → TokStream → List Stmt × Option PErr
  | 0, _ => ([], some .fuel)
  | n + 1, s =>
    match parseOneSafe T F s.stmtFuel s with
    | (.ok (some st), s') => match parseAll T F n s' with | (rest, e) => (st :: rest, e)
    | (.ok none, _) => ([], none)
    | (.error e, _) => ([], some e)

/-- `parser::parse` (core/src/parser.rs 2035-2038) as consumed by the compiler. -/
def parseStream (T : TextOps) (F : FloatOps) (s : TokStream) : Source :=
  match parseAll T F (s.toks.length + 1) s with
  | (stmts, e) => ⟨Stmts.ofList stmts, e.map PErr.toCErr⟩

/-- The statements of a text, as the compiler gets them. -/
def parseText (T : TextOps) (F : FloatOps) (s : Str) : Source := parseStream T F (lexText T false s)

end EB
