import Verif.Model.Codegen
/-!
# Compilation of expressions and arguments

Models core/src/compiler/{exprs,args}.rs.
-/

namespace EB

/-- The name of an operator in error messages (`op_name`, core/src/compiler/exprs.rs 123-392). -/
def SrcBin.name : SrcBin → String
  | .add => "+" | .sub => "-" | .mul => "*" | .div => "/" | .mod => "MOD" | .pow => "^"
  | .eq => "=" | .ne => "<>" | .lt => "<" | .le => "<=" | .gt => ">" | .ge => ">="
  | .and => "AND" | .or => "OR" | .xor => "XOR" | .shl => "<<" | .shr => ">>"

/-- Whether the operator is pushed as `PendingOp::Relational` (core/src/compiler/exprs.rs 123-392). -/
def SrcBin.isRel : SrcBin → Bool
  | .eq | .ne | .lt | .le | .gt | .ge => true
  | _ => false

/-- `make_boolean` of the pending operators (core/src/compiler/exprs.rs 123-392). -/
def SrcBin.boolOp : SrcBin → Option BinOp
  | .and => some .bitAnd
  | .or => some .bitOr
  | .xor => some .bitXor
  | .eq => some .eqB
  | .ne => some .neB
  | _ => none

/-- `make_double` of the pending operators (core/src/compiler/exprs.rs 123-392). -/
def SrcBin.doubleOp : SrcBin → Option BinOp
  | .add => some .addD | .sub => some .subD | .mul => some .mulD | .div => some .divD
  | .mod => some .modD | .pow => some .powD
  | .eq => some .eqD | .ne => some .neD | .lt => some .ltD | .le => some .leD | .gt => some .gtD
  | .ge => some .geD
  | .and | .or | .xor | .shl | .shr => none

/-- `make_integer` of the pending operators (core/src/compiler/exprs.rs 123-392). -/
def SrcBin.intOp : SrcBin → BinOp
  | .add => .addI | .sub => .subI | .mul => .mulI | .div => .divI | .mod => .modI | .pow => .powI
  | .eq => .eqI | .ne => .neI | .lt => .ltI | .le => .leI | .gt => .gtI | .ge => .geI
  | .and => .bitAnd | .or => .bitOr | .xor => .bitXor | .shl => .shl | .shr => .shr

/-- `make_text` of the pending operators (core/src/compiler/exprs.rs 123-392). -/
def SrcBin.textOp : SrcBin → Option BinOp
  | .add => some .concat
  | .eq => some .eqS | .ne => some .neS | .lt => some .ltS | .le => some .leS | .gt => some .gtS
  | .ge => some .geS
  | _ => none

/-- `cast_numerical_type` (core/src/compiler/exprs.rs 397-416). -/
def castNumerical (reg : Reg) (src dst : ExprType) (pos : LineCol) : CG Bool :=
  match src, dst with
  | .double, .integer => do let _ ← emit (.un .dtoi reg) pos; pure true
  | .integer, .double => do let _ ← emit (.un .itod reg) pos; pure true
  | .double, .double => pure true
  | .integer, .integer => pure true
  | _, _ => pure false

/-- `resolve_numeric_binary_type` (core/src/compiler/exprs.rs 419-446). -/
def resolveNumeric (reg : Reg) (etype : ExprType) (rtemp : Reg) (rtype : ExprType)
    (rpos opPos : LineCol) : CG (Option ExprType) :=
  match etype, rtype with
  | .double, .double => pure (some .double)
  | .integer, .integer => pure (some .integer)
  | .double, .integer => do
    let _ ← castNumerical rtemp .integer .double rpos
    pure (some .double)
  | .integer, .double => do
    let _ ← castNumerical reg .integer .double opPos
    pure (some .double)
  | _, _ => pure none

/-- The part of `compile_pending_ops` for a binary operator once its right operand is in `rtemp`
(core/src/compiler/exprs.rs 493-560).  The result type of relational operators is boolean. -/
def applyBin (op : SrcBin) (reg : Reg) (etype : ExprType) (rtemp : Reg) (rtype : ExprType)
    (rpos pos : LineCol) : CG ExprType :=
  let fin (o : BinOp) (t : ExprType) : CG ExprType := do
    let _ ← emit (.bin o reg reg rtemp) pos
    pure (if op.isRel then .boolean else t)
  let numeric : CG ExprType :=
    match op.doubleOp with
    | some dop => do
      match ← resolveNumeric reg etype rtemp rtype rpos pos with
      | some .double => fin dop .double
      | some .integer => fin op.intOp .integer
      | _ => CM.throw (.binaryOpType pos op.name etype rtype)
    | none =>
      match etype, rtype with
      | .integer, .integer => fin op.intOp .integer
      | _, _ => CM.throw (.binaryOpType pos op.name etype rtype)
  match etype, rtype with
  | .boolean, .boolean =>
    match op.boolOp with
    | some o => fin o .boolean
    | none => numeric
  | .text, .text =>
    match op.textOp with
    | some o => fin o .text
    | none => numeric
  | _, _ => numeric

/-- The part of `compile_pending_ops` for a unary operator (core/src/compiler/exprs.rs 461-491). -/
def applyUn (sy : Syms) (nt : Nat) (op : SrcUn) (reg : Reg) (etype : ExprType) (pos : LineCol) :
    CG ExprType :=
  match op, etype with
  | .neg, .double => do let _ ← emit (.un .negD reg) pos; pure .double
  | .neg, .integer => do let _ ← emit (.un .negI reg) pos; pure .integer
  | .neg, t => CM.throw (.notANumber pos t)
  | .not, .boolean => do
    let temp ← CM.lift (allocTemp sy nt pos)
    emitValue temp (.integer 1#32) pos
    let _ ← emit (.bin .bitXor reg reg temp) pos
    pure .boolean
  | .not, .integer => do let _ ← emit (.un .bitNot reg) pos; pure .integer
  | .not, t => CM.throw (.typeMismatch pos t .integer)

/-- The end of `compile_expr_as_type` (core/src/compiler/exprs.rs 758-767). -/
def castTo (reg : Reg) (etype target : ExprType) (epos : LineCol) : CG Unit := do
  if etype = target then pure ()
  else
    let ok ← castNumerical reg etype target epos
    if ok then pure ()
    else if target = .integer ∨ target = .double then CM.throw (.notANumber epos etype)
    else CM.throw (.typeMismatch epos etype target)

/-- `validate_syn_argsep` (core/src/compiler/args.rs 44-94).  Its debug assertions, which only say
that the parser ends every argument list with `End`, are left out. -/
def validateSep (md : Md) (syn : SepSyn) (endOk : Bool) (sep : ArgSep) (pos : LineCol) :
    Except CErr Unit :=
  match syn with
  | .exactly exp =>
    if sep = exp ∨ (sep = .end ∧ endOk) then .ok () else .error (.callableSyntax pos md.name)
  | .oneOf seps =>
    if sep = .end then
      if endOk then .ok () else .error (.callableSyntax pos md.name)
    else if sep ∈ seps then .ok () else .error (.callableSyntax pos md.name)
  | .end => .ok ()

/-- What stays fixed while compiling the arguments of one call. -/
structure ArgEnv where
  sy : Syms
  md : Md
  keyPos : LineCol
  nsing : Nat
  ninput : Nat
  rep : Option RepSyn

/-- `end_ok` for the singular argument followed by `rest` (core/src/compiler/args.rs 228-230). -/
def ArgEnv.endOk (A : ArgEnv) (rest : List SingSyn) : Bool :=
  rest.isEmpty && A.ninput == A.nsing &&
    (match A.rep with | some r => !r.requireOne | none => false)

/-- `use_plain_values` (core/src/compiler/args.rs 393-395). -/
def RepSyn.plain (r : RepSyn) : Bool :=
  (match r.typeSyn with | .typed _ => true | _ => false) && !r.allowMissing &&
    (match r.sep with | .exactly _ => true | _ => false)

/-- Emits a tag (the `make_load_integer(temp_tag, tag.make_u16())` of
core/src/compiler/args.rs 317, 350, 423, 482). -/
def emitTag (reg : Reg) (tag : VarArgTag) (pos : LineCol) : CG Unit := do
  let _ ← emit (.loadInt reg tag.make) pos

/-- The end of `compile_args` once no arguments are left (core/src/compiler/args.rs 296-352,
383-424): remaining singular arguments are missing, and a tagged list without elements (`noneYet`)
gets an end tag. -/
def compileNoArgs (A : ArgEnv) (noneYet : Bool) : List SingSyn → Nat → List LineCol →
    CG (Nat × List LineCol)
  | [], nt, lcs =>
    match A.rep with
    | none => pure (nt, lcs)
    | some r =>
      if r.plain || !noneYet then pure (nt, lcs)
      else do
        let tag ← CM.lift (allocTemp A.sy nt A.keyPos)
        emitTag tag (.missing .end) A.keyPos
        pure (nt + 1, lcs ++ [A.keyPos])
  | .reqValue .. :: _, _, _ => CM.throw .panic
  | .reqRef .. :: _, _, _ => CM.throw .panic
  | .optValue _ _ sep :: syns, nt, lcs => do
    let tag ← CM.lift (allocTemp A.sy nt A.keyPos)
    CM.lift (validateSep A.md sep (A.endOk syns) .end A.keyPos)
    emitTag tag (.missing .end) A.keyPos
    compileNoArgs A noneYet syns (nt + 1) (lcs ++ [A.keyPos])
  | .anyValue _ allowMissing sep :: syns, nt, lcs => do
    if !allowMissing then CM.throw (.callableSyntax A.keyPos A.md.name)
    else
      let tag ← CM.lift (allocTemp A.sy nt A.keyPos)
      CM.lift (validateSep A.md sep (A.endOk syns) .end A.keyPos)
      emitTag tag (.missing .end) A.keyPos
      compileNoArgs A noneYet syns (nt + 1) (lcs ++ [A.keyPos])

/-- The variable that a `RequiredRef` argument names (core/src/compiler/args.rs 268-291). -/
def refVar (A : ArgEnv) (requireArray defineUndefined : Bool) (v : VarRef) (pos : LineCol) :
    Except CErr (Reg × ExprType) :=
  match A.sy.getVar v with
  | .ok (reg, .array subtype _) =>
    if requireArray then .ok (reg, subtype) else .error (.callableSyntax pos A.md.name)
  | .ok (reg, .scalar vtype) =>
    if !requireArray then .ok (reg, vtype) else .error (.callableSyntax pos A.md.name)
  | .error (.undefinedSymbol _) =>
    if !defineUndefined then .error (.undefinedSymbol pos v)
    else match A.sy.getCallable (symKey v.name) with
      | some _ => .error (.notAFunction pos v)
      | none => .error .panic
  | .error e => .error (e.at pos)

/-- The variable that a repeated `VariableRef` argument names (core/src/compiler/args.rs 459-476). -/
def repVar (A : ArgEnv) (v : VarRef) (pos argPos : LineCol) : Except CErr (Reg × ExprType) :=
  match A.sy.getVar v with
  | .ok (reg, .scalar vtype) => .ok (reg, vtype)
  | .ok (_, .array ..) => .error (.callableSyntax argPos A.md.name)
  | .error (.undefinedSymbol _) =>
    match A.sy.getCallable (symKey v.name) with
    | some _ => .error (.notAFunction pos v)
    | none => .error .panic
  | .error e => .error (e.at pos)

/-- The checks on the callee of a call expression (core/src/compiler/exprs.rs 608-633). -/
def checkCallee (md : Md) (v : VarRef) (pos : LineCol) : Except CErr ExprType :=
  match md.returnType with
  | none => .error (.notAFunction pos v)
  | some t => if !v.acceptsCallable (some t) then .error (.incompatibleAnnotation pos v) else .ok t

/-- Emits the call instruction itself with `ret` as the first register of the call
(core/src/compiler/exprs.rs 641-654, 705-725 and core/src/compiler/top.rs 824-839). -/
def emitCall (md : Md) (key : Str) (ret : Option ExprType) (first : Reg) (lcs : List LineCol)
    (pos : LineCol) : CG Unit :=
  if md.userDefined then do
    let addr ← emit .nop pos
    CM.modify fun g => (g.setArgs addr lcs).addFixup addr (.call first key)
  else do
    let idx ← getUpcall key ret pos
    let addr ← emit (if md.isAsync then .upcallAsync idx first else .upcall idx first) pos
    CM.modify fun g => g.setArgs addr lcs

/-- A symbol that is not a variable: a function without arguments
(core/src/compiler/exprs.rs 686-729). -/
def compileArgless (sy : Syms) (nt : Nat) (reg : Reg) (v : VarRef) (pos : LineCol) : CG ExprType :=
  match sy.getCallable (symKey v.name) with
  | none => CM.throw (.undefinedSymbol pos v)
  | some md => do
    let etype ← CM.lift (checkCallee md v pos)
    if !md.isArgless then CM.throw (.callableSyntax pos md.name)
    else if md.userDefined then
      emitCall md (symKey v.name) (some etype) reg [] pos
      pure etype
    else if (regToParts reg).1 then
      let idx ← getUpcall (symKey v.name) (some etype) pos
      let temp ← CM.lift (allocTemp sy nt pos)
      let _ ← emit (if md.isAsync then .upcallAsync idx temp else .upcall idx temp) pos
      let _ ← emit (.move reg temp) pos
      pure etype
    else
      emitCall md (symKey v.name) (some etype) reg [] pos
      pure etype

mutual
/-- `compile_expr` with `compile_pending_ops` (core/src/compiler/exprs.rs 452-746): leaves the value
of the expression in `reg`; temporaries from number `nt` on are free.  The explicit stack of pending
operators that the code uses along left operands is the recursion on the left operand here. -/
def compileExpr (sy : Syms) (e : Expr) (nt : Nat) (reg : Reg) : CG ExprType :=
  match e with
  | .bool b pos => do emitValue reg (.boolean b) pos; pure .boolean
  | .dbl b pos => do emitValue reg (.double b) pos; pure .double
  | .int i pos => do emitValue reg (.integer i) pos; pure .integer
  | .text s pos => do emitValue reg (.text s) pos; pure .text
  | .sym v pos =>
    match sy.getVar v with
    | .ok (src, .scalar t) => do
      let _ ← emit (.move reg src) pos
      pure t
    | .ok (_, .array ..) => CM.throw (.arrayUsedAsScalar pos v)
    | .error (.undefinedSymbol _) => compileArgless sy nt reg v pos
    | .error e => CM.throw (e.at pos)
  | .un op e pos => do
    let t ← compileExpr sy e nt reg
    applyUn sy nt op reg t pos
  | .bin op l r pos => do
    let lt ← compileExpr sy l nt reg
    let rtemp ← CM.lift (allocTemp sy nt r.startPos)
    let rt ← compileExpr sy r (nt + 1) rtemp
    applyBin op reg lt rtemp rt r.startPos pos
  | .call v pos args =>
    match sy.getCallable (symKey v.name) with
    | some md => do
      let etype ← CM.lift (checkCallee md v pos)
      if md.isArgless then CM.throw (.callableSyntax pos md.name)
      else
        let ret ← CM.lift (allocTemp sy nt pos)
        match md.findSyntax args.length with
        | none => CM.throw (.callableSyntax pos md.name)
        | some syn =>
          let (_, lcs) ← compileArgsFrom
            ⟨sy, md, pos, syn.singular.length, args.length, syn.repeated⟩ args true syn.singular (nt + 1) []
          let _ ← CM.lift (firstTemp sy (nt + 1) pos)
          emitCall md (symKey v.name) (some etype) ret lcs pos
          if reg ≠ ret then
            let _ ← emit (.move reg ret) pos
            pure etype
          else pure etype
    | none =>
      match sy.getVar v with
      | .ok (arr, .array subtype ndims) => do
        if args.length ≠ ndims then CM.throw (.wrongSubscripts pos ndims args.length)
        else
          compileSubs sy args nt pos
          let first ← CM.lift (firstTemp sy nt pos)
          let _ ← emit (.loadArray reg arr first) pos
          pure subtype
      | .ok (_, .scalar _) => CM.throw (.notAFunction pos v)
      | .error (.undefinedSymbol _) => CM.throw (.undefinedSymbol pos v)
      | .error e => CM.throw (e.at pos)

/-- `compile_integer_exprs` (core/src/compiler/exprs.rs 30-46): compiles each subscript into its own
temporary, from number `nt` on.  The register of the first one is `firstTemp`. -/
def compileSubs (sy : Syms) (args : Args) (nt : Nat) (pos : LineCol) : CG Unit :=
  match args with
  | .nil => pure ()
  | .skip .. => CM.throw .panic
  | .cons e _ _ rest => do
    let reg ← CM.lift (allocTemp sy nt pos)
    let t ← compileExpr sy e (nt + 1) reg
    castTo reg t .integer e.startPos
    compileSubs sy rest (nt + 1) pos

/-- The loops of `compile_args` (core/src/compiler/args.rs 227-488): `syns` are the singular
arguments still expected; `noneYet` holds until the first repeated argument.  Returns the next free
temporary and the positions of the registers used. -/
def compileArgsFrom (A : ArgEnv) (args : Args) (noneYet : Bool) (syns : List SingSyn) (nt : Nat)
    (lcs : List LineCol) : CG (Nat × List LineCol) :=
  match args with
  | .nil => compileNoArgs A noneYet syns nt lcs
  | .cons e sep sepPos rest =>
    let argPos := e.startPos
    match syns with
    | .reqValue _ vtype exp :: syns' => do
      let reg ← CM.lift (allocTemp A.sy nt argPos)
      let t ← compileExpr A.sy e (nt + 1) reg
      castTo reg t vtype argPos
      CM.lift (validateSep A.md exp (A.endOk syns') sep sepPos)
      compileArgsFrom A rest noneYet syns' (nt + 1) (lcs ++ [argPos])
    | .reqRef _ requireArray defineUndefined exp :: syns' =>
      match e with
      | .sym v pos => do
        let (src, vtype) ← CM.lift (refVar A requireArray defineUndefined v pos)
        let reg ← CM.lift (allocTemp A.sy nt argPos)
        let _ ← emit (.loadRegPtr reg vtype src) argPos
        CM.lift (validateSep A.md exp (A.endOk syns') sep sepPos)
        compileArgsFrom A rest noneYet syns' (nt + 1) (lcs ++ [argPos])
      | _ => CM.throw (.callableSyntax argPos A.md.name)
    | .optValue _ vtype exp :: syns' => do
      let tag ← CM.lift (allocTemp A.sy nt argPos)
      let reg ← CM.lift (allocTemp A.sy (nt + 1) argPos)
      let t ← compileExpr A.sy e (nt + 2) reg
      castTo reg t vtype argPos
      CM.lift (validateSep A.md exp (A.endOk syns') sep sepPos)
      emitTag tag (.immediate sep vtype) argPos
      compileArgsFrom A rest noneYet syns' (nt + 2) (lcs ++ [argPos, argPos])
    | .anyValue _ _ exp :: syns' => do
      let tag ← CM.lift (allocTemp A.sy nt argPos)
      let reg ← CM.lift (allocTemp A.sy (nt + 1) argPos)
      let t ← compileExpr A.sy e (nt + 2) reg
      CM.lift (validateSep A.md exp (A.endOk syns') sep sepPos)
      emitTag tag (.immediate sep t) argPos
      compileArgsFrom A rest noneYet syns' (nt + 2) (lcs ++ [argPos, argPos])
    | [] =>
      match A.rep with
      | none => CM.throw (.callableSyntax A.keyPos A.md.name)
      | some r =>
        if r.plain then
          match r.typeSyn with
          | .typed vtype => do
            CM.lift (validateSep A.md r.sep true sep sepPos)
            let reg ← CM.lift (allocTemp A.sy nt argPos)
            let t ← compileExpr A.sy e (nt + 1) reg
            castTo reg t vtype argPos
            compileArgsFrom A rest false [] (nt + 1) (lcs ++ [argPos])
          | _ => CM.throw .panic
        else do
          let tag ← CM.lift (allocTemp A.sy nt argPos)
          CM.lift (validateSep A.md r.sep true sep sepPos)
          match r.typeSyn with
          | .anyValue =>
            let reg ← CM.lift (allocTemp A.sy (nt + 1) argPos)
            let t ← compileExpr A.sy e (nt + 2) reg
            emitTag tag (.immediate sep t) argPos
            compileArgsFrom A rest false [] (nt + 2) (lcs ++ [argPos, argPos])
          | .typed vtype =>
            let reg ← CM.lift (allocTemp A.sy (nt + 1) argPos)
            let t ← compileExpr A.sy e (nt + 2) reg
            castTo reg t vtype argPos
            emitTag tag (.immediate sep vtype) argPos
            compileArgsFrom A rest false [] (nt + 2) (lcs ++ [argPos, argPos])
          | .varRef =>
            match e with
            | .sym v pos =>
              let (src, vtype) ← CM.lift (repVar A v pos argPos)
              let reg ← CM.lift (allocTemp A.sy (nt + 1) argPos)
              let _ ← emit (.loadRegPtr reg vtype src) argPos
              emitTag tag (.pointer sep) argPos
              compileArgsFrom A rest false [] (nt + 2) (lcs ++ [argPos, argPos])
            | _ => CM.throw (.callableSyntax argPos A.md.name)
  | .skip sep sepPos rest =>
    match syns with
    | .reqValue .. :: _ => CM.throw (.callableSyntax A.keyPos A.md.name)
    | .reqRef .. :: _ => CM.throw (.callableSyntax A.keyPos A.md.name)
    | .optValue _ _ exp :: syns' => do
      let tag ← CM.lift (allocTemp A.sy nt sepPos)
      CM.lift (validateSep A.md exp (A.endOk syns') sep sepPos)
      emitTag tag (.missing sep) sepPos
      compileArgsFrom A rest noneYet syns' (nt + 1) (lcs ++ [sepPos])
    | .anyValue _ _ exp :: syns' => do
      let tag ← CM.lift (allocTemp A.sy nt sepPos)
      CM.lift (validateSep A.md exp (A.endOk syns') sep sepPos)
      emitTag tag (.missing sep) sepPos
      compileArgsFrom A rest noneYet syns' (nt + 1) (lcs ++ [sepPos])
    | [] =>
      match A.rep with
      | none => CM.throw (.callableSyntax A.keyPos A.md.name)
      | some r =>
        if r.plain then do
          CM.lift (validateSep A.md r.sep true sep sepPos)
          CM.throw (.callableSyntax sepPos A.md.name)
        else do
          let tag ← CM.lift (allocTemp A.sy nt sepPos)
          CM.lift (validateSep A.md r.sep true sep sepPos)
          if !r.allowMissing then CM.throw (.callableSyntax sepPos A.md.name)
          else
            emitTag tag (.missing sep) sepPos
            compileArgsFrom A rest false [] (nt + 1) (lcs ++ [sepPos])
end

/-- `compile_expr_as_type` (core/src/compiler/exprs.rs 750-768). -/
def compileExprAs (sy : Syms) (e : Expr) (nt : Nat) (reg : Reg) (target : ExprType) : CG Unit := do
  let t ← compileExpr sy e nt reg
  castTo reg t target e.startPos

/-- `compile_args` (core/src/compiler/args.rs 205-496) with temporaries from number `nt` on: the first
register and the positions of all registers. -/
def compileArgs (sy : Syms) (md : Md) (pos : LineCol) (args : Args) (nt : Nat) :
    CG (Reg × List LineCol) :=
  match md.findSyntax args.length with
  | none => CM.throw (.callableSyntax pos md.name)
  | some syn => do
    let (_, lcs) ← compileArgsFrom ⟨sy, md, pos, syn.singular.length, args.length, syn.repeated⟩
      args true syn.singular nt []
    let first ← CM.lift (firstTemp sy nt pos)
    pure (first, lcs)

end EB
