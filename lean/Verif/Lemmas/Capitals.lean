import Verif.Spec.Capitals
/-!
# The compiler and the case of names: expressions

Compiling the program in capitals does the same as compiling the program, with the names in the tables of the compiler in capitals.
-/

namespace EB.Caps
open Spec

/-! ## Tables in capitals -/

/-- One argument of a syntax. -/
def sing (b : Bool) : SingSyn → SingSyn
  | .reqValue n t s => .reqValue (if b then capName n else n) t s
  | s => s

/-- A syntax. -/
def syn (b : Bool) (s : Syntax) : Syntax := ⟨s.singular.map (sing b), s.repeated⟩

/-- The description of a callable. -/
def md (b : Bool) (m : Md) : Md := { m with syntaxes := m.syntaxes.map (syn b) }

/-- A table of callables. -/
def table (b : Bool) (t : FMap Str Md) : FMap Str Md := t.map fun e => (e.1, md b e.2)

/-- The symbol table. -/
def syms (b : Bool) (s : Syms) : Syms := { s with upcalls := table b s.upcalls, user := table b s.user }

/-- A jump that is to be filled in. -/
def fix : Fixup → Fixup
  | .call r k => .call r k
  | .gosub l => .gosub (capName l)
  | .goto l => .goto (capName l)
  | .onErrorGoto l => .onErrorGoto (capName l)

/-- The state of the code generator. -/
def code (g : Codegen) : Codegen := { g with fixups := g.fixups.map fun e => (e.1, fix e.2) }

/-- The state of the compiler. -/
def ctx (b : Bool) (c : Ctx) : Ctx := { c with cg := code c.cg, sy := syms b c.sy }

/-! ## Doing the same -/

/-- A result in capitals. -/
def res {σ α : Type} (up : σ → σ) : Except CErr (α × σ) → Except CErr (α × σ)
  | .ok (a, s) => .ok (a, up s)
  | .error e => .error (capErr e)

/-- A plain result in capitals. -/
def plain {α : Type} : Except CErr α → Except CErr α
  | .ok a => .ok a
  | .error e => .error (capErr e)

/-- The second function does in capitals what the first one does; if `b` says so then it may go on where the first one
says that something is defined already. -/
structure Same {σ α : Type} (b : Bool) (up : σ → σ) (x x' : CM σ α) : Prop where
  run : ∀ s, x' (up s) = res up (x s) ∨ (b = true ∧ ∃ p v, x s = .error (.alreadyDefined p v))

section
variable {σ α β : Type} {b : Bool} {up : σ → σ}

theorem Same.pure (a : α) : Same b up (Pure.pure a : CM σ α) (Pure.pure a) := ⟨fun _ => .inl rfl⟩

theorem Same.throw {e e' : CErr} (h : capErr e = e') : Same b up (CM.throw e : CM σ α) (CM.throw e') := by
  subst h; exact ⟨fun _ => .inl rfl⟩

theorem Same.bind {x x' : CM σ α} {f f' : α → CM σ β} (hx : Same b up x x') (hf : ∀ a, Same b up (f a) (f' a)) :
    Same b up (x >>= f) (x' >>= f') := by
  refine ⟨fun s => ?_⟩
  show CM.bind x' f' (up s) = res up (CM.bind x f s) ∨ _ ∧ ∃ p v, CM.bind x f s = _
  unfold CM.bind
  rcases hx.run s with h | ⟨hb, p, v, h⟩
  · rw [h]
    cases hxs : x s with
    | error e => exact .inl rfl
    | ok r => obtain ⟨a, s'⟩ := r; exact (hf a).run s'
  · rw [h]; exact .inr ⟨hb, p, v, rfl⟩

theorem Same.lift {y y' : Except CErr α} (h : y' = plain y) : Same b up (CM.lift y : CM σ α) (CM.lift y') := by
  subst h
  refine ⟨fun s => .inl ?_⟩
  cases y <;> rfl

theorem Same.modify {f f' : σ → σ} (h : ∀ s, f' (up s) = up (f s)) : Same b up (CM.modify f) (CM.modify f') := by
  refine ⟨fun s => .inl ?_⟩
  simp only [CM.modify, h, res]

theorem Same.ite {p p' : Prop} [Decidable p] [Decidable p'] {x x' y y' : CM σ α} (hp : p ↔ p') (hx : Same b up x x') (hy : Same b up y y') :
    Same b up (if p then x else y) (if p' then x' else y') := by
  by_cases h : p
  · rw [if_pos h, if_pos (hp.1 h)]; exact hx
  · rw [if_neg h, if_neg (fun h' => h (hp.2 h'))]; exact hy

end

/-! ## Names and tables -/

theorem upper_upper (c : Char) : asciiUpper (asciiUpper c) = asciiUpper c := by
  by_cases h : 'a' ≤ c ∧ c ≤ 'z'
  · have key : ∀ n < 26, asciiUpper (asciiUpper (Char.ofNat (97 + n))) = asciiUpper (Char.ofNat (97 + n)) := by decide
    have h3 : 97 ≤ c.toNat ∧ c.toNat ≤ 122 := h
    have e : c = Char.ofNat (97 + (c.toNat - 97)) := by
      rw [show 97 + (c.toNat - 97) = c.toNat by omega, Char.ofNat_toNat]
    rw [e]
    exact key _ (by omega)
  · have e : asciiUpper c = c := if_neg h
    rw [e, e]

@[simp] theorem key_cap (s : Str) : symKey (capName s) = symKey s := by
  simp [symKey, capName, Function.comp_def, upper_upper]

@[simp] theorem cap_name (v : VarRef) : (capVar v).name = capName v.name := rfl
@[simp] theorem cap_ty (v : VarRef) : (capVar v).ty = v.ty := rfl
@[simp] theorem cap_accepts (v : VarRef) (t : ExprType) : (capVar v).accepts t = v.accepts t := rfl
@[simp] theorem cap_acceptsCallable (v : VarRef) (t : Option ExprType) : (capVar v).acceptsCallable t = v.acceptsCallable t := rfl

@[simp] theorem start_cap : ∀ e : Expr, (capExpr e).startPos = e.startPos
  | .bool .. | .dbl .. | .int .. | .text .. | .sym .. | .un .. | .call .. => rfl
  | .bin _ l _ _ => start_cap l

@[simp] theorem length_cap : ∀ a : Args, (capArgs a).length = a.length
  | .nil => rfl
  | .cons _ _ _ r => by simp [capArgs, Args.length, length_cap r]
  | .skip _ _ r => by simp [capArgs, Args.length, length_cap r]

theorem get_table (b : Bool) (t : FMap Str Md) (k : Str) : FMap.get? (table b t) k = (FMap.get? t k).map (md b) := by
  unfold table
  induction t with
  | nil => rfl
  | cons e t ih =>
    simp only [List.map_cons, FMap.get?, List.find?_cons] at ih ⊢
    by_cases h : e.1 = k
    · simp [h]
    · simpa [h] using ih

theorem insert_table (b : Bool) (t : FMap Str Md) (k : Str) (m : Md) : FMap.insert (table b t) k (md b m) = table b (FMap.insert t k m) := by
  simp only [FMap.insert, FMap.erase, table, List.map_cons, List.filter_map]
  rfl

theorem getCallable_cap (b : Bool) (s : Syms) (k : Str) : (syms b s).getCallable k = (s.getCallable k).map (md b) := by
  simp only [Syms.getCallable, syms, get_table]
  cases FMap.get? s.user k <;> simp

/-- An error of the symbol table in capitals. -/
def symErr : SymErr → SymErr
  | .alreadyDefined v => .alreadyDefined (capVar v)
  | .incompatibleAnnotation v => .incompatibleAnnotation (capVar v)
  | .undefinedSymbol v => .undefinedSymbol (capVar v)
  | e => e

@[simp] theorem cap_at (e : SymErr) (p : LineCol) : capErr (e.at p) = (symErr e).at p := by cases e <;> rfl

theorem getVar_one (v : VarRef) (t : IdMap Str Proto) (mk : Nat → Option Reg) (sc : RegScope) :
    EB.getVar (capVar v) t mk sc = (match EB.getVar v t mk sc with | .ok r => .ok r | .error e => .error (symErr e)) := by
  simp only [EB.getVar, cap_name, key_cap]
  cases t.get? (symKey v.name) with
  | none => rfl
  | some x =>
    obtain ⟨p, id⟩ := x
    simp only
    by_cases h : (!v.accepts p.ty) = true
    · rw [if_pos (show (!(capVar v).accepts p.ty) = true from h), if_pos h]; rfl
    · rw [if_neg (show ¬ (!(capVar v).accepts p.ty) = true from h), if_neg h]
      cases mk id <;> rfl

theorem getVar_cap (b : Bool) (s : Syms) (v : VarRef) :
    (syms b s).getVar (capVar v) = (match s.getVar v with | .ok r => .ok r | .error e => .error (symErr e)) := by
  simp only [Syms.getVar, syms, getVar_one]
  cases EB.getVar v s.locals mkLocal .local with
  | ok r => rfl
  | error e => cases e <;> rfl

@[simp] theorem md_name (b : Bool) (m : Md) : (md b m).name = m.name := rfl
@[simp] theorem md_ret (b : Bool) (m : Md) : (md b m).returnType = m.returnType := rfl
@[simp] theorem md_async (b : Bool) (m : Md) : (md b m).isAsync = m.isAsync := rfl
@[simp] theorem md_user (b : Bool) (m : Md) : (md b m).userDefined = m.userDefined := rfl

@[simp] theorem md_argless (b : Bool) (m : Md) : (md b m).isArgless = m.isArgless := by
  simp only [Md.isArgless, md]
  rcases h : m.syntaxes with _ | ⟨s, _ | ⟨t, l⟩⟩
  · rfl
  · simp [syn]
  · rfl

theorem md_find (b : Bool) (m : Md) (n : Nat) : (md b m).findSyntax n = (m.findSyntax n).map (syn b) := by
  simp only [Md.findSyntax, md, List.find?_map]
  congr 2
  funext s
  simp [Syntax.accepts, syn, Function.comp]

/-! ## The code generator -/

section
variable {b : Bool}

theorem emit_same (i : Instr) (p : LineCol) : Same b code (emit i p) (emit i p) := ⟨fun _ => .inl rfl⟩

theorem getConstant_same (d : ConstantDatum) (p : LineCol) : Same b code (getConstant d p) (getConstant d p) := by
  refine ⟨fun g => .inl ?_⟩
  simp only [getConstant, code]
  cases g.constants.get? d with
  | some x => rfl
  | none =>
    cases g.constants.insert 65536 d d.etype with
    | none => rfl
    | some x => rfl

theorem getUpcall_same (k : Str) (r : Option ExprType) (p : LineCol) : Same b code (getUpcall k r p) (getUpcall k r p) := by
  refine ⟨fun g => .inl ?_⟩
  simp only [getUpcall, code]
  cases g.upcalls.get? k with
  | some x => rfl
  | none =>
    cases g.upcalls.insert 65536 k r with
    | none => rfl
    | some x => rfl

theorem allocTemp_same (sy : Syms) (n : Nat) (p : LineCol) : Same b code (CM.lift (allocTemp sy n p)) (CM.lift (allocTemp (syms b sy) n p)) := by
  refine Same.lift ?_
  show allocTemp sy n p = _
  unfold allocTemp
  split
  · split <;> rfl
  · rfl

theorem firstTemp_same (sy : Syms) (n : Nat) (p : LineCol) : Same b code (CM.lift (firstTemp sy n p)) (CM.lift (firstTemp (syms b sy) n p)) := by
  refine Same.lift ?_
  show firstTemp sy n p = _
  unfold firstTemp
  split <;> rfl

theorem emitValue_same (r : Reg) (d : ConstantDatum) (p : LineCol) : Same b code (emitValue r d p) (emitValue r d p) := by
  cases d with
  | boolean v => exact .bind (emit_same _ _) fun _ => .pure _
  | integer i =>
    simp only [emitValue]
    refine Same.ite Iff.rfl ?_ ?_
    · exact .bind (emit_same _ _) fun _ => .pure _
    · exact .bind (getConstant_same _ _) fun _ => .bind (emit_same _ _) fun _ => .pure _
  | double v => exact .bind (getConstant_same _ _) fun _ => .bind (emit_same _ _) fun _ => .pure _
  | text v => exact .bind (getConstant_same _ _) fun _ => .bind (emit_same _ _) fun _ => .pure _

theorem emitDefault_same (r : Reg) (t : ExprType) (p : LineCol) : Same b code (emitDefault r t p) (emitDefault r t p) := by
  cases t <;> exact .bind (emit_same _ _) fun _ => .pure _

theorem castNumerical_same (r : Reg) (s d : ExprType) (p : LineCol) : Same b code (castNumerical r s d p) (castNumerical r s d p) := by
  unfold castNumerical
  split <;> first | exact .pure _ | exact .bind (emit_same _ _) fun _ => .pure _

theorem castTo_same (r : Reg) (s d : ExprType) (p : LineCol) : Same b code (castTo r s d p) (castTo r s d p) := by
  unfold castTo
  refine Same.ite Iff.rfl (.pure _) (.bind (castNumerical_same ..) fun ok => .ite Iff.rfl (.pure _) (.ite Iff.rfl (.throw rfl) (.throw rfl)))

theorem resolveNumeric_same (r : Reg) (t : ExprType) (r' : Reg) (t' : ExprType) (p q : LineCol) :
    Same b code (resolveNumeric r t r' t' p q) (resolveNumeric r t r' t' p q) := by
  unfold resolveNumeric
  split <;> first | exact .pure _ | exact .bind (castNumerical_same ..) fun _ => .pure _

theorem applyBin_same (op : SrcBin) (r : Reg) (t : ExprType) (r' : Reg) (t' : ExprType) (p q : LineCol) :
    Same b code (applyBin op r t r' t' p q) (applyBin op r t r' t' p q) := by
  have fin : ∀ (o : BinOp) (t : ExprType), Same b code (do let _ ← emit (.bin o r r r') q; pure (if op.isRel then .boolean else t) : CG ExprType)
      (do let _ ← emit (.bin o r r r') q; pure (if op.isRel then .boolean else t) : CG ExprType) :=
    fun o t => .bind (emit_same _ _) fun _ => .pure _
  unfold applyBin
  simp only
  have numeric : Same b code
      (match op.doubleOp with
        | some dop => do
          match ← resolveNumeric r t r' t' p q with
          | some .double => do let _ ← emit (.bin dop r r r') q; pure (if op.isRel then .boolean else .double)
          | some .integer => do let _ ← emit (.bin op.intOp r r r') q; pure (if op.isRel then .boolean else .integer)
          | _ => CM.throw (.binaryOpType q op.name t t')
        | none =>
          match t, t' with
          | .integer, .integer => do let _ ← emit (.bin op.intOp r r r') q; pure (if op.isRel then .boolean else .integer)
          | _, _ => CM.throw (.binaryOpType q op.name t t') : CG ExprType)
      (match op.doubleOp with
        | some dop => do
          match ← resolveNumeric r t r' t' p q with
          | some .double => do let _ ← emit (.bin dop r r r') q; pure (if op.isRel then .boolean else .double)
          | some .integer => do let _ ← emit (.bin op.intOp r r r') q; pure (if op.isRel then .boolean else .integer)
          | _ => CM.throw (.binaryOpType q op.name t t')
        | none =>
          match t, t' with
          | .integer, .integer => do let _ ← emit (.bin op.intOp r r r') q; pure (if op.isRel then .boolean else .integer)
          | _, _ => CM.throw (.binaryOpType q op.name t t') : CG ExprType) := by
    cases op.doubleOp with
    | some dop =>
      refine .bind (resolveNumeric_same ..) fun a => ?_
      rcases a with _ | (_ | _ | _ | _)
      · exact .throw rfl
      · exact .throw rfl
      · exact fin _ _
      · exact fin _ _
      · exact .throw rfl
    | none => cases t <;> cases t' <;> first | exact fin _ _ | exact .throw rfl
  cases t <;> cases t' <;> simp only <;> first
    | exact numeric
    | (cases h : op.boolOp with
        | some o => exact fin _ _
        | none => exact numeric)
    | (cases h : op.textOp with
        | some o => exact fin _ _
        | none => exact numeric)

theorem applyUn_same (sy : Syms) (n : Nat) (op : SrcUn) (r : Reg) (t : ExprType) (p : LineCol) :
    Same b code (applyUn sy n op r t p) (applyUn (syms b sy) n op r t p) := by
  cases op <;> cases t <;> simp only [applyUn] <;> first
    | exact .throw rfl
    | exact .bind (emit_same _ _) fun _ => .pure _
    | exact .bind (allocTemp_same ..) fun _ => .bind (emitValue_same ..) fun _ => .bind (emit_same _ _) fun _ => .pure _

theorem validateSep_same (m : Md) (s : SepSyn) (e : Bool) (sep : ArgSep) (p : LineCol) :
    Same b code (CM.lift (validateSep m s e sep p)) (CM.lift (validateSep (md b m) s e sep p)) := by
  refine Same.lift ?_
  cases s with
  | «end» => rfl
  | exactly x => simp only [validateSep, md_name]; split <;> rfl
  | oneOf x =>
    simp only [validateSep, md_name]
    split
    · split <;> rfl
    · split <;> rfl

theorem emitTag_same (r : Reg) (t : VarArgTag) (p : LineCol) : Same b code (emitTag r t p) (emitTag r t p) :=
  .bind (emit_same _ _) fun _ => .pure _

theorem insert_fix (t : FMap Nat Fixup) (a : Nat) (f : Fixup) :
    FMap.insert (t.map fun e => (e.1, fix e.2)) a (fix f) = (FMap.insert t a f).map fun e => (e.1, fix e.2) := by
  simp only [FMap.insert, FMap.erase, List.map_cons, List.filter_map]
  rfl

theorem addFixup_same (g : Codegen) (a : Nat) (f : Fixup) : (code g).addFixup a (fix f) = code (g.addFixup a f) := by
  simp only [Codegen.addFixup, code, insert_fix]

theorem emitCall_same (m : Md) (k : Str) (ret : Option ExprType) (first : Reg) (lcs : List LineCol) (p : LineCol) :
    Same b code (emitCall m k ret first lcs p) (emitCall (md b m) k ret first lcs p) := by
  unfold emitCall
  refine Same.ite Iff.rfl (.bind (emit_same _ _) fun a => .modify fun g => ?_)
    (.bind (getUpcall_same ..) fun _ => .bind (emit_same _ _) fun a => .modify fun g => rfl)
  exact addFixup_same (g.setArgs a lcs) a (.call first k)

theorem checkCallee_same (m : Md) (v : VarRef) (p : LineCol) :
    Same b code (CM.lift (checkCallee m v p)) (CM.lift (checkCallee (md b m) (capVar v) p)) := by
  refine Same.lift ?_
  simp only [checkCallee, md_ret]
  cases m.returnType with
  | none => rfl
  | some t =>
    simp only
    by_cases h : (!v.acceptsCallable (some t)) = true
    · rw [if_pos (show (!(capVar v).acceptsCallable (some t)) = true from h), if_pos h]; rfl
    · rw [if_neg (show ¬ (!(capVar v).acceptsCallable (some t)) = true from h), if_neg h]; rfl

theorem compileArgless_same (sy : Syms) (n : Nat) (r : Reg) (v : VarRef) (p : LineCol) :
    Same b code (compileArgless sy n r v p) (compileArgless (syms b sy) n r (capVar v) p) := by
  simp only [compileArgless, cap_name, key_cap, getCallable_cap]
  cases sy.getCallable (symKey v.name) with
  | none => exact .throw rfl
  | some m =>
    simp only [Option.map_some, md_argless, md_user, md_name, md_async]
    refine .bind (checkCallee_same ..) fun t => .ite Iff.rfl (.throw rfl) (.ite Iff.rfl (.bind (emitCall_same ..) fun _ => .pure _)
      (.ite Iff.rfl ?_ (.bind (emitCall_same ..) fun _ => .pure _)))
    exact .bind (getUpcall_same ..) fun _ => .bind (allocTemp_same ..) fun _ => .bind (emit_same _ _) fun _ => .bind (emit_same _ _) fun _ =>
      .pure _

/-! ## Expressions and arguments -/

/-- The arguments that are being compiled. -/
def env (b : Bool) (A : ArgEnv) : ArgEnv := { A with sy := syms b A.sy, md := md b A.md }

theorem endOk_same (A : ArgEnv) (l : List SingSyn) : (env b A).endOk (l.map (sing b)) = A.endOk l := by
  simp [ArgEnv.endOk, env]

theorem compileNoArgs_same (A : ArgEnv) (y : Bool) : ∀ (l : List SingSyn) (n : Nat) (lcs : List LineCol),
    Same b code (compileNoArgs A y l n lcs) (compileNoArgs (env b A) y (l.map (sing b)) n lcs)
  | [], n, lcs => by
    simp only [compileNoArgs, List.map_nil]
    show Same b code _ (match A.rep with | none => _ | some r => _)
    cases A.rep with
    | none => exact .pure _
    | some r => exact .ite Iff.rfl (.pure _) (.bind (allocTemp_same ..) fun _ => .bind (emitTag_same ..) fun _ => .pure _)
  | .reqValue .. :: _, _, _ => .throw rfl
  | .reqRef .. :: _, _, _ => .throw rfl
  | .optValue _ _ sep :: l, n, lcs => by
    simp only [compileNoArgs, List.map_cons, sing, endOk_same]
    exact .bind (allocTemp_same ..) fun _ => .bind (validateSep_same ..) fun _ => .bind (emitTag_same ..) fun _ =>
      compileNoArgs_same A y l _ _
  | .anyValue _ am sep :: l, n, lcs => by
    simp only [compileNoArgs, List.map_cons, sing, endOk_same]
    exact .ite Iff.rfl (.throw rfl) (.bind (allocTemp_same ..) fun _ => .bind (validateSep_same ..) fun _ => .bind (emitTag_same ..) fun _ =>
      compileNoArgs_same A y l _ _)

theorem refVar_same (A : ArgEnv) (x y : Bool) (v : VarRef) (p : LineCol) :
    Same b code (CM.lift (refVar A x y v p)) (CM.lift (refVar (env b A) x y (capVar v) p)) := by
  refine Same.lift ?_
  simp only [refVar, env, getVar_cap, cap_name, key_cap, getCallable_cap, md_name]
  cases A.sy.getVar v with
  | ok r =>
    obtain ⟨r, q⟩ := r
    cases q <;> simp only <;> split <;> rfl
  | error e =>
    cases e with
    | undefinedSymbol w =>
      simp only [symErr]
      split
      · rfl
      · cases A.sy.getCallable (symKey v.name) <;> rfl
    | _ => rfl

theorem repVar_same (A : ArgEnv) (v : VarRef) (p q : LineCol) :
    Same b code (CM.lift (repVar A v p q)) (CM.lift (repVar (env b A) (capVar v) p q)) := by
  refine Same.lift ?_
  simp only [repVar, env, getVar_cap, cap_name, key_cap, getCallable_cap, md_name]
  cases A.sy.getVar v with
  | ok r =>
    obtain ⟨r, q⟩ := r
    cases q <;> rfl
  | error e =>
    cases e with
    | undefinedSymbol w =>
      simp only [symErr]
      cases A.sy.getCallable (symKey v.name) <;> rfl
    | _ => rfl

mutual
theorem expr_same (sy : Syms) : ∀ (e : Expr) (n : Nat) (r : Reg),
    Same b code (compileExpr sy e n r) (compileExpr (syms b sy) (capExpr e) n r)
  | .bool .., _, _ | .dbl .., _, _ | .int .., _, _ | .text .., _, _ => by
    simp only [compileExpr, capExpr]
    exact .bind (emitValue_same ..) fun _ => .pure _
  | .sym v p, n, r => by
    simp only [compileExpr, capExpr, getVar_cap]
    cases sy.getVar v with
    | ok x =>
      obtain ⟨x, q⟩ := x
      cases q with
      | scalar t => exact .bind (emit_same _ _) fun _ => .pure _
      | array => exact .throw rfl
    | error e =>
      cases e with
      | undefinedSymbol w => exact compileArgless_same ..
      | _ => exact .throw rfl
  | .un op e p, n, r => by
    simp only [compileExpr, capExpr]
    exact .bind (expr_same sy e _ _) fun t => applyUn_same ..
  | .bin op l x p, n, r => by
    simp only [compileExpr, capExpr, start_cap]
    exact .bind (expr_same sy l _ _) fun t => .bind (allocTemp_same ..) fun r' => .bind (expr_same sy x _ _) fun t' => applyBin_same ..
  | .call v p args, n, r => by
    simp only [compileExpr, capExpr, cap_name, key_cap, getCallable_cap, length_cap]
    cases sy.getCallable (symKey v.name) with
    | some m =>
      simp only [Option.map_some, md_argless, md_name, md_find]
      refine .bind (checkCallee_same ..) fun t => .ite Iff.rfl (.throw rfl) (.bind (allocTemp_same ..) fun ret => ?_)
      cases m.findSyntax args.length with
      | none => exact .throw rfl
      | some s =>
        simp only [Option.map_some]
        have h := args_same ⟨sy, m, p, s.singular.length, args.length, s.repeated⟩ args true s.singular (n + 1) []
        have e : (⟨syms b sy, md b m, p, (syn b s).singular.length, args.length, (syn b s).repeated⟩ : ArgEnv) =
          env b ⟨sy, m, p, s.singular.length, args.length, s.repeated⟩ := by simp [env, syn]
        rw [e]
        refine .bind h fun x => ?_
        obtain ⟨x, lcs⟩ := x
        refine .bind (firstTemp_same ..) fun _ => .bind (emitCall_same ..) fun _ => .ite Iff.rfl (.bind (emit_same _ _) fun _ => .pure _) (.pure _)
    | none =>
      simp only [Option.map_none, getVar_cap]
      cases sy.getVar v with
      | ok x =>
        obtain ⟨x, q⟩ := x
        cases q with
        | scalar t => exact .throw rfl
        | array t k =>
          exact .ite Iff.rfl (.throw rfl) (.bind (subs_same sy args _ _) fun _ => .bind (firstTemp_same ..) fun _ =>
            .bind (emit_same _ _) fun _ => .pure _)
      | error e =>
        cases e <;> exact .throw rfl

theorem subs_same (sy : Syms) : ∀ (a : Args) (n : Nat) (p : LineCol),
    Same b code (compileSubs sy a n p) (compileSubs (syms b sy) (capArgs a) n p)
  | .nil, _, _ => by simp only [compileSubs, capArgs]; exact .pure _
  | .skip .., _, _ => by simp only [compileSubs, capArgs]; exact .throw rfl
  | .cons e _ _ rest, n, p => by
    simp only [compileSubs, capArgs, start_cap]
    exact .bind (allocTemp_same ..) fun _ => .bind (expr_same sy e _ _) fun _ => .bind (castTo_same ..) fun _ => subs_same sy rest _ _

theorem args_same (A : ArgEnv) : ∀ (a : Args) (y : Bool) (l : List SingSyn) (n : Nat) (lcs : List LineCol),
    Same b code (compileArgsFrom A a y l n lcs) (compileArgsFrom (env b A) (capArgs a) y (l.map (sing b)) n lcs)
  | .nil, y, l, n, lcs => by simp only [compileArgsFrom, capArgs]; exact compileNoArgs_same ..
  | .cons e sep q rest, y, l, n, lcs => by
    simp only [compileArgsFrom, capArgs, start_cap]
    cases l with
    | cons s l =>
      cases s with
      | reqValue nm t s =>
        simp only [List.map_cons, sing, endOk_same]
        exact .bind (allocTemp_same ..) fun _ => .bind (expr_same A.sy e _ _) fun _ => .bind (castTo_same ..) fun _ =>
          .bind (validateSep_same ..) fun _ => args_same A rest _ _ _ _
      | reqRef nm x z s =>
        simp only [List.map_cons, sing, endOk_same]
        cases e with
        | sym v p =>
          simp only [capExpr]
          refine .bind (refVar_same ..) fun a => ?_
          obtain ⟨a, t⟩ := a
          exact .bind (allocTemp_same ..) fun _ => .bind (emit_same _ _) fun _ => .bind (validateSep_same ..) fun _ => args_same A rest _ _ _ _
        | _ => exact .throw rfl
      | optValue nm t s =>
        simp only [List.map_cons, sing, endOk_same]
        exact .bind (allocTemp_same ..) fun _ => .bind (allocTemp_same ..) fun _ => .bind (expr_same A.sy e _ _) fun _ =>
          .bind (castTo_same ..) fun _ => .bind (validateSep_same ..) fun _ => .bind (emitTag_same ..) fun _ => args_same A rest _ _ _ _
      | anyValue nm t s =>
        simp only [List.map_cons, sing, endOk_same]
        exact .bind (allocTemp_same ..) fun _ => .bind (allocTemp_same ..) fun _ => .bind (expr_same A.sy e _ _) fun _ =>
          .bind (validateSep_same ..) fun _ => .bind (emitTag_same ..) fun _ => args_same A rest _ _ _ _
    | nil =>
      have hr : (env b A).rep = A.rep := rfl
      simp only [List.map_nil, hr]
      cases A.rep with
      | none => exact .throw rfl
      | some r =>
        refine .ite Iff.rfl ?_ (.bind (allocTemp_same ..) fun _ => .bind (validateSep_same ..) fun _ => ?_)
        · cases r.typeSyn with
          | typed t =>
            exact .bind (validateSep_same ..) fun _ => .bind (allocTemp_same ..) fun _ => .bind (expr_same A.sy e _ _) fun _ =>
              .bind (castTo_same ..) fun _ => args_same A rest _ [] _ _
          | _ => exact .throw rfl
        · cases r.typeSyn with
          | anyValue =>
            exact .bind (allocTemp_same ..) fun _ => .bind (expr_same A.sy e _ _) fun _ => .bind (emitTag_same ..) fun _ =>
              args_same A rest _ [] _ _
          | typed t =>
            exact .bind (allocTemp_same ..) fun _ => .bind (expr_same A.sy e _ _) fun _ => .bind (castTo_same ..) fun _ =>
              .bind (emitTag_same ..) fun _ => args_same A rest _ [] _ _
          | varRef =>
            cases e with
            | sym v p =>
              refine .bind (repVar_same ..) fun a => ?_
              obtain ⟨a, t⟩ := a
              exact .bind (allocTemp_same ..) fun _ => .bind (emit_same _ _) fun _ => .bind (emitTag_same ..) fun _ => args_same A rest _ [] _ _
            | _ => exact .throw rfl
  | .skip sep q rest, y, l, n, lcs => by
    simp only [compileArgsFrom, capArgs]
    cases l with
    | cons s l =>
      cases s with
      | reqValue nm t s => exact .throw rfl
      | reqRef nm x z s => exact .throw rfl
      | optValue nm t s =>
        simp only [List.map_cons, sing, endOk_same]
        exact .bind (allocTemp_same ..) fun _ => .bind (validateSep_same ..) fun _ => .bind (emitTag_same ..) fun _ => args_same A rest _ _ _ _
      | anyValue nm t s =>
        simp only [List.map_cons, sing, endOk_same]
        exact .bind (allocTemp_same ..) fun _ => .bind (validateSep_same ..) fun _ => .bind (emitTag_same ..) fun _ => args_same A rest _ _ _ _
    | nil =>
      have hr : (env b A).rep = A.rep := rfl
      simp only [List.map_nil, hr]
      cases A.rep with
      | none => exact .throw rfl
      | some r =>
        refine .ite Iff.rfl (.bind (validateSep_same ..) fun _ => .throw rfl) (.bind (allocTemp_same ..) fun _ => .bind (validateSep_same ..) fun _ =>
          .ite Iff.rfl (.throw rfl) (.bind (emitTag_same ..) fun _ => args_same A rest _ [] _ _))
end

theorem exprAs_same (sy : Syms) (e : Expr) (n : Nat) (r : Reg) (t : ExprType) :
    Same b code (compileExprAs sy e n r t) (compileExprAs (syms b sy) (capExpr e) n r t) := by
  simp only [compileExprAs, start_cap]
  exact .bind (expr_same ..) fun _ => castTo_same ..

theorem compileArgs_same (sy : Syms) (m : Md) (p : LineCol) (a : Args) (n : Nat) :
    Same b code (compileArgs sy m p a n) (compileArgs (syms b sy) (md b m) p (capArgs a) n) := by
  simp only [compileArgs, length_cap, md_find, md_name]
  cases m.findSyntax a.length with
  | none => exact .throw rfl
  | some s =>
    simp only [Option.map_some]
    have h := args_same (b := b) ⟨sy, m, p, s.singular.length, a.length, s.repeated⟩ a true s.singular n []
    have e : (⟨syms b sy, md b m, p, (syn b s).singular.length, a.length, (syn b s).repeated⟩ : ArgEnv) =
      env b ⟨sy, m, p, s.singular.length, a.length, s.repeated⟩ := by simp [env, syn]
    rw [e]
    refine .bind h fun x => ?_
    obtain ⟨x, lcs⟩ := x
    exact .bind (firstTemp_same ..) fun _ => .pure _

end

end EB.Caps
