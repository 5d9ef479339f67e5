import Verif.Lemmas.GrammarStmt
import Verif.Props.Lexer
/-!
# Programs of the grammar are parsed as what they spell
-/

namespace EB
open Spec

/-! ## C57 -/

/-- C57: the tokens of a program of the grammar are parsed as the statements that they spell, without
an error. -/
theorem C57_program (T : TextOps) (F : FloatOps) {E : LineCol} {ts : List TokSpan} {ss : List Stmt} (h : IsProgram F E ts ss) :
    parseStream T F ⟨ts, E, false⟩ = ⟨Stmts.ofList ss, none⟩ :=
  program_parse T F h

/-- C57: a text whose tokens are a program of the grammar is parsed as that program. -/
theorem C57_text (T : TextOps) (F : FloatOps) (text : Str) {ss : List Stmt}
    (h : IsProgram F (lexText T false text).eofPos (lexText T false text).toks ss) :
    parseText T F text = ⟨Stmts.ofList ss, none⟩ :=
  program_parse T F h

theorem Stmts.ofList_injective : ∀ {ss ss' : List Stmt}, Stmts.ofList ss = Stmts.ofList ss' → ss = ss'
  | [], [], _ => rfl
  | [], _ :: _, h => by cases h
  | _ :: _, [], h => by cases h
  | s :: ss, s' :: ss', h => by
    simp only [Stmts.ofList, Stmts.cons.injEq] at h
    rw [h.1, Stmts.ofList_injective h.2]

/-- C57: the grammar is unambiguous: tokens spell at most one program. -/
theorem C57_unambiguous (F : FloatOps) {E : LineCol} {ts : List TokSpan} {ss ss' : List Stmt} (h : IsProgram F E ts ss)
    (h' : IsProgram F E ts ss') : ss = ss' := by
  have e := program_parse asciiText F h
  rw [program_parse asciiText F h'] at e
  injection e with e _
  exact (Stmts.ofList_injective e).symm

/-! ## Examples -/

theorem Ex.isInt (i : I32) (p : LineCol) : IsExpr [⟨.integer i, p⟩] (.int i p) := ⟨.int i p, trivial, rfl, rfl⟩
theorem Ex.isSym (v : VarRef) (p : LineCol) : IsExpr [⟨.symbol v, p⟩] (.sym v p) := ⟨.sym v p, trivial, rfl, rfl⟩
theorem Ex.isBin (op : SrcBin) (v : VarRef) (i : I32) (p q r : LineCol) :
    IsExpr [⟨.symbol v, p⟩, ⟨binTok op, q⟩, ⟨.integer i, r⟩] (.bin op (.sym v p) (.int i r) q) :=
  ⟨.bin op q (.sym v p) (.int i r), ⟨trivial, trivial, by simp [Tree.rightEdge], by simp [Tree.leftEdge]⟩, rfl, rfl⟩

/-- A loop, a decision in one line and a label. -/
def Ex.spelled : Str := "DO UNTIL i = 3: i = i + 1: LOOP
FOR j = 3 TO 1 STEP -1
IF j > 1 THEN PRINT j; ELSE EXIT FOR
NEXT
@a".toList

/-- Its tokens. -/
def Ex.spelledToks : List TokSpan :=
  let i : VarRef := ⟨['i'], none⟩
  let j : VarRef := ⟨['j'], none⟩
  [⟨.do, ⟨1, 1⟩⟩, ⟨.until, ⟨1, 4⟩⟩, ⟨.symbol i, ⟨1, 10⟩⟩, ⟨.equal, ⟨1, 12⟩⟩, ⟨.integer 3, ⟨1, 14⟩⟩, ⟨.eol, ⟨1, 15⟩⟩,
   ⟨.symbol i, ⟨1, 17⟩⟩, ⟨.equal, ⟨1, 19⟩⟩, ⟨.symbol i, ⟨1, 21⟩⟩, ⟨.plus, ⟨1, 23⟩⟩, ⟨.integer 1, ⟨1, 25⟩⟩, ⟨.eol, ⟨1, 26⟩⟩,
   ⟨.loop, ⟨1, 28⟩⟩, ⟨.eol, ⟨1, 32⟩⟩,
   ⟨.for, ⟨2, 1⟩⟩, ⟨.symbol j, ⟨2, 5⟩⟩, ⟨.equal, ⟨2, 7⟩⟩, ⟨.integer 3, ⟨2, 9⟩⟩, ⟨.to, ⟨2, 11⟩⟩, ⟨.integer 1, ⟨2, 14⟩⟩, ⟨.step, ⟨2, 16⟩⟩,
   ⟨.minus, ⟨2, 21⟩⟩, ⟨.integer 1, ⟨2, 22⟩⟩, ⟨.eol, ⟨2, 23⟩⟩,
   ⟨.if, ⟨3, 1⟩⟩, ⟨.symbol j, ⟨3, 4⟩⟩, ⟨.greater, ⟨3, 6⟩⟩, ⟨.integer 1, ⟨3, 8⟩⟩, ⟨.then, ⟨3, 10⟩⟩, ⟨.symbol ⟨"PRINT".toList, none⟩, ⟨3, 15⟩⟩,
   ⟨.symbol j, ⟨3, 21⟩⟩, ⟨.semicolon, ⟨3, 22⟩⟩, ⟨.else, ⟨3, 24⟩⟩, ⟨.exit, ⟨3, 29⟩⟩, ⟨.for, ⟨3, 34⟩⟩, ⟨.eol, ⟨3, 37⟩⟩,
   ⟨.next, ⟨4, 1⟩⟩, ⟨.eol, ⟨4, 5⟩⟩, ⟨.label ['a'], ⟨5, 1⟩⟩]

example : lexText asciiText false Ex.spelled = ⟨Ex.spelledToks, ⟨5, 3⟩, false⟩ := by decide +kernel

/-- What they spell. -/
def Ex.spelledStmts : List Stmt :=
  let i : VarRef := ⟨['i'], none⟩
  let j : VarRef := ⟨['j'], none⟩
  [.doLoop (.preUntil (.bin .eq (.sym i ⟨1, 10⟩) (.int 3 ⟨1, 14⟩) ⟨1, 12⟩))
     (.cons (.assign i ⟨1, 17⟩ (.bin .add (.sym i ⟨1, 21⟩) (.int 1 ⟨1, 25⟩) ⟨1, 23⟩)) .nil),
   .forLoop j ⟨2, 5⟩ false (.int 3 ⟨2, 9⟩) (.bin .ge (.sym j ⟨2, 5⟩) (.int 1 ⟨2, 14⟩) ⟨2, 11⟩)
     (.bin .add (.sym j ⟨2, 5⟩) (.int (-1) ⟨2, 22⟩) ⟨2, 11⟩)
     (.cons (.ifs (.cons (.bin .gt (.sym j ⟨3, 4⟩) (.int 1 ⟨3, 8⟩) ⟨3, 6⟩)
         (.cons (.call ⟨"PRINT".toList, none⟩ ⟨3, 15⟩ (.cons (.sym j ⟨3, 21⟩) .short ⟨3, 22⟩ (.skip .end ⟨3, 24⟩ .nil))) .nil)
       (.cons (.bool true ⟨3, 24⟩) (.cons (.exitFor ⟨3, 29⟩) .nil) .nil))) .nil),
   .label ['a'] ⟨5, 1⟩]

/-- The program of the example is one of the grammar. -/
theorem Ex.spelled_program (F : FloatOps) : IsProgram F ⟨5, 3⟩ Ex.spelledToks Ex.spelledStmts := by
  have body1 : Writes F _ (.lines _) := .line (.simple (after := ⟨1, 26⟩) (.assign (v := ⟨['i'], none⟩) (p := ⟨1, 17⟩) (q := ⟨1, 19⟩)
    (Ex.isBin .add ⟨['i'], none⟩ 1 ⟨1, 21⟩ ⟨1, 23⟩ ⟨1, 25⟩))) .noLines
  have s1 := Writes.doUntil (p := ⟨1, 1⟩) (u := ⟨1, 4⟩) (q := ⟨1, 15⟩) (r := ⟨1, 28⟩) (after := ⟨1, 32⟩)
    (Ex.isBin .eq ⟨['i'], none⟩ 3 ⟨1, 10⟩ ⟨1, 12⟩ ⟨1, 14⟩) body1
  have cmd : IsSimple F ⟨3, 24⟩ _ _ := .commandArgs (name := "PRINT".toList) (p := ⟨3, 15⟩)
    (.more (p := ⟨3, 22⟩) (Ex.isSym ⟨['j'], none⟩ ⟨3, 21⟩) .short .none) (by simp) (by
      rintro ⟨lp, a, q, rest, h⟩
      simp at h)
  have s2 := Writes.ifLineElse (p := ⟨3, 1⟩) (q := ⟨3, 10⟩) (after := ⟨3, 37⟩) (Ex.isBin .gt ⟨['j'], none⟩ 1 ⟨3, 4⟩ ⟨3, 6⟩ ⟨3, 8⟩) cmd
    (.exitFor (p := ⟨3, 29⟩) (q := ⟨3, 34⟩))
  have s3 := Writes.forLoop (F := F) (p := ⟨2, 1⟩) (v := ⟨['j'], none⟩) (ip := ⟨2, 5⟩) (q := ⟨2, 7⟩) (to := ⟨2, 11⟩) (r := ⟨2, 23⟩)
    (n := ⟨4, 1⟩) (after := ⟨4, 5⟩) (Or.inl rfl) (Ex.isInt 3 ⟨2, 9⟩) (Ex.isInt 1 ⟨2, 14⟩)
    (.negInt (p := ⟨2, 16⟩) (r := ⟨2, 21⟩) (i := 1) (q := ⟨2, 22⟩) (by decide) (by decide)) (.line s2 .noLines)
  have all := Writes.line s1 (.line s3 (.label (p := ⟨5, 1⟩) (.name ['a']) .noLines))
  exact .lines all

/-- So the text is parsed as the statements. -/
example (F : FloatOps) : parseStream asciiText F ⟨Ex.spelledToks, ⟨5, 3⟩, false⟩ = ⟨Stmts.ofList Ex.spelledStmts, none⟩ :=
  C57_program asciiText F (Ex.spelled_program F)

end EB
