import Verif.Lemmas.GrammarAll
import Verif.Lemmas.GrammarBlocks
import Verif.Props.Grammar
import Verif.Props.Names
/-!
# Nothing but programs is accepted
-/

namespace EB
open Spec

/-! ## C68 -/

/-- C68 (partial): tokens that are parsed without an error are a program: statements of the grammar with what it needs in the right
places, every block closed by its own end.  Missing: the three productions of `Spec.Accepts` that are not in the grammar, which the
parser accepts too, and malformed expressions, of which `C28_counterexample` and its kin give examples. -/
theorem C68_program_partial (T : TextOps) (F : FloatOps) (E : LineCol) (ts : List TokSpan) (ss : List Stmt)
    (hts : ∀ t ∈ ts, t.tok ≠ .eof) (h : parseStream T F ⟨ts, E, false⟩ = ⟨Stmts.ofList ss, none⟩) : MayBeProgram F E ts ss := by
  simp only [parseStream, Source.mk.injEq] at h
  refine all_accepted T F E _ ts ss hts (Prod.ext (Stmts.ofList_injective h.1) ?_)
  cases he : (parseAll T F (ts.length + 1) ⟨ts, E, false⟩).2 with
  | none => rfl
  | some e => rw [he] at h; exact absurd h.2 (by simp)

/-- The tokens of a text do not include its end. -/
theorem lexLoop_noEof (T : TextOps) (io : Bool) (e : LineCol) : ∀ (n : Nat) (cs : List CharSpan), NoEof (lexLoop T io e n cs)
  | 0, _ => by simp [lexLoop, NoEof]
  | n + 1, cs => by
    simp only [lexLoop]
    split
    · simp [NoEof]
    · split
      · simp [NoEof]
      · next hne =>
        intro t ht
        rcases List.mem_cons.1 ht with rfl | ht
        · exact hne
        · exact lexLoop_noEof T io e n _ t ht

/-- C68 (partial): a text that is parsed without an error is a program.  Missing: as in `C68_program_partial`. -/
theorem C68_text_partial (T : TextOps) (F : FloatOps) (text : Str) (h : (parseText T F text).err = none) :
    ∃ ss, parseText T F text = ⟨Stmts.ofList ss, none⟩ ∧ MayBeProgram F (lexText T false text).eofPos (lexText T false text).toks ss := by
  have e : parseText T F text = ⟨Stmts.ofList (parseAll T F ((lexText T false text).toks.length + 1) (lexText T false text)).1, none⟩ := by
    rw [← h]; rfl
  exact ⟨_, e, C68_program_partial T F _ _ _ (lexLoop_noEof T false _ _ _) e⟩

/-- C68 (partial): tokens that are not a program are an error.  Missing: as in `C68_program_partial`. -/
theorem C68_rejected_partial (T : TextOps) (F : FloatOps) (text : Str)
    (h : ∀ ss, ¬ MayBeProgram F (lexText T false text).eofPos (lexText T false text).toks ss) : ∃ e, (parseText T F text).err = some e := by
  cases he : (parseText T F text).err with
  | some e => exact ⟨e, rfl⟩
  | none =>
    obtain ⟨ss, _, hp⟩ := C68_text_partial T F text he
    exact absurd hp (h ss)

/-- C68: in a text that is parsed without an error every `DO` has its `LOOP` and every `FOR` its `NEXT`: there are as many of the one
as of the other.  Tokens with `EXIT` or `RESUME` are left out because the same keywords come after those. -/
theorem C68_loops_closed (T : TextOps) (F : FloatOps) (text : Str) (h : (parseText T F text).err = none)
    (hp : ∀ t ∈ (lexText T false text).toks, t.tok ≠ .exit ∧ t.tok ≠ .resume) :
    occurrences .do (lexText T false text).toks = occurrences .loop (lexText T false text).toks ∧
      occurrences .for (lexText T false text).toks = occurrences .next (lexText T false text).toks := by
  obtain ⟨ss, _, hm⟩ := C68_text_partial T F text h
  generalize (lexText T false text).toks = toks at hm hp
  cases hm with
  | lines h => exact accepts_closed h hp
  | last h h' => exact closed_append (accepts_closed h (plain_append.1 hp).1) (accepts_closed h' (plain_append.1 hp).2)

/-- Reading `DO: LOOP` ends without an error, and its tokens are plain. -/
example : (parseText asciiText Ex.noFloat "DO: LOOP".toList).err = none ∧
    ∀ t ∈ (lexText asciiText false "DO: LOOP".toList).toks, t.tok ≠ .exit ∧ t.tok ≠ .resume := by
  have e : lexText asciiText false "DO: LOOP".toList = ⟨[⟨.do, ⟨1, 1⟩⟩, ⟨.eol, ⟨1, 3⟩⟩, ⟨.loop, ⟨1, 5⟩⟩], ⟨1, 9⟩, false⟩ := by decide +kernel
  rw [parseText, e]
  exact ⟨rfl, by decide⟩

/-! ## What is accepted although it is not in the grammar -/

/-- No assignment to an array without subscripts. -/
def HasSubscripts : Stmt → Prop
  | .arrayAssign _ _ [] _ => False
  | _ => True

/-- No such assignment is among the lines or is the statement. -/
def PartSubscripts : Part → Prop
  | .stmt s _ => HasSubscripts s
  | .lines ss => ∀ l, ss = Stmts.ofList l → ∀ s ∈ l, HasSubscripts s
  | _ => True

theorem Spec.TreeArgs.exprs_some (a : TreeArgs) : a.exprs ≠ [] := by cases a <;> simp [TreeArgs.exprs]

theorem simple_subscripts {F : FloatOps} {after : LineCol} {ts : List TokSpan} {s : Stmt} (h : IsSimple F after ts s) : HasSubscripts s := by
  cases h <;> try exact trivial
  next a _ _ =>
    cases ha : a.exprs with
    | nil => exact absurd ha a.exprs_some
    | cons => exact trivial

theorem writes_subscripts {F : FloatOps} {ts : List TokSpan} {p : Part} (h : Writes F ts p) : PartSubscripts p := by
  induction h with
  | simple h => exact simple_subscripts h
  | noLines =>
    intro l hl s hs
    cases l with
    | nil => cases hs
    | cons => cases hl
  | blank _ ih => exact ih
  | label _ _ ih =>
    intro l hl s hs
    cases l with
    | nil => cases hs
    | cons x l =>
      injection hl with h1 h2
      rcases List.mem_cons.1 hs with rfl | hs
      · rw [← h1]; trivial
      · exact ih l h2 s hs
  | line _ _ ih1 ih2 =>
    intro l hl s hs
    cases l with
    | nil => cases hs
    | cons x l =>
      injection hl with h1 h2
      rcases List.mem_cons.1 hs with rfl | hs
      · rw [← h1]; exact ih1
      · exact ih2 l h2 s hs
  | _ => exact trivial

theorem program_subscripts {F : FloatOps} {E : LineCol} {ts : List TokSpan} {ss : List Stmt} (h : IsProgram F E ts ss) :
    ∀ s ∈ ss, HasSubscripts s := by
  cases h with
  | lines h => exact writes_subscripts h ss rfl
  | last h h' =>
    intro s hs
    rcases List.mem_append.1 hs with hs | hs
    · exact writes_subscripts h _ rfl s hs
    · rw [List.mem_singleton.1 hs]; exact writes_subscripts h'

/-- The tokens of `v() = 1`. -/
def Ex.noSubscripts : List TokSpan :=
  [⟨.symbol ⟨['v'], none⟩, ⟨1, 1⟩⟩, ⟨.leftParen, ⟨1, 2⟩⟩, ⟨.rightParen, ⟨1, 3⟩⟩, ⟨.equal, ⟨1, 5⟩⟩, ⟨.integer 1, ⟨1, 7⟩⟩]

example : lexText asciiText false "v() = 1".toList = ⟨Ex.noSubscripts, ⟨1, 8⟩, false⟩ := by decide +kernel

/-- What they are parsed as. -/
theorem Ex.noSubscripts_parsed : parseStream asciiText Ex.noFloat ⟨Ex.noSubscripts, ⟨1, 8⟩, false⟩ =
    ⟨Stmts.ofList [.arrayAssign ⟨['v'], none⟩ ⟨1, 1⟩ [] (.int 1 ⟨1, 7⟩)], none⟩ := by
  rfl

/-- C68, counterexample: `v() = 1` is accepted although it is no program of the grammar. -/
theorem C68_counterexample : (parseText asciiText Ex.noFloat "v() = 1".toList).err = none ∧
    ∀ ss, ¬ IsProgram Ex.noFloat ⟨1, 8⟩ (lexText asciiText false "v() = 1".toList).toks ss := by
  have e : lexText asciiText false "v() = 1".toList = ⟨Ex.noSubscripts, ⟨1, 8⟩, false⟩ := by decide +kernel
  rw [parseText, e]
  refine ⟨by rw [Ex.noSubscripts_parsed], ?_⟩
  intro ss h
  have h2 := C57_program asciiText Ex.noFloat h
  rw [Ex.noSubscripts_parsed] at h2
  injection h2 with h2 _
  rw [← Stmts.ofList_injective h2] at h
  exact program_subscripts h _ (List.mem_singleton.2 rfl)

/-- The program of `Ex.spelled_program` meets the hypotheses of `C68_program_partial`. -/
example (F : FloatOps) : MayBeProgram F ⟨5, 3⟩ Ex.spelledToks Ex.spelledStmts :=
  C68_program_partial asciiText F _ _ _ (by decide) (C57_program asciiText F (Ex.spelled_program F))

/-- The tokens of `IF 1 THEN GOTO 1 ELSE` with nothing behind it, which is accepted. -/
example : parseStream asciiText Ex.noFloat ⟨[⟨.if, ⟨1, 1⟩⟩, ⟨.integer 1, ⟨1, 4⟩⟩, ⟨.then, ⟨1, 6⟩⟩, ⟨.goto, ⟨1, 11⟩⟩, ⟨.integer 1, ⟨1, 16⟩⟩,
      ⟨.else, ⟨1, 18⟩⟩], ⟨1, 22⟩, false⟩ =
    ⟨Stmts.ofList [.ifs (.cons (.int 1 ⟨1, 4⟩) (.cons (.goto ['1'] ⟨1, 16⟩) .nil) (.cons (.bool true ⟨1, 18⟩) .nil .nil))], none⟩ := rfl

/-- The tokens of `IF 1 THEN`, `END ELSE` and `END IF` in three lines, which is accepted. -/
example : parseStream asciiText Ex.noFloat ⟨[⟨.if, ⟨1, 1⟩⟩, ⟨.integer 1, ⟨1, 4⟩⟩, ⟨.then, ⟨1, 6⟩⟩, ⟨.eol, ⟨1, 10⟩⟩, ⟨.end, ⟨2, 1⟩⟩,
      ⟨.else, ⟨2, 5⟩⟩, ⟨.eol, ⟨2, 9⟩⟩, ⟨.end, ⟨3, 1⟩⟩, ⟨.if, ⟨3, 5⟩⟩], ⟨3, 7⟩, false⟩ =
    ⟨Stmts.ofList [.ifs (.cons (.int 1 ⟨1, 4⟩) (.cons (.end none ⟨2, 1⟩) .nil) (.cons (.bool true ⟨2, 5⟩) .nil .nil))], none⟩ := rfl

end EB
