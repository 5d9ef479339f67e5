import Verif.Lemmas.ParserTotal
import Verif.Lemmas.CompPos
import Verif.Props.Lexer
import Verif.Props.Stmt
import Verif.Props.Vm
/-!
# C24 and C55: where errors are, and that compiling any text ends

`Spec/Positions.lean` says what a position of a text is (`Points`) and where an error is (`errorAt`).
-/

namespace EB
open Spec

/-- Positions of tokens are positions of the text. -/
theorem points_of_tok {T : TextOps} (hT : TextOk T) {s : Str} {p : LineCol} (h : TokPos (lexText T false s) p) : Points T s p := by
  rcases h with rfl | ⟨t, ht, rfl⟩
  · exact .inl (C24_positions hT s).1
  · obtain ⟨i, hi⟩ := List.mem_iff_getElem?.1 ht
    obtain ⟨before, lex, rest, h1, h2, h3⟩ := (C24_positions hT s).2 i t hi
    refine .inr ⟨before, lex, rest, h1, h2, ?_⟩
    rcases h3 with h3 | ⟨-, h3⟩
    · exact .inl ⟨_, h3⟩
    · exact .inr h3

theorem parse_pos (T : TextOps) (F : FloatOps) (s : Str) :
    StmtsPos (TokPos (lexText T false s)) (parseText T F s).stmts ∧
    ∀ e, (parseText T F s).err = some e → CErrPos (TokPos (lexText T false s)) e := by
  have h := parseAll_sat (P := TokPos (lexText T false s)) (M := True) T F _ (lexText T false s)
    ⟨fun _ h => h, fun _ => trivial⟩ (Nat.le_refl _)
  unfold parseText parseStream
  rcases hp : parseAll T F ((lexText T false s).toks.length + 1) (lexText T false s) with ⟨stmts, e⟩
  rw [hp] at h
  refine ⟨(ofList_pos h.1).pos, fun e' he => ?_⟩
  cases e with
  | none => cases he
  | some e =>
    cases he
    have := h.2 e rfl
    cases e <;> first | exact this | trivial

theorem errorAt_pos {P : LineCol → Prop} {e : CErr} {p : LineCol} (h : CErrPos P e) (hp : errorAt e = some p) :
    P p ∨ (p = ⟨0, 0⟩ ∧ ∃ n, e = .targetTooFar p n) := by
  cases e <;> cases hp
  case targetTooFar n => exact h.imp id fun h => ⟨h, n, rfl⟩
  all_goals exact .inl h

theorem codePos_true (code : List Instr) (instrs : List InstrMeta) : CodePos (fun _ => True) code instrs :=
  ⟨fun _ _ _ _ _ => .inl trivial, fun _ _ _ _ => trivial⟩

/-! ## C24 -/

/-- C24: whatever was compiled before, every error of compiling a text is at a token, a character that
starts no token, or the end of the text.  The exception are programs of more than 65535 instructions. -/
theorem C24_errors_partial {T : TextOps} (hT : TextOk T) {F : FloatOps} {c : Ctx} {img : Image} (h : Reached c img) (text : Str)
    {e : CErr} {c' : Ctx} {img' : Image} (he : compileMore (parseText T F text) c img = (.error e, c', img')) {p : LineCol}
    (hp : errorAt e = some p) : Points T text p ∨ (p = ⟨0, 0⟩ ∧ ∃ n, e = .targetTooFar p n) := by
  have hs := parse_pos T F text
  have ht := compileTop_pos (img := img) (synced_of_reached h).idle (codePos_true _ _) hs.1 hs.2
  unfold compileMore at he
  rcases hc : compileTop (parseText T F text) img c with e' | ⟨d, c1⟩
  · rw [hc] at he ht
    simp only [Prod.mk.injEq, Except.error.injEq] at he
    obtain ⟨rfl, -⟩ := he
    exact (errorAt_pos ht hp).imp (points_of_tok hT) id
  · rw [hc] at he
    simp at he

/-- The positions in a session: those of the texts, and 0:0 where the host has defined global variables. -/
def Spec.Known (T : TextOps) (texts : List Str) (defs : List GlobalDef) (p : LineCol) : Prop :=
  (∃ text ∈ texts, Points T text p) ∨ (p = ⟨0, 0⟩ ∧ defs ≠ [])

theorem session_pos {T : TextOps} (hT : TextOk T) (F : FloatOps) {upcalls : FMap Str Md} {defs : List GlobalDef} {c0 : Ctx}
    (hn : Compiler.new upcalls defs = .ok c0) (texts : List Str) :
    CodePos (Known T texts defs) (session (texts.map (parseText T F)) (c0, .default)).2.code
      (session (texts.map (parseText T F)) (c0, .default)).2.instrs := by
  have key : ∀ (rest done : List Str) (s : Ctx × Image), Synced s.1 s.2 → CodePos (Known T done defs) s.1.cg.code s.1.cg.instrs →
      let s' := session (rest.map (parseText T F)) s
      Synced s'.1 s'.2 ∧ CodePos (Known T (done ++ rest) defs) s'.1.cg.code s'.1.cg.instrs := by
    intro rest
    induction rest with
    | nil => intro done s h1 h2; simpa [session] using ⟨h1, h2⟩
    | cons text rest ih =>
      intro done s h1 h2
      have hs := parse_pos T F text
      have ht := compileTop_pos (img := s.2) h1.idle h2 hs.1 hs.2
      have h3 := synced_of_later (s := s) (s' := (compileMore (parseText T F text) s.1 s.2).2)
        (.more (.refl _) ⟨_, rfl⟩) h1
      have h4 : CodePos (Known T (done ++ [text]) defs) (compileMore (parseText T F text) s.1 s.2).2.1.cg.code
          (compileMore (parseText T F text) s.1 s.2).2.1.cg.instrs := by
        unfold compileMore
        rcases hc : compileTop (parseText T F text) s.2 s.1 with e | ⟨d, c1⟩
        · exact h2.mono fun p hp => hp.imp (fun ⟨t, h, h'⟩ => ⟨t, by simp [h], h'⟩) id
        · rw [hc] at ht
          refine ht.mono fun p hp => ?_
          rcases hp with hp | hp
          · exact .inl ⟨text, by simp, points_of_tok hT hp⟩
          · exact hp.imp (fun ⟨t, h, h'⟩ => ⟨t, by simp [h], h'⟩) id
      have := ih (done ++ [text]) _ h3 h4
      simpa [session] using this
  have h0 := new_pos (upcalls := upcalls) (defs := defs)
  rw [hn] at h0
  have := key texts [] (c0, .default) ⟨idle_new hn, .inl rfl⟩ (h0.mono fun p hp => .inr hp)
  obtain ⟨h1, h2⟩ := this
  rcases h1.img with h | h
  · rw [h]
    refine ⟨fun i m c hm hc => .inr ?_, fun m hm p hp => ?_⟩
    · have e1 : m = ⟨⟨0, 0⟩, true, []⟩ := List.mem_singleton.1 (List.mem_of_getElem? hm)
      have e2 : c = .eof := List.mem_singleton.1 (List.mem_of_getElem? hc)
      rw [e1, e2]; exact ⟨rfl, rfl⟩
    · have e1 : m = ⟨⟨0, 0⟩, true, []⟩ := List.mem_singleton.1 hm
      rw [e1] at hp; cases hp
  · rw [h.code, h.instrs]; exact h2

/-- C24: an error that stops a program, whether an instruction or a built-in callable raises it, and the
error that the program can ask for are at a token or the end of one of the texts of the session (or at 0:0, while
the variables are set up that the host has defined). -/
theorem C24_runtime {H : Type} {T : TextOps} (hT : TextOk T) (F : FloatOps) {upcalls : FMap Str Md} {defs : List GlobalDef} {c0 : Ctx}
    (hn : Compiler.new upcalls defs = .ok c0) (texts : List Str) {host : Host H} (hh : HostPos host) {R : Vm H → Prop}
    {vm vm' : Vm H} {l : List Ev} (h1 : vm.lastError = none) (h2 : vm.pending = none)
    (hr : VmRun F host (session (texts.map (parseText T F)) (c0, .default)).2 R vm l vm') :
    (∀ p e, vm'.lastError = some (p, e) → Known T texts defs p) ∧
    (∀ p e vm2, vmStep F host (session (texts.map (parseText T F)) (c0, .default)).2 vm' = .stop (.exception p e) vm2 →
      Known T texts defs p) ∧
    ∀ vm2 p e vm3, vmStep F host (session (texts.map (parseText T F)) (c0, .default)).2 vm' = .stop .upcallAsync vm2 →
      invokePending host (session (texts.map (parseText T F)) (c0, .default)).2 vm2 = .stop (.exception p e) vm3 →
      Known T texts defs p := by
  have hc := session_pos hT F hn texts
  have hv := vmRun_pos hc hh hr ⟨fun p e h => (by rw [h1] at h; cases h), fun i f pc h => (by rw [h2] at h; cases h)⟩
  have hs := vmStep_pos (F := F) hc hh hv
  refine ⟨hv.last, fun p e vm2 h => ?_, fun vm2 p e vm3 h h' => ?_⟩
  · rw [h] at hs; exact hs.2 p e rfl
  · rw [h] at hs
    have := invoke_pos hc hh hs.1
    rw [h'] at this
    exact this.2 p e rfl

/-- A program with an error in its second line. -/
def Ex.wrong : Str := "a = 1\n  b = a + \"x\"".toList

/-- A program that divides by zero in its second line. -/
def Ex.zero : Str := "a = 0\n  b = 1 / a".toList

set_option maxRecDepth 100000 in
example : (compileMore (parseText asciiText Ex.noFloat Ex.wrong) Ex.start .default).1 =
    .error (.binaryOpType ⟨2, 9⟩ "+" .integer .text) ∧ Reached Ex.start .default ∧
    Points asciiText Ex.wrong ⟨2, 9⟩ := by
  refine ⟨by decide +kernel, Ex.reached0, ?_⟩
  have h : (compileMore (parseText asciiText Ex.noFloat Ex.wrong) Ex.start .default).1 =
    .error (.binaryOpType ⟨2, 9⟩ "+" .integer .text) := by decide +kernel
  rcases hm : compileMore (parseText asciiText Ex.noFloat Ex.wrong) Ex.start .default with ⟨r, c', img'⟩
  rw [hm] at h
  simp only at h
  subst h
  rcases C24_errors_partial asciiText_ok Ex.reached0 _ hm rfl with h | ⟨h, -⟩
  · exact h
  · exact absurd h (by decide)

/-- The image of a session with that program. -/
def Ex.zeroImg : Image :=
  ⟨[.loadInt 64#8 0#16, .loadInt 65#8 1#16, .move 66#8 64#8, .bin .divI 65#8 65#8 66#8, .eof], [], [], [],
    [⟨⟨1, 5⟩, true, []⟩, ⟨⟨2, 7⟩, true, []⟩, ⟨⟨2, 11⟩, false, []⟩,
      ⟨⟨2, 9⟩, false, []⟩, ⟨⟨0, 0⟩, false, []⟩], [], [], [("B".toList, ⟨1, .integer, 0⟩), ("A".toList, ⟨0, .integer, 0⟩)]⟩

set_option maxRecDepth 100000 in
theorem Ex.zeroImg_eq :
    (session ([Ex.zero].map (parseText asciiText noFloat)) (Ex.start, .default)).2 = Ex.zeroImg := by
  unfold Ex.start
  decide +kernel

/-- What an error says. -/
def Ex.errorOf : VmStep Unit → Option (LineCol × RtErr)
  | .stop (.exception p e) _ => some (p, e)
  | _ => none

example : HostPos noHost ∧ Compiler.new [] [] = .ok Ex.start ∧ ∃ l vm,
    VmRun noFloat noHost Ex.zeroImg (fun _ => True) (exampleVm 5) l vm ∧
    Ex.errorOf (vmStep noFloat noHost Ex.zeroImg vm) = some (⟨2, 9⟩, .divisionByZero) := by
  refine ⟨fun _ _ _ _ _ _ _ _ _ _ h => ?_, Ex.start_new, _, _, runFor_run _ _ (fun _ => trivial) 3 _, ?_⟩
  · cases h
  · rfl

/-! ## C55 -/

/-- C55: parsing any text ends; it panics only if a minus sign stands before a literal of the value -2147483648;
and every error and every statement is at tokens of the text. -/
theorem C55_parsing_partial (T : TextOps) (F : FloatOps) (s : Str) :
    let r := parseAll T F ((lexText T false s).toks.length + 1) (lexText T false s)
    (∀ st ∈ r.1, StmtPos (TokPos (lexText T false s)) st) ∧
    r.2 ≠ some .fuel ∧ (r.2 = some .panic → NegMin (lexText T false s)) ∧
    (∀ p msg, r.2 = some (.bad p msg) → TokPos (lexText T false s) p) ∧ (∀ p, r.2 = some (.io p) → TokPos (lexText T false s) p) := by
  have h := parseAll_sat (P := TokPos (lexText T false s)) (M := NegMin (lexText T false s)) T F _ (lexText T false s)
    ⟨fun _ h => h, fun h => h⟩ (Nat.le_refl _)
  exact ⟨fun st hst => (h.1 st hst).pos, fun he => h.2 _ he, fun he => h.2 _ he, fun p msg he => h.2 _ he, fun p he => h.2 _ he⟩

/-- C55 fails for texts such as `DATA -&x80000000`: the parser negates the least integer. -/
theorem C55_counterexample : ¬ ∀ s : Str,
    (parseAll asciiText Ex.noFloat ((lexText asciiText false s).toks.length + 1) (lexText asciiText false s)).2 ≠ some .panic := by
  intro h
  exact h "DATA -&x80000000".toList (by decide +kernel)

example : ¬ NegMin (lexText asciiText false Ex.wrong) ∧
    (parseAll asciiText Ex.noFloat ((lexText asciiText false Ex.wrong).toks.length + 1) (lexText asciiText false Ex.wrong)).2 = none := by
  refine ⟨?_, by decide +kernel⟩
  rintro ⟨a, b, h⟩
  have : (⟨.minus, a⟩ : TokSpan) ∈ (lexText asciiText false Ex.wrong).toks := h.subset (by simp)
  have hm : ∀ t ∈ (lexText asciiText false Ex.wrong).toks, t.tok ≠ .minus := by decide +kernel
  exact hm _ this rfl

end EB
