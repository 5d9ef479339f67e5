import Verif.Props.Host
import Verif.Props.Compiler
import Verif.Lemmas.StdConsole
import Verif.Lemmas.Data
import Verif.Lemmas.Editor
import Verif.Model.StdTable
/-!
# C65, C66: the built-in callables and the items of `DATA`
-/

namespace EB
open Spec

/-! ## C66: the items of DATA -/

/-- **C66** The items of a compiled program are those of its `DATA` statements in the order of the source, wherever they
are, whether or not control reaches them. -/
theorem C66_items {up : FMap Str Md} {defs : List GlobalDef} {src : Source} {img : Image}
    (h : compileProgram up defs src = .ok img) : img.data = Stmts.items src.stmts := items_program h

/-- **C66** The items of a session are those of the accepted chunks, one after the other. -/
theorem C66_session {up : FMap Str Md} {defs : List GlobalDef} {c : Ctx} (h : Compiler.new up defs = .ok c) (srcs : List Source) :
    (session srcs (c, .default)).2.data = (acceptedChunks srcs (c, .default)).flatMap fun src => Stmts.items src.stmts := by
  have := items_session srcs c .default ⟨idle_new h, .inl rfl⟩ (new_data h).symm
  exact this

/-- Items in a loop, a branch that is not taken and a function. -/
def Ex.items : String := "FOR i = 1 TO 3
DATA 1, , TRUE
NEXT
IF FALSE THEN
DATA \"a\"
END IF
FUNCTION f
DATA -7
END FUNCTION
DATA 2"

set_option maxRecDepth 100000 in
example : (match compileProgram [] [] (Ex.text Ex.items) with
    | .ok img => img.data == [some (.integer 1#32), none, some (.boolean true), some (.text "a".toList), some (.integer (-7#32)),
        some (.integer 2#32)] && img.data == Stmts.items (Ex.text Ex.items).stmts
    | .error _ => false) = true := by
  decide +kernel

/-! ## C65: what the callables do -/

/-- **C65** What the built-in callables of the model do to registers and heap is what `stdLib` says about values: the
result or the error and its position, the variables that are assigned, the room that is taken; and what was printed and
how many items of `DATA` were read is determined by the calls so far.  For every image, and for all arguments in the
form in which the compiler passes them. -/
theorem C65_library (O : StdOps) (img : Image) :
    Provides (stdHost O) img (stdLib O byteLen img.data) (stdState O byteLen img.data) := std_provides img

theorem stdTable_builtin : ∀ k md, stdTable.get? k = some md → md.userDefined = false := by
  have key : ∀ (t : FMap Str Md), (t.all fun p => !p.2.userDefined) = true → ∀ k md, t.get? k = some md → md.userDefined = false := by
    intro t
    induction t with
    | nil => intro _ k md h; cases h
    | cons p t ih =>
      intro ha k md h
      rw [List.all_cons, Bool.and_eq_true] at ha
      obtain ⟨k', m⟩ := p
      simp only [FMap.get?] at h
      split at h
      · cases h; simpa using ha.1
      · exact ih ha.2 k md h
  exact key stdTable (by decide)

/-- **C65** What a program printed, and how many of its items it read, is what the interpreter says, where the built-in
callables are those of `stdLib` for the `DATA` statements in the source: when it ends normally, with `END`, with an error
that is not caught, and at any time in between.  Missing: see `program_partial`; the callables that are not in `stdTable`. -/
theorem C65_program_partial (O : StdOps) {src : Source} {img : Image} (h : compileProgram stdTable [] src = .ok img) (F : FloatOps)
    (n maxStack maxHeap : Nat) (hmax : maxStack ≤ 2 ^ 24) :
    let lib := stdLib O byteLen (Stmts.items src.stmts)
    let state := stdState O byteLen (Stmts.items src.stmts)
    (∀ w, run F n maxStack lib (builtins stdTable) src.stmts (fresh maxHeap) = .done w →
      ∃ vm, Reaches F (stdHost O) img (Vm.start maxStack maxHeap (state [])) vm ∧ vmStep F (stdHost O) img vm = .stop .eof vm ∧
        vm.host = state w.log.events) ∧
    (∀ code w, run F n maxStack lib (builtins stdTable) src.stmts (fresh maxHeap) = .ended code w →
      ∃ vm, Reaches F (stdHost O) img (Vm.start maxStack maxHeap (state [])) vm ∧ EndsWith F (stdHost O) img vm code ∧
        vm.host = state w.log.events) ∧
    (∀ pos e w, run F n maxStack lib (builtins stdTable) src.stmts (fresh maxHeap) = .err pos e w →
      ∃ vm vm', Reaches F (stdHost O) img (Vm.start maxStack maxHeap (state [])) vm ∧ Raises F (stdHost O) img vm pos e vm' ∧
        vm'.host = state w.log.events) ∧
    (∀ l, run F n maxStack lib (builtins stdTable) src.stmts (fresh maxHeap) = .going l →
      ∃ vm, Reaches F (stdHost O) img (Vm.start maxStack maxHeap (state [])) vm ∧ vm.host = state l.events) := by
  have hi := items_program h
  have hp := std_provides (O := O) img
  rw [hi] at hp
  exact C54_calls_partial stdTable_builtin h F hp n maxStack maxHeap hmax

/-- Conversions for the examples. -/
def Ex.ops : StdOps where
  lower s := s.map Char.toLower
  upper s := s.map Char.toUpper
  showDouble _ := "0.5".toList
  parseDouble _ := 0
  less a b := decide (a.toInt < b.toInt)
  ofInt _ := 0
  toInt _ := .ok 0
  atMost a b := decide (a.toInt ≤ b.toInt)
  mul a _ := a
  div a _ := a
  tenTo _ := 0
  round := id
  floor := id
  trunc := id
  sqrt := id
  exp := id
  ln := id
  sin := id
  cos := id
  tan := id
  asin := id
  acos := id
  atan := id
  toRadians d := d ||| 1
  toDegrees d := d ||| 2
  ofU32 x := x.setWidth 64
  rngSeed x := x.toNat
  rngNext n := (BitVec.ofNat 32 n, n + 7)
  entropy n := 100 * n
  parseWhole s := if s = "0.5".toList then some 7 else none
  lastColumn := 79
  lastRow := 24
  width := 640
  height := 480
  keys n := if n = 1 then some (.char 'x') else none
  answers := [.line "5 x".toList, .garbled "not UTF-8".toList, .line "-12  ".toList, .line "Yes".toList, .line "99999999999".toList]
  endOfInput := "EOF".toList
  peek _ x y := if x = y then some 3 else none

/-- A program with most of the callables. -/
def Ex.report : String := "DATA 3, \"abc\", , TRUE
READ n, s$
FOR i = 1 TO n
PRINT i; UCASE$(LEFT$(s$, i)), LEN(s$); INSTR(s$, \"c\");
PRINT
NEXT
DIM a(4, 5)
PRINT UBOUND(a, 2), STR$(-7); MID$(s$, 1)
READ k, b?
PRINT k; b?
ON ERROR RESUME NEXT
PRINT LEFT$(s$, -1)
READ k
RESTORE
READ n
PRINT n"

/-- Drives the machine. -/
def Ex.driveStd (img : Image) : Nat → Vm StdState → Vm StdState
  | 0, vm => vm
  | n + 1, vm =>
    match vmStep noFloat (stdHost ops) img vm with
    | .cont vm' => Ex.driveStd img n vm'
    | .stop .yield vm' => Ex.driveStd img n vm'
    | _ => vm

/-- What it prints. -/
def Ex.reportOut : List Printed :=
  [.part " 1 A           3  3 ".toList, .line [], .part " 2 AB          3  3 ".toList, .line [], .part " 3 ABC         3  3 ".toList, .line [],
   .line " 4            -7bc".toList, .line " 0 TRUE".toList, .line " 3".toList]

set_option maxRecDepth 100000 in
/-- The interpreter and the machine print the same. -/
example : (Ex.text Ex.report).err = none ∧
    (match run Ex.noFloat 50 50 (stdLib Ex.ops byteLen (Stmts.items (Ex.text Ex.report).stmts)) (builtins stdTable)
        (Ex.text Ex.report).stmts (fresh 50) with
    | .done w => stdState Ex.ops byteLen (Stmts.items (Ex.text Ex.report).stmts) w.log.events == { StdState.start Ex.ops with out := Ex.reportOut, index := 1 }
    | _ => false) = true ∧
    (match compileProgram stdTable [] (Ex.text Ex.report) with
    | .ok img =>
      let vm := Ex.driveStd img 1000 (Vm.start 50 50 (StdState.start Ex.ops))
      img.code[vm.mach.pc]? == some .eof && vm.host == { StdState.start Ex.ops with out := Ex.reportOut, index := 1 }
    | .error _ => false) = true := by
  refine ⟨?_, ?_, ?_⟩ <;> decide +kernel

/-! ## The fields of PRINT -/

theorem layout_append (O : StdOps) (width : Str → Nat) : ∀ (a b : List (ArgSep × Option Val)) (line : Str),
    layout O width line (a ++ b) = layout O width (layout O width line a) b
  | [], _, _ => rfl
  | (_, _) :: a, b, _ => layout_append O width a b _

theorem layout_prefix (O : StdOps) (width : Str → Nat) : ∀ (a : List (ArgSep × Option Val)) (line : Str), line <+: layout O width line a
  | [], _ => List.prefix_refl _
  | (_, _) :: a, _ => (((List.prefix_append _ _).trans (List.prefix_append _ _)).trans (layout_prefix O width a _))

/-- All characters are ASCII. -/
def Ascii (s : Str) : Prop := ∀ c ∈ s, c.toNat < 128

theorem Ascii.append {s t : Str} (hs : Ascii s) (ht : Ascii t) : Ascii (s ++ t) := fun c hc =>
  (List.mem_append.1 hc).elim (hs c) (ht c)

theorem layout_ascii (O : StdOps) (width : Str → Nat) : ∀ (a : List (ArgSep × Option Val)) (line : Str), Ascii line →
    (∀ sep v, (sep, some v) ∈ a → Ascii (shownVal O v)) → Ascii (layout O width line a)
  | [], _, h, _ => h
  | (sep, v) :: a, line, h, ha => by
    refine layout_ascii O width a _ ((h.append ?_).append ?_) fun s v hm => ha s v (List.mem_cons_of_mem _ hm)
    · cases v with
      | none => intro c hc; cases hc
      | some v => exact ha sep v List.mem_cons_self
    · intro c hc
      rw [(List.mem_replicate.1 hc).2]
      decide

theorem layout_long (O : StdOps) (width : Str → Nat) (line : Str) (v : Option Val) :
    layout O width line [(.long, v)] = (line ++ (v.map (shownVal O)).getD []) ++
      List.replicate (14 - width (line ++ (v.map (shownVal O)).getD []) % 14) ' ' := rfl

/-- **C65** What follows a comma in a `PRINT` starts in a column that is a multiple of 14, counted from where the text of
this statement starts, and at least one space is before it; if all the text before is ASCII.  Missing: other text
(`C65_counterexample`), text that an earlier `PRINT` left in the line. -/
theorem C65_fields_partial (O : StdOps) (items : List (ArgSep × Option Val)) (v : Option Val) (rest : List (ArgSep × Option Val))
    (ha : ∀ sep x, (sep, some x) ∈ items ++ [(.long, v)] → Ascii (shownVal O x)) :
    ∃ before after, layout O byteLen [] (items ++ (.long, v) :: rest) = before ++ after ∧ before.length % 14 = 0 ∧
      before.getLast? = some ' ' ∧ layout O byteLen before rest = before ++ after ∧
      layout O byteLen [] (items ++ [(.end, v)]) <+: before := by
  let full := layout O byteLen [] items ++ (v.map (shownVal O)).getD []
  have hf : Ascii full := by
    refine (layout_ascii O byteLen items [] (by intro c hc; cases hc) fun s x h => ha s x (List.mem_append_left _ h)).append ?_
    cases v with
    | none => intro c hc; cases hc
    | some x => exact ha .long x (List.mem_append_right _ List.mem_cons_self)
  have hb : byteLen full = full.length := Edit.byteLen_ascii hf
  refine ⟨full ++ List.replicate (14 - full.length % 14) ' ', ?_⟩
  have hl : layout O byteLen [] (items ++ [(.long, v)]) = full ++ List.replicate (14 - full.length % 14) ' ' := by
    rw [layout_append, layout_long, ← hb]
  obtain ⟨t, ht⟩ := layout_prefix O byteLen rest (full ++ List.replicate (14 - full.length % 14) ' ')
  have hm : full.length % 14 < 14 := Nat.mod_lt _ (by decide)
  refine ⟨t, ?_, ?_, ?_, ht.symm, ?_⟩
  · rw [show items ++ (ArgSep.long, v) :: rest = (items ++ [(.long, v)]) ++ rest by simp, layout_append, hl, ht]
  · rw [List.length_append, List.length_replicate]
    omega
  · obtain ⟨k, hk⟩ : ∃ k, 14 - full.length % 14 = k + 1 := ⟨13 - full.length % 14, by omega⟩
    rw [hk, List.replicate_succ', ← List.append_assoc, List.getLast?_append]
    rfl
  · rw [layout_append]
    show full ++ List.replicate (0 : Nat) ' ' <+: _
    rw [List.replicate_zero, List.append_nil]
    exact List.prefix_append _ _

/-- `PRINT "ab", 5; TRUE, -1` -/
example : layout Ex.ops byteLen [] [(.long, some (.text "ab".toList)), (.short, some (.int 5#32)), (.long, some (.bool true)), (.end, some (.int (-1#32)))]
    = "ab             5 TRUE       -1".toList := by decide +kernel

example : ∀ sep x, (sep, some x) ∈ [(ArgSep.long, some (.text "ab".toList)), (.short, some (.int 5#32))] ++ [(.long, some (.bool true))] →
    Ascii (shownVal Ex.ops x) := by
  intro sep x h
  simp only [List.cons_append, List.nil_append, List.mem_cons, Prod.mk.injEq, Option.some.injEq, List.not_mem_nil, or_false] at h
  rcases h with ⟨_, rfl⟩ | ⟨_, rfl⟩ | ⟨_, rfl⟩ <;> (intro c hc; revert c; decide +kernel)

/-- **C65** `PRINT "ñ", "x"`: the second field starts in column 13 and not 14, since the bytes are counted. -/
theorem C65_counterexample : layout Ex.ops byteLen [] [(.long, some (.text "ñ".toList)), (.end, some (.text "x".toList))] =
    "ñ            x".toList ∧ "ñ            ".toList.length = 13 := by
  decide +kernel

end EB
