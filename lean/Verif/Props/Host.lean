import Verif.Props.Calls
/-!
# C54: what the host sees

The calls of built-in callables that a program makes, and a small host as an example: `OUT` writes an integer, `SAY`
a string, `IN` assigns 7 to an integer variable, `TWICE%` doubles an integer and fails for negative ones, and `HI$` is
a new string.
-/

namespace EB
open Spec

namespace Ex

/-- An answer that no callable can give. -/
def noReply (room : Nat) : Reply := ⟨.ok none, [], room + 1⟩

/-- The built-in callables. -/
def lib : Lib := fun _ room q =>
  if q.name = "OUT".toList then
    match q.ret, q.args with
    | none, [(.val (.int _), _)] => ⟨.ok none, [], 0⟩
    | _, _ => noReply room
  else if q.name = "SAY".toList then
    match q.ret, q.args with
    | none, [(.val (.text _), _)] => ⟨.ok none, [], 0⟩
    | _, _ => noReply room
  else if q.name = "IN".toList then
    match q.ret, q.args with
    | none, [(.ref (.scalar .integer) p, _)] => ⟨.ok none, [(p, .int 7#32)], 0⟩
    | _, _ => noReply room
  else if q.name = "TWICE".toList then
    match q.ret, q.args with
    | some .integer, [(.val (.int i), _)] =>
      if i.toInt < 0 then ⟨.error (none, "Negative".toList), [], 0⟩ else ⟨.ok (some (.int (i + i))), [], 0⟩
    | _, _ => noReply room
  else if q.name = "HI".toList then
    match q.ret, q.args with
    | some .text, [] => ⟨.ok (some (.text "hi".toList)), [], 1⟩
    | _, _ => noReply room
  else noReply room

/-- What such a call writes. -/
def written : Request × Reply → Option Val
  | (⟨_, none, [(.val v, _)], _⟩, _) => some v
  | _ => none

/-- The host knows what was written. -/
def state (events : List (Request × Reply)) : List Val := events.filterMap written

/-- The host, in terms of registers. -/
def host : Host (List Val) where
  exec := fun idx first _ regs heap _ img st =>
    match img.upcalls[idx.toNat]? with
    | none => (st, regs, heap, .ok ())
    | some k =>
      if k = "OUT".toList then (st ++ [.int ((regs first).setWidth 32)], regs, heap, .ok ())
      else if k = "SAY".toList then
        match (DatumPtr.ofU64 (regs first)).bind fun p => p.resolveString img.constants heap with
        | some s => (st ++ [.text s], regs, heap, .ok ())
        | none => (st, regs, heap, .ok ())
      else if k = "IN".toList then
        match taggedRegParse (regs first) with
        | some (i, _) => (st, fun j => if j = i then ofI32 7#32 else regs j, heap, .ok ())
        | none => (st, regs, heap, .ok ())
      else if k = "TWICE".toList then
        let i : I32 := (regs (first + 1)).setWidth 32
        if i.toInt < 0 then (st, regs, heap, .error (none, "Negative".toList))
        else (st, fun j => if j = first then ofI32 (i + i) else regs j, heap, .ok ())
      else if k = "HI".toList then
        (st, fun j => if j = first then ptrForHeap heap.data.length else regs j, { heap with data := heap.data ++ [.text "hi".toList] }, .ok ())
      else (st, regs, heap, .ok ())

theorem setWidth_ofI32 (i : I32) : (ofI32 i).setWidth 32 = i := by
  unfold ofI32
  ext j hj
  simp [BitVec.getLsbD_signExtend, hj]
  intro h; omega

theorem not_fits {args : List (Arg × LineCol)} {ret : Option ExprType} {room : Nat} : (noReply room).fits args ret room ≠ true := by
  simp [noReply, Reply.fits]

/-- What a call that gets an answer looks like. -/
theorem lib_fits {l : Log} {room : Nat} {q : Request} (h : (lib l room q).fits q.args q.ret room = true) :
    (∃ i p, q.name = "OUT".toList ∧ q.ret = none ∧ q.args = [(.val (.int i), p)]) ∨
    (∃ s p, q.name = "SAY".toList ∧ q.ret = none ∧ q.args = [(.val (.text s), p)]) ∨
    (∃ v p, q.name = "IN".toList ∧ q.ret = none ∧ q.args = [(.ref (.scalar .integer) v, p)]) ∨
    (∃ i p, q.name = "TWICE".toList ∧ q.ret = some .integer ∧ q.args = [(.val (.int i), p)]) ∨
    (q.name = "HI".toList ∧ q.ret = some .text ∧ q.args = []) := by
  obtain ⟨name, ret, args, vars⟩ := q
  simp only [lib] at h ⊢
  split at h
  next h1 =>
    split at h
    · exact .inl ⟨_, _, h1, rfl, rfl⟩
    · exact absurd h not_fits
  · split at h
    next h1 =>
      split at h
      · exact .inr (.inl ⟨_, _, h1, rfl, rfl⟩)
      · exact absurd h not_fits
    · split at h
      next h1 =>
        split at h
        · exact .inr (.inr (.inl ⟨_, _, h1, rfl, rfl⟩))
        · exact absurd h not_fits
      · split at h
        next h1 =>
          split at h
          · exact .inr (.inr (.inr (.inl ⟨_, _, h1, rfl, rfl⟩)))
          · exact absurd h not_fits
        · split at h
          next h1 =>
            split at h
            · exact .inr (.inr (.inr (.inr ⟨h1, rfl, rfl⟩)))
            · exact absurd h not_fits
          · exact absurd h not_fits

/-- The host provides the callables, for all images. -/
theorem provides (img : Image) : Provides host img lib state := by
  intro idx q first fp room regs heap l hname hlen hslots hvars _ h0 hroom hfits
  have st : ∀ r : Reply, state (l.events ++ [(q, r)]) = state l.events ++ (written (q, r)).toList := by
    intro r
    simp only [state, List.filterMap_append, List.filterMap_cons, List.filterMap_nil]
    cases written (q, r) <;> rfl
  rw [st]
  have hshape := lib_fits hfits
  obtain ⟨name, ret, args, vars⟩ := q
  simp only at hname hshape
  simp only [host, hname]
  rcases hshape with ⟨i, p, rfl, rfl, rfl⟩ | ⟨s, p, rfl, rfl, rfl⟩ | ⟨v, p, rfl, rfl, rfl⟩ | ⟨i, p, rfl, rfl, rfl⟩ | ⟨rfl, rfl, rfl⟩
  · have hx : regs first = ofI32 i := hslots 0 (.val (.int i)) rfl
    refine ⟨regs, heap, ?_, ?_⟩
    · rw [if_pos rfl, hx, setWidth_ofI32]; rfl
    · exact ⟨fun v h => (by cases h), fun p v h => (by cases h), fun _ _ _ => rfl, List.prefix_refl _, rfl, rfl⟩
  · have hx : (DatumPtr.ofU64 (regs first)).bind (fun p => p.resolveString img.constants heap) = some s :=
      hslots 0 (.val (.text s)) rfl
    refine ⟨regs, heap, ?_, ?_⟩
    · rw [if_neg (by decide), if_pos rfl, hx]; rfl
    · exact ⟨fun v h => (by cases h), fun p v h => (by cases h), fun _ _ _ => rfl, List.prefix_refl _, rfl, rfl⟩
  · have hx : taggedRegParse (regs first) = some (v.index fp, .integer) := hslots 0 (.ref .integer v) rfl
    refine ⟨fun j => if j = v.index fp then ofI32 7#32 else regs j, heap, ?_, ?_⟩
    · rw [if_neg (by decide), if_neg (by decide), if_pos rfl, hx]
      simp only [written, Option.toList, List.append_nil]
      rfl
    · refine ⟨fun v h => (by cases h), fun q x h => ?_, fun j _ h => ?_, List.prefix_refl _, rfl, rfl⟩
      · have h : (if q = v then some (Cell.scalar (.int 7#32)) else none) = some (.scalar x) := h
        split at h
        next hq => cases h; subst hq; simp only [if_true]; rfl
        next => cases h
      · have : j ≠ v.index fp := h v (by show (if v = v then some (Cell.scalar (.int 7#32)) else none) ≠ none; simp)
        simp [this]
  · have hx : regs (first + 1) = ofI32 i := hslots 0 (.val (.int i)) rfl
    have hlib : lib l room ⟨"TWICE".toList, some .integer, [(.val (.int i), p)], vars⟩ =
      if i.toInt < 0 then ⟨.error (none, "Negative".toList), [], 0⟩ else ⟨.ok (some (.int (i + i))), [], 0⟩ := rfl
    simp only [hlib, if_neg (show ¬ "TWICE".toList = "OUT".toList by decide), if_neg (show ¬ "TWICE".toList = "SAY".toList by decide),
      if_neg (show ¬ "TWICE".toList = "IN".toList by decide), if_true, hx, setWidth_ofI32]
    by_cases hi : i.toInt < 0
    · simp only [if_pos hi]
      exact ⟨regs, heap, by simp only [written, Option.toList, List.append_nil]; rfl,
        fun v h => (by cases h), fun p v h => (by cases h), fun _ _ _ => rfl, List.prefix_refl _, rfl, rfl⟩
    · simp only [if_neg hi]
      refine ⟨_, heap, by simp only [written, Option.toList, List.append_nil]; rfl, fun v h => ?_, fun p v h => (by cases h), fun j h _ => ?_, List.prefix_refl _, rfl, rfl⟩
      · cases h; simp only [if_true]; rfl
      · have : j ≠ first := h.resolve_left (by simp)
        simp [this]
  · have hroom' : 1 ≤ room := (fits_iff hfits).1
    refine ⟨fun j => if j = first then ptrForHeap heap.data.length else regs j,
      { heap with data := heap.data ++ [.text "hi".toList] }, ?_, ?_⟩
    · rw [if_neg (by decide), if_neg (by decide), if_neg (by decide), if_neg (by decide), if_pos rfl]
      simp only [written, Option.toList, List.append_nil]
      rfl
    · refine ⟨fun v h => ?_, fun p v h => (by cases h), fun j h _ => ?_, List.prefix_append _ _, by simp; rfl, rfl⟩
      · cases h
        show (DatumPtr.ofU64 (if first = first then ptrForHeap heap.data.length else regs first)).bind _ = _
        rw [if_pos rfl, (C02_datumPtr heap.data.length (by omega)).1]
        simp [DatumPtr.resolveString]
      · have : j ≠ first := h.resolve_left (by simp)
        simp [this]

/-- The callables as the compiler knows them; `SAY` is asynchronous. -/
def up : FMap Str Md :=
  [("OUT".toList, ⟨"OUT".toList, none, false, [⟨[.reqValue "x".toList .integer .end], none⟩], false⟩),
   ("SAY".toList, ⟨"SAY".toList, none, true, [⟨[.reqValue "s".toList .text .end], none⟩], false⟩),
   ("IN".toList, ⟨"IN".toList, none, false, [⟨[.reqRef "v".toList false true .end], none⟩], false⟩),
   ("TWICE".toList, ⟨"TWICE".toList, some .integer, false, [⟨[.reqValue "x".toList .integer .end], none⟩], false⟩),
   ("HI".toList, ⟨"HI".toList, some .text, false, [⟨[], none⟩], false⟩)]

theorem up_builtin : ∀ k md, up.get? k = some md → md.userDefined = false := by
  intro k md
  unfold up
  simp only [FMap.get?]
  repeat' split
  all_goals intro hk; cases hk
  all_goals rfl

end Ex

/-! ## C54 -/

/-- **C54** The calls of built-in callables that a compiled program makes are those that the interpreter says, in that
order and with those arguments, also when the program ends early, fails or does not end: the state of the host is the
one that belongs to this list of calls.  Missing: see `program_partial`. -/
theorem C54_calls_partial {H : Type} {up : FMap Str Md} (hup : ∀ k md, up.get? k = some md → md.userDefined = false) {src : Source}
    {img : Image} (h : compileProgram up [] src = .ok img) (F : FloatOps) {host : Host H} {lib : Lib}
    {state : List (Request × Reply) → H} (hprov : Provides host img lib state) (n maxStack maxHeap : Nat)
    (hmax : maxStack ≤ 2 ^ 24) :
    (∀ w, run F n maxStack lib (builtins up) src.stmts (fresh maxHeap) = .done w →
      ∃ vm, Reaches F host img (Vm.start maxStack maxHeap (state [])) vm ∧ vmStep F host img vm = .stop .eof vm ∧
        vm.host = state w.log.events) ∧
    (∀ code w, run F n maxStack lib (builtins up) src.stmts (fresh maxHeap) = .ended code w →
      ∃ vm, Reaches F host img (Vm.start maxStack maxHeap (state [])) vm ∧ EndsWith F host img vm code ∧
        vm.host = state w.log.events) ∧
    (∀ pos e w, run F n maxStack lib (builtins up) src.stmts (fresh maxHeap) = .err pos e w →
      ∃ vm vm', Reaches F host img (Vm.start maxStack maxHeap (state [])) vm ∧ Raises F host img vm pos e vm' ∧
        vm'.host = state w.log.events) ∧
    (∀ l, run F n maxStack lib (builtins up) src.stmts (fresh maxHeap) = .going l →
      ∃ vm, Reaches F host img (Vm.start maxStack maxHeap (state [])) vm ∧ vm.host = state l.events) := by
  have hp := program_partial hup h F hprov n maxStack maxHeap hmax
  refine ⟨fun w hr => ?_, fun code w hr => ?_, fun pos e w hr => ?_, fun l hr => ?_⟩ <;> rw [hr] at hp
  · obtain ⟨vm, h1, h2, _, _, _, h3⟩ := hp
    exact ⟨vm, h1, h2, h3.host⟩
  · obtain ⟨vm, h1, h2, _, h3⟩ := hp
    exact ⟨vm, h1, h2, h3.host⟩
  · obtain ⟨vm, vm', h1, h2, _, h3⟩ := hp
    exact ⟨vm, vm', h1, h2, h3.host⟩
  · obtain ⟨vm, h1, h2⟩ := hp
    exact ⟨vm, h1, h2.host⟩

/-- A program that uses all of the callables; the call of `TWICE%` with -1 fails. -/
def Ex.talk : String := "OUT TWICE%(4) + 1
IN x
OUT x
SAY HI$ + \"!\"
ON ERROR RESUME NEXT
OUT TWICE%(x - 8)
OUT 3"

/-- Drives the machine over yields and asynchronous calls. -/
def Ex.driveHost (img : Image) : Nat → Vm (List Val) → Vm (List Val)
  | 0, vm => vm
  | n + 1, vm =>
    match vmStep noFloat Ex.host img vm with
    | .cont vm' => Ex.driveHost img n vm'
    | .stop .yield vm' => Ex.driveHost img n vm'
    | .stop .upcallAsync vm' =>
      match invokePending Ex.host img vm' with
      | .cont vm' => Ex.driveHost img n vm'
      | _ => vm
    | _ => vm

set_option maxRecDepth 100000 in
/-- The interpreter and the machine write 9, 7, "hi!" and 3. -/
example : (Ex.text Ex.talk).err = none ∧
    (match run Ex.noFloat 50 50 Ex.lib (builtins Ex.up) (Ex.text Ex.talk).stmts (fresh 50) with
    | .done w => Ex.state w.log.events == [.int 9#32, .int 7#32, .text "hi!".toList, .int 3#32]
    | _ => false) = true ∧
    (match compileProgram Ex.up [] (Ex.text Ex.talk) with
    | .ok img =>
      let vm := Ex.driveHost img 200 (Vm.start 50 50 [])
      img.code[vm.mach.pc]? == some .eof && vm.host == [.int 9#32, .int 7#32, .text "hi!".toList, .int 3#32]
    | .error _ => false) = true := by
  decide +kernel

/-- A program that does not end. -/
def Ex.endless : String := "DO
OUT 1
LOOP"

/-- Its text. -/
def Ex.endlessBody : Stmts :=
  .cons (.call ⟨"OUT".toList, none⟩ ⟨2, 1⟩ (.cons (.int 1#32 ⟨2, 5⟩) .end ⟨2, 6⟩ .nil)) .nil

theorem Ex.endless_stmts : (Ex.text Ex.endless).stmts = .cons (.doLoop .infinite Ex.endlessBody) .nil := rfl

theorem Ex.endless_round {F : FloatOps} {n : Nat} {fn sub gs cr} (w : World) : ∃ w1,
    execStmts F n ⟨fn, sub, Ex.lib, gs, cr⟩ (builtins Ex.up) Ex.endlessBody w = .done w1 ∧
      Ex.state w1.log.events = Ex.state w.log.events ++ [.int 1#32] := by
  refine ⟨{ w with log := ⟨w.log.events ++ [(⟨"OUT".toList, none, [(.val (.int 1#32), ⟨2, 5⟩)], [none]⟩, ⟨.ok none, [], 0⟩)], w.log.lastError⟩ }, ?_, ?_⟩
  · rfl
  · simp [Ex.state, Ex.written]

theorem Ex.endless_rounds {F : FloatOps} {n : Nat} {fn sub gs cr} (k : Nat) : ∀ w : World, ∃ l,
    forever (loopBody F n ⟨fn, sub, Ex.lib, gs, cr⟩ (builtins Ex.up) Ex.endlessBody) k w = .going l ∧
      Ex.state l.events = Ex.state w.log.events ++ List.replicate k (.int 1#32) := by
  induction k with
  | zero => intro w; exact ⟨w.log, rfl, by simp⟩
  | succ k ih =>
    intro w
    obtain ⟨w1, h1, h2⟩ := Ex.endless_round (F := F) (n := n) (fn := fn) (sub := sub) (gs := gs) (cr := cr) (forget (builtins Ex.up) w)
    obtain ⟨l, h3, h4⟩ := ih w1
    refine ⟨l, ?_, ?_⟩
    · show (loopBody F n ⟨fn, sub, Ex.lib, gs, cr⟩ (builtins Ex.up) Ex.endlessBody w).bind _ = _
      unfold loopBody
      rw [h1]
      exact h3
    · rw [h4, h2, List.append_assoc]
      rfl

/-- It writes 1 as often as one likes. -/
example (n : Nat) : ∃ img vm, compileProgram Ex.up [] (Ex.text Ex.endless) = .ok img ∧
    Reaches Ex.noFloat Ex.host img (Vm.start 50 50 []) vm ∧ vm.host = List.replicate n (.int 1#32) := by
  have h2 : (compileProgram Ex.up [] (Ex.text Ex.endless)).isOk = true := by decide +kernel
  cases hc : compileProgram Ex.up [] (Ex.text Ex.endless) with
  | error e => rw [hc] at h2; cases h2
  | ok img =>
    obtain ⟨l, hl, hs⟩ := Ex.endless_rounds (F := Ex.noFloat) (n := n) (fn := (callsOf Ex.noFloat n 50 Ex.lib (builtins Ex.up) (Ex.text Ex.endless).stmts).fn)
      (sub := (callsOf Ex.noFloat n 50 Ex.lib (builtins Ex.up) (Ex.text Ex.endless).stmts).sub)
      (gs := (callsOf Ex.noFloat n 50 Ex.lib (builtins Ex.up) (Ex.text Ex.endless).stmts).gosub) (cr := false) n (fresh 50)
    obtain ⟨vm, h4, h5⟩ := (C54_calls_partial Ex.up_builtin hc Ex.noFloat (Ex.provides img) n 50 50 (by decide)).2.2.2 l (by
      rw [Ex.endless_stmts] at hl ⊢
      show follow _ _ _ _ _ _ (recover _ .nil _ (catchDo (forever (loopBody _ _ _ _ _) _ _))) = _
      rw [show forever (loopBody Ex.noFloat n (callsAt Ex.noFloat n Ex.lib _ 50 false _ _) (builtins Ex.up) Ex.endlessBody) n (fresh 50) = .going l from hl]
      exact follow_other (by intro _ _ h; cases h))
    exact ⟨img, vm, rfl, h4, h5.trans (by simpa [Ex.state, fresh] using hs)⟩

end EB
