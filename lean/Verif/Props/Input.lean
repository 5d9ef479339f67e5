import Verif.Props.Numbers
import Verif.Lemmas.SettledStd
import Verif.Spec.Input
/-!
# C70, C71: the console as programs use it
-/

namespace EB
open Spec

theorem asks_asking {args : List (Arg × LineCol)} {prompt : Str} {t : ExprType} {p : Place} (h : Asks args prompt t p) :
    asking args = some (prompt, t, p) := by
  cases h <;> rfl

/-! ## C70: INPUT -/

theorem complaints_cons {prompt : Str} {before : List Answer} {O : StdOps} {t : ExprType} : ∀ (refused : List (Answer × Str)) (rest : List Answer),
    (∀ x ∈ refused, Refused O t x.1 x.2) →
    conversation O t prompt before (refused.map (·.1) ++ rest) =
      ((List.range refused.length).flatMap fun i =>
        match refused[i]? with
        | some (_, why) =>
          [.asked prompt (offered (before ++ (refused.take i).map (·.1))), .line ("Retry input: ".toList ++ why)]
        | none => []) ++ conversation O t prompt (before ++ refused.map (·.1)) rest
  | [], rest, _ => by simp
  | (a, why) :: refused, rest, h => by
    have h1 : taking O t a = .error why := h (a, why) List.mem_cons_self
    rw [List.map_cons, List.cons_append]
    conv_lhs => unfold conversation
    simp only [h1]
    rw [complaints_cons (before := before ++ [a]) refused rest fun x hx => h x (List.mem_cons_of_mem _ hx)]
    rw [List.length_cons, List.range_succ_eq_map, List.flatMap_cons, List.flatMap_map]
    simp [List.append_assoc]

theorem conversation_eq {prompt : Str} {O : StdOps} {t : ExprType} (refused : List (Answer × Str)) (rest : List Answer)
    (h : ∀ x ∈ refused, Refused O t x.1 x.2) :
    conversation O t prompt [] (refused.map (·.1) ++ rest) =
      complaints prompt refused ++ conversation O t prompt (refused.map (·.1)) rest := by
  have := complaints_cons (before := []) (prompt := prompt) refused rest h
  simp only [List.nil_append] at this
  exact this

theorem firstTaken_refused {O : StdOps} {t : ExprType} : ∀ (refused : List (Answer × Str)) (rest : List Answer),
    (∀ x ∈ refused, Refused O t x.1 x.2) → firstTaken O t (refused.map (·.1) ++ rest) = firstTaken O t rest ∧
      usedUp O t (refused.map (·.1) ++ rest) = refused.length + usedUp O t rest
  | [], rest, _ => by simp
  | (a, why) :: refused, rest, h => by
    have h1 : taking O t a = .error why := h (a, why) List.mem_cons_self
    obtain ⟨h2, h3⟩ := firstTaken_refused refused rest fun x hx => h x (List.mem_cons_of_mem _ hx)
    rw [List.map_cons, List.cons_append]
    refine ⟨?_, ?_⟩
    · rw [← h2]
      simp [firstTaken, h1, Except.toOption]
    · rw [usedUp_error h1, h3, List.length_cons]
      omega

/-- The answer and the state after it. -/
theorem input_call {O : StdOps} {data : List (Option ConstantDatum)} {l : Log} {room : Nat} {q : Request} {prompt : Str} {t : ExprType} {p : Place}
    (hname : q.name = "INPUT".toList) (hret : q.ret = none) (hargs : Asks q.args prompt t p) (r : Reply) :
    stdLib O byteLen data l room q = (match firstTaken O t (O.answers.drop (stdState O byteLen data l.events).answered) with
      | some v => stores room p v
      | none => fails none O.endOfInput) ∧
    stdAfter O byteLen data (stdState O byteLen data l.events) (q, r) =
      (let st := stdState O byteLen data l.events
       { st with out := st.out ++ conversation O t prompt [] (O.answers.drop st.answered),
                 answered := st.answered + usedUp O t (O.answers.drop st.answered) }) := by
  refine ⟨?_, ?_⟩
  · unfold stdLib
    have hm : (stdMeanings O data).find? (·.1 = "INPUT".toList) = some ("INPUT".toList, input O) := rfl
    rw [hname, hm]
    simp only [Option.bind_some, input]
    rw [if_pos hret, asks_asking hargs]
    rfl
  · rw [stdAfter_console (by rw [hname]; unfold StatefulHere; decide)]
    have : consoleAfter O (stdState O byteLen data l.events) q = afterInput O (stdState O byteLen data l.events) q.args := by
      unfold consoleAfter
      rw [hname]
      rfl
    rw [this]
    unfold afterInput
    rw [asks_asking hargs]

/-- **C70** The first answer that is a value of the variable's type is stored, whatever was typed before: each of the answers
before it is refused with a message that says why, and the same question is asked again with the last text offered for
correction; nothing that is typed later is used up.  For every history of calls. -/
theorem C70_input (O : StdOps) (data : List (Option ConstantDatum)) (l : Log) (room : Nat) (q : Request) {prompt : Str} {t : ExprType}
    {p : Place} (hname : q.name = "INPUT".toList) (hret : q.ret = none) (hargs : Asks q.args prompt t p)
    {refused : List (Answer × Str)} {a : Answer} {later : List Answer} {v : Val}
    (htyped : O.answers.drop (stdState O byteLen data l.events).answered = refused.map (·.1) ++ a :: later)
    (hno : ∀ x ∈ refused, Refused O t x.1 x.2) (hyes : taking O t a = .ok v) :
    stdLib O byteLen data l room q = stores room p v ∧ v.ty = t ∧
    ∀ r, let st := stdState O byteLen data l.events
      let st' := stdAfter O byteLen data st (q, r)
      st'.out = st.out ++ complaints prompt refused ++ [.asked prompt (offered (refused.map (·.1)))] ∧
      O.answers.drop st'.answered = later := by
  obtain ⟨h1, h2⟩ := firstTaken_refused (O := O) (t := t) refused (a :: later) hno
  have h3 : firstTaken O t (a :: later) = some v := by simp [firstTaken, hyes, Except.toOption]
  have h4 : usedUp O t (a :: later) = 1 := usedUp_ok hyes
  refine ⟨?_, ?_, fun r => ?_⟩
  · rw [(input_call hname hret hargs ⟨.ok none, [], 0⟩).1, htyped, h1, h3]
  · cases a with
    | line s => exact Settle.valueOfText_ty hyes
    | garbled => cases hyes
  · simp only
    rw [(input_call (room := room) hname hret hargs r).2]
    simp only
    rw [htyped, conversation_eq _ _ hno, h2, h4]
    refine ⟨?_, ?_⟩
    · simp [conversation, hyes]
    · rw [← List.drop_drop, htyped, show refused.length + 1 = (refused.map (·.1)).length + 1 by simp]
      rw [← List.drop_drop, List.drop_left]
      rfl

/-- **C70** If the input ends before there is such an answer, the call fails and no variable is changed. -/
theorem C70_end (O : StdOps) (data : List (Option ConstantDatum)) (l : Log) (room : Nat) (q : Request) {prompt : Str} {t : ExprType}
    {p : Place} (hname : q.name = "INPUT".toList) (hret : q.ret = none) (hargs : Asks q.args prompt t p)
    {refused : List (Answer × Str)}
    (htyped : O.answers.drop (stdState O byteLen data l.events).answered = refused.map (·.1))
    (hno : ∀ x ∈ refused, Refused O t x.1 x.2) :
    stdLib O byteLen data l room q = ⟨.error (none, O.endOfInput), [], 0⟩ ∧
    ∀ r, let st := stdState O byteLen data l.events
      (stdAfter O byteLen data st (q, r)).out = st.out ++ complaints prompt refused ++ [.asked prompt (offered (refused.map (·.1)))] := by
  obtain ⟨h1, h2⟩ := firstTaken_refused (O := O) (t := t) refused [] hno
  rw [List.append_nil] at h1
  refine ⟨?_, fun r => ?_⟩
  · rw [(input_call hname hret hargs ⟨.ok none, [], 0⟩).1, htyped, h1]
    rfl
  · simp only
    rw [(input_call (room := room) hname hret hargs r).2]
    simp only
    rw [htyped, ← List.append_nil (refused.map (·.1)), conversation_eq _ _ hno]
    simp [conversation]

/-- **C70** Nothing but `INPUT` uses up what was typed. -/
theorem C70_others (O : StdOps) (data : List (Option ConstantDatum)) (st : StdState) (e : Request × Reply) (h : e.1.name ≠ "INPUT".toList) :
    (stdAfter O byteLen data st e).answered = st.answered := by
  unfold stdAfter consoleAfter
  simp only [if_neg h]
  repeat' split
  all_goals rfl

/-- **C70** A text is an integer if it is a decimal number, with or without a sign, that fits into 32 bits, and only blanks may
follow it. -/
theorem C70_integer (O : StdOps) (s : Str) (n : I32) : taking O .integer (.line s) = .ok (.int n) ↔
    decimal (s.reverse.dropWhile isWhite).reverse = some n.toInt := by
  simp only [taking, valueOfText]
  cases hd : decimal (s.reverse.dropWhile isWhite).reverse with
  | none => simp
  | some k =>
    simp only [Option.some.injEq]
    by_cases hk : -2 ^ 31 ≤ k ∧ k < 2 ^ 31
    · rw [if_pos hk]
      simp only [Except.ok.injEq, Val.int.injEq]
      constructor
      · rintro rfl
        rw [BitVec.toInt_ofInt, Int.bmod_def]
        omega
      · rintro rfl
        exact BitVec.ofInt_toInt
    · rw [if_neg hk]
      simp only [reduceCtorEq, false_iff]
      rintro rfl
      have h1 := BitVec.toInt_lt (x := n)
      have h2 := BitVec.le_toInt (x := n)
      omega

/-- `INPUT "n"; i` with "5 x", a line that is not text and "-12  ": the variable is -12, after two complaints. -/
example : Asks [(.opt .short (.text "n".toList), ⟨1, 7⟩), (.ref (.scalar .integer) (.local 0), ⟨1, 12⟩)] "n? ".toList .integer (.local 0) ∧
    Refused Ex.ops .integer (.line "5 x".toList) "Invalid integer literal 5 x".toList ∧
    Refused Ex.ops .integer (.garbled "not UTF-8".toList) "not UTF-8".toList ∧
    taking Ex.ops .integer (.line "-12  ".toList) = .ok (.int (-12)) ∧
    complaints "n? ".toList [(.line "5 x".toList, "Invalid integer literal 5 x".toList), (.garbled "not UTF-8".toList, "not UTF-8".toList)] =
      [.asked "n? ".toList [], .line "Retry input: Invalid integer literal 5 x".toList,
       .asked "n? ".toList "5 x".toList, .line "Retry input: not UTF-8".toList] ∧
    Ex.ops.answers.drop 0 = [(Answer.line "5 x".toList), .garbled "not UTF-8".toList] ++ .line "-12  ".toList ::
      [.line "Yes".toList, .line "99999999999".toList] :=
  ⟨.semicolon, by unfold Refused; decide +kernel, rfl, by decide +kernel, by decide +kernel, rfl⟩

/-! ## C71: what arrives at the console is in range -/

theorem allMeasured_ok : ∀ {ms : List Measure} {args : List (Arg × LineCol)} {ns : List Int}, Orders.allMeasured ms args = some (.ok ns) →
    List.Forall₂ Measured ms ns
  | [], [], ns, h => by
    cases h
    exact .nil
  | [], _ :: _, ns, h => by simp [Orders.allMeasured] at h
  | m :: ms, args, ns, h => by
    unfold Orders.allMeasured at h
    split at h
    · rename_i heq; cases heq
    · rename_i m' ms' n pos rest heq
      cases heq
      obtain ⟨c, h1, h2⟩ := Option.map_eq_some_iff.1 h
      cases hm : Orders.measured m n pos with
      | error e => rw [hm] at h2; cases h2
      | ok k =>
        rw [hm] at h2
        cases c with
        | error e => cases h2
        | ok l =>
          cases h2
          refine .cons ?_ (allMeasured_ok h1)
          cases m with
          | coordinate =>
            simp only [Orders.measured] at hm
            split at hm
            · cases hm
              simp only [Measured]
              omega
            · cases hm
          | radius =>
            simp only [Orders.measured] at hm
            split at hm
            · cases hm
            · split at hm
              · cases hm
                simp only [Measured]
                omega
              · cases hm
    · cases h

theorem order_displayable {O : StdOps} {name : Str} {order : Order} (hm : (name, order) ∈ orders O) {args : List (Arg × LineCol)} {ops : List Printed}
    (h : order args = some (.ok ops)) : ∀ op ∈ ops, Displayable O op := by
  have draw : ∀ shape, Orders.draw shape args = some (.ok ops) → ∀ op ∈ ops, Displayable O op := by
    intro shape h
    unfold Orders.draw at h
    obtain ⟨c, h1, h2⟩ := Option.map_eq_some_iff.1 h
    cases c with
    | error e => cases h2
    | ok ns =>
      cases h2
      intro op hop
      rw [List.mem_singleton] at hop
      subst hop
      exact allMeasured_ok h1
  simp only [orders, List.mem_cons, Prod.mk.injEq, List.not_mem_nil, or_false] at hm
  rcases hm with ⟨_, rfl⟩ | ⟨_, rfl⟩ | ⟨_, rfl⟩ | ⟨_, rfl⟩ | ⟨_, rfl⟩ | ⟨_, rfl⟩ | ⟨_, rfl⟩ | ⟨_, rfl⟩ | ⟨_, rfl⟩ | ⟨_, rfl⟩ | ⟨_, rfl⟩ | ⟨_, rfl⟩ | ⟨_, rfl⟩
  · unfold Orders.cls at h
    split at h <;> cases h
    intro op hop
    rw [List.mem_singleton] at hop
    subst hop
    trivial
  · have key : ∀ fg bg, ∀ op ∈ [Printed.colored fg bg], Displayable O op := by
      intro fg bg op hop
      rw [List.mem_singleton] at hop
      subst hop
      trivial
    unfold Orders.colors at h
    split at h
    · cases h
      exact key _ _
    · rename_i n pos
      cases hc : Orders.color n pos <;> rw [hc] at h <;> cases h
      exact key _ _
    · rename_i a b
      obtain ⟨fg, _, h⟩ := Option.bind_eq_some_iff.1 h
      obtain ⟨bg, _, h⟩ := Option.map_eq_some_iff.1 h
      cases fg <;> cases bg <;> cases h
      exact key _ _
    · cases h
  · unfold Orders.locate at h
    split at h
    · rename_i x pos y pos'
      simp only [Option.some.injEq, bind, Except.bind] at h
      cases h1 : Orders.coord "Column" x pos with
      | error e => rw [h1] at h; cases h
      | ok column =>
        cases h2 : Orders.coord "Row" y pos' with
        | error e => rw [h1, h2] at h; cases h
        | ok row =>
          rw [h1, h2] at h
          simp only [Orders.visible] at h
          by_cases h3 : column ≤ O.lastColumn.val
          · rw [if_pos h3] at h
            by_cases h4 : row ≤ O.lastRow.val
            · rw [if_pos h4] at h
              cases h
              intro op hop
              rw [List.mem_singleton] at hop
              subst hop
              exact ⟨h3, h4⟩
            · rw [if_neg h4] at h
              cases h
          · rw [if_neg h3] at h
            cases h
    · cases h
  · unfold Orders.sync at h
    split at h
    · cases h
      intro op hop
      rw [List.mem_singleton] at hop
      subst hop
      trivial
    · cases h
      intro op hop
      simp only [List.mem_cons, List.not_mem_nil, or_false] at hop
      rcases hop with rfl | rfl <;> trivial
    · cases h
  all_goals exact draw _ h

theorem conversation_displayable {O : StdOps} {t : ExprType} {prompt : Str} : ∀ (answers before : List Answer),
    ∀ op ∈ conversation O t prompt before answers, Displayable O op
  | [], before, op, h => by
    simp only [conversation, List.mem_singleton] at h
    subst h
    trivial
  | a :: rest, before, op, h => by
    unfold conversation at h
    split at h
    · rw [List.mem_singleton] at h
      subst h
      trivial
    · simp only [List.mem_cons] at h
      rcases h with rfl | rfl | h
      · trivial
      · trivial
      · exact conversation_displayable rest _ op h

/-- **C71** Whatever programs do, the console is only given positions that are on the screen, colors from 0 to 255, and shapes with
coordinates and radii that fit.  For every history of calls. -/
theorem C71_range (O : StdOps) (data : List (Option ConstantDatum)) (events : List (Request × Reply)) :
    ∀ op ∈ (stdState O byteLen data events).out, Displayable O op := by
  unfold stdState
  have : ∀ (st : StdState), (∀ op ∈ st.out, Displayable O op) → ∀ op ∈ (events.foldl (stdAfter O byteLen data) st).out, Displayable O op := by
    induction events with
    | nil => exact fun _ h => h
    | cons e events ih =>
      intro st h
      refine ih _ ?_
      have hc : ∀ op ∈ (consoleAfter O st e.1).out, Displayable O op := by
        unfold consoleAfter
        split
        next order hf =>
          split
          next ops ho =>
            intro op hop
            rcases List.mem_append.1 hop with hop | hop
            · exact h op hop
            · exact order_displayable (name := order.1) (List.mem_of_find?_eq_some hf) ho op hop
          · exact h
        · split
          · exact h
          · split
            · unfold afterInput
              split
              · intro op hop
                rcases List.mem_append.1 hop with hop | hop
                · exact h op hop
                · exact conversation_displayable _ _ op hop
              · exact h
            · exact h
      unfold stdAfter
      split
      · intro op hop
        rcases List.mem_append.1 hop with hop | hop
        · exact h op hop
        · cases hp : (printed e.1.args).map (printedText O byteLen) with
          | none => rw [hp] at hop; simp at hop
          | some x =>
            rw [hp] at hop
            simp only [Option.toList_some, List.mem_singleton] at hop
            subst hop
            obtain ⟨items, _, rfl⟩ := Option.map_eq_some_iff.1 hp
            unfold printedText
            split <;> trivial
      · repeat' split
        all_goals first
          | exact h
          | exact hc
  exact this _ (by simp)

/-- **C71** A command that gives something to the console checks all of its arguments first: it either succeeds, and gives it to the
console, or it fails at the position of one of its arguments, and then nothing has changed. -/
theorem C71_refused (O : StdOps) (data : List (Option ConstantDatum)) (l : Log) (room : Nat) (q : Request) {order : Order}
    (hm : (orders O).find? (·.1 = q.name) = some (q.name, order)) (hret : q.ret = none) {c : Except (LineCol × Str) (List Printed)}
    (hc : order q.args = some c) :
    let st := stdState O byteLen data l.events
    let r := stdLib O byteLen data l room q
    (∃ ops, c = .ok ops ∧ r = ⟨.ok none, [], 0⟩ ∧ stdAfter O byteLen data st (q, r) = { st with out := st.out ++ ops }) ∨
    (∃ pos msg, c = .error (pos, msg) ∧ r = ⟨.error (some pos, msg), [], 0⟩ ∧ stdAfter O byteLen data st (q, r) = st) := by
  have hmem := List.mem_of_find?_eq_some hm
  have hn : ¬ StatefulHere q.name ∧ (stdMeanings O data).find? (·.1 = q.name) = some (q.name, ordered order) := by
    simp only [orders, List.mem_cons, Prod.mk.injEq, List.not_mem_nil, or_false] at hmem
    rcases hmem with ⟨h, rfl⟩ | ⟨h, rfl⟩ | ⟨h, rfl⟩ | ⟨h, rfl⟩ | ⟨h, rfl⟩ | ⟨h, rfl⟩ | ⟨h, rfl⟩ | ⟨h, rfl⟩ | ⟨h, rfl⟩ | ⟨h, rfl⟩ | ⟨h, rfl⟩ | ⟨h, rfl⟩ | ⟨h, rfl⟩ <;>
    · rw [h]
      exact ⟨by unfold StatefulHere; decide, rfl⟩
  have ha : ∀ r, stdAfter O byteLen data (stdState O byteLen data l.events) (q, r) =
      consoleAfter O (stdState O byteLen data l.events) q := fun r => stdAfter_console hn.1
  simp only
  rw [ha]
  unfold stdLib consoleAfter
  rw [hn.2, hm]
  simp only [Option.bind_some, ordered]
  rw [if_pos hret, hc]
  cases c with
  | ok ops => exact .inl ⟨ops, rfl, rfl, rfl⟩
  | error e => exact .inr ⟨e.1, e.2, rfl, rfl, rfl⟩

/-- **C71** `LOCATE` takes exactly the columns from 0 to `SCRCOLS` - 1 and the rows from 0 to `SCRROWS` - 1. -/
theorem C71_locate (O : StdOps) (data : List (Option ConstantDatum)) (l : Log) (room : Nat) (q cols rows : Request) (x y : I32)
    (pos pos' : LineCol) (hq : q.name = "LOCATE".toList ∧ q.ret = none ∧ q.args = [(.val (.int x), pos), (.val (.int y), pos')])
    (hcols : cols.name = "SCRCOLS".toList ∧ cols.ret = some .integer ∧ cols.args = [])
    (hrows : rows.name = "SCRROWS".toList ∧ rows.ret = some .integer ∧ rows.args = []) :
    ∃ w h : I32, (stdLib O byteLen data l room cols).result = .ok (some (.int w)) ∧
      (stdLib O byteLen data l room rows).result = .ok (some (.int h)) ∧
      ((stdLib O byteLen data l room q).result = .ok none ↔ 0 ≤ x.toInt ∧ x.toInt < w.toInt ∧ 0 ≤ y.toInt ∧ y.toInt < h.toInt) := by
  have size : ∀ (name : String) (n : Nat) (s : Request), s.name = name.toList → s.ret = some .integer → s.args = [] →
      (stdMeanings O data).find? (·.1 = name.toList) = some (name.toList, function .integer (constantly n)) →
      (stdLib O byteLen data l room s).result = .ok (some (.int (BitVec.ofNat 32 n))) := by
    intro name n s h1 h2 h3 hm
    unfold stdLib
    rw [h1, hm]
    simp only [Option.bind_some, function]
    rw [if_pos h2, h3]
    rfl
  have hw := O.lastColumn.isLt
  have hh := O.lastRow.isLt
  have toInt : ∀ n : Nat, n < 2 ^ 31 → (BitVec.ofNat 32 n).toInt = n := by
    intro n hn
    rw [BitVec.toInt_eq_toNat_cond, BitVec.toNat_ofNat]
    split <;> omega
  refine ⟨_, _, size "SCRCOLS" (O.lastColumn.val + 1) cols hcols.1 hcols.2.1 hcols.2.2 rfl,
    size "SCRROWS" (O.lastRow.val + 1) rows hrows.1 hrows.2.1 hrows.2.2 rfl, ?_⟩
  rw [toInt _ (by omega), toInt _ (by omega)]
  have hr : stdLib O byteLen data l room q = (match Orders.locate O q.args with
      | some (.ok _) => ⟨.ok none, [], 0⟩
      | some (.error e) => fails (some e.1) e.2
      | none => ⟨.ok none, [], room + 1⟩) := by
    unfold stdLib
    have hm : (stdMeanings O data).find? (·.1 = "LOCATE".toList) = some ("LOCATE".toList, ordered (Orders.locate O)) := rfl
    rw [hq.1, hm]
    simp only [Option.bind_some, ordered]
    rw [if_pos hq.2.1]
    cases Orders.locate O q.args with
    | none => rfl
    | some c => cases c <;> rfl
  rw [hr, hq.2.2]
  simp only [Orders.locate, bind, Except.bind, Orders.coord, Orders.visible]
  by_cases hx : 0 ≤ x.toInt ∧ x.toInt < 2 ^ 16
  · rw [if_pos hx]
    simp only
    by_cases hy : 0 ≤ y.toInt ∧ y.toInt < 2 ^ 16
    · rw [if_pos hy]
      simp only
      by_cases h3 : x.toInt.toNat ≤ O.lastColumn.val
      · rw [if_pos h3]
        simp only
        by_cases h4 : y.toInt.toNat ≤ O.lastRow.val
        · rw [if_pos h4]
          simp only [pure, Except.pure, true_iff]
          push_cast
          omega
        · rw [if_neg h4]
          simp only [fails, reduceCtorEq, false_iff]
          push_cast
          omega
      · rw [if_neg h3]
        simp only [fails, reduceCtorEq, false_iff]
        push_cast
        omega
    · rw [if_neg hy]
      simp only [fails, reduceCtorEq, false_iff]
      push_cast
      omega
  · rw [if_neg hx]
    simp only [fails, reduceCtorEq, false_iff]
    push_cast
    omega

/-- A program that uses the console. -/
def Ex.screen : String := "n = 0
b? = FALSE
INPUT \"n\"; n
INPUT b?
COLOR 3
COLOR , 4
LOCATE SCRCOLS - 1, 2
GFX_CIRCLE n, 20, 300
GFX_SYNC TRUE
CLS
PRINT INKEY$ + \".\" + INKEY$; GFX_PEEK(4, 4)
ON ERROR RESUME NEXT
LOCATE SCRCOLS, 0
GFX_LINE 1, 2, 3, 40000
COLOR 256, 1
INPUT n
PRINT n; b?"

/-- What is left when it has ended. -/
def Ex.screenState : StdState :=
  ⟨[.asked "n? ".toList [], .line "Retry input: Invalid integer literal 5 x".toList,
    .asked "n? ".toList "5 x".toList, .line "Retry input: not UTF-8".toList, .asked "n? ".toList "5 x".toList, .asked [] [],
    .colored (some 3) none, .colored none (some 4), .moved 79 2, .drawn .circle [-12, 20, 300], .cursor true, .synced true, .cleared,
    .line ".x 3".toList, .asked [] [], .line "Retry input: Invalid integer literal 99999999999".toList, .asked [] "99999999999".toList,
    .line "-12 TRUE".toList], 0, false, ⟨7, 0, 1⟩, 2, 5⟩

/-- The machine, where the calls that wait for the user are answered. -/
def Ex.driveWaiting (img : Image) : Nat → Vm StdState → Vm StdState
  | 0, vm => vm
  | n + 1, vm =>
    match vmStep noFloat (stdHost ops) img vm with
    | .cont vm' => Ex.driveWaiting img n vm'
    | .stop .yield vm' => Ex.driveWaiting img n vm'
    | .stop .upcallAsync vm' =>
      match invokePending (stdHost ops) img vm' with
      | .cont vm' => Ex.driveWaiting img n vm'
      | _ => vm
    | _ => vm

set_option maxRecDepth 100000 in
/-- The interpreter and the machine agree. -/
example : (Ex.text Ex.screen).err = none ∧
    (match run Ex.noFloat 50 50 (stdLib Ex.ops byteLen (Stmts.items (Ex.text Ex.screen).stmts)) (builtins stdTable)
        (Ex.text Ex.screen).stmts (fresh 50) with
    | .done w => stdState Ex.ops byteLen (Stmts.items (Ex.text Ex.screen).stmts) w.log.events == Ex.screenState
    | _ => false) = true ∧
    (match compileProgram stdTable [] (Ex.text Ex.screen) with
    | .ok img =>
      let vm := Ex.driveWaiting img 1000 (Vm.start 50 50 (StdState.start Ex.ops))
      img.code[vm.mach.pc]? == some .eof && vm.host == Ex.screenState
    | .error _ => false) = true := by
  refine ⟨?_, ?_, ?_⟩ <;> decide +kernel

end EB
