import Verif.Lemmas.Stdlib
/-!
# The callables of the console do what they mean
-/

namespace EB
open Spec

section
variable {O : StdOps} {data : List (Option ConstantDatum)}

/-! ## Commands that give something to the console -/

/-- What such a command does. -/
def obeyed (st : StdState) (s : CallScope) : Except (LineCol × Str) (List Printed) → StdState × CallRes
  | .ok ops => ({ st with out := st.out ++ ops }, s.done)
  | .error e => (st, s.failWith e)

theorem serves_ordered {name : Str} {call : StdCall} {order : Order} (hn : ¬ StatefulHere name)
    (hf : (orders O).find? (·.1 = name) = some (name, order))
    (h : ∀ (s : CallScope) (fp : Nat) (args : List (Arg × LineCol)) (st : StdState) (c : Except (LineCol × Str) (List Printed)),
      order args = some c → s.lcs = slotPositions args →
      (∀ (j : Nat) x, (slots args)[j]? = some x → HoldsSlot s.consts s.heap fp x (s.reg j)) →
      call st s = some (obeyed st s c)) : Serves O data name false call (ordered order) := by
  intro consts q first fp room regs heap st r hname hslots hvars hbel h0 hroom hidx hm hfits
  unfold ordered at hm
  split at hm <;> rename_i hret
  · obtain ⟨c, hc, hr⟩ := Option.map_eq_some_iff.1 hm
    rw [hret] at hslots
    simp only [Option.isSome_none] at hslots
    have hcall := h ⟨first, 0, slotPositions q.args, regs, heap, consts, data⟩ fp q.args st c hc rfl hslots
    rw [stdAfter_console (by rw [hname]; exact hn)]
    unfold consoleAfter
    rw [hname, hf]
    simp only [hc]
    refine ⟨regs, heap, ?_, ?_⟩
    · refine hcall.trans ?_
      cases c <;> (subst hr; rfl)
    · subst hr
      cases c with
      | ok ops => exact answered_done
      | error e => exact answered_error
  · cases hm

theorem serves_cls : Serves O data "CLS".toList false clsCall (ordered Orders.cls) := by
  refine serves_ordered (by unfold StatefulHere; decide) rfl ?_
  intro s fp args st c hc hl hs
  unfold Orders.cls at hc
  split at hc
  · cases hc; rfl
  · cases hc

theorem serves_sync : Serves O data "GFX_SYNC".toList false syncCall (ordered Orders.sync) := by
  refine serves_ordered (by unfold StatefulHere; decide) rfl ?_
  intro s fp args st c hc hl hs
  unfold Orders.sync at hc
  split at hc
  · cases hc
    unfold syncCall
    rw [if_pos (by simp [CallScope.nargs, hl, slotPositions])]
    rfl
  · rename_i b pos
    cases hc
    have h1 : s.getBoolean 0 = b := Spec.Holds.boolean (hs 0 (.val (.bool b)) rfl)
    unfold syncCall
    rw [if_neg (by simp [CallScope.nargs, hl, slotPositions, Arg.slots]), h1]
    simp [obeyed, StdState.put]
  · cases hc

/-! ## COLOR -/

theorem getColor_eq {s : CallScope} {i : Nat} {n : I32} {pos : LineCol} (h : Holds s.consts s.heap (.int n) (s.reg i))
    (hp : s.lcs[i]? = some pos) : getColor s i = some (Orders.color n pos) := by
  have h1 := h.integer
  unfold getColor checkedArg Orders.color
  rw [h1]
  simp only [CallScope.getPos, hp]
  by_cases hr : 0 ≤ n.toInt ∧ n.toInt ≤ 255
  · rw [if_pos hr, if_pos (by omega)]
    simp only [Option.some.injEq, Except.ok.injEq]
    apply BitVec.eq_of_toNat_eq
    rw [BitVec.toNat_setWidth, BitVec.toNat_ofInt]
    have : n.toInt = (n.toNat : Int) := by
      rw [BitVec.toInt_eq_toNat_cond] at hr ⊢
      split at hr <;> rename_i h
      · rw [if_pos h]
      · have := n.isLt; omega
    rw [this]
    omega
  · rw [if_neg hr, if_neg (by omega)]
    rfl

theorem optColor_eq {s : CallScope} {fp : Nat} {a : Arg × LineCol} {reg : Nat} {c : Except (LineCol × Str) (Option (BitVec 8))}
    (hc : Orders.mayColor a = some c) (hn : reg < s.nargs)
    (hs : ∀ (j : Nat) x, a.1.slots[j]? = some x → HoldsSlot s.consts s.heap fp x (s.reg (reg + j)))
    (hl : ∀ j, j < a.1.slots.length → s.lcs[reg + j]? = some a.2) :
    optColor s reg = some (c, reg + a.1.slots.length) := by
  unfold Orders.mayColor at hc
  unfold optColor
  rw [if_pos hn]
  split at hc
  · rename_i sep n pos
    cases hc
    have h1 : s.getType reg = some (.immediate sep .integer) := hs 0 _ rfl
    have h2 := getColor_eq (s := s) (hs 1 (.val (.int n)) rfl) (hl 1 (by simp [Arg.slots]))
    simp only [h1, h2, Option.map_some]
    rfl
  · rename_i sep pos
    cases hc
    have h1 : s.getType reg = some (.missing sep) := hs 0 _ rfl
    simp only [h1]
    rfl
  · cases hc

theorem serves_color : Serves O data "COLOR".toList false colorCall (ordered Orders.colors) := by
  refine serves_ordered (by unfold StatefulHere; decide) rfl ?_
  intro s fp args st c hc hl hs
  unfold Orders.colors at hc
  unfold colorCall getColors
  split at hc
  · cases hc
    rw [if_pos (by simp [CallScope.nargs, hl, slotPositions])]
    rfl
  · rename_i n pos
    cases hc
    rw [if_neg (by simp [CallScope.nargs, hl, slotPositions, Arg.slots]), if_pos (by simp [CallScope.nargs, hl, slotPositions, Arg.slots]),
      getColor_eq (hs 0 (.val (.int n)) rfl) (by rw [hl]; rfl)]
    cases Orders.color n pos <;> rfl
  · rename_i a b
    obtain ⟨fg, hfg, hc⟩ := Option.bind_eq_some_iff.1 hc
    obtain ⟨bg, hbg, rfl⟩ := Option.map_eq_some_iff.1 hc
    have la : 1 ≤ a.1.slots.length := by obtain ⟨a, p⟩ := a; cases a <;> simp [Arg.slots]
    have lb : 1 ≤ b.1.slots.length := by obtain ⟨a, p⟩ := b; cases a <;> simp [Arg.slots]
    have hsl : slots [a, b] = a.1.slots ++ b.1.slots := by simp [slots]
    have hps : s.lcs = List.replicate a.1.slots.length a.2 ++ List.replicate b.1.slots.length b.2 := by
      rw [hl]
      simp [slotPositions]
    have hnargs : s.nargs = a.1.slots.length + b.1.slots.length := by simp [CallScope.nargs, hps]
    rw [if_neg (by omega), if_neg (by omega)]
    have h1 := optColor_eq (s := s) (fp := fp) (reg := 0) hfg (by omega)
      (fun j x hx => by
        rw [Nat.zero_add]
        exact hs j x (by rw [hsl, List.getElem?_append_left (List.getElem?_eq_some_iff.1 hx).1]; exact hx))
      (fun j hj => by rw [hps, Nat.zero_add, List.getElem?_append_left (by simpa using hj)]; simp [hj])
    have h2 := optColor_eq (s := s) (fp := fp) (reg := a.1.slots.length) hbg (by omega)
      (fun j x hx => hs _ x (by rw [hsl, List.getElem?_append_right (by omega)]; simpa using hx))
      (fun j hj => by rw [hps, List.getElem?_append_right (by simp)]; simp [hj])
    rw [h1, Nat.zero_add]
    cases fg with
    | error e => rfl
    | ok fg =>
      simp only [h2, Option.map_some]
      cases bg <;> rfl
  · cases hc

/-! ## LOCATE -/

theorem getCoord_eq {s : CallScope} {i : Nat} {n : I32} {pos : LineCol} {name : String} (h : Holds s.consts s.heap (.int n) (s.reg i))
    (hp : s.lcs[i]? = some pos) : getCoord s i name = some (Orders.coord name n pos) := by
  have h1 := h.integer
  unfold getCoord checkedArg Orders.coord
  rw [h1]
  simp only [CallScope.getPos, hp]
  by_cases hr : 0 ≤ n.toInt ∧ n.toInt ≤ 65535
  · rw [if_pos hr, if_pos (by omega)]
  · rw [if_neg hr, if_neg (by omega)]
    rfl

theorem serves_locate : Serves O data "LOCATE".toList false (locateCall O) (ordered (Orders.locate O)) := by
  refine serves_ordered (by unfold StatefulHere; decide) rfl ?_
  intro s fp args st c hc hl hs
  unfold Orders.locate at hc
  split at hc
  · rename_i x pos y pos'
    cases hc
    have hp0 : s.lcs[0]? = some pos := by rw [hl]; rfl
    have hp1 : s.lcs[1]? = some pos' := by rw [hl]; rfl
    unfold locateCall
    rw [getCoord_eq (hs 0 (.val (.int x)) rfl) hp0, getCoord_eq (hs 1 (.val (.int y)) rfl) hp1]
    cases Orders.coord "Column" x pos with
    | error e => rfl
    | ok column =>
      cases Orders.coord "Row" y pos' with
      | error e => rfl
      | ok row =>
        simp only [CallScope.failAt, CallScope.getPos, hp0, hp1, Option.map_some]
        by_cases h1 : O.lastColumn.val + 1 ≤ column
        · rw [if_pos h1]
          simp only [bind, Except.bind, Orders.visible]
          rw [if_neg (by omega)]
          rfl
        · rw [if_neg h1]
          simp only [bind, Except.bind, Orders.visible]
          rw [if_pos (show column ≤ O.lastColumn.val by omega)]
          by_cases h2 : O.lastRow.val + 1 ≤ row
          · rw [if_pos h2, if_neg (show ¬ row ≤ O.lastRow.val by omega)]
            rfl
          · rw [if_neg h2, if_pos (show row ≤ O.lastRow.val by omega)]
            rfl
  · cases hc

/-! ## Graphics -/

theorem getMeasure_eq {s : CallScope} {i : Nat} {n : I32} {pos : LineCol} {m : Measure} (h : Holds s.consts s.heap (.int n) (s.reg i))
    (hp : s.lcs[i]? = some pos) : getMeasure s i m = some (Orders.measured m n pos) := by
  have h1 := h.integer
  unfold getMeasure checkedArg
  rw [h1]
  simp only [CallScope.getPos, hp]
  cases m with
  | coordinate =>
    unfold Orders.measured
    by_cases hr : -32768 ≤ n.toInt ∧ n.toInt ≤ 32767
    · simp only [if_pos hr]
      rw [if_pos (by omega)]
    · simp only [if_neg hr]
      rw [if_neg (by omega)]
      rfl
  | radius =>
    unfold Orders.measured
    by_cases hr : 0 ≤ n.toInt ∧ n.toInt ≤ 65535
    · simp only [if_pos hr]
      rw [if_neg (by omega), if_pos (by omega)]
    · simp only [if_neg hr]
      by_cases hz : n.toInt < 0
      · rw [if_pos hz, if_pos hz]
        rfl
      · rw [if_neg hz, if_neg hz, if_neg (by omega)]
        rfl

theorem getMeasures_eq {s : CallScope} {fp : Nat} : ∀ {ms : List Measure} {args : List (Arg × LineCol)} {i : Nat}
    {c : Except (LineCol × Str) (List Int)}, Orders.allMeasured ms args = some c →
    (∀ (j : Nat) x, (slotPositions args)[j]? = some x → s.lcs[i + j]? = some x) →
    (∀ (j : Nat) x, (slots args)[j]? = some x → HoldsSlot s.consts s.heap fp x (s.reg (i + j))) →
    getMeasures s i ms = some c := by
  intro ms
  induction ms with
  | nil =>
    intro args i c hc hl hs
    cases args with
    | nil => cases hc; rfl
    | cons a args => simp [Orders.allMeasured] at hc
  | cons m ms ih =>
    intro args i c hc hl hs
    unfold Orders.allMeasured at hc
    split at hc
    · rename_i heq; cases heq
    · rename_i m' ms' n pos rest heq
      cases heq
      obtain ⟨ns, h1, rfl⟩ := Option.map_eq_some_iff.1 hc
      unfold getMeasures
      rw [getMeasure_eq (i := i) (n := n) (pos := pos) (hs 0 _ rfl) (hl 0 _ rfl)]
      cases Orders.measured m n pos with
      | error e => rfl
      | ok k =>
        simp only
        rw [ih h1 (fun j x hx => by
            rw [show i + 1 + j = i + (j + 1) by omega]
            exact hl (j + 1) x (by simpa [slotPositions, Arg.slots] using hx))
          (fun j x hx => by
            rw [show i + 1 + j = i + (j + 1) by omega]
            exact hs (j + 1) x (by simpa [slots, Arg.slots] using hx))]
        cases ns <;> rfl
    · cases hc

theorem parts_eq (shape : Shape) : shape.measures = Orders.parts shape := by cases shape <;> rfl

theorem serves_draw {name : Str} {shape : Shape} (hn : ¬ StatefulHere name)
    (hf : (orders O).find? (·.1 = name) = some (name, Orders.draw shape)) :
    Serves O data name false (drawCall shape) (ordered (Orders.draw shape)) := by
  refine serves_ordered hn hf ?_
  intro s fp args st c hc hl hs
  unfold Orders.draw at hc
  obtain ⟨ns, h1, rfl⟩ := Option.map_eq_some_iff.1 hc
  unfold drawCall
  rw [parts_eq, getMeasures_eq (s := s) (fp := fp) (i := 0) h1 (fun j x hx => by rw [Nat.zero_add, hl]; exact hx)
    (fun j x hx => by rw [Nat.zero_add]; exact hs j x hx)]
  cases ns <;> rfl

/-! ## Functions -/

theorem serves_constantly {name : Str} {n : Nat} (hn : ¬ Stateful name) :
    Serves O data name true (pureCall (sizeCall n)) (function .integer (constantly n)) := by
  refine serves_function hn ?_
  intro s room vs r hg ho hl hv
  unfold constantly at hg
  split at hg
  · cases hg
    exact does_gives rfl
  · cases hg

theorem serves_peek : Serves O data "GFX_PEEK".toList true (peekCall O) (functionIn .integer (peek O)) := by
  intro consts q first fp room regs heap st r hname hslots hvars hbel h0 hroom hidx hm hfits
  have key : Serves O data "GFX_PEEK".toList true (pureCall fun s => (peekCall O st s).map (·.2)) (function .integer (peek O st)) := by
    refine serves_function (by decide) ?_
    intro s room vs r hg ho hl hv
    unfold peek at hg
    split at hg
    · rename_i x pos y pos'
      have h1 := getMeasure_eq (s := s) (m := .coordinate) (pos := pos) (hv 0 (.int x, pos) rfl) (by rw [hl]; rfl)
      have h2 := getMeasure_eq (s := s) (m := .coordinate) (pos := pos') (hv 1 (.int y, pos') rfl) (by rw [hl]; rfl)
      unfold peekCall getMeasures getMeasures getMeasures
      rw [h1, h2]
      cases hx : Orders.measured .coordinate x pos with
      | error e =>
        rw [hx] at hg
        cases hg
        exact .inr ⟨some e.1, e.2, rfl, rfl⟩
      | ok kx =>
        cases hy : Orders.measured .coordinate y pos' with
        | error e =>
          rw [hx, hy] at hg
          cases hg
          exact .inr ⟨some e.1, e.2, rfl, rfl⟩
        | ok ky =>
          rw [hx, hy] at hg
          cases hg
          refine does_gives ?_
          simp only [Option.map_some, Except.map, returned]
          cases O.peek st.out kx ky with
          | none => rfl
          | some c =>
            simp only [Option.map_some, Option.getD_some]
            rw [show BitVec.ofNat 32 c.toNat = c.setWidth 32 from BitVec.eq_of_toNat_eq (by simp)]
    · cases hg
  obtain ⟨regs', heap', h1, h2⟩ := key consts q first fp room regs heap st r hname hslots hvars hbel h0 hroom hidx hm hfits
  refine ⟨regs', heap', ?_, h2⟩
  rw [← h1]
  simp only [pureCall, if_true]
  have : ∀ s, (peekCall O st s).map (fun x => (st, x.2)) = peekCall O st s := by
    intro s
    unfold peekCall
    split <;> rfl
  simp only [Option.map_map]
  exact (this _).symm

theorem keyName_eq (k : Option Key) : keyName k = (k.map keyText).getD [] := by
  cases k with
  | none => rfl
  | some k => cases k <;> rfl

theorem serves_inkey : Serves O data "INKEY".toList true (inkeyCall O) (inkey O) := by
  intro consts q first fp room regs heap st r hname hslots hvars hbel h0 hroom hidx hm hfits
  unfold inkey at hm
  split at hm
  next h =>
    cases hm
    obtain ⟨regs', heap', g1, g2⟩ := answered_gives (consts := consts) (fp := fp) (t := .text) (room := room)
      (s := ⟨first, 1, slotPositions q.args, regs, heap, consts, data⟩) (v := .text (((O.keys st.polls).map keyText).getD [])) h0 hroom
    rw [h.1]
    refine ⟨regs', heap', ?_, g2⟩
    rw [stdAfter_console (by rw [hname]; unfold StatefulHere; decide)]
    have : consoleAfter O st q = { st with polls := st.polls + 1 } := by
      unfold consoleAfter
      rw [hname]
      rfl
    rw [this, ← g1]
    simp only [inkeyCall, keyName_eq]
    rfl
  · cases hm

/-! ## INPUT -/

theorem digit_eq (c : Char) : digit c = if '0' ≤ c ∧ c ≤ '9' then some (c.toNat - '0'.toNat) else none := by
  unfold digit
  have h1 : ('0' ≤ c) ↔ '0'.toNat ≤ c.toNat := by rw [Char.le_def, UInt32.le_iff_toNat_le]; rfl
  have h2 : (c ≤ '9') ↔ c.toNat ≤ '9'.toNat := by rw [Char.le_def, UInt32.le_iff_toNat_le]; rfl
  by_cases h : '0' ≤ c ∧ c ≤ '9'
  · rw [if_pos h, if_pos ⟨h1.1 h.1, h2.1 h.2⟩]
  · rw [if_neg h, if_neg (fun g => h ⟨h1.2 g.1, h2.2 g.2⟩)]

theorem digits_grow : ∀ (ds : List Nat) (k : Nat), k ≤ ds.foldl (fun n d => 10 * n + d) k
  | [], _ => Nat.le_refl _
  | d :: ds, k => by
    have := digits_grow ds (10 * k + d)
    simp only [List.foldl_cons]
    omega

/-- A number with a sign. -/
def withSign (minus : Bool) (v : Nat) : Int := if minus then -(v : Int) else v

/-- A number that is in range. -/
def inI32 (x : Int) : Option Int := if -2147483648 ≤ x ∧ x ≤ 2147483647 then some x else none

theorem inI32_grow {minus : Bool} {v w : Nat} (h : v ≤ w) (hn : inI32 (withSign minus v) = none) : inI32 (withSign minus w) = none := by
  unfold inI32 withSign at *
  cases minus <;> simp only [if_true, Bool.false_eq_true, if_false, ite_eq_right_iff, reduceCtorEq, imp_false] at hn ⊢ <;> omega

/-- The loop gives the value of the digits if it is in range. -/
theorem digitsLoop_eq (minus : Bool) : ∀ (s : Str) (k : Nat), inI32 (withSign minus k) = some (withSign minus k) →
    digitsLoop minus (withSign minus k) s =
      (s.mapM digit).bind fun ds => inI32 (withSign minus (ds.foldl (fun n d => 10 * n + d) k))
  | [], k, h => by
    simp only [digitsLoop, List.mapM_nil, pure, Option.bind_some, List.foldl_nil]
    exact h.symm
  | c :: s, k, h => by
    have hstep : ∀ d : Nat, (if minus then withSign minus k * 10 - (d : Int) else withSign minus k * 10 + (d : Int)) =
        withSign minus (10 * k + d) := by
      intro d
      unfold withSign
      cases minus <;> simp only [if_true, Bool.false_eq_true, if_false] <;> push_cast <;> omega
    simp only [digitsLoop, List.mapM_cons, digit_eq, bind]
    by_cases hc : '0' ≤ c ∧ c ≤ '9'
    · rw [if_pos hc, if_pos hc]
      simp only [Option.bind_some]
      rw [hstep]
      generalize c.toNat - '0'.toNat = d at *
      have hover : inI32 (withSign minus (10 * k + d)) = none →
          (none : Option Int) = ((s.mapM digit).bind fun ds => pure (d :: ds)).bind fun ds =>
            inI32 (withSign minus (ds.foldl (fun n d => 10 * n + d) k)) := by
        intro hn
        cases hm : s.mapM digit with
        | none => rfl
        | some ds => exact (inI32_grow (digits_grow ds (10 * k + d)) hn).symm
      by_cases h1 : withSign minus k * 10 < -2147483648 ∨ 2147483647 < withSign minus k * 10
      · rw [if_pos h1]
        refine hover ?_
        unfold inI32
        rw [if_neg]
        unfold withSign at h1 ⊢
        cases minus <;> simp only [if_true, Bool.false_eq_true, if_false] at h1 ⊢ <;> push_cast <;> omega
      · rw [if_neg h1]
        by_cases h2 : withSign minus (10 * k + d) < -2147483648 ∨ 2147483647 < withSign minus (10 * k + d)
        · rw [if_pos h2]
          refine hover ?_
          unfold inI32
          rw [if_neg (by omega)]
        · rw [if_neg h2, digitsLoop_eq minus s (10 * k + d) (by unfold inI32; rw [if_pos (by omega)])]
          cases s.mapM digit <;> rfl
    · rw [if_neg hc, if_neg hc]
      rfl

theorem digitsLoop_digits (minus : Bool) (s : Str) (h : s ≠ []) : digitsLoop minus 0 s = (digits s).bind fun v => inI32 (withSign minus v) := by
  have := digitsLoop_eq minus s 0 (by cases minus <;> rfl)
  rw [show withSign minus 0 = 0 by cases minus <;> rfl] at this
  rw [this]
  unfold digits
  rw [if_neg h]
  cases s.mapM digit <;> rfl

theorem i32FromStr_eq (s : Str) : i32FromStr s = (decimal s).bind inI32 := by
  unfold i32FromStr
  split
  · rfl
  · rename_i rest
    by_cases h : rest = []
    · subst h; rfl
    · rw [if_neg (by simp [h]), digitsLoop_digits true rest h]
      simp only [decimal]
      cases digits rest <;> rfl
  · rename_i rest
    by_cases h : rest = []
    · subst h; rfl
    · rw [if_neg (by simp [h]), digitsLoop_digits false rest h]
      simp only [decimal]
      cases digits rest <;> rfl
  · rename_i h1 h2 h3
    rw [digitsLoop_digits false s h1]
    have : decimal s = (digits s).map fun n => (n : Int) := by
      unfold decimal
      split
      · rename_i r; exact absurd rfl (h2 r)
      · rename_i r; exact absurd rfl (h3 r)
      · rfl
    rw [this]
    cases digits s <;> rfl

theorem parseAnswer_eq (t : ExprType) (s : Str) : valueOfText O s t = (parseAnswer O t s).map literal := by
  cases t with
  | text => rfl
  | boolean =>
    simp only [valueOfText, parseAnswer, parseTruth, List.mem_cons, List.not_mem_nil, or_false]
    by_cases h1 : O.upper s = "TRUE".toList ∨ O.upper s = "YES".toList ∨ O.upper s = "Y".toList
    · rw [if_pos h1, if_pos h1]; rfl
    · rw [if_neg h1, if_neg h1]
      by_cases h2 : O.upper s = "FALSE".toList ∨ O.upper s = "NO".toList ∨ O.upper s = "N".toList
      · rw [if_pos h2, if_pos h2]; rfl
      · rw [if_neg h2, if_neg h2]; rfl
  | double =>
    simp only [valueOfText, parseAnswer, parseDouble]
    cases O.parseWhole s <;> rfl
  | integer =>
    simp only [valueOfText, parseAnswer, parseInteger, i32FromStr_eq]
    cases decimal s with
    | none => rfl
    | some n =>
      simp only [Option.bind_some, inI32]
      by_cases h : -2147483648 ≤ n ∧ n ≤ 2147483647
      · rw [if_pos h, if_pos (by omega)]; rfl
      · rw [if_neg h, if_neg (by omega)]; rfl

theorem parseAnswer_ty {t : ExprType} {s : Str} {d : ConstantDatum} (h : parseAnswer O t s = .ok d) : suited O t (literal d) = .ok (literal d) := by
  have key : (literal d).ty = t → suited O t (literal d) = .ok (literal d) := by
    intro hty
    cases d <;> (subst hty; rfl)
  refine key ?_
  cases t with
  | text => cases h; rfl
  | boolean =>
    simp only [parseAnswer] at h
    cases hp : parseTruth O s <;> rw [hp] at h <;> cases h
    rfl
  | double =>
    simp only [parseAnswer] at h
    cases hp : parseDouble O s <;> rw [hp] at h <;> cases h
    rfl
  | integer =>
    simp only [parseAnswer] at h
    cases hp : parseInteger s <;> rw [hp] at h <;> cases h
    rfl

theorem offered_line (before : List Answer) (s : Str) : offered (before ++ [.line s]) = s := by simp [offered]

theorem offered_garbled (before : List Answer) (s : Str) : offered (before ++ [.garbled s]) = offered before := by simp [offered]

theorem usedUp_ok {t : ExprType} {a : Answer} {rest : List Answer} {v : Val} (h : taking O t a = .ok v) : usedUp O t (a :: rest) = 1 := by
  simp [usedUp, List.findIdx?_cons, h, Except.toOption]

theorem usedUp_error {t : ExprType} {a : Answer} {rest : List Answer} {e : Str} (h : taking O t a = .error e) :
    usedUp O t (a :: rest) = usedUp O t rest + 1 := by
  simp only [usedUp, List.findIdx?_cons, h, Except.toOption, Option.isSome_none, Bool.false_eq_true, if_false, List.length_cons]
  cases List.findIdx? _ rest <;> rfl

/-- The outcome of the loop of `INPUT`. -/
def InputDone (t : ExprType) (o : Option Val) (x : Except Str ConstantDatum) : Prop :=
  match o with
  | none => x = .error O.endOfInput
  | some v => ∃ d, x = .ok d ∧ suited O t (literal d) = .ok v

theorem inputLoop_eq {t : ExprType} {prompt : Str} : ∀ (answers before : List Answer) (st : StdState),
    (inputLoop O t prompt answers (offered before) st).1 =
      { st with out := st.out ++ conversation O t prompt before answers, answered := st.answered + usedUp O t answers } ∧
    InputDone (O := O) t (firstTaken O t answers) (inputLoop O t prompt answers (offered before) st).2
  | [], before, st => ⟨rfl, rfl⟩
  | a :: rest, before, st => by
    have refuse : ∀ why previous, taking O t a = .error why → previous = offered (before ++ [a]) →
        inputLoop O t prompt (a :: rest) (offered before) st =
          inputLoop O t prompt rest previous
            (StdState.put { st.put (.asked prompt (offered before)) with answered := st.answered + 1 } (.line ("Retry input: ".toList ++ why))) →
        (inputLoop O t prompt (a :: rest) (offered before) st).1 =
          { st with out := st.out ++ conversation O t prompt before (a :: rest), answered := st.answered + usedUp O t (a :: rest) } ∧
        InputDone (O := O) t (firstTaken O t (a :: rest)) (inputLoop O t prompt (a :: rest) (offered before) st).2 := by
      intro why previous hw hp he
      obtain ⟨h1, h2⟩ := inputLoop_eq (t := t) (prompt := prompt) rest (before ++ [a])
        (StdState.put { st.put (.asked prompt (offered before)) with answered := st.answered + 1 } (.line ("Retry input: ".toList ++ why)))
      rw [he, hp]
      refine ⟨?_, ?_⟩
      · rw [h1, usedUp_error hw]
        simp only [StdState.put, conversation, hw]
        simp only [List.append_assoc, List.cons_append, List.nil_append, StdState.mk.injEq, true_and]
        omega
      · have : firstTaken O t (a :: rest) = firstTaken O t rest := by
          simp [firstTaken, List.findSome?_cons, hw, Except.toOption]
        rw [this]
        exact h2
    cases a with
    | garbled msg =>
      exact refuse msg (offered before) rfl (offered_garbled _ _).symm rfl
    | line answer =>
      have ht : taking O t (.line answer) = (parseAnswer O t (rtrimFn answer)).map literal := parseAnswer_eq t _
      cases hp : parseAnswer O t (rtrimFn answer) with
      | error why =>
        rw [hp] at ht
        exact refuse why answer ht (offered_line _ _).symm (by simp only [inputLoop, hp])
      | ok d =>
        rw [hp] at ht
        have ht' : taking O t (.line answer) = .ok (literal d) := ht
        refine ⟨?_, ?_⟩
        · simp only [inputLoop, hp, usedUp_ok ht', conversation, ht']
          rfl
        · have : firstTaken O t (.line answer :: rest) = some (literal d) := by
            simp [firstTaken, List.findSome?_cons, ht', Except.toOption]
          rw [this]
          exact ⟨d, by simp only [inputLoop, hp], parseAnswer_ty hp⟩

/-- The prompt and the variable. -/
theorem inputPrompt_eq {s : CallScope} {fp : Nat} {args : List (Arg × LineCol)} {prompt : Str} {t : ExprType} {p : Place}
    (ha : asking args = some (prompt, t, p)) (hl : s.lcs = slotPositions args)
    (hs : ∀ (j : Nat) x, (slots args)[j]? = some x → HoldsSlot s.consts s.heap fp x (s.reg j)) :
    ∃ reg pos a, inputPrompt s = some (prompt, reg) ∧ s.getRef reg = some (p.index fp, t) ∧ s.lcs[reg]? = some pos ∧
      a ∈ args ∧ a.1.place = some p := by
  unfold asking at ha
  unfold inputPrompt
  split at ha
  · cases ha
    rw [if_pos (by simp [CallScope.nargs, hl, slotPositions, Arg.slots])]
    exact ⟨0, _, _, rfl, hs 0 _ rfl, by rw [hl]; rfl, .head _, rfl⟩
  · rename_i sep u pos t' p' pos'
    obtain ⟨pr, h1, h2⟩ := Option.map_eq_some_iff.1 ha
    cases h2
    rw [if_neg (by simp [CallScope.nargs, hl, slotPositions, Arg.slots])]
    have h3 : s.getType 0 = some (.immediate sep .text) := hs 0 _ rfl
    have h4 : s.getString 1 = some u := Spec.Holds.string (hs 1 (.val (.text u)) rfl)
    refine ⟨2, pos', _, ?_, hs 2 _ rfl, by rw [hl]; rfl, .tail _ (.head _), rfl⟩
    simp only [h3, h4, Option.bind_some]
    cases sep <;> cases h1 <;> rfl
  · rename_i sep pos t' p' pos'
    obtain ⟨pr, h1, h2⟩ := Option.map_eq_some_iff.1 ha
    cases h2
    rw [if_neg (by simp [CallScope.nargs, hl, slotPositions, Arg.slots])]
    have h3 : s.getType 0 = some (.missing sep) := hs 0 _ rfl
    refine ⟨1, pos', _, ?_, hs 1 _ rfl, by rw [hl]; rfl, .tail _ (.head _), rfl⟩
    simp only [h3]
    cases sep <;> cases h1 <;> rfl
  · cases ha

theorem serves_input : Serves O data "INPUT".toList false (inputCall O) (input O) := by
  intro consts q first fp room regs heap st r hname hslots hvars hbel h0 hroom hidx hm hfits
  unfold input at hm
  split at hm <;> rename_i hret
  · obtain ⟨⟨prompt, t, p⟩, ha, hr⟩ := Option.map_eq_some_iff.1 hm
    rw [hret] at hslots ⊢
    simp only [Option.isSome_none] at hslots
    let s : CallScope := ⟨first, 0, slotPositions q.args, regs, heap, consts, data⟩
    obtain ⟨reg, pos, a, e1, e2, e3, e4, e5⟩ := inputPrompt_eq (s := s) (fp := fp) ha rfl hslots
    have hafter : stdAfter O byteLen data st (q, r) =
        { st with out := st.out ++ conversation O t prompt [] (O.answers.drop st.answered),
                  answered := st.answered + usedUp O t (O.answers.drop st.answered) } := by
      rw [stdAfter_console (by rw [hname]; unfold StatefulHere; decide)]
      have : consoleAfter O st q = afterInput O st q.args := by
        unfold consoleAfter
        rw [hname]
        rfl
      rw [this]
      simp only [afterInput, ha]
    obtain ⟨l1, l2⟩ := inputLoop_eq (O := O) (t := t) (prompt := prompt) (O.answers.drop st.answered) [] st
    rw [show offered [] = [] from rfl] at l1 l2
    rcases hloop : inputLoop O t prompt (O.answers.drop st.answered) [] st with ⟨st', x⟩
    rw [hloop] at l1 l2
    simp only at l1 l2
    have hcall : inputCall O st s = match (st', x) with
        | (st, .ok d) => (assignCall O s reg d).map fun x => (st, x)
        | (st, .error msg) => some (st, s.fail msg) := by
      unfold inputCall
      rw [e1]
      simp only [Option.bind_some, e2]
      rw [hloop]
      cases x <;> rfl
    simp only at hr
    show ∃ regs' heap', inputCall O st s = _ ∧ _
    rw [hcall, hafter, ← l1]
    unfold InputDone at l2
    cases hf : firstTaken O t (O.answers.drop st.answered) with
    | none =>
      rw [hf] at l2 hr
      simp only at l2 hr
      subst hr
      rw [l2]
      exact ⟨regs, heap, rfl, answered_error⟩
    | some v =>
      rw [hf] at l2 hr
      simp only at l2 hr
      obtain ⟨d, rfl, hsu⟩ := l2
      have has := assignCall_eq (O := O) (s := s) (d := d) e2 e3 h0 hroom
      rw [hsu] at has
      simp only at has ⊢
      rcases has with ⟨g1, g2, g3⟩ | ⟨x, heap1, g1, g2, g3, g4, g5, g6⟩
      · have : r = fails none "Out of heap space".toList := by rw [← hr]; simp only [stores, g1, if_true, g2]
        subst this
        rw [g3]
        exact ⟨regs, heap, rfl, answered_error⟩
      · have : r = ⟨.ok none, [(p, v)], 0 + (if takesRoom v then 1 else 0)⟩ := by
          rw [← hr]
          cases hv : takesRoom v with
          | true => simp [stores, hv, g2 hv]
          | false => simp [stores, hv]
        subst this
        rw [g1]
        exact ⟨s.setReg (p.index fp) x, heap1, rfl, answered_cons (p := p) (x := x) (r := ⟨.ok none, [], 0⟩) answered_done g3 g4 g5 g6
          (fun q hq => by simp [assigned] at hq)⟩
  · cases hm

/-! ## All of them -/

theorem serves_console : List.Forall₂ (fun (a : Str × Bool × StdCall) (b : Str × Meaning) => a.1 = b.1 ∧ Serves O data a.1 a.2.1 a.2.2 b.2)
    ((stdCalls O).drop 42) ((stdMeanings O data).drop 42) := by
  refine .cons ⟨rfl, serves_cls⟩ (.cons ⟨rfl, serves_color⟩ (.cons ⟨rfl, serves_inkey⟩ (.cons ⟨rfl, serves_input⟩
    (.cons ⟨rfl, serves_locate⟩ (.cons ⟨rfl, serves_constantly ?_⟩ (.cons ⟨rfl, serves_constantly ?_⟩ (.cons ⟨rfl, serves_draw ?_ rfl⟩
    (.cons ⟨rfl, serves_draw ?_ rfl⟩ (.cons ⟨rfl, serves_draw ?_ rfl⟩ (.cons ⟨rfl, serves_constantly ?_⟩ (.cons ⟨rfl, serves_draw ?_ rfl⟩
    (.cons ⟨rfl, serves_peek⟩ (.cons ⟨rfl, serves_draw ?_ rfl⟩ (.cons ⟨rfl, serves_draw ?_ rfl⟩ (.cons ⟨rfl, serves_draw ?_ rfl⟩
    (.cons ⟨rfl, serves_sync⟩ (.cons ⟨rfl, serves_draw ?_ rfl⟩ (.cons ⟨rfl, serves_draw ?_ rfl⟩ (.cons ⟨rfl, serves_constantly ?_⟩
    .nil)))))))))))))))))))
  all_goals first
    | (simp only; decide)
    | (simp only [StatefulHere]; decide)

theorem serves_numbers : List.Forall₂ (fun (a : Str × Bool × StdCall) (b : Str × Meaning) => a.1 = b.1 ∧ Serves O data a.1 a.2.1 a.2.2 b.2)
    ((stdCalls O).drop 23) ((stdMeanings O data).drop 23) := by
  refine .cons ⟨rfl, serves_arc ?_⟩ (.cons ⟨rfl, serves_arc ?_⟩ (.cons ⟨rfl, serves_atn⟩ (.cons ⟨rfl, serves_cast ?_⟩
    (.cons ⟨rfl, serves_angle ?_⟩ (.cons ⟨rfl, serves_mode rfl⟩ (.cons ⟨rfl, serves_exp⟩
    (.cons ⟨rfl, serves_cast ?_⟩ (.cons ⟨rfl, serves_cast ?_⟩ (.cons ⟨rfl, serves_log⟩ (.cons ⟨rfl, serves_pi⟩ (.cons ⟨rfl, serves_mode rfl⟩
    (.cons ⟨rfl, serves_randomize⟩ (.cons ⟨rfl, serves_rnd⟩ (.cons ⟨rfl, serves_round⟩ (.cons ⟨rfl, serves_sgn⟩
    (.cons ⟨rfl, serves_angle ?_⟩ (.cons ⟨rfl, serves_sqr⟩ (.cons ⟨rfl, serves_angle ?_⟩ serves_console))))))))))))))))))
  all_goals (simp only; decide)

theorem serves_all : List.Forall₂ (fun (a : Str × Bool × StdCall) (b : Str × Meaning) => a.1 = b.1 ∧ Serves O data a.1 a.2.1 a.2.2 b.2)
    (stdCalls O) (stdMeanings O data) := by
  refine .cons ⟨rfl, serves_print⟩ (.cons ⟨rfl, serves_read⟩ (.cons ⟨rfl, serves_restore⟩ (.cons ⟨rfl, serves_abs⟩
    (.cons ⟨rfl, serves_asc⟩ (.cons ⟨rfl, serves_chr⟩ (.cons ⟨rfl, serves_instr⟩ (.cons ⟨rfl, serves_lbound⟩ (.cons ⟨rfl, ?_⟩
    (.cons ⟨rfl, serves_left⟩ (.cons ⟨rfl, serves_len⟩ (.cons ⟨rfl, ?_⟩ (.cons ⟨rfl, ?_⟩ (.cons ⟨rfl, serves_mid⟩
    (.cons ⟨rfl, ?_⟩ (.cons ⟨rfl, serves_right⟩ (.cons ⟨rfl, ?_⟩ (.cons ⟨rfl, serves_space⟩ (.cons ⟨rfl, serves_str⟩
    (.cons ⟨rfl, ?_⟩ (.cons ⟨rfl, serves_ubound⟩ (.cons ⟨rfl, ?_⟩ (.cons ⟨rfl, serves_val⟩ serves_numbers))))))))))))))))))))))
  · exact serves_ofText (by simp only; decide) (fun s => rfl)
  · exact serves_ofText (by simp only; decide) (fun s => rfl)
  · exact serves_extreme (by simp only; decide) (fun s => rfl)
  · exact serves_extreme (by simp only; decide) (fun s => rfl)
  · exact serves_ofText (by simp only; decide) (fun s => rfl)
  · exact serves_ofText (by simp only; decide) (fun s => rfl)
  · exact serves_ofText (by simp only; decide) (fun s => rfl)

theorem serves_find {k : Str} {m : Str × Meaning} : ∀ {as : List (Str × Bool × StdCall)} {bs : List (Str × Meaning)},
    List.Forall₂ (fun (a : Str × Bool × StdCall) (b : Str × Meaning) => a.1 = b.1 ∧ Serves O data a.1 a.2.1 a.2.2 b.2) as bs →
    bs.find? (·.1 = k) = some m → ∃ isFn call, as.find? (·.1 = k) = some (k, isFn, call) ∧ Serves O data k isFn call m.2 := by
  intro as bs h
  induction h with
  | nil => intro h; cases h
  | cons hab hrest ih =>
    rename_i a b as bs
    intro h
    obtain ⟨h1, h2⟩ := hab
    simp only [List.find?_cons] at h ⊢
    rw [h1]
    by_cases hk : b.1 = k
    · simp only [hk, decide_true] at h ⊢
      cases h
      rw [h1, hk] at h2
      exact ⟨a.2.1, a.2.2, by rw [← hk, ← h1], h2⟩
    · simp only [hk, decide_false] at h ⊢
      exact ih h

theorem stdState_index (width : Str → Nat) (events : List (Request × Reply)) : (stdState O width data events).index ≤ data.length := by
  unfold stdState
  have : ∀ (st : StdState), st.index ≤ data.length → (events.foldl (stdAfter O width data) st).index ≤ data.length := by
    induction events with
    | nil => exact fun _ h => h
    | cons e events ih =>
      intro st h
      refine ih _ ?_
      unfold stdAfter
      split
      · exact h
      · split
        · have := taken_le (data.length - st.index) e.2
          simp only
          omega
        · split
          · exact Nat.zero_le _
          · have hc : (consoleAfter O st e.1).index ≤ data.length := by
              unfold consoleAfter afterInput
              repeat' split
              all_goals exact h
            repeat' split
            all_goals first
              | exact h
              | exact hc
  exact this _ (Nat.zero_le _)

theorem std_provides (img : Image) : Provides (stdHost O) img (stdLib O byteLen img.data) (stdState O byteLen img.data) := by
  intro idx q first fp room regs heap l hname hlen hslots hvars hpass h0 hroom hfits
  obtain ⟨r, hr⟩ : ∃ r, stdLib O byteLen img.data l room q = r := ⟨_, rfl⟩
  rw [hr] at hfits ⊢
  unfold stdLib at hr
  cases hx : ((stdMeanings O img.data).find? (·.1 = q.name)).bind fun m => m.2 (stdState O byteLen img.data l.events) room q with
  | none =>
    rw [hx] at hr
    subst hr
    have := (fits_iff hfits).1
    simp at this
  | some r' =>
    rw [hx] at hr
    simp only [Option.getD_some] at hr
    subst hr
    obtain ⟨m, hm1, hm2⟩ := Option.bind_eq_some_iff.1 hx
    obtain ⟨isFn, call, hc, hs⟩ := serves_find (serves_all (O := O)) hm1
    obtain ⟨regs', heap', h1, h2⟩ := hs img.constants q first fp room regs heap _ r' rfl hslots hvars hpass h0 hroom
      (stdState_index _ _) hm2 hfits
    refine ⟨regs', heap', ?_, h2⟩
    simp only [stdHost, hname, hc, h1, Option.getD_some]
    simp only [stdState, List.foldl_append, List.foldl_cons, List.foldl_nil]

end

end EB
