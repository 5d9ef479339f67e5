import Verif.Spec.Stdlib
import Verif.Spec.Machine
import Verif.Props.Strings
import Verif.Props.Mem
import Verif.Lemmas.Inspect
/-!
# The built-in callables do what they mean
-/

namespace EB
open Spec

/-- The callable does what it means: in every state, with the arguments in place, it gives that answer. -/
def Serves (O : StdOps) (data : List (Option ConstantDatum)) (name : Str) (isFn : Bool) (call : StdCall) (m : Meaning) : Prop :=
  ∀ (consts : List ConstantDatum) (q : Request) (first fp room : Nat) (regs : Nat → BitVec 64) (heap : Heap) (st : StdState) (r : Reply),
    q.name = name →
    (∀ (j : Nat) s, (slots q.args)[j]? = some s →
      HoldsSlot consts heap fp s (regs (first + (if q.ret.isSome then 1 else 0) + j))) →
    (∀ (j : Nat) a p c, q.args[j]? = some a → a.1.place = some p → q.vars[j]? = some (some c) →
      HoldsCell consts heap c (regs (p.index fp))) →
    Passable fp first q.args →
    heap.data[0]? = some (.text []) →
    room = min (2 ^ 24) heap.maxEntries - heap.data.length →
    st.index ≤ data.length →
    m st room q = some r →
    r.fits q.args q.ret room = true →
    ∃ regs' heap',
      call st ⟨first, if isFn then 1 else 0, slotPositions q.args, regs, heap, consts, data⟩ =
        some (stdAfter O byteLen data st (q, r), regs', heap', r.result.map fun _ => ()) ∧
      Answered consts fp first q.ret r regs heap regs' heap'

/-! ## Results -/

/-- A function puts its result into its register. -/
def returned (s : CallScope) : Val → CallRes
  | .bool b => (s.setReg s.first (ofBool b), s.heap, .ok ())
  | .int i => s.returnInteger i
  | .dbl d => s.returnDouble d
  | .text t => s.returnString t

theorem answered_error {consts : List ConstantDatum} {fp first : Nat} {ret : Option ExprType} {e : Option LineCol × Str}
    {regs : Nat → BitVec 64} {heap : Heap} : Answered consts fp first ret ⟨.error e, [], 0⟩ regs heap regs heap :=
  ⟨fun v h => (by cases h), fun p v h => (by cases h), fun _ _ _ => rfl, List.prefix_refl _, rfl, rfl⟩

theorem answered_done {consts : List ConstantDatum} {fp first : Nat} {ret : Option ExprType}
    {regs : Nat → BitVec 64} {heap : Heap} : Answered consts fp first ret ⟨.ok none, [], 0⟩ regs heap regs heap :=
  ⟨fun v h => (by cases h), fun p v h => (by cases h), fun _ _ _ => rfl, List.prefix_refl _, rfl, rfl⟩

/-- A string goes to the heap. -/
theorem push_text {heap : Heap} {t : Str} {room : Nat} (h0 : heap.data[0]? = some (.text []))
    (hroom : room = min (2 ^ 24) heap.maxEntries - heap.data.length) :
    (t ≠ [] ∧ room = 0 ∧ heap.push (.text t) = none) ∨
    ∃ p heap', heap.push (.text t) = some (p, heap') ∧ (t = [] ∨ room ≠ 0) ∧ heap.data <+: heap'.data ∧
      heap'.data.length = heap.data.length + (if t = [] then 0 else 1) ∧ heap'.maxEntries = heap.maxEntries ∧
      ∀ consts, (DatumPtr.ofU64 p).bind (fun p => p.resolveString consts heap') = some t := by
  by_cases ht : t = []
  · subst ht
    refine .inr ⟨ptrForHeap 0, heap, by simp [Heap.push, Heap.emptyTextPtr], .inl rfl, List.prefix_refl _, by simp, rfl, fun consts => ?_⟩
    rw [(C02_datumPtr 0 (by decide)).1]
    simp [DatumPtr.resolveString, h0]
  · by_cases hr : room = 0
    · refine .inl ⟨ht, hr, ?_⟩
      unfold Heap.push
      rw [if_neg (by simp [ht])]
      by_cases h1 : heap.data.length ≥ 2 ^ 24
      · rw [if_pos h1]
      · rw [if_neg h1, if_pos (by omega)]
    · refine .inr ⟨ptrForHeap heap.data.length, { heap with data := heap.data ++ [.text t] }, ?_, .inr hr, List.prefix_append _ _,
        by simp [ht], rfl, fun consts => ?_⟩
      · unfold Heap.push
        rw [if_neg (by simp [ht]), if_neg (by omega), if_neg (by omega)]
      · rw [(C02_datumPtr _ (by omega)).1]
        simp [DatumPtr.resolveString]

/-- A function that returns a value has given that answer. -/
theorem answered_gives {consts : List ConstantDatum} {fp : Nat} {s : CallScope} {v : Val} {t : ExprType} {room : Nat}
    (h0 : s.heap.data[0]? = some (.text [])) (hroom : room = min (2 ^ 24) s.heap.maxEntries - s.heap.data.length) :
    ∃ regs' heap', returned s v = (regs', heap', (gives room v).result.map fun _ => ()) ∧
      Answered consts fp s.first (some t) (gives room v) s.regs s.heap regs' heap' := by
  have plain : ∀ (x : BitVec 64), Holds consts s.heap v x →
      Answered consts fp s.first (some t) ⟨.ok (some v), [], 0⟩ s.regs s.heap (s.setReg s.first x) s.heap := by
    intro x hx
    refine ⟨fun u h => ?_, fun p v h => (by cases h), fun j h _ => ?_, List.prefix_refl _, rfl, rfl⟩
    · cases h; simpa [CallScope.setReg] using hx
    · have : j ≠ s.first := h.resolve_left (by simp)
      simp [CallScope.setReg, this]
  cases v with
  | bool b => exact ⟨_, _, rfl, plain _ rfl⟩
  | int i => exact ⟨_, _, rfl, plain _ rfl⟩
  | dbl d => exact ⟨_, _, rfl, plain _ rfl⟩
  | text u =>
    rcases push_text (t := u) h0 hroom with ⟨h1, h2, h3⟩ | ⟨p, heap', h1, h2, h3, h4, h5, h6⟩
    · obtain ⟨c, u, rfl⟩ := List.exists_cons_of_ne_nil h1
      refine ⟨s.regs, s.heap, ?_, ?_⟩
      · simp only [returned, CallScope.returnString, h3, gives, if_pos h2]
        rfl
      · simp only [gives, if_pos h2]
        exact answered_error
    · have ans : ∀ used, used = (if u = [] then 0 else 1) →
          Answered consts fp s.first (some t) ⟨.ok (some (.text u)), [], used⟩ s.regs s.heap (s.setReg s.first p) heap' := by
        intro used hu
        refine ⟨fun v h => ?_, fun p v h => (by cases h), fun j h _ => ?_, h3, by rw [h4, hu], h5⟩
        · cases h
          show (DatumPtr.ofU64 (s.setReg s.first p s.first)).bind _ = _
          simp only [CallScope.setReg, if_true]
          exact h6 consts
        · have : j ≠ s.first := h.resolve_left (by simp)
          simp [CallScope.setReg, this]
      refine ⟨s.setReg s.first p, heap', ?_, ?_⟩
      · simp only [returned, CallScope.returnString, h1]
        cases u with
        | nil => rfl
        | cons c u => simp only [gives, if_neg (h2.resolve_left (by simp))]; rfl
      · cases u with
        | nil => exact ans 0 rfl
        | cons c u =>
          simp only [gives, if_neg (h2.resolve_left (by simp))]
          exact ans 1 rfl

/-- The names of the callables that change the state, other than those of the console. -/
def StatefulHere (name : Str) : Prop := name = "PRINT".toList ∨ name = "READ".toList ∨ name = "RESTORE".toList ∨ name = "DEG".toList ∨
  name = "RAD".toList ∨ name = "RANDOMIZE".toList ∨ name = "RND".toList

/-- Those of the console. -/
def consoleNames : List Str :=
  ["CLS".toList, "COLOR".toList, "LOCATE".toList, "GFX_SYNC".toList, "GFX_CIRCLE".toList, "GFX_CIRCLEF".toList, "GFX_FILL".toList,
   "GFX_LINE".toList, "GFX_PIXEL".toList, "GFX_RECT".toList, "GFX_RECTF".toList, "GFX_TRI".toList, "GFX_TRIF".toList, "INKEY".toList,
   "INPUT".toList]

/-- The names of the callables that change the state. -/
def Stateful (name : Str) : Prop := StatefulHere name ∨ name ∈ consoleNames

instance (name : Str) : Decidable (Stateful name) := inferInstanceAs (Decidable ((_ ∨ _) ∨ _))

theorem stdAfter_console {O : StdOps} {width : Str → Nat} {data : List (Option ConstantDatum)} {st : StdState} {q : Request} {r : Reply}
    (h : ¬ StatefulHere q.name) : stdAfter O width data st (q, r) = consoleAfter O st q := by
  unfold StatefulHere at h
  push Not at h
  obtain ⟨h1, h2, h3, h4, h5, h6, h7⟩ := h
  simp only [stdAfter, if_neg h1, if_neg h2, if_neg h3, if_neg h4, if_neg h5, if_neg h6, if_neg h7]

theorem stdAfter_other {O : StdOps} {width : Str → Nat} {data : List (Option ConstantDatum)} {st : StdState} {q : Request} {r : Reply}
    (h : ¬ Stateful q.name) : stdAfter O width data st (q, r) = st := by
  unfold Stateful at h
  push Not at h
  rw [stdAfter_console h.1]
  have hn : consoleNames = (orders O).map (·.1) ++ ["INKEY".toList, "INPUT".toList] := rfl
  have h2 := h.2
  rw [hn] at h2
  simp only [List.mem_append, List.mem_cons, List.not_mem_nil, or_false, not_or] at h2
  unfold consoleAfter
  rw [List.find?_eq_none.2 (fun x hx => by
    simp only [decide_eq_true_eq]
    exact fun he => h2.1 (List.mem_map.2 ⟨x, hx, he⟩))]
  simp only [if_neg h2.2.1, if_neg h2.2.2]

/-- What a function does: it returns a value, or it fails. -/
def Does' (s : CallScope) (room : Nat) (x : Option CallRes) (r : Reply) : Prop :=
  (∃ v, r = gives room v ∧ x = some (returned s v)) ∨ (∃ p msg, r = fails p msg ∧ x = some (s.regs, s.heap, .error (p, msg)))

/-- A callable that does that serves. -/
theorem serves_of {O : StdOps} {data : List (Option ConstantDatum)} {name : Str} {f : CallScope → Option CallRes} {m : Meaning}
    (hn : ¬ Stateful name)
    (h : ∀ (consts : List ConstantDatum) (q : Request) (first fp room : Nat) (regs : Nat → BitVec 64) (heap : Heap) (st : StdState) (r : Reply),
      m st room q = some r →
      (∀ (j : Nat) s, (slots q.args)[j]? = some s →
        HoldsSlot consts heap fp s (regs (first + 1 + j))) →
      (∀ (j : Nat) a p c, q.args[j]? = some a → a.1.place = some p → q.vars[j]? = some (some c) →
        HoldsCell consts heap c (regs (p.index fp))) →
      Does' ⟨first, 1, slotPositions q.args, regs, heap, consts, data⟩ room
        (f ⟨first, 1, slotPositions q.args, regs, heap, consts, data⟩) r)
    (hret : ∀ st room q r, m st room q = some r → q.ret.isSome = true) :
    Serves O data name true (pureCall f) m := by
  intro consts q first fp room regs heap st r hname hslots hvars hbel h0 hroom hidx hm hfits
  obtain ⟨t, ht⟩ := Option.isSome_iff_exists.1 (hret _ _ _ _ hm)
  rw [stdAfter_other (by rw [hname]; exact hn)]
  rw [ht] at hslots ⊢
  simp only [Option.isSome_some, if_true] at hslots
  rcases h consts q first fp room regs heap st r hm hslots hvars with ⟨v, rfl, hx⟩ | ⟨p, msg, rfl, hx⟩
  · obtain ⟨regs', heap', h1, h2⟩ := answered_gives (consts := consts) (fp := fp) (v := v) (t := t) (room := room)
      (s := ⟨first, 1, slotPositions q.args, regs, heap, consts, data⟩) h0 hroom
    refine ⟨regs', heap', ?_, h2⟩
    simp only [pureCall, if_true, hx, Option.map_some, h1]
  · refine ⟨regs, heap, ?_, answered_error⟩
    simp only [pureCall, if_true, hx, Option.map_some]
    rfl

/-! ## Arguments that are values -/

theorem values_eq : ∀ {args : List (Arg × LineCol)} {vs : List (Val × LineCol)}, values args = some vs →
    slots args = vs.map (fun v => .val v.1) ∧ slotPositions args = vs.map (·.2)
  | [], vs, h => by
    cases h
    exact ⟨rfl, rfl⟩
  | (.val v, pos) :: rest, vs, h => by
    simp only [values, Option.map_eq_some_iff] at h
    obtain ⟨us, h, rfl⟩ := h
    obtain ⟨h1, h2⟩ := values_eq h
    refine ⟨?_, ?_⟩
    · rw [show slots ((Arg.val v, pos) :: rest) = .val v :: slots rest from rfl, h1]; rfl
    · rw [show slotPositions ((Arg.val v, pos) :: rest) = pos :: slotPositions rest from rfl, h2]; rfl
  | (.opt _ _, _) :: _, _, h => by cases h
  | (.missing _, _) :: _, _, h => by cases h
  | (.ref _ _, _) :: _, _, h => by cases h
  | (.optRef _ _ _, _) :: _, _, h => by cases h

/-- A function of values serves. -/
theorem serves_function {O : StdOps} {data : List (Option ConstantDatum)} {name : Str} {t : ExprType} {f : CallScope → Option CallRes}
    {g : Nat → List (Val × LineCol) → Option Reply} (hn : ¬ Stateful name)
    (h : ∀ (s : CallScope) (room : Nat) (vs : List (Val × LineCol)) (r : Reply), g room vs = some r → s.offset = 1 →
      s.lcs = vs.map (·.2) → (∀ (j : Nat) v, vs[j]? = some v → Holds s.consts s.heap v.1 (s.reg j)) → Does' s room (f s) r) :
    Serves O data name true (pureCall f) (function t g) := by
  refine serves_of hn ?_ ?_
  · intro consts q first fp room regs heap st r hm hslots _
    unfold function at hm
    split at hm
    · obtain ⟨vs, hv, hg⟩ := Option.bind_eq_some_iff.1 hm
      obtain ⟨h1, h2⟩ := values_eq hv
      refine h _ room vs r hg rfl h2 ?_
      intro j v hj
      exact hslots j (.val v.1) (by rw [h1, List.getElem?_map, hj]; rfl)
    · cases hm
  · intro st room q r hm
    unfold function at hm
    split at hm
    next h => rw [h]; rfl
    · cases hm

/-- So does one that depends on the state. -/
theorem serves_in {O : StdOps} {data : List (Option ConstantDatum)} {name : Str} {t : ExprType} {f : Bool → CallScope → Option CallRes}
    {g : StdState → Nat → List (Val × LineCol) → Option Reply}
    (h : ∀ st, Serves O data name true (pureCall (f st.degrees)) (function t (g st))) :
    Serves O data name true (modeCall f) (functionIn t g) := by
  intro consts q first fp room regs heap st r hname hslots hvars hbel h0 hroom hidx hm hfits
  exact h st consts q first fp room regs heap st r hname hslots hvars hbel h0 hroom hidx hm hfits

/-! ## Getters -/

theorem Spec.Holds.string {s : CallScope} {t : Str} {i : Nat} (h : Holds s.consts s.heap (.text t) (s.reg i)) : s.getString i = some t := h

theorem Spec.Holds.integer {s : CallScope} {n : I32} {i : Nat} (h : Holds s.consts s.heap (.int n) (s.reg i)) : s.getInteger i = n := by
  show (s.reg i).setWidth 32 = n
  rw [show s.reg i = ofI32 n from h, setWidth_ofI32']

theorem Spec.Holds.double {s : CallScope} {d : BitVec 64} {i : Nat} (h : Holds s.consts s.heap (.dbl d) (s.reg i)) : s.getDouble i = d := h

theorem Spec.Holds.boolean {s : CallScope} {b : Bool} {i : Nat} (h : Holds s.consts s.heap (.bool b) (s.reg i)) : s.getBoolean i = b := by
  show (s.reg i != 0#64) = b
  rw [show s.reg i = ofBool b from h]
  cases b <;> decide

/-- A result. -/
theorem does_gives {s : CallScope} {room : Nat} {x : Option CallRes} {v : Val} (h : x = some (returned s v)) :
    Does' s room x (gives room v) := .inl ⟨v, rfl, h⟩

/-- An error at an argument. -/
theorem does_failAt {s : CallScope} {room : Nat} {i : Nat} {pos : LineCol} {msg : Str} (h : s.lcs[i]? = some pos) :
    Does' s room (s.failAt i msg) (fails (some pos) msg) :=
  .inr ⟨some pos, msg, rfl, by simp [CallScope.failAt, CallScope.getPos, h]⟩

section
variable {O : StdOps} {data : List (Option ConstantDatum)}

/-! ## Strings -/

theorem serves_asc : Serves O data "ASC".toList true (pureCall ascCall) (function .integer Builtin.asc) := by
  refine serves_function (by decide) ?_
  intro s room vs r hg ho hl hv
  unfold Builtin.asc at hg
  split at hg
  · cases hg
    have h := (hv 0 _ rfl).string
    refine does_gives ?_
    simp only [ascCall, h, Option.bind_some, ascFn, returnInt]
    rw [BitVec.ofInt_natCast]
    rfl
  · rename_i t pos hne
    cases hg
    have h := (hv 0 _ rfl).string
    simp only [ascCall, h, Option.bind_some]
    have : ascFn t = .error "Input string must be 1-character long" := by
      match t with
      | [] => rfl
      | [c] => exact absurd rfl (hne c)
      | _ :: _ :: _ => rfl
    rw [this]
    exact does_failAt (by rw [hl]; rfl)
  · cases hg

theorem charOfNatAux_eq {n : Nat} (h : n.isValidChar) : Char.ofNatAux n h = Char.ofNat n := by
  unfold Char.ofNat
  rw [dif_pos h]

theorem serves_chr : Serves O data "CHR".toList true (pureCall chrCall) (function .text Builtin.chr) := by
  refine serves_function (by decide) ?_
  intro s room vs r hg ho hl hv
  unfold Builtin.chr at hg
  split at hg
  · rename_i i pos
    have h := (hv 0 _ rfl).integer
    have hp : s.lcs[0]? = some pos := by rw [hl]; rfl
    simp only [chrCall, h, chrFn]
    by_cases h1 : i.toInt < 0
    · rw [if_pos h1] at hg
      cases hg
      rw [if_pos h1, if_pos h1]
      exact does_failAt hp
    · rw [if_neg h1] at hg ⊢
      rw [if_neg h1]
      by_cases h2 : i.toInt.toNat.isValidChar
      · rw [if_pos h2] at hg
        cases hg
        refine does_gives ?_
        simp only [charFromU32, dif_pos h2, charOfNatAux_eq]
        rfl
      · rw [if_neg h2] at hg
        cases hg
        simp only [charFromU32, dif_neg h2]
        exact does_failAt hp
  · cases hg

/-- Functions from strings to strings. -/
theorem serves_ofText {name : Str} {f : Str → Str} {g : CallScope → Option CallRes} (hn : ¬ Stateful name)
    (h : ∀ s : CallScope, g s = (s.getString 0).map fun t => s.returnString (f t)) :
    Serves O data name true (pureCall g) (function .text (Builtin.ofText f)) := by
  refine serves_function hn ?_
  intro s room vs r hg ho hl hv
  unfold Builtin.ofText at hg
  split at hg
  · cases hg
    have h1 := (hv 0 _ rfl).string
    refine does_gives ?_
    rw [h, h1]
    rfl
  · cases hg

theorem serves_left : Serves O data "LEFT".toList true (pureCall leftCall) (function .text Builtin.left) := by
  refine serves_function (by decide) ?_
  intro s room vs r hg ho hl hv
  unfold Builtin.left at hg
  split at hg
  · rename_i t p n pos
    have h1 := (hv 0 _ rfl).string
    have h2 := (hv 1 _ rfl).integer
    simp only [leftCall, h1, h2, Option.bind_some, C31_left]
    split at hg <;> rename_i h3
    · cases hg
      rw [if_pos h3]
      exact does_failAt (by rw [hl]; rfl)
    · cases hg
      rw [if_neg h3]
      exact does_gives rfl
  · cases hg

theorem right_eq (s : Str) {n : Int} (h : ¬ n < 0) : rightFn s n = .ok (s.drop (s.length - n.toNat)) := by
  obtain ⟨pre, r, h1, h2, h3⟩ := (C31_right s n).2 (by omega)
  rw [h1]
  congr 1
  have : pre.length = s.length - n.toNat := by rw [h2, List.length_append] at *; omega
  rw [← this, h2, List.drop_left]

theorem serves_right : Serves O data "RIGHT".toList true (pureCall rightCall) (function .text Builtin.right) := by
  refine serves_function (by decide) ?_
  intro s room vs r hg ho hl hv
  unfold Builtin.right at hg
  split at hg
  · rename_i t p n pos
    have h1 := (hv 0 _ rfl).string
    have h2 := (hv 1 _ rfl).integer
    simp only [rightCall, h1, h2, Option.bind_some]
    split at hg <;> rename_i h3
    · cases hg
      rw [(C31_right t n.toInt).1 h3]
      exact does_failAt (by rw [hl]; rfl)
    · cases hg
      rw [right_eq t h3]
      exact does_gives rfl
  · cases hg

theorem serves_mid : Serves O data "MID".toList true (pureCall midCall) (function .text Builtin.mid) := by
  refine serves_function (by decide) ?_
  intro s room vs r hg ho hl hv
  unfold Builtin.mid at hg
  split at hg
  · rename_i t p n pos
    have h1 := (hv 0 _ rfl).string
    have h2 := (hv 1 _ rfl).integer
    have hn : ¬ s.nargs = 3 := by simp [CallScope.nargs, hl]
    simp only [midCall, h1, h2, Option.bind_some, if_neg hn, C31_mid_partial]
    split at hg <;> rename_i h3
    · cases hg
      simp only [if_pos h3]
      exact does_failAt (by rw [hl]; rfl)
    · cases hg
      simp only [if_neg h3]
      exact does_gives rfl
  · rename_i t p n pos k pos'
    have h1 := (hv 0 _ rfl).string
    have h2 := (hv 1 _ rfl).integer
    have h2' := (hv 2 _ rfl).integer
    have hn : s.nargs = 3 := by simp [CallScope.nargs, hl]
    simp only [midCall, h1, h2, h2', Option.bind_some, if_pos hn, C31_mid_partial]
    split at hg <;> rename_i h3
    · cases hg
      simp only [if_pos h3]
      exact does_failAt (by rw [hl]; rfl)
    · split at hg <;> rename_i h4
      · cases hg
        simp only [if_neg h3, if_pos h4]
        exact does_failAt (by rw [hl]; rfl)
      · cases hg
        simp only [if_neg h3, if_neg h4]
        exact does_gives rfl
  · cases hg

theorem serves_len : Serves O data "LEN".toList true (pureCall lenCall) (function .integer Builtin.len) := by
  refine serves_function (by decide) ?_
  intro s room vs r hg ho hl hv
  unfold Builtin.len at hg
  split at hg
  · rename_i t pos
    have h1 := (hv 0 _ rfl).string
    simp only [lenCall, h1, Option.bind_some, lenFn]
    split at hg <;> rename_i h2
    · cases hg
      rw [if_pos h2]
      refine does_gives ?_
      simp only
      rw [BitVec.ofInt_natCast]
      rfl
    · cases hg
      rw [if_neg h2]
      exact .inr ⟨none, _, rfl, rfl⟩
  · cases hg

theorem serves_space : Serves O data "SPACE".toList true (pureCall spaceCall) (function .text Builtin.space) := by
  refine serves_function (by decide) ?_
  intro s room vs r hg ho hl hv
  unfold Builtin.space at hg
  split at hg
  · have h1 := (hv 0 _ rfl).integer
    simp only [spaceCall, h1, spaceFn]
    split at hg <;> rename_i h2
    · cases hg
      rw [if_pos h2]
      exact does_failAt (by rw [hl]; rfl)
    · cases hg
      rw [if_neg h2]
      exact does_gives rfl
  · cases hg

theorem serves_val : Serves O data "VAL".toList true (pureCall (valCall O)) (function .double (Builtin.val O)) := by
  refine serves_function (by decide) ?_
  intro s room vs r hg ho hl hv
  unfold Builtin.val at hg
  split at hg
  · have h1 := (hv 0 _ rfl).string
    cases hg
    refine does_gives ?_
    simp only [valCall, h1, Option.map_some]
    cases numericPrefix _ <;> rfl
  · cases hg

/-! ## INSTR -/

theorem firstFrom_eq {start : Nat} {s t : Str} {n : Nat} (hst : 1 ≤ start)
    (h : (n ≠ 0 ∧ start ≤ n ∧ OccursAt s t n ∧ ∀ q : Nat, start ≤ q → q < n → ¬ OccursAt s t q) ∨
      (n = 0 ∧ ∀ q : Nat, start ≤ q → ¬ OccursAt s t q)) : Builtin.firstFrom start s t = n := by
  unfold Builtin.firstFrom
  have key : ∀ p, (decide (start ≤ p ∧ 1 ≤ p) && t.isPrefixOf (s.drop (p - 1)) && decide (p ≤ s.length + 1)) = true ↔
      start ≤ p ∧ OccursAt s t p := by
    intro p
    rw [occursAt_iff]
    simp only [Bool.and_eq_true, decide_eq_true_eq, List.isPrefixOf_iff_prefix]
    constructor
    · rintro ⟨⟨⟨h1, h2⟩, h3⟩, h4⟩; exact ⟨h1, h2, by omega, h3⟩
    · rintro ⟨h1, h2, h3, h4⟩; exact ⟨⟨⟨h1, h2⟩, h4⟩, by omega⟩
  rcases h with ⟨h0, h1, h2, h3⟩ | ⟨rfl, h1⟩
  · have hle : n < s.length + 2 := by have := (occursAt_iff.1 h2).2.1; omega
    have : (List.range (s.length + 2)).find? (fun p => decide (start ≤ p ∧ 1 ≤ p) && t.isPrefixOf (s.drop (p - 1)) &&
        decide (p ≤ s.length + 1)) = some n := by
      rw [List.find?_range_eq_some]
      refine ⟨(key n).2 ⟨h1, h2⟩, by simpa using hle, fun j hj => ?_⟩
      have : ¬ (start ≤ j ∧ OccursAt s t j) := fun ⟨a, b⟩ => h3 j a hj b
      rw [← key, Bool.not_eq_true] at this
      rw [this]
      rfl
    rw [this]
    rfl
  · have : (List.range (s.length + 2)).find? (fun p => decide (start ≤ p ∧ 1 ≤ p) && t.isPrefixOf (s.drop (p - 1)) &&
        decide (p ≤ s.length + 1)) = none := by
      rw [List.find?_eq_none]
      intro p _ hp
      obtain ⟨a, b⟩ := (key p).1 hp
      exact h1 p a b
    rw [this]
    rfl

theorem instr_eq (start : Option Int) (s t : Str) (hs : s.length + 1 < 2 ^ 31) (h : 0 < start.getD 1) :
    instrFn start s t = .ok (Builtin.firstFrom (start.getD 1).toNat s t) := by
  obtain ⟨n, h1, h2⟩ := (C31_instr start s t hs).2 h
  rw [h1, firstFrom_eq (n := n) (by omega) ?_]
  rcases h2 with ⟨a, b, c, d⟩ | ⟨a, b⟩
  · exact .inl ⟨a, by omega, c, fun q hq => d q (by omega)⟩
  · exact .inr ⟨a, fun q hq => b q (by omega)⟩

theorem serves_instr : Serves O data "INSTR".toList true (pureCall instrCall) (function .integer Builtin.instr) := by
  refine serves_function (by decide) ?_
  intro s room vs r hg ho hl hv
  unfold Builtin.instr at hg
  split at hg
  · rename_i t p u p'
    have h1 := (hv 0 _ rfl).string
    have h2 := (hv 1 _ rfl).string
    have hn : s.nargs = 2 := by simp [CallScope.nargs, hl]
    split at hg <;> rename_i h3
    · cases hg
      simp only [instrCall, if_pos hn, h1, h2, Option.bind_some]
      rw [instr_eq none t u h3 (by decide)]
      refine does_gives ?_
      simp only [returnInt]
      rw [BitVec.ofInt_natCast]
      rfl
    · cases hg
  · rename_i i pos t p u p'
    have h1 := (hv 0 _ rfl).integer
    have h2 := (hv 1 _ rfl).string
    have h3 := (hv 2 _ rfl).string
    have hn : ¬ s.nargs = 2 := by simp [CallScope.nargs, hl]
    simp only [instrCall, if_neg hn, h1, h2, h3, Option.bind_some]
    split at hg <;> rename_i h4
    · cases hg
      have : instrFn (some i.toInt) t u = .error "start% must be positive" := by
        unfold instrFn
        rw [if_pos (by simpa using h4)]
      rw [this]
      exact does_failAt (by rw [hl]; rfl)
    · split at hg <;> rename_i h5
      · cases hg
        rw [instr_eq (some i.toInt) t u h5 (by simp; omega)]
        refine does_gives ?_
        simp only [returnInt]
        rw [BitVec.ofInt_natCast]
        rfl
      · cases hg
  · cases hg

/-! ## Values as text -/

theorem isNan_eq (d : BitVec 64) : isNan d = decide (NotANumber d) := by
  have h1 : (d.toNat / 2 ^ 52 % 2 ^ 11 = 2 ^ 11 - 1) ↔ d.extractLsb' 52 11 = BitVec.allOnes 11 := by
    rw [← BitVec.toNat_inj, BitVec.extractLsb'_toNat, BitVec.toNat_allOnes, Nat.shiftRight_eq_div_pow]
  have h2 : (d.toNat % 2 ^ 52 ≠ 0) ↔ d.extractLsb' 0 52 ≠ 0#52 := by
    rw [Ne, Ne, not_iff_not, ← BitVec.toNat_inj, BitVec.extractLsb'_toNat, Nat.shiftRight_zero]
    rfl
  unfold isNan NotANumber
  rw [Bool.eq_iff_iff]
  simp only [Bool.and_eq_true, beq_iff_eq, bne_iff_ne]
  rw [h1, h2]
  exact decide_eq_true_iff.symm

/-- Values that are not strings are followed by a space. -/
def spaced : Val → Bool
  | .text _ => false
  | _ => true

theorem printValue_eq {s : CallScope} {v : Val} {i : Nat} (h : Holds s.consts s.heap v (s.reg i)) :
    printValue O s i v.ty = some (shownVal O v, spaced v) := by
  cases v with
  | bool b => simp only [Val.ty, printValue, h.boolean]; cases b <;> rfl
  | int n =>
    simp only [Val.ty, printValue, h.integer, formatInteger, shownVal, signed, showInteger, decide_eq_true_eq]
    rfl
  | dbl d =>
    simp only [Val.ty, printValue, h.double, formatDouble, shownVal, signed, spaced]
    rw [isNan_eq, ← BitVec.msb_eq_getLsbD_last, Bool.and_comm]
    simp only [decide_not]
  | text t => simp only [Val.ty, printValue, h.string, Option.map_some, shownVal, spaced]

theorem serves_str : Serves O data "STR".toList true (pureCall (strCall O)) (Builtin.str O) := by
  refine serves_of (by decide) ?_ ?_
  · intro consts q first fp room regs heap st r hm hslots _
    unfold Builtin.str at hm
    split at hm
    · rename_i q1 sep v pos hq1 hq2
      rw [hq2] at hslots ⊢
      cases hm
      have h1 : VarArgTag.parse (regs (first + 1 + 0)) = some (.immediate sep v.ty) := hslots 0 _ rfl
      have h2 : Holds consts heap v (regs (first + 1 + 1)) := hslots 1 _ rfl
      refine does_gives ?_
      have h3 : (CallScope.mk first 1 (slotPositions [(Arg.opt sep v, pos)]) regs heap consts data).getType 0 =
          some (.immediate sep v.ty) := h1
      simp only [strCall, h3]
      rw [printValue_eq (v := v) h2]
      rfl
    · cases hm
  · intro st room q r hm
    unfold Builtin.str at hm
    split at hm
    next h _ => rw [h]; rfl
    · cases hm

/-! ## Numbers -/

theorem abs_bits (d : BitVec 64) : d &&& 0x7fffffffffffffff#64 = 0#1 ++ d.extractLsb' 0 63 := by
  have : 0x7fffffffffffffff#64 = 0#1 ++ BitVec.allOnes 63 := by decide
  rw [this]
  apply BitVec.eq_of_getLsbD_eq
  intro i hi
  simp only [BitVec.getLsbD_and, BitVec.getLsbD_append, BitVec.getLsbD_allOnes, BitVec.getLsbD_extractLsb']
  by_cases h : i < 63 <;> simp [h]

theorem serves_abs : Serves O data "ABS".toList true (pureCall absCall) (function .double Builtin.abs) := by
  refine serves_function (by decide) ?_
  intro s room vs r hg ho hl hv
  unfold Builtin.abs at hg
  split at hg
  · have h1 := (hv 0 _ rfl).double
    cases hg
    refine does_gives ?_
    simp only [absCall, h1, abs_bits]
    rfl
  · cases hg

theorem best_eq {better : BitVec 64 → BitVec 64 → Bool} {s : CallScope} : ∀ {vs : List (Val × LineCol)} {m d : BitVec 64} {k : Nat},
    Builtin.best better m vs = some d → (∀ (j : Nat) v, vs[j]? = some v → Holds s.consts s.heap v.1 (s.reg (k + j))) →
    (List.range' k vs.length).foldl (fun m i => if better (s.getDouble i) m then s.getDouble i else m) m = d
  | [], m, d, k, h, _ => by cases h; rfl
  | (.dbl x, _) :: rest, m, d, k, h, hv => by
    have h1 : s.getDouble k = x := (hv 0 _ rfl).double
    simp only [List.length_cons, List.range'_succ, List.foldl_cons, h1]
    exact best_eq h fun j v hj => by
      have := hv (j + 1) v hj
      rwa [show k + (j + 1) = k + 1 + j by omega] at this
  | (.int _, _) :: _, _, _, _, h, _ => by cases h
  | (.bool _, _) :: _, _, _, _, h, _ => by cases h
  | (.text _, _) :: _, _, _, _, h, _ => by cases h

theorem serves_extreme {name : Str} {better : BitVec 64 → BitVec 64 → Bool} {start : BitVec 64} {f : CallScope → Option CallRes}
    (hn : ¬ Stateful name)
    (hf : ∀ s : CallScope, f s = some (s.returnDouble ((List.range s.nargs).foldl
      (fun m i => if better (s.getDouble i) m then s.getDouble i else m) start))) :
    Serves O data name true (pureCall f) (function .double (Builtin.extreme better start)) := by
  refine serves_function hn ?_
  intro s room vs r hg ho hl hv
  unfold Builtin.extreme at hg
  obtain ⟨d, hd, rfl⟩ := Option.map_eq_some_iff.1 hg
  refine does_gives ?_
  have : s.nargs = vs.length := by simp [CallScope.nargs, hl]
  rw [hf, this, List.range_eq_range', best_eq hd (k := 0) (s := s) (by simpa using hv)]
  rfl

theorem serves_ofDouble {name : Str} {t : ExprType} {f : CallScope → Option CallRes} {g : BitVec 64 → Except Str Val} (hn : ¬ Stateful name)
    (hf : ∀ s : CallScope, f s = match g (s.getDouble 0) with
      | .ok v => some (returned s v)
      | .error msg => s.failAt 0 msg) :
    Serves O data name true (pureCall f) (function t (Builtin.ofDouble g)) := by
  refine serves_function hn ?_
  intro s room vs r hg ho hl hv
  unfold Builtin.ofDouble at hg
  split at hg
  · have h1 := (hv 0 _ rfl).double
    rw [hf, h1]
    split at hg
    next h => cases hg; simp only [h]; exact does_gives rfl
    next h => cases hg; simp only [h]; exact does_failAt (by rw [hl]; rfl)
  · cases hg

theorem arc_eq {f : BitVec 64 → BitVec 64} {what : String} {st : StdState} (s : CallScope) : arcCall O f what st.degrees s =
    match Builtin.arc O f what st (s.getDouble 0) with
      | .ok v => some (returned s v)
      | .error msg => s.failAt 0 msg := by
  unfold arcCall Builtin.arc Builtin.fromRadians
  by_cases h : O.atMost 0xbff0000000000000#64 (s.getDouble 0) = true ∧ O.atMost (s.getDouble 0) 0x3ff0000000000000#64 = true
  · rw [if_neg (by simp [h.1, h.2]), if_pos h]
    cases st.degrees <;> rfl
  · rw [if_pos (by simpa [← Bool.not_eq_true, imp_iff_not_or] using h), if_neg h]

theorem serves_arc {name : Str} {f : BitVec 64 → BitVec 64} {what : String} (hn : ¬ Stateful name) :
    Serves O data name true (modeCall (arcCall O f what)) (functionIn .double fun st => Builtin.ofDouble (Builtin.arc O f what st)) :=
  serves_in fun _ => serves_ofDouble hn arc_eq

theorem serves_atn : Serves O data "ATN".toList true (modeCall (atnCall O))
    (functionIn .double fun st => Builtin.ofDouble fun d => .ok (.dbl (Builtin.fromRadians O st (O.atan d)))) :=
  serves_in fun st => serves_ofDouble (by decide) fun s => by
    unfold atnCall Builtin.fromRadians
    cases st.degrees <;> rfl

theorem serves_angle {name : Str} {f : BitVec 64 → BitVec 64} (hn : ¬ Stateful name) :
    Serves O data name true (modeCall (angleCall O f))
      (functionIn .double fun st => Builtin.ofDouble fun d => .ok (.dbl (f (Builtin.inRadians O st d)))) :=
  serves_in fun st => serves_ofDouble hn fun s => by
    unfold angleCall Builtin.inRadians
    cases st.degrees <;> rfl

theorem serves_cast {name : Str} {first : BitVec 64 → BitVec 64} (hn : ¬ Stateful name) :
    Serves O data name true (pureCall (castCall O first)) (function .integer (Builtin.ofDouble fun d => (O.toInt (first d)).map .int)) :=
  serves_ofDouble hn fun s => by
    unfold castCall
    cases O.toInt (first (s.getDouble 0)) <;> rfl

theorem isFinite_eq (d : BitVec 64) : isFinite d = decide (Builtin.Finite d) := by
  have h1 : (d.toNat / 2 ^ 52 % 2 ^ 11 = 2 ^ 11 - 1) ↔ d.extractLsb' 52 11 = BitVec.allOnes 11 := by
    rw [← BitVec.toNat_inj, BitVec.extractLsb'_toNat, BitVec.toNat_allOnes, Nat.shiftRight_eq_div_pow]
  unfold isFinite Builtin.Finite
  rw [Bool.eq_iff_iff, bne_iff_ne, Ne, h1]
  exact decide_eq_true_iff.symm

theorem serves_exp : Serves O data "EXP".toList true (pureCall (expCall O)) (function .double (Builtin.ofDouble (Builtin.exp O))) :=
  serves_ofDouble (by decide) fun s => by
    unfold expCall Builtin.exp
    by_cases h : Builtin.Finite (O.exp (s.getDouble 0))
    · rw [if_pos h, if_neg (by simp [isFinite_eq, h])]; rfl
    · rw [if_neg h, if_pos (by simp [isFinite_eq, h])]

theorem serves_log : Serves O data "LOG".toList true (pureCall (logCall O)) (function .double (Builtin.ofDouble (Builtin.log O))) :=
  serves_ofDouble (by decide) fun s => by
    unfold logCall Builtin.log
    split <;> rfl

theorem serves_sqr : Serves O data "SQR".toList true (pureCall (sqrCall O)) (function .double (Builtin.ofDouble (Builtin.sqr O))) :=
  serves_ofDouble (by decide) fun s => by
    unfold sqrCall Builtin.sqr
    split <;> rfl

theorem serves_sgn : Serves O data "SGN".toList true (pureCall (sgnCall O)) (function .integer (Builtin.ofDouble (Builtin.sgn O))) :=
  serves_ofDouble (by decide) fun s => rfl

theorem serves_pi : Serves O data "PI".toList true (pureCall piCall) (function .double Builtin.pi) := by
  refine serves_function (by decide) ?_
  intro s room vs r hg ho hl hv
  unfold Builtin.pi at hg
  split at hg
  · cases hg; exact does_gives rfl
  · cases hg

theorem serves_round : Serves O data "ROUND".toList true (pureCall (roundCall O)) (function .double (Builtin.rounded O)) := by
  refine serves_function (by decide) ?_
  intro s room vs r hg ho hl hv
  unfold Builtin.rounded at hg
  split at hg
  · cases hg
    have h1 := (hv 0 _ rfl).double
    refine does_gives ?_
    unfold roundCall
    rw [if_pos (by simp [CallScope.nargs, hl]), h1]
    rfl
  · cases hg
    have h1 := (hv 0 _ rfl).double
    have h2 := (hv 1 _ rfl).integer
    refine does_gives ?_
    unfold roundCall
    rw [if_neg (by simp [CallScope.nargs, hl]), h1, h2]
    rfl
  · cases hg

/-! ## Random numbers -/

theorem seeded_eq (n : I32) (r : Prng) : r.fromSeed O n = Builtin.seeded O n r := by
  simp only [Prng.fromSeed, Builtin.seeded, Builtin.draw, BitVec.signExtend]

theorem seededBySystem_eq (r : Prng) : r.fromEntropy O = Builtin.seededBySystem O r := rfl

theorem draw_eq (r : Prng) : r.next O = Builtin.draw O r := rfl

theorem start_eq (width : Str → Nat) : StdState.start O = stdState O width data [] := rfl

theorem noneOrInteger {args : List (Arg × LineCol)} (h : Builtin.NoneOrInteger args) : args = [] ∨ ∃ n pos, args = [(.val (.int n), pos)] := by
  rcases h with h | h
  · exact .inl (List.length_eq_zero_iff.1 h)
  · obtain ⟨vs, hv, h⟩ := Option.map_eq_some_iff.1 h
    match args, hv with
    | [], hv => exact .inl rfl
    | (.val v, pos) :: rest, hv =>
      simp only [values, Option.map_eq_some_iff] at hv
      obtain ⟨us, hu, rfl⟩ := hv
      simp only [List.map_cons, List.cons.injEq, List.map_eq_nil_iff] at h
      obtain ⟨h1, rfl⟩ := h
      match rest, hu with
      | [], _ =>
        cases v with
        | int n => exact .inr ⟨n, pos, rfl⟩
        | _ => cases h1
      | (.val _, _) :: rest, hu => simp [values] at hu
      | (.opt _ _, _) :: _, hu => cases hu
      | (.missing _, _) :: _, hu => cases hu
      | (.ref _ _, _) :: _, hu => cases hu
      | (.optRef _ _ _, _) :: _, hu => cases hu
    | (.opt _ _, _) :: _, hv => cases hv
    | (.missing _, _) :: _, hv => cases hv
    | (.ref _ _, _) :: _, hv => cases hv
    | (.optRef _ _ _, _) :: _, hv => cases hv

theorem serves_mode {name : Str} {degrees : Bool} (h : name = (if degrees then "DEG".toList else "RAD".toList)) :
    Serves O data name false (modeCommand degrees) (command (·.length = 0)) := by
  intro consts q first fp room regs heap st r hname hslots hvars hbel h0 hroom hidx hm hfits
  simp only [command] at hm
  split at hm
  · cases hm
    refine ⟨regs, heap, ?_, answered_done⟩
    subst h
    cases degrees <;> (simp only [stdAfter, hname]; rfl)
  · cases hm

theorem serves_randomize : Serves O data "RANDOMIZE".toList false (randomizeCall O) (command Builtin.NoneOrInteger) := by
  intro consts q first fp room regs heap st r hname hslots hvars hbel h0 hroom hidx hm hfits
  simp only [command] at hm
  split at hm
  next h =>
    cases hm
    refine ⟨regs, heap, ?_, answered_done⟩
    have ha : stdAfter O byteLen data st (q, ⟨.ok none, [], 0⟩) = { st with random := Builtin.afterRandomize O q.args st.random } := by
      simp only [stdAfter, hname]
      rfl
    rw [ha]
    rcases noneOrInteger h.2 with h1 | ⟨n, pos, h1⟩
    · rw [h1]
      rfl
    · have h2 := hslots 0 (.val (.int n)) (by rw [h1]; rfl)
      rw [h.1] at h2
      rw [h1]
      unfold randomizeCall
      rw [if_neg (by simp [CallScope.nargs, slotPositions, Arg.slots])]
      have h3 : CallScope.getInteger ⟨first, 0, slotPositions [(Arg.val (.int n), pos)], regs, heap, consts, data⟩ 0 = n :=
        Spec.Holds.integer h2
      simp only [Bool.false_eq_true, if_false, h3, seeded_eq]
      rfl
  · cases hm

theorem serves_rnd : Serves O data "RND".toList true (rndCall O) (Builtin.rnd O) := by
  intro consts q first fp room regs heap st r hname hslots hvars hbel h0 hroom hidx hm hfits
  simp only [Builtin.rnd] at hm
  split at hm
  next h =>
    cases hm
    let s : CallScope := ⟨first, 1, slotPositions q.args, regs, heap, consts, data⟩
    have ha : ∀ r, stdAfter O byteLen data st (q, r) = { st with random := Builtin.afterRnd O q.args st.random } := by
      intro r
      simp only [stdAfter, hname]
      rfl
    obtain ⟨regs', heap', g1, g2⟩ := answered_gives (consts := consts) (fp := fp) (t := .double) (room := room) (s := s)
      (v := .dbl (O.div (O.ofU32 (Builtin.afterRnd O q.args st.random).last) (O.ofU32 (BitVec.allOnes 32)))) h0 hroom
    rw [h.1]
    refine ⟨regs', heap', ?_, g2⟩
    have main : rndCall O st s = some ({ st with random := Builtin.afterRnd O q.args st.random },
        s.returnDouble (O.div (O.ofU32 (Builtin.afterRnd O q.args st.random).last) (O.ofU32 (BitVec.allOnes 32)))) := by
      rcases noneOrInteger h.2 with h1 | ⟨n, pos, h1⟩
      · unfold rndCall
        rw [if_pos (by simp [s, CallScope.nargs, slotPositions, h1]), h1]
        rfl
      · have h2 := hslots 0 (.val (.int n)) (by rw [h1]; rfl)
        rw [h.1] at h2
        have h3 : s.getInteger 0 = n := Spec.Holds.integer h2
        unfold rndCall
        rw [if_neg (by simp [s, CallScope.nargs, slotPositions, h1, Arg.slots]), h3, h1]
        unfold Builtin.afterRnd
        by_cases hz : n.toInt = 0
        · simp only [if_pos hz]
          rfl
        · by_cases hp : n.toInt < 0
          · simp only [if_neg hz, if_pos hp, if_neg (show ¬ 0 < n.toInt by omega), seeded_eq]
            rfl
          · simp only [if_neg hz, if_neg hp, if_pos (show 0 < n.toInt by omega), draw_eq]
            rfl
    show rndCall O st s = _
    rw [main, ha, ← g1]
    rfl
  · cases hm

/-! ## Arrays -/

theorem dims_of {s : CallScope} {ty : ExprType} {dims : List Nat} {elem : List Int → Val} {i : Nat}
    (h : HoldsCell s.consts s.heap (.arr ty dims elem) (s.regs i)) : s.arrayDimensions i = some dims := by
  obtain ⟨k, a, h1, h2, h3, _⟩ := h
  simp [CallScope.arrayDimensions, h1, DatumPtr.heapIndex, h2, h3]

theorem returnInt_nat {s : CallScope} {room : Nat} {i : Nat} {msg : Str} {n : Nat} {x : Int} (h : x = asI32 n) :
    Does' s room (returnInt s (.ok x) i msg) (gives room (Builtin.ofNat n)) := by
  refine does_gives ?_
  subst h
  simp only [returnInt, asI32, BitVec.ofInt_toInt]
  rfl

/-- Both bounds: `g` is what the model computes from the size of a dimension. -/
theorem serves_bound {name : Str} {f : Nat → Nat} {g : List Nat → Option Int → Outcome Int} (hn : ¬ Stateful name)
    (hone : ∀ d, 0 < d → g [d] none = .ok (asI32 (f d)))
    (hmany : ∀ a b ds, g (a :: b :: ds) none = .error "Requires a dimension for multidimensional arrays")
    (hneg : ∀ dims i, i < 0 → ∃ e, g dims (some i) = .error e)
    (hbig : ∀ dims (i : Int), ¬ i < 0 → dims.length < i.toNat → ∃ e, g dims (some i) = .error e)
    (hok : ∀ dims (i : Int) k d, i.toNat = k + 1 → dims[k]? = some d → 0 < d → g dims (some i) = .ok (asI32 (f d))) :
    Serves O data name true (pureCall (boundCall g)) (Builtin.bound f) := by
  refine serves_of hn ?_ ?_
  · intro consts q first fp room regs heap st r hm hslots hvars
    unfold Builtin.bound at hm
    split at hm
    · rename_i t n p pos ty dims elem h1 h2 h3
      rw [h2] at hslots ⊢
      rw [h2, h3] at hvars
      have hr : taggedRegParse (regs (first + 1 + 0)) = some (p.index fp, t) := hslots 0 _ rfl
      have hc : HoldsCell consts heap (.arr ty dims elem) (regs (p.index fp)) := hvars 0 _ p _ rfl rfl rfl
      generalize hs : CallScope.mk first 1 (slotPositions [(Arg.ref (.array t n) p, pos)]) regs heap consts data = s
      have hr' : s.getRef 0 = some (p.index fp, t) := by subst hs; exact hr
      have hd : s.arrayDimensions (p.index fp) = some dims := by subst hs; exact dims_of hc
      have hlen : s.nargs = 1 := by subst hs; rfl
      have hpos : s.lcs[0]? = some pos := by subst hs; rfl
      simp only [boundCall, hr', Option.bind_some, hd, hlen]
      rw [if_neg (by decide)]
      match dims with
      | [] => simp at hm
      | [d] =>
        simp only at hm
        split at hm <;> rename_i hpd
        · cases hm
          rw [hone d hpd]
          exact returnInt_nat rfl
        · cases hm
      | a :: b :: ds =>
        cases hm
        rw [hmany a b ds]
        exact does_failAt hpos
    · rename_i t n p pos0 i pos ty dims elem c h1 h2 h3
      rw [h2] at hslots ⊢
      rw [h2, h3] at hvars
      have hr : taggedRegParse (regs (first + 1 + 0)) = some (p.index fp, t) := hslots 0 _ rfl
      have hi : Holds consts heap (.int i) (regs (first + 1 + 1)) := hslots 1 _ rfl
      have hc : HoldsCell consts heap (.arr ty dims elem) (regs (p.index fp)) := hvars 0 _ p _ rfl rfl rfl
      generalize hs : CallScope.mk first 1 (slotPositions [(Arg.ref (.array t n) p, pos0), (Arg.val (.int i), pos)]) regs heap consts data = s
      have hr' : s.getRef 0 = some (p.index fp, t) := by subst hs; exact hr
      have hi' : s.getInteger 1 = i := by subst hs; exact Spec.Holds.integer hi
      have hd : s.arrayDimensions (p.index fp) = some dims := by subst hs; exact dims_of hc
      have hlen : s.nargs = 2 := by subst hs; rfl
      have hpos : s.lcs[1]? = some pos := by subst hs; rfl
      simp only [boundCall, hr', Option.bind_some, hd, hlen, if_true, hi']
      split at hm <;> rename_i h4
      · cases hm
        obtain ⟨e, he⟩ := hneg dims _ h4
        rw [he]
        simp only [returnInt, if_pos h4]
        exact does_failAt hpos
      · split at hm <;> rename_i h5
        · cases hm
          obtain ⟨e, he⟩ := hbig dims _ h4 h5
          rw [he]
          simp only [returnInt, if_neg h4]
          exact does_failAt hpos
        · split at hm <;> rename_i h6
          · cases hm
          · obtain ⟨d, hd1, hd2⟩ := Option.bind_eq_some_iff.1 hm
            split at hd2 <;> rename_i h7
            · cases hd2
              rw [hok dims _ _ d h6 hd1 h7]
              exact returnInt_nat rfl
            · cases hd2
    · cases hm
  · intro st room q r hm
    unfold Builtin.bound at hm
    split at hm
    next h _ _ => rw [h]; rfl
    next h _ _ => rw [h]; rfl
    · cases hm

theorem serves_lbound : Serves O data "LBOUND".toList true (pureCall (boundCall lboundFn)) (Builtin.bound fun _ => 0) := by
  refine serves_bound (by decide) ?_ ?_ ?_ ?_ ?_
  · intro d _; rfl
  · intro a b ds; simp [lboundFn, boundDim]
  · intro dims i h; simp [lboundFn, boundDim, h]
  · intro dims i h1 h2; simp [lboundFn, boundDim, h1, h2]
  · intro dims i k d h1 h2 h3
    have : k < dims.length := (List.getElem?_eq_some_iff.1 h2).1
    simp only [lboundFn, boundDim]
    rw [if_neg (by omega), if_neg (by omega)]
    rfl

theorem serves_ubound : Serves O data "UBOUND".toList true (pureCall (boundCall uboundFn)) (Builtin.bound fun d => d - 1) := by
  refine serves_bound (by decide) ?_ ?_ ?_ ?_ ?_
  · intro d h
    obtain ⟨d, rfl⟩ := Nat.exists_eq_succ_of_ne_zero (by omega : d ≠ 0)
    rfl
  · intro a b ds; simp [uboundFn, boundDim]
  · intro dims i h; simp [uboundFn, boundDim, h]
  · intro dims i h1 h2; simp [uboundFn, boundDim, h1, h2]
  · intro dims i k d h1 h2 h3
    have : k < dims.length := (List.getElem?_eq_some_iff.1 h2).1
    obtain ⟨d, rfl⟩ := Nat.exists_eq_succ_of_ne_zero (by omega : d ≠ 0)
    simp only [uboundFn, boundDim]
    rw [if_neg (by omega), if_neg (by omega), h1]
    simp [h2]

/-! ## PRINT -/

theorem byteLen_space (t : Str) : byteLen (t ++ [' ']) = byteLen t + 1 := by
  induction t with
  | nil => rfl
  | cons c t ih => simp only [List.cons_append, byteLen, ih]; omega

theorem padLoop_eq : ∀ (n : Nat) (t : Str), (14 - byteLen t % 14) % 14 ≤ n →
    padLoop n t = t ++ List.replicate ((14 - byteLen t % 14) % 14) ' '
  | 0, t, h => by
    rw [Nat.le_zero.1 h]
    simp [padLoop]
  | n + 1, t, h => by
    unfold padLoop
    have hb := byteLen_space t
    by_cases h0 : byteLen t % 14 = 0
    · rw [if_neg (by simp [h0]), h0]
      simp
    · rw [if_pos h0, padLoop_eq n _ (by rw [hb]; omega), hb, List.append_assoc]
      congr 1
      rw [show (14 - byteLen t % 14) % 14 = (14 - (byteLen t + 1) % 14) % 14 + 1 by omega]
      rfl

theorem afterValue_eq {sep : ArgSep} {add : Bool} {t : Str} (h : sep ≠ .as) :
    afterValue sep add t = some (t ++ List.replicate (spacesAfter sep (!add) (byteLen t)) ' ') := by
  cases sep with
  | «end» => simp [afterValue, spacesAfter]
  | short => cases add <;> simp [afterValue, spacesAfter]
  | long =>
    have hb := byteLen_space t
    simp only [afterValue, spacesAfter]
    rw [padLoop_eq 14 _ (by omega), hb, List.append_assoc]
    congr 2
    rw [show 14 - byteLen t % 14 = (14 - (byteLen t + 1) % 14) % 14 + 1 by omega]
    rfl
  | as => exact absurd rfl h

theorem spaced_eq (v : Val) : (!spaced v) = (match (some v : Option Val) with
      | some (.text _) | none => true
      | _ => false) := by
  cases v <;> rfl

/-- The loop of `PRINT`. -/
theorem printLoop_eq {s : CallScope} {fp : Nat} : ∀ (args : List (Arg × LineCol)) {items : List (ArgSep × Option Val)} {n reg : Nat} {text : Str},
    printed args = some items → Separated items → args.length ≤ n →
    (∀ (j : Nat) x, (slots args)[j]? = some x → HoldsSlot s.consts s.heap fp x (s.reg (reg + j))) →
    printLoop O s n reg text = some (layout O byteLen text items,
      (items.getLast?.bind (·.2)).isSome || (decide (items.length = 1) && (reg == 0 && text.isEmpty)))
  | [], items, n, reg, text, hp, hs, hn, hx => by cases hp; exact absurd hs id
  | (.opt sep v, pos) :: rest, items, n, reg, text, hp, hs, hn, hx => by
    obtain ⟨tail, ht, rfl⟩ := Option.map_eq_some_iff.1 (show (printed rest).map ((sep, some v) :: ·) = some items from hp)
    obtain ⟨n, rfl⟩ := Nat.exists_eq_succ_of_ne_zero (show n ≠ 0 by simp at hn; omega)
    have h1 : s.getType reg = some (.immediate sep v.ty) := hx 0 _ rfl
    have h2 := printValue_eq (O := O) (s := s) (v := v) (i := reg + 1) (hx 1 _ rfl)
    unfold printLoop
    simp only [h1, h2]
    cases tail with
    | nil =>
      replace hs : sep = .end := hs
      subst hs
      rw [afterValue_eq (by decide), spaced_eq]
      simp only [if_true, layout, Option.map_some, Option.getD_some]
      rfl
    | cons y tail =>
      obtain ⟨hsep, hs⟩ : (sep = .short ∨ sep = .long) ∧ Separated (y :: tail) := hs
      rw [afterValue_eq (by rintro rfl; simp at hsep)]
      simp only
      rw [if_neg (by rintro rfl; simp at hsep), printLoop_eq rest ht hs (by simp at hn; omega) (fun j x hj => by
        have := hx (j + 2) x (by simpa [slots, Arg.slots] using hj)
        rwa [show reg + (j + 2) = reg + 2 + j by omega] at this), spaced_eq]
      simp only [layout, Option.map_some, Option.getD_some, List.getLast?_cons_cons]
      congr 2
      simp
  | (.missing sep, pos) :: rest, items, n, reg, text, hp, hs, hn, hx => by
    obtain ⟨tail, ht, rfl⟩ := Option.map_eq_some_iff.1 (show (printed rest).map ((sep, none) :: ·) = some items from hp)
    obtain ⟨n, rfl⟩ := Nat.exists_eq_succ_of_ne_zero (show n ≠ 0 by simp at hn; omega)
    have h1 : s.getType reg = some (.missing sep) := hx 0 _ rfl
    unfold printLoop
    simp only [h1]
    cases tail with
    | nil =>
      replace hs : sep = .end := hs
      subst hs
      rw [afterValue_eq (by decide)]
      simp only [if_true, layout, Option.map_none, Option.getD_none, List.append_nil, Bool.not_false]
      simp
    | cons y tail =>
      obtain ⟨hsep, hs⟩ : (sep = .short ∨ sep = .long) ∧ Separated (y :: tail) := hs
      rw [afterValue_eq (by rintro rfl; simp at hsep)]
      simp only
      rw [if_neg (by rintro rfl; simp at hsep), printLoop_eq rest ht hs (by simp at hn; omega) (fun j x hj => by
        have := hx (j + 1) x (by simpa [slots, Arg.slots] using hj)
        rwa [show reg + (j + 1) = reg + 1 + j by omega] at this)]
      simp only [layout, Option.map_none, Option.getD_none, List.append_nil, List.getLast?_cons_cons, Bool.not_false]
      congr 2
      simp
  | (.val _, _) :: _, _, _, _, _, hp, _, _, _ => by cases hp
  | (.ref _ _, _) :: _, _, _, _, _, hp, _, _, _ => by cases hp
  | (.optRef _ _ _, _) :: _, _, _, _, _, hp, _, _, _ => by cases hp

theorem args_le_positions {args : List (Arg × LineCol)} : args.length ≤ (slotPositions args).length := by
  induction args with
  | nil => simp
  | cons a args ih =>
    obtain ⟨a, pos⟩ := a
    cases a <;> simp [slotPositions, Arg.slots] at ih ⊢ <;> omega

/-- The meaning of `PRINT`. -/
def printMeaning : Meaning := fun _ _ q => if q.ret = none then
  (printed q.args).bind fun items => if Separated items then some ⟨.ok none, [], 0⟩ else none
  else none

theorem serves_print : Serves O data "PRINT".toList false (printCall O) printMeaning := by
  intro consts q first fp room regs heap st r hname hslots hvars hbel h0 hroom hidx hm hfits
  unfold printMeaning at hm
  split at hm <;> rename_i hret
  · obtain ⟨items, hi, hm⟩ := Option.bind_eq_some_iff.1 hm
    split at hm <;> rename_i hsep
    · cases hm
      refine ⟨regs, heap, ?_, answered_done⟩
      rw [hret] at hslots
      simp only [Option.isSome_none] at hslots
      have hloop := printLoop_eq (O := O) (s := ⟨first, 0, slotPositions q.args, regs, heap, consts, data⟩) (fp := fp) q.args
        (n := (slotPositions q.args).length + 1) (reg := 0) (text := []) hi hsep (by have := args_le_positions (args := q.args); omega)
        (fun j x hx => by
          have := hslots j x hx
          show HoldsSlot consts heap fp x (regs (first + 0 + (0 + j)))
          rw [Nat.zero_add]
          exact this)
      have hnl : ((items.getLast?.bind (·.2)).isSome || (decide (items.length = 1) && ((0 : Nat) == 0 && ([] : Str).isEmpty))) = wholeLine items := by
        unfold wholeLine
        rw [Bool.or_comm]
        simp
      rw [hnl] at hloop
      show (printLoop O ⟨first, 0, slotPositions q.args, regs, heap, consts, data⟩ ((slotPositions q.args).length + 1) 0 []).map _ = _
      rw [hloop]
      simp only [stdAfter, hname, if_true, hi, Option.map_some, printedText]
      cases wholeLine items <;> rfl
    · cases hm
  · cases hm

/-! ## RESTORE -/

theorem serves_restore : Serves O data "RESTORE".toList false restoreCall
    (fun _ _ q => if q.ret = none ∧ q.args.length = 0 then some ⟨.ok none, [], 0⟩ else none) := by
  intro consts q first fp room regs heap st r hname hslots hvars hbel h0 hroom hidx hm hfits
  simp only at hm
  split at hm
  · cases hm
    refine ⟨regs, heap, ?_, answered_done⟩
    simp only [stdAfter, hname]
    rfl
  · cases hm

/-! ## READ -/

/-- An assignment and then what the rest of `READ` does. -/
theorem answered_cons {consts : List ConstantDatum} {fp first : Nat} {p : Place} {v : Val} {x : BitVec 64} {r : Reply} {u : Nat}
    {regs regs' : Nat → BitVec 64} {heap heap1 heap' : Heap}
    (h : Answered consts fp first none r (fun j => if j = p.index fp then x else regs j) heap1 regs' heap')
    (hx : Holds consts heap1 v x) (hp : heap.data <+: heap1.data) (hu : heap1.data.length = heap.data.length + u)
    (hmax : heap1.maxEntries = heap.maxEntries)
    (hap : ∀ q, assigned (fun _ => none) r.writes q ≠ none → p.index fp = q.index fp → p = q) :
    Answered consts fp first none ⟨r.result, (p, v) :: r.writes, r.used + u⟩ regs heap regs' heap' := by
  have key : ∀ q, assigned (fun _ => none) ((p, v) :: r.writes) q =
      (assigned (fun _ => none) r.writes q).or (if q = p then some (.scalar v) else none) := fun q => by
    simp only [assigned]
    rw [assigned_eq]
  refine ⟨h.result, fun q w hq => ?_, fun j _ hj => ?_, hp.trans h.prior, by have := h.used; simp only; omega, h.max.trans hmax⟩
  · rw [key] at hq
    cases hw : assigned (fun _ => none) r.writes q with
    | some c =>
      rw [hw] at hq
      simp only [Option.some_or, Option.some.injEq] at hq
      exact h.writes q w (by rw [hw, hq])
    | none =>
      rw [hw] at hq
      by_cases hqp : q = p
      · subst hqp
        simp at hq
        subst hq
        rw [h.others (q.index fp) (.inl rfl) (fun q' hq' he => by
          rw [← hap q' hq' he] at hq'
          exact hq' hw), if_pos rfl]
        exact Holds.mono (fun i t ht => by
          obtain ⟨l, hl⟩ := h.prior
          rw [← hl, List.getElem?_append_left (List.getElem?_eq_some_iff.1 ht).1]; exact ht) hx
      · simp [hqp] at hq
  · rw [h.others j (.inl rfl) (fun q hq => hj q (by rw [key]; cases hw : assigned (fun _ => none) r.writes q with
      | none => exact absurd hw hq
      | some c => simp))]
    have : j ≠ p.index fp := hj p (by rw [key]; simp)
    simp [this]

/-- What an item is for a variable. -/
theorem item_eq (d : Option ConstantDatum) (t : ExprType) : literal (d.getD (defaultDatum t)) = (d.map literal).getD (omitted t) := by
  cases d with
  | some d => rfl
  | none => cases t <;> rfl

theorem datumType_eq (d : ConstantDatum) : datumType d = (literal d).ty := by cases d <;> rfl

theorem typeName_eq (t : ExprType) : typeName t = nameOf t := by cases t <;> rfl

/-- What an assignment does. -/
theorem assignCall_eq {s : CallScope} {i room index : Nat} {t : ExprType} {d : ConstantDatum} {pos : LineCol}
    (href : s.getRef i = some (index, t)) (hpos : s.lcs[i]? = some pos) (h0 : s.heap.data[0]? = some (.text []))
    (hroom : room = min (2 ^ 24) s.heap.maxEntries - s.heap.data.length) :
    match suited O t (literal d) with
    | .error msg => assignCall O s i d = some (s.regs, s.heap, .error (some pos, msg))
    | .ok v =>
      (takesRoom v = true ∧ room = 0 ∧ assignCall O s i d = some (s.regs, s.heap, .error (none, "Out of heap space".toList))) ∨
      ∃ x heap', assignCall O s i d = some (s.setReg index x, heap', .ok ()) ∧ (takesRoom v = true → room ≠ 0) ∧
        Holds s.consts heap' v x ∧ s.heap.data <+: heap'.data ∧
        heap'.data.length = s.heap.data.length + (if takesRoom v then 1 else 0) ∧ heap'.maxEntries = s.heap.maxEntries := by
  have hfail : ∀ msg, s.failAt i msg = some (s.regs, s.heap, .error (some pos, msg)) := by
    intro msg; simp [CallScope.failAt, CallScope.getPos, hpos]
  have plain : ∀ (v : Val) (x : BitVec 64), takesRoom v = false → Holds s.consts s.heap v x →
      some (s.setReg index x, s.heap, Except.ok ()) = assignCall O s i d →
      (takesRoom v = true ∧ room = 0 ∧ assignCall O s i d = some (s.regs, s.heap, .error (none, "Out of heap space".toList))) ∨
      ∃ x heap', assignCall O s i d = some (s.setReg index x, heap', .ok ()) ∧ (takesRoom v = true → room ≠ 0) ∧
        Holds s.consts heap' v x ∧ s.heap.data <+: heap'.data ∧
        heap'.data.length = s.heap.data.length + (if takesRoom v then 1 else 0) ∧ heap'.maxEntries = s.heap.maxEntries :=
    fun v x h1 h2 h3 => .inr ⟨x, s.heap, h3.symm, by simp [h1], h2, List.prefix_refl _, by simp [h1], rfl⟩
  cases t with
  | boolean =>
    cases d with
    | boolean b => exact plain (.bool b) _ rfl rfl (by simp [assignCall, href])
    | _ => simp only [assignCall, href, Option.bind_some]; exact hfail _
  | double =>
    cases d with
    | double b => exact plain (.dbl b) _ rfl rfl (by simp [assignCall, href])
    | integer b => exact plain (.dbl (O.ofInt b)) _ rfl rfl (by simp [assignCall, href])
    | _ => simp only [assignCall, href, Option.bind_some]; exact hfail _
  | integer =>
    cases d with
    | integer b => exact plain (.int b) _ rfl rfl (by simp [assignCall, href])
    | double b =>
      simp only [suited, literal]
      cases hb : O.toInt b with
      | ok n => exact plain (.int n) _ rfl rfl (by simp [assignCall, href, hb])
      | error msg => simp only [Except.map, assignCall, href, Option.bind_some, hb]; exact hfail _
    | _ => simp only [assignCall, href, Option.bind_some]; exact hfail _
  | text =>
    cases d with
    | text u =>
      show (takesRoom (.text u) = true ∧ room = 0 ∧ assignCall O s i (.text u) = some (s.regs, s.heap, .error (none, "Out of heap space".toList))) ∨
      ∃ x heap', assignCall O s i (.text u) = some (s.setReg index x, heap', .ok ()) ∧ (takesRoom (.text u) = true → room ≠ 0) ∧
        Holds s.consts heap' (.text u) x ∧ s.heap.data <+: heap'.data ∧
        heap'.data.length = s.heap.data.length + (if takesRoom (.text u) then 1 else 0) ∧ heap'.maxEntries = s.heap.maxEntries
      have htr : takesRoom (.text u) = !u.isEmpty := by cases u <;> rfl
      rcases push_text (t := u) h0 hroom with ⟨h1, h2, h3⟩ | ⟨p, heap', h1, h2, h3, h4, h5, h6⟩
      · refine .inl ⟨by rw [htr]; simp [h1], h2, ?_⟩
        simp only [assignCall, href, Option.bind_some, h3]
        rfl
      · refine .inr ⟨p, heap', by simp [assignCall, href, h1], ?_, h6 _, h3, ?_, h5⟩
        · rw [htr]; intro h; rcases h2 with h2 | h2
          · subst h2; simp at h
          · exact h2
        · rw [h4, htr]; cases u <;> simp
    | _ => simp only [assignCall, href, Option.bind_some]; exact hfail _

theorem readInto_nil (room : Nat) (items : List (Option ConstantDatum)) : readInto O room items [] = ⟨.ok none, [], 0⟩ := by
  cases items <;> rfl

theorem taken_le (left : Nat) (r : Reply) : taken left r ≤ left := Nat.min_le_left _ _

theorem readInto_length : ∀ (ts : List (ExprType × Place × LineCol)) (room : Nat) (items : List (Option ConstantDatum)),
    (readInto O room items ts).writes.length ≤ items.length
  | [], room, items => by simp [readInto]
  | (t, p, pos) :: ts, room, [] => by simp [readInto, fails]
  | (t, p, pos) :: ts, room, d :: items => by
    unfold readInto
    split
    · simp [fails]
    · split
      · cases room with
        | zero => simp [fails]
        | succ room => simpa using readInto_length ts room items
      · simpa using readInto_length ts room items

theorem readInto_places : ∀ (ts : List (ExprType × Place × LineCol)) (room : Nat) (items : List (Option ConstantDatum)) (q : Place),
    assigned (fun _ => none) (readInto O room items ts).writes q ≠ none → ∃ t pos, (t, q, pos) ∈ ts
  | [], room, items, q, h => by simp [readInto, assigned] at h
  | (t, p, pos) :: ts, room, [], q, h => by simp [readInto, fails, assigned] at h
  | (t, p, pos) :: ts, room, d :: items, q, h => by
    have key : ∀ v ws, assigned (fun _ => none) ((p, v) :: ws) q ≠ none → assigned (fun _ => none) ws q ≠ none ∨ q = p := by
      intro v ws h
      simp only [assigned] at h
      rw [assigned_eq] at h
      by_cases hq : q = p
      · exact .inr hq
      · simp only [if_neg hq, Option.or_none] at h
        exact .inl h
    unfold readInto at h
    split at h
    · simp [fails, assigned] at h
    · rename_i v _
      have step : ∀ room, assigned (fun _ => none) ((p, v) :: (readInto O room items ts).writes) q ≠ none → ∃ t' pos', (t', q, pos') ∈ (t, p, pos) :: ts := by
        intro room h
        rcases key _ _ h with h | rfl
        · obtain ⟨t', pos', h⟩ := readInto_places ts room items q h
          exact ⟨t', pos', .tail _ h⟩
        · exact ⟨t, pos, .head _⟩
      split at h
      · cases room with
        | zero => simp [fails, assigned] at h
        | succ room => exact step _ h
      · exact step _ h

theorem targets_cons {sep : ArgSep} {t : ExprType} {p : Place} {pos : LineCol} {rest : List (Arg × LineCol)}
    {ts : List (ExprType × Place × LineCol)} (h : targets ((.optRef sep (.scalar t) p, pos) :: rest) = some ts) :
    (sep = .end ∧ rest = [] ∧ ts = [(t, p, pos)]) ∨ (sep ≠ .end ∧ ∃ ts', targets rest = some ts' ∧ ts = (t, p, pos) :: ts') := by
  unfold targets at h
  split at h <;> rename_i he
  · split at h <;> rename_i hr
    · cases h; exact .inl ⟨he, List.length_eq_zero_iff.1 hr, rfl⟩
    · cases h
  · obtain ⟨ts', h1, rfl⟩ := Option.map_eq_some_iff.1 h
    exact .inr ⟨he, ts', h1, rfl⟩

theorem targets_inv : ∀ {args : List (Arg × LineCol)} {ts : List (ExprType × Place × LineCol)}, targets args = some ts →
    ∃ sep t p pos rest, args = (.optRef sep (.scalar t) p, pos) :: rest
  | [], _, h => by cases h
  | (.optRef sep (.scalar t) p, pos) :: rest, _, _ => ⟨sep, t, p, pos, rest, rfl⟩
  | (.optRef _ (.array _ _) _, _) :: _, _, h => by cases h
  | (.val _, _) :: _, _, h => by cases h
  | (.opt _ _, _) :: _, _, h => by cases h
  | (.missing _, _) :: _, _, h => by cases h
  | (.ref _ _, _) :: _, _, h => by cases h

/-- The places of the variables are those of the arguments. -/
theorem targets_places : ∀ {args : List (Arg × LineCol)} {ts : List (ExprType × Place × LineCol)}, targets args = some ts →
    ∀ t p pos, (t, p, pos) ∈ ts → ∃ a ∈ args, a.1.place = some p := by
  intro args
  induction args with
  | nil => intro ts h; cases h
  | cons a args ih =>
    intro ts h t p pos hm
    obtain ⟨sep, t', p', pos', rest, he⟩ := targets_inv h
    cases he
    rcases targets_cons h with ⟨_, rfl, rfl⟩ | ⟨_, ts', h1, rfl⟩
    · simp at hm
      obtain ⟨_, rfl, _⟩ := hm
      exact ⟨_, .head _, rfl⟩
    · rcases List.mem_cons.1 hm with hm | hm
      · cases hm
        exact ⟨_, .head _, rfl⟩
      · obtain ⟨a, ha, hp⟩ := ih h1 t p pos hm
        exact ⟨a, .tail _ ha, hp⟩

theorem HoldsSlot.later {consts : List ConstantDatum} {h h' : Heap} {fp : Nat} {s : Slot} {x : BitVec 64}
    (hh : h.data <+: h'.data) (hs : HoldsSlot consts h fp s x) : HoldsSlot consts h' fp s x :=
  letI := Labels.anywhere
  letI : Watch := ⟨0⟩
  HoldsSlot.mono (fun i t ht => by
    obtain ⟨l, hl⟩ := hh
    rw [← hl, List.getElem?_append_left (List.getElem?_eq_some_iff.1 ht).1]; exact ht) hs

/-- The loop of `READ`. -/
theorem readLoop_eq {fp : Nat} : ∀ (args : List (Arg × LineCol)) {ts : List (ExprType × Place × LineCol)} {n reg room : Nat} {st : StdState}
    {s : CallScope},
    targets args = some ts → args.length ≤ n →
    (∀ (j : Nat) x, (slots args)[j]? = some x → HoldsSlot s.consts s.heap fp x (s.reg (reg + j))) →
    (∀ j x, (slotPositions args)[j]? = some x → s.lcs[reg + j]? = some x) →
    Passable fp s.first args → s.heap.data[0]? = some (.text []) →
    room = min (2 ^ 24) s.heap.maxEntries - s.heap.data.length → st.index ≤ s.data.length →
    ∃ regs' heap', readCallLoop O n st s reg =
        some ({ st with index := st.index + taken (s.data.length - st.index) (readInto O room (s.data.drop st.index) ts) }, regs', heap',
          (readInto O room (s.data.drop st.index) ts).result.map fun _ => ()) ∧
      Answered s.consts fp s.first none (readInto O room (s.data.drop st.index) ts) s.regs s.heap regs' heap' := by
  intro args
  induction args with
  | nil => intro ts _ _ _ _ _ h; cases h
  | cons a args ih =>
    intro ts n reg room st s ht hn hslots hposs hpass h0 hroom hidx
    obtain ⟨sep, t, p, pos, rest, he⟩ := targets_inv ht
    cases he
    obtain ⟨n, rfl⟩ := Nat.exists_eq_succ_of_ne_zero (show n ≠ 0 by simp at hn; omega)
    have h1 : s.getType reg = some (.pointer sep) := hslots 0 _ rfl
    have h2 : s.getRef (reg + 1) = some (p.index fp, t) := hslots 1 _ rfl
    have h3 : s.lcs[reg + 1]? = some pos := hposs 1 _ rfl
    have hbef : p.index fp < s.first := hpass.before _ (.head _) p rfl
    unfold readCallLoop
    simp only [h1, h2, Option.bind_some]
    obtain ⟨ts', rfl⟩ : ∃ ts', ts = (t, p, pos) :: ts' := by
      rcases targets_cons ht with ⟨_, rfl, rfl⟩ | ⟨_, ts', _, rfl⟩ <;> exact ⟨_, rfl⟩
    cases hd : s.data[st.index]? with
    | none =>
      have : s.data.length ≤ st.index := List.getElem?_eq_none_iff.1 hd
      rw [List.drop_eq_nil_of_le this]
      refine ⟨s.regs, s.heap, ?_, answered_error⟩
      simp only [CallScope.failAt, CallScope.getPos, h3, Option.map_some, readInto, fails, taken]
      rw [show s.data.length - st.index = 0 by omega]
      rfl
    | some d =>
      obtain ⟨hlt, hd'⟩ := List.getElem?_eq_some_iff.1 hd
      rw [List.drop_eq_getElem_cons hlt, hd']
      simp only
      have has := assignCall_eq (O := O) (s := s) (d := d.getD (defaultDatum t)) h2 h3 h0 hroom
      rw [item_eq] at has
      cases hsu : suited O t ((d.map literal).getD (omitted t)) with
      | error msg =>
        rw [hsu] at has
        simp only at has
        refine ⟨s.regs, s.heap, ?_, ?_⟩
        · simp only [has, Option.bind_some, readInto, hsu, fails, taken, List.length_nil]
          rw [show min (s.data.length - st.index) (0 + 1) = 1 by omega]
          rfl
        · simp only [readInto, hsu]
          exact answered_error
      | ok v =>
        rw [hsu] at has
        simp only at has
        rcases has with ⟨g1, g2, g3⟩ | ⟨x, heap1, g1, g2, g3, g4, g5, g6⟩
        · subst g2
          refine ⟨s.regs, s.heap, ?_, ?_⟩
          · simp only [g3, Option.bind_some, readInto, hsu, g1, if_true, fails, taken, List.length_nil]
            rw [show min (s.data.length - st.index) (0 + 1) = 1 by omega]
            rfl
          · simp only [readInto, hsu, g1, if_true]
            exact answered_error
        · -- the reply
          obtain ⟨room', hr1, hr2⟩ : ∃ room', readInto O room (d :: s.data.drop (st.index + 1)) ((t, p, pos) :: ts') =
              ⟨(readInto O room' (s.data.drop (st.index + 1)) ts').result, (p, v) :: (readInto O room' (s.data.drop (st.index + 1)) ts').writes,
                (readInto O room' (s.data.drop (st.index + 1)) ts').used + (if takesRoom v then 1 else 0)⟩ ∧
              room' = min (2 ^ 24) heap1.maxEntries - heap1.data.length := by
            cases hv : takesRoom v with
            | true =>
              obtain ⟨room', rfl⟩ := Nat.exists_eq_succ_of_ne_zero (g2 hv)
              refine ⟨room', by simp only [readInto, hsu, hv, if_true], ?_⟩
              rw [hv] at g5
              simp only [if_true] at g5
              rw [g6, g5]; omega
            | false =>
              refine ⟨room, by simp only [readInto, hsu, hv]; rfl, ?_⟩
              rw [hv] at g5
              rw [g6, g5]; simpa using hroom
          rw [hr1]
          have hlen := readInto_length (O := O) ts' room' (s.data.drop (st.index + 1))
          simp only [List.length_drop] at hlen
          have htk : ∀ r : Reply, taken (s.data.length - st.index) ⟨r.result, (p, v) :: r.writes, r.used + (if takesRoom v then 1 else 0)⟩ =
              taken (s.data.length - (st.index + 1)) r + 1 := by
            intro r
            unfold taken
            simp only [List.length_cons]
            cases r.result <;> simp only <;> omega
          rw [htk]
          simp only [g1, Option.bind_some]
          rcases targets_cons ht with ⟨rfl, rfl, heq⟩ | ⟨hsep, ts'', ht', heq⟩
          · cases heq
            rw [if_pos rfl]
            refine ⟨s.setReg (p.index fp) x, heap1, ?_, ?_⟩
            rotate_left
            · rw [readInto_nil]
              exact answered_cons (p := p) (x := x) (r := ⟨.ok none, [], 0⟩) answered_done g3 g4 g5 g6
                (fun q hq => by simp [assigned] at hq)
            · rw [readInto_nil]
              simp only [taken, List.length_nil, Nat.min_zero, Nat.zero_add]
              rfl
          · cases heq
            rw [if_neg hsep]
            obtain ⟨regs', heap', e1, e2⟩ := ih (n := n) (reg := reg + 2) (room := room') (st := { st with index := st.index + 1 })
              (s := { s with regs := s.setReg (p.index fp) x, heap := heap1 }) ht' (by simp at hn; omega)
              (fun j y hy => by
                have := hslots (j + 2) y (by simpa [slots, Arg.slots] using hy)
                have := HoldsSlot.later g4 this
                show HoldsSlot s.consts heap1 fp y (s.setReg (p.index fp) x (s.first + s.offset + (reg + 2 + j)))
                unfold CallScope.setReg
                rw [if_neg (by omega), show reg + 2 + j = reg + (j + 2) by omega]
                exact this)
              (fun j y hy => by
                have := hposs (j + 2) y (by simpa [slotPositions, Arg.slots] using hy)
                rwa [show reg + (j + 2) = reg + 2 + j by omega] at this)
              ⟨fun a ha => hpass.before a (.tail _ ha), fun a ha b hb => hpass.apart a (.tail _ ha) b (.tail _ hb)⟩
              (by
                obtain ⟨l, hl⟩ := g4
                show heap1.data[0]? = _
                rw [← hl, List.getElem?_append_left (List.getElem?_eq_some_iff.1 h0).1]; exact h0)
              hr2 hlt
            refine ⟨regs', heap', ?_, ?_⟩
            · rw [e1]
              simp only [Option.some.injEq, Prod.mk.injEq, StdState.mk.injEq, true_and, and_true]
              omega
            · refine answered_cons (x := x) e2 g3 g4 g5 g6 (fun q hq he => ?_)
              obtain ⟨t2, pos2, hm⟩ := readInto_places _ _ _ _ hq
              obtain ⟨b, hb, hpb⟩ := targets_places ht' _ _ _ hm
              exact hpass.apart _ (.head _) b (.tail _ hb) p q rfl hpb he

theorem serves_read : Serves O data "READ".toList false (readCall O)
    (fun st room q => if q.ret = none then (targets q.args).map (readInto O room (data.drop st.index)) else none) := by
  intro consts q first fp room regs heap st r hname hslots hvars hbel h0 hroom hidx hm hfits
  simp only at hm
  split at hm <;> rename_i hret
  · obtain ⟨ts, ht, rfl⟩ := Option.map_eq_some_iff.1 hm
    rw [hret] at hslots ⊢
    simp only [Option.isSome_none] at hslots
    obtain ⟨regs', heap', h1, h2⟩ := readLoop_eq (O := O) (fp := fp) q.args (n := (slotPositions q.args).length + 1) (reg := 0) (room := room)
      (st := st) (s := ⟨first, 0, slotPositions q.args, regs, heap, consts, data⟩) ht
      (by have := args_le_positions (args := q.args); omega)
      (fun j x hx => by
        have := hslots j x hx
        show HoldsSlot consts heap fp x (regs (first + 0 + (0 + j)))
        rw [Nat.zero_add]
        exact this)
      (fun j x hx => by rw [Nat.zero_add]; exact hx) hbel h0 hroom hidx
    refine ⟨regs', heap', ?_, h2⟩
    simp only [stdAfter, hname]
    exact h1
  · cases hm

end

end EB
