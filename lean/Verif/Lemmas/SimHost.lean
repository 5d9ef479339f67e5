import Verif.Lemmas.SimExpr
/-!
# Calls of built-in callables
-/

namespace EB
open Spec

variable [Labels] [Watch]

/-! ## What calls assign -/

omit [Labels] [Watch] in
theorem assigned_eq (mem : Place → Option Cell) : ∀ (ws : List (Place × Val)) (p : Place),
    assigned mem ws p = (assigned (fun _ => none) ws p).or (mem p) := by
  intro ws
  induction ws generalizing mem with
  | nil => intro p; rfl
  | cons x ws ih =>
    intro p
    obtain ⟨q, v⟩ := x
    simp only [assigned]
    rw [ih, ih (fun r => if r = q then some (.scalar v) else none)]
    by_cases h : p = q
    · cases assigned (fun _ => none) ws p <;> simp [h]
    · cases assigned (fun _ => none) ws p <;> simp [h]

omit [Labels] [Watch] in
theorem assigned_some {ws : List (Place × Val)} {p : Place} {c : Cell} (h : assigned (fun _ => none) ws p = some c) :
    ∃ v, c = .scalar v ∧ (p, v) ∈ ws := by
  induction ws with
  | nil => simp [assigned] at h
  | cons x ws ih =>
    obtain ⟨q, v⟩ := x
    simp only [assigned] at h
    rw [assigned_eq] at h
    cases hx : assigned (fun _ => none) ws p with
    | some c' =>
      rw [hx] at h
      simp only [Option.some_or, Option.some.injEq] at h
      obtain ⟨v', h1, h2⟩ := ih (hx.trans (congrArg some h))
      exact ⟨v', h1, .tail _ h2⟩
    | none =>
      rw [hx] at h
      by_cases hp : p = q
      · simp [hp] at h
        subst hp
        exact ⟨v, h.symm, .head _⟩
      · simp [hp] at h

omit [Labels] [Watch] in
theorem assigned_nil (mem : Place → Option Cell) : assigned mem [] = mem := rfl

omit [Labels] [Watch] in
/-- What an answer that fits is like. -/
theorem fits_iff {r : Reply} {args : List (Arg × LineCol)} {ret : Option ExprType} {room : Nat} (h : r.fits args ret room = true) :
    r.used ≤ room ∧ (∀ v, r.result = .ok v → v.map Val.ty = ret) ∧ (ret = none ∨ r.writes = []) ∧
      ∀ p v, (p, v) ∈ r.writes → ∃ a ∈ args, a.1.target = some (p, v.ty) := by
  unfold Reply.fits at h
  simp only [Bool.and_eq_true, decide_eq_true_eq, Bool.or_eq_true, List.all_eq_true, List.any_eq_true] at h
  obtain ⟨⟨⟨h1, h2⟩, h3⟩, h4⟩ := h
  refine ⟨h1, ?_, ?_, fun p v hp => h4 (p, v) hp⟩
  · intro v hv
    rw [hv] at h2
    simpa using h2
  · rcases h3 with h3 | h3
    · exact .inl (by simpa using h3)
    · exact .inr (by simpa using h3)

/-! ## Slots -/

/-- The variable that an argument passes is one of the environment. -/
def Spec.Arg.Known (Γ : Env) : Arg → Prop
  | .ref q p | .optRef _ q p => Γ.proto p = some q
  | _ => True

theorem HoldsSlot.mono {cs : List ConstantDatum} {h h' : Heap} {fp : Nat} {s : Slot} {x : BitVec 64}
    (hh : ∀ (i : Nat) (t : Str), h.data[i]? = some (.text t) → h'.data[i]? = some (.text t)) (hs : HoldsSlot cs h fp s x) :
    HoldsSlot cs h' fp s x := by
  cases s with
  | tag | ref => exact hs
  | val v => exact Holds.mono hh hs

/-- Arguments are in the registers from `base + nt` on; `r` is what the compiler knows about them. -/
def Slotted (img : Image) (Δ : Env) (fp base nt : Nat) (lcs : List LineCol) (r : Nat × List LineCol)
    (as : List (Arg × LineCol)) (m : Mach) : Prop :=
  r = (nt + (slots as).length, lcs ++ slotPositions as) ∧ (∀ a ∈ as, a.1.Known Δ) ∧
    ∀ (j : Nat) s, (slots as)[j]? = some s → HoldsSlot img.constants m.heap fp s (m.regs (base + nt + j))

theorem slots_cons (a : Arg × LineCol) (as : List (Arg × LineCol)) : slots (a :: as) = a.1.slots ++ slots as := rfl

theorem slotPositions_cons (a : Arg × LineCol) (as : List (Arg × LineCol)) :
    slotPositions (a :: as) = (a.1.slots.map fun _ => a.2) ++ slotPositions as := rfl

section
variable {F : FloatOps} {img : Image} [Answers img] {Γ : Env} {lo : Nat}

/-- One instruction that writes a free register. -/
theorem put_step {K : Nat → Prop} {w : World} {m : Mach} {i : Instr} {r : Reg} {x : BitVec 64}
    (hi : img.code[m.pc]? = some i) (he : execInstr F img.constants m i = .cont (m.set r x).next)
    (hq : m.yieldPending = false) (hm : Models img.constants Γ m.fp w m) (hs : EnvSmall Γ) (hf : FreeReg w r.toNat)
    (hK : ¬ K (m.regIndex r)) :
    ∃ m1, m1 = (m.set r x).next ∧ Go F img w.log m w.log m1 ∧ m1.pc = m.pc + 1 ∧ SameAct m m1 ∧ Kept m.fp K w m w m1 ∧
      Models img.constants Γ m1.fp w m1 ∧ m1.regs (m.regIndex r) = x ∧ (∀ j, j ≠ m.regIndex r → m1.regs j = m.regs j) ∧
      m1.heap = m.heap :=
  ⟨_, rfl, Go.one hi he hq, rfl, ⟨rfl, rfl, rfl, hq⟩, kept_set hm hs hf _ hK, models_set hm hs hf _, setAt_same _ _ _,
    fun _ h => setAt_other h, rfl⟩

/-- After the registers of one argument come those of the others. -/
theorem slotted_cons {K K' : Nat → Prop} {w : World} {m : Mach} {fp base nt : Nat} {lcs : List LineCol} {r : Nat × List LineCol}
    {a : Arg} {pos : LineCol} {pc : Nat} {x : Out (List (Arg × LineCol))}
    (hx : Post F img Γ lo K' w m pc (Slotted img Γ fp base (nt + a.slots.length) (lcs ++ a.slots.map fun _ => pos) r) x)
    (hk : ∀ j, K j → K' j) (hkn : a.Known Γ)
    (hheld : ∀ (j : Nat) s, a.slots[j]? = some s → HoldsSlot img.constants m.heap fp s (m.regs (base + nt + j)))
    (hkeep : ∀ j, j < a.slots.length → K' (base + nt + j)) :
    Post F img Γ lo K w m pc (Slotted img Γ fp base nt lcs r) (x.bind fun as w => .ok ((a, pos) :: as) w) := by
  have hx2 := hx.weaken (K' := K)
    (h' := fun as m' => Slotted img Γ fp base (nt + a.slots.length) (lcs ++ a.slots.map fun _ => pos) r as m' ∧
      ∀ (j : Nat) s, a.slots[j]? = some s → HoldsSlot img.constants m'.heap fp s (m'.regs (base + nt + j))) hk
    (fun as w' m' _ k h => ⟨h, fun j s hs => by
      rw [k.regs _ (hkeep j (List.getElem?_eq_some_iff.1 hs).1)]
      exact HoldsSlot.mono k.texts (hheld j s hs)⟩)
  refine hx2.bind ?_
  rintro as w1 m1 p1 s1 k1 md1 d1 ⟨⟨h1, h2, h3⟩, h4⟩
  refine ⟨m1, .refl _ _, p1, .refl s1.quiet, .refl _ _ _ _, md1, .refl _, ?_, ?_, ?_⟩
  · rw [h1, slots_cons, slotPositions_cons, List.length_append]
    simp [Nat.add_assoc]
  · intro b hb
    rcases List.mem_cons.1 hb with rfl | hb
    · exact hkn
    · exact h2 b hb
  · intro j s hs
    rw [slots_cons] at hs
    simp only at hs
    by_cases hj : j < a.slots.length
    · rw [List.getElem?_append_left hj] at hs
      exact h4 j s hs
    · rw [List.getElem?_append_right (by omega)] at hs
      have := h3 _ _ hs
      rw [show base + (nt + a.slots.length) + (j - a.slots.length) = base + nt + j by omega] at this
      exact this

/-! ## The call -/

theorem index_inj {Γ : Env} (hs : EnvSmall Γ) {fp : Nat} (hb : 64 ≤ fp) {p q : Place} {a b : Proto} (hp : Γ.proto p = some a)
    (hq : Γ.proto q = some b) (h : p.index fp = q.index fp) : p = q := by
  have h1 := hs.shared
  cases p with
  | «local» n =>
    cases q with
    | «local» k => simp only [Place.index] at h; congr 1; omega
    | shared k => have := proto_shared hq; simp only [Place.index] at h; omega
  | shared n =>
    cases q with
    | «local» k => have := proto_shared hp; simp only [Place.index] at h; omega
    | shared k => simp only [Place.index] at h; congr 1

/-- The variables that are passed have their own registers before those of the arguments. -/
theorem known_below {Δ : Env} {fp : Nat} {r : Reg} {as : List (Arg × LineCol)} (hs : EnvSmall Δ) (hb : 64 ≤ fp)
    (hr : 64 + Δ.locals.length ≤ r.toNat) (hkn : ∀ a ∈ as, a.1.Known Δ) :
    Passable fp (fp + (r.toNat - 64)) as := by
  have hk : ∀ a ∈ as, ∀ p, a.1.place = some p → ∃ q, Δ.proto p = some q := by
    intro a ha p hp
    have := hkn a ha
    obtain ⟨a, pos⟩ := a
    cases a with
    | val | opt | missing => simp [Arg.place] at hp
    | ref q p' | optRef _ q p' => simp [Arg.place] at hp; subst hp; exact ⟨q, this⟩
  refine ⟨fun a ha p hp => ?_, fun a ha b hb' p q hp hq h => ?_⟩
  · obtain ⟨q, hq⟩ := hk a ha p hp
    cases p with
    | «local» n => have := proto_local hq; simp only [Place.index]; omega
    | shared n => have := proto_shared hq; have := hs.shared; simp only [Place.index]; omega
  · obtain ⟨_, h1⟩ := hk a ha p hp
    obtain ⟨_, h2⟩ := hk b hb' q hq
    exact index_inj hs hb h1 h2 h

/-- The call of a built-in callable whose arguments are in place. -/
theorem upcall_runs {w : World} {m : Mach} {idx : U16} {r : Reg} {k : Str} {as : List (Arg × LineCol)} {ret : Option ExprType}
    {pos : LineCol}
    (hi : img.code[m.pc]? = some (.upcall idx r) ∨ img.code[m.pc]? = some (.upcallAsync idx r))
    (hup : img.upcalls[idx.toNat]? = some k)
    (hp : (img.instrs[m.pc]?).map (·.linecol) = some pos)
    (hargs : img.argPositions m.pc = slotPositions as) (h64 : 64 ≤ r.toNat)
    (hm : Models img.constants Γ m.fp w m)
    (hbel : Passable m.fp (m.fp + (r.toNat - 64)) as)
    (hslots : ∀ (j : Nat) s, (slots as)[j]? = some s →
      HoldsSlot img.constants m.heap m.fp s (m.regs (m.fp + (r.toNat - 64) + (if ret.isSome then 1 else 0) + j))) :
    let q : Request := ⟨k, ret, as, as.map fun a => a.1.place.bind w.mem⟩
    let rep := Answers.lib img w.log w.room q
    rep.fits as ret w.room = true →
    ∃ regs' heap', Answered img.constants m.fp (m.fp + (r.toNat - 64)) ret rep m.regs m.heap regs' heap' ∧
      Does F img w.log m { w.log with events := w.log.events ++ [(q, rep)] } { m.next with regs := regs', heap := heap' }
        (match rep.result with
          | .ok _ => none
          | .error (p, msg) => some (p.getD pos, .upcall msg)) := by
  intro q rep hfit
  obtain ⟨regs', heap', h1, h2⟩ := Answers.law (img := img) idx q (m.fp + (r.toNat - 64)) m.fp w.room m.regs m.heap w.log hup
    (by simp [q]) hslots (by
      intro j a p c ha hpl hv
      simp only [q, List.getElem?_map, ha, Option.map_some, Option.some.injEq] at hv
      rw [hpl] at hv
      exact hm.cells p c hv) hbel hm.heap.1 hm.room hfit
  refine ⟨regs', heap', h2, ?_⟩
  rw [← hargs] at h1
  change Answers.rel img _ _ _ _ _ _ _ _ _ (rep.result.map fun _ => ()) at h1
  cases hr : rep.result with
  | ok v =>
    rw [hr] at h1
    exact .upcall hi h64 h1
  | error pm =>
    obtain ⟨p, msg⟩ := pm
    rw [hr] at h1
    exact .upcallError hi h64 hp h1

omit [Answers img] in
/-- What is known after the call of a built-in callable. -/
theorem models_answered {w w' : World} {m m' : Mach} {first : Nat} {ret : Option ExprType} {rep : Reply}
    {as : List (Arg × LineCol)} (hm : Models img.constants Γ m.fp w m) (hs : EnvSmall Γ)
    (ha : Answered img.constants m.fp first ret rep m.regs m.heap m'.regs m'.heap)
    (hfit : rep.fits as ret w.room = true) (hkn : ∀ a ∈ as, a.1.Known Γ)
    (hfirst : ret = none ∨ ∀ p c, w.mem p = some c → p.index m.fp ≠ first)
    (hmem : w'.mem = assigned w.mem rep.writes) (hroom : w'.room = w.room - rep.used) (htrap : Traps w'.trap m'.handler) :
    Models img.constants Γ m.fp w' m' ∧
      (∀ (i : Nat) (d : HeapDatum), m.heap.data[i]? = some d → m'.heap.data[i]? = some d) ∧
      (∀ i, OwnArr m.fp w' m' i → OwnArr m.fp w m i) ∧
      (∀ p, assigned (fun _ => none) rep.writes p ≠ none → ∃ t, Γ.proto p = some (.scalar t)) := by
  obtain ⟨f1, f2, f3, f4⟩ := fits_iff hfit
  have hr := hm.room
  have hh := hm.heap
  have hheap : ∀ (i : Nat) (d : HeapDatum), m.heap.data[i]? = some d → m'.heap.data[i]? = some d := by
    intro i d hd
    obtain ⟨t, ht⟩ := ha.prior
    rw [← ht, List.getElem?_append_left (List.getElem?_eq_some_iff.1 hd).1]; exact hd
  have hwr : ∀ p c, assigned (fun _ => none) rep.writes p = some c → ∃ v, c = .scalar v ∧ Γ.proto p = some (.scalar v.ty) := by
    intro p c hc
    obtain ⟨v, rfl, hv⟩ := assigned_some hc
    obtain ⟨a, ha1, ha2⟩ := f4 p v hv
    have hk := hkn a ha1
    refine ⟨v, rfl, ?_⟩
    obtain ⟨a, pos⟩ := a
    cases a with
    | val | opt | missing => simp [Arg.target] at ha2
    | ref q p' =>
      cases q with
      | array => simp [Arg.target] at ha2
      | scalar t => simp [Arg.target] at ha2; obtain ⟨rfl, rfl⟩ := ha2; exact hk
    | optRef _ q p' =>
      cases q with
      | array => simp [Arg.target] at ha2
      | scalar t => simp [Arg.target] at ha2; obtain ⟨rfl, rfl⟩ := ha2; exact hk
  have hold : ∀ p c, assigned (fun _ => none) rep.writes p = none → w.mem p = some c →
      m'.regs (p.index m.fp) = m.regs (p.index m.fp) := by
    intro p c hn hp
    refine ha.others _ ?_ ?_
    · rcases hfirst with h | h
      · exact .inl h
      · exact .inr (h p c hp)
    · intro q hq he
      cases hx : assigned (fun _ => none) rep.writes q with
      | none => exact hq hx
      | some c' =>
        obtain ⟨v, _, hpq⟩ := hwr q c' hx
        obtain ⟨b, hpb, _⟩ := hm.typed p c hp
        have := index_inj hs hm.base hpb hpq he
        rw [this, hx] at hn
        simp at hn
  have hcase : ∀ p c, w'.mem p = some c → (assigned (fun _ => none) rep.writes p = some c) ∨
      (assigned (fun _ => none) rep.writes p = none ∧ w.mem p = some c) := by
    intro p c hp
    rw [hmem, assigned_eq] at hp
    cases hx : assigned (fun _ => none) rep.writes p with
    | some c' => rw [hx] at hp; exact .inl (by simpa using hp)
    | none => rw [hx] at hp; exact .inr ⟨rfl, by simpa using hp⟩
  have harr : ∀ p t d f, w'.mem p = some (.arr t d f) → w.mem p = some (.arr t d f) ∧
      m'.regs (p.index m.fp) = m.regs (p.index m.fp) := by
    intro p t d f hp
    rcases hcase p _ hp with h | ⟨h1, h2⟩
    · obtain ⟨v, hv, _⟩ := hwr p _ h; cases hv
    · exact ⟨h2, hold p _ h1 h2⟩
  refine ⟨⟨hm.base, ⟨hheap _ _ hh.1, ?_⟩, ?_, ?_, ?_, ?_, htrap⟩, hheap, ?_, ?_⟩
  · rw [ha.used]; omega
  · rw [hroom, ha.used, ha.max]; omega
  · intro p c hp
    rcases hcase p c hp with h | ⟨h1, h2⟩
    · obtain ⟨v, rfl, _⟩ := hwr p c h
      exact ha.writes p v h
    · rw [hold p c h1 h2]
      exact HoldsCell.mono hheap (hm.cells p c h2)
  · intro p c hp
    rcases hcase p c hp with h | ⟨h1, h2⟩
    · obtain ⟨v, rfl, h3⟩ := hwr p c h
      exact ⟨_, h3, rfl⟩
    · exact hm.typed p c h2
  · intro p q t d f t' d' f' i hp hq h1 h2
    obtain ⟨p1, p2⟩ := harr p _ _ _ hp
    obtain ⟨q1, q2⟩ := harr q _ _ _ hq
    rw [p2] at h1
    rw [q2] at h2
    exact hm.apart p q _ _ _ _ _ _ i p1 q1 h1 h2
  · rintro i ⟨p, t, d, f, h1, h2⟩
    obtain ⟨p1, p2⟩ := harr p _ _ _ h1
    rw [p2] at h2
    exact ⟨p, t, d, f, p1, h2⟩
  · intro p hp
    cases hx : assigned (fun _ => none) rep.writes p with
    | none => exact absurd hx hp
    | some c =>
      obtain ⟨v, _, h⟩ := hwr p c hx
      exact ⟨_, h⟩

/-- The call of a built-in function whose arguments are in place. -/
theorem post_request {K : Nat → Prop} {w : World} {m : Mach} {idx : U16} {r : Reg} {k : Str} {as : List (Arg × LineCol)}
    {t : ExprType} {pos : LineCol}
    (hi : img.code[m.pc]? = some (.upcall idx r) ∨ img.code[m.pc]? = some (.upcallAsync idx r))
    (hup : img.upcalls[idx.toNat]? = some k)
    (hp : (img.instrs[m.pc]?).map (·.linecol) = some pos) (hin : Inside img lo m.pc)
    (hargs : img.argPositions m.pc = slotPositions as) (h64 : 64 ≤ r.toNat) (hq : m.yieldPending = false)
    (hm : Models img.constants Γ m.fp w m) (hs : EnvSmall Γ) (hf : FreeReg w r.toNat) (hK : ¬ K (m.regIndex r))
    (hkn : ∀ a ∈ as, a.1.Known Γ)
    (hbel : Passable m.fp (m.fp + (r.toNat - 64)) as)
    (hslots : ∀ (j : Nat) s, (slots as)[j]? = some s →
      HoldsSlot img.constants m.heap m.fp s (m.regs (m.fp + (r.toNat - 64) + 1 + j))) :
    Post F img Γ lo K w m (m.pc + 1) (fun v m' => v.ty = t ∧ Holds img.constants m'.heap v (m'.get r))
      ((w.request (Answers.lib img) k as (some t) pos).bind valued) := by
  have hrun := upcall_runs (F := F) (ret := some t) hi hup hp hargs h64 hm hbel (by simpa using hslots)
  simp only at hrun
  unfold World.request
  simp only
  generalize hrep : Answers.lib img w.log w.room ⟨k, some t, as, as.map fun a => a.1.place.bind w.mem⟩ = rep at *
  cases hfit : rep.fits as (some t) w.room with
  | false => exact trivial
  | true =>
    obtain ⟨regs', heap', ha, hd⟩ := hrun hfit
    obtain ⟨f1, f2, f3, f4⟩ := fits_iff hfit
    have hw : rep.writes = [] := f3.resolve_left (by simp)
    have hri := regIndex_local (m := m) h64
    have hmod := models_answered (Γ := Γ) (as := as)
      (w' := { w with mem := assigned w.mem rep.writes, room := w.room - rep.used,
                      log := { w.log with events := w.log.events ++ [(⟨k, some t, as, as.map fun a => a.1.place.bind w.mem⟩, rep)] } })
      (m' := { m.next with regs := regs', heap := heap' }) hm hs ha hfit hkn
      (.inr fun p c hpc => by rw [← hri]; exact hm.index_ne hs hf hpc) rfl rfl hm.trap
    obtain ⟨md1, hheap, hown, _⟩ := hmod
    have hkept : Kept m.fp K w m
        { w with mem := assigned w.mem rep.writes, room := w.room - rep.used,
                 log := { w.log with events := w.log.events ++ [(⟨k, some t, as, as.map fun a => a.1.place.bind w.mem⟩, rep)] } }
        { m.next with regs := regs', heap := heap' } := by
      refine ⟨?_, fun i s => hheap i _, fun i a h _ => hheap i _ h, fun i _ h => hown i h, ?_, ha.max⟩
      · intro j hj
        refine ha.others j (.inr ?_) ?_
        · rintro rfl; rw [← hri] at hj; exact hK hj
        · intro p hp; rw [hw] at hp; exact absurd rfl hp
      · show m.heap.data.length ≤ heap'.data.length
        rw [ha.used]; omega
    have hdom : Dom w { w with mem := assigned w.mem rep.writes, room := w.room - rep.used,
                               log := { w.log with events := w.log.events ++ [(⟨k, some t, as, as.map fun a => a.1.place.bind w.mem⟩, rep)] } } := by
      intro p h; show assigned w.mem rep.writes p = none; rw [hw]; exact h
    simp only [if_true]
    cases hr : rep.result with
    | error pm =>
      obtain ⟨p, msg⟩ := pm
      rw [hr] at hd
      exact ⟨_, m.pc, ⟨_, m, .refl _ _, rfl, hd⟩, hkept, md1, hdom, fun _ => ⟨⟨rfl, rfl, rfl, hq⟩, hin⟩⟩
    | ok v =>
      have hv := f2 v hr
      cases v with
      | none => simp at hv
      | some v =>
        simp only [Option.map_some, Option.some.injEq] at hv
        rw [hr] at hd
        refine ⟨{ m.next with regs := regs', heap := heap' }, Go.step hd ?_, rfl, ⟨rfl, rfl, rfl, hq⟩, hkept, md1, hdom, hv, ?_⟩
        · rw [calm_of_quiet (by exact hq)]; exact .refl _ _
        · show Holds img.constants heap' v (regs' (({ m.next with regs := regs', heap := heap' } : Mach).regIndex r))
          rw [regIndex_local h64]
          exact ha.result v hr

end
end EB
