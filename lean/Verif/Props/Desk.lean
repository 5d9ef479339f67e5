import Verif.Lemmas.Desk
/-!
# C63 and C64: the stored program
-/

namespace EB
open Spec

/-! ## Steps -/

theorem parseBoolean_yes {C : CaseOps} {a : Str} : (parseBoolean C a).getD false = true ↔ Yes C.up a := by
  unfold parseBoolean Yes upper
  constructor
  · intro h
    simp only at h
    split at h
    · assumption
    · split at h <;> cases h
  · intro h
    simp only [h, if_true, Option.getD_some]

theorem continue_true {C : CaseOps} {p : Edit.State} {a : Except ReadErr Str} :
    continueIfModified C p a = .ok true ↔ p.dirty = false ∨ ∃ s, a = .ok s ∧ Yes C.up s := by
  unfold continueIfModified
  cases hd : p.dirty
  · simp
  · simp only [Bool.not_true, Bool.false_eq_true, if_false, reduceCtorEq, false_or]
    cases a with
    | error e => simp
    | ok s => simp [parseBoolean_yes]

theorem denotes_unique {u : CaseOps} {fs : FS} {p d n d' n' : Str} (h : Denotes u.up fs p d n) (h' : Denotes u.up fs p d' n') : d' = d ∧ n' = n := by
  obtain ⟨dr, h1, rfl⟩ := h
  obtain ⟨dr', h2, rfl⟩ := h'
  obtain ⟨l, k1, k2, k3⟩ := location_of_path h1
  obtain ⟨l', m1, m2, m3⟩ := location_of_path h2
  rw [k1] at m1; cases m1
  rw [← k2, ← m2]
  rw [k3] at m3; cases m3
  exact ⟨rfl, rfl⟩

theorem put_spec (C : CaseOps) {st : Storage} (hi : StorageInv st) {p d f : Str} (hp : Denotes C.up (absStorage st) p d f) (c : List UInt8) :
    (∀ g, (absStorage st).drives d = some g → ∃ st', st.put C p c = .ok st' ∧
      absStorage st' = (absStorage st).set d f (some (c, ((g f).map (·.2)).getD noReaders))) ∧
    ((absStorage st).drives d = none → ∃ e, st.put C p c = .error e) := by
  have h := (refines C hi (.put p c)).1
  have hs : storageStep C st (.put p c) = updateResult st (st.put C p c) := rfl
  rw [hs] at h
  cases hc : st.put C p c with
  | ok st' =>
    rw [hc] at h
    generalize ha : absStorage (updateResult st (.ok st')).2 = fs' at h
    cases h with
    | put =>
      rename_i d' n' g' hg hd
      obtain ⟨rfl, rfl⟩ := denotes_unique hp hd
      refine ⟨fun g h => ⟨st', rfl, ?_⟩, fun h => ?_⟩
      · rw [hg] at h; cases h
        exact ha
      · rw [hg] at h; cases h
  | error e =>
    rw [hc] at h
    generalize ha : absStorage (updateResult st (.error e)).2 = fs' at h
    cases h with
    | put_fails =>
      rename_i hno
      exact ⟨fun g h => absurd h (hno _ _ _ hp), fun _ => ⟨_, rfl⟩⟩
  | panic => rw [hc] at h; cases h

theorem get_spec (C : CaseOps) {st : Storage} (hi : StorageInv st) {p d f : Str} (hp : Denotes C.up (absStorage st) p d f) :
    (∀ g x, (absStorage st).drives d = some g → g f = some x → st.get C p = .ok x.1) ∧
    ((∀ g x, (absStorage st).drives d = some g → g f ≠ some x) → ∃ e, st.get C p = .error e) := by
  have h := (refines C hi (.get p)).1
  have hs : storageStep C st (.get p) = queryResult st .content (st.get C p) := rfl
  rw [hs] at h
  cases hc : st.get C p with
  | ok b =>
    rw [hc] at h
    generalize ha : absStorage (queryResult st .content (.ok b)).2 = fs' at h
    generalize hb : (queryResult st StorageResult.content (.ok b)).1 = r at h
    cases h with
    | get =>
      rename_i d' n' g' f' hg hf hd
      obtain ⟨rfl, rfl⟩ := denotes_unique hp hd
      have hb : b = f'.1 := by simpa [queryResult] using hb
      refine ⟨fun g x h1 h2 => ?_, fun h => absurd hf (h _ _ hg)⟩
      rw [hg] at h1; cases h1
      rw [hf] at h2; cases h2
      rw [hb]
    | get_fails => simp [queryResult] at hb
  | error e =>
    rw [hc] at h
    generalize ha : absStorage (queryResult st StorageResult.content (.error e)).2 = fs' at h
    cases h with
    | get_fails =>
      rename_i hno
      exact ⟨fun g x h1 h2 => absurd h2 (hno _ _ _ _ hp h1), fun _ => ⟨_, rfl⟩⟩
  | panic => rw [hc] at h; cases h

theorem storageRun_snoc (C : CaseOps) (cs : List StorageCmd) (c : StorageCmd) (st : Storage) :
    (storageRun C st (cs ++ [c])).2 = (storageStep C (storageRun C st cs).2 c).2 := by
  induction cs generalizing st with
  | nil => rfl
  | cons x cs ih => exact ih _

theorem SameText.refl (a : Str) : SameText a a := .inl rfl

theorem SameText.trans {a b c : Str} (h1 : SameText a b) (h2 : SameText b c) : SameText a c := by
  rcases h1 with rfl | ⟨h1, h3⟩
  · exact h2
  · rcases h2 with rfl | ⟨h2, h4⟩
    · exact .inr ⟨h1, h3⟩
    · exact .inr ⟨h1, h4⟩

/-- What holds after any history. -/
structure Desk.Ok (C : CaseOps) (d : Desk) (saved : Str) : Prop where
  storage : ∃ ss, d.storage = (storageRun C (Storage.init C) ss).2
  text : d.program.dirty = false → SameText d.program.text saved

theorem desk_step {C : CaseOps} {d : Desk} {saved : Str} (h : d.Ok C saved) (c : DeskCmd) :
    (d.step C c).2.Ok C (kept saved c (d.step C c).1 (d.step C c).2.program.text) := by
  cases c with
  | edit W H ks =>
    simp only [Desk.step, Desk.edit]
    cases he : d.program.edit W H ks with
    | none => exact ⟨h.storage, fun hd => by exact h.text hd⟩
    | some x =>
      obtain ⟨e, ops, b⟩ := x
      have hl := (loop_kept he).2
      have : kept saved (.edit W H ks) (if b then DeskResult.done else .failed) e.text = saved := by cases b <;> rfl
      simp only
      rw [this]
      refine ⟨h.storage, fun hd => ?_⟩
      replace hd : e.dirty = false := hd
      show SameText e.text saved
      rcases hl with ⟨h1, h2⟩ | h2
      · have h2 : e.dirty = d.program.dirty := h2
        have h3 := h.text (by rw [← h2]; exact hd)
        refine EB.SameText.trans ?_ h3
        rw [Edit.text_flat, Edit.text_flat, h1]
        by_cases hc : d.program.content = []
        · simp only [hc, if_true]; exact .inr ⟨.inr rfl, .inl rfl⟩
        · simp only [hc, if_false]; exact .inl rfl
      · rw [h2] at hd; cases hd
  | load n a =>
    simp only [Desk.step, Desk.load]
    split
    · exact h
    · exact h
    · split
      · exact h
      · exact h
      · split
        · exact h
        · exact h
        · split
          · exact h
          · exact ⟨h.storage, fun _ => .inl rfl⟩
  | new a =>
    simp only [Desk.step, Desk.new]
    split
    · exact h
    · exact h
    · exact ⟨h.storage, fun _ => .inl rfl⟩
  | run => exact ⟨h.storage, h.text⟩
  | save n =>
    simp only [Desk.step, Desk.save]
    split
    · exact h
    · next n hn =>
      cases hp : d.storage.makeCanonicalExt C n "bas".toList with
      | panic => exact h
      | error e => exact h
      | ok p =>
        simp only
        cases hs : d.storage.put C p (utf8Bytes d.program.text) with
        | panic => exact h
        | error e => exact h
        | ok st =>
          obtain ⟨ss, h1⟩ := h.storage
          refine ⟨⟨ss ++ [.put p (utf8Bytes d.program.text)], ?_⟩, fun _ => .inl rfl⟩
          rw [storageRun_snoc, ← h1]
          show st = (updateResult d.storage (d.storage.put C p (utf8Bytes d.program.text))).2
          rw [hs]; rfl
  | storage c =>
    obtain ⟨ss, h1⟩ := h.storage
    have h2 : ∃ ss, (storageStep C d.storage c).2 = (storageRun C (Storage.init C) ss).2 :=
      ⟨ss ++ [c], by rw [storageRun_snoc, ← h1]⟩
    simp only [Desk.step]
    generalize storageStep C d.storage c = x at h2
    obtain ⟨r, st⟩ := x
    cases r <;> exact ⟨h2, h.text⟩

theorem desk_history (C : CaseOps) (cs : List DeskCmd) : (Desk.history C cs).1.Ok C (Desk.history C cs).2 := by
  unfold Desk.history
  have : ∀ (cs : List DeskCmd) (p : Desk × Str), p.1.Ok C p.2 →
      (cs.foldl (fun p c => ((p.1.step C c).2, kept p.2 c (p.1.step C c).1 (p.1.step C c).2.program.text)) p).1.Ok C
        (cs.foldl (fun p c => ((p.1.step C c).2, kept p.2 c (p.1.step C c).1 (p.1.step C c).2.program.text)) p).2 := by
    intro cs
    induction cs with
    | nil => exact fun p h => h
    | cons c cs ih => exact fun p h => ih _ (desk_step h c)
  exact this cs _ ⟨⟨[], rfl⟩, fun _ => .inl rfl⟩

/-! ## C63 -/

/-- **C63** Changes are not discarded without a confirmation: whatever was done before, if the text of the program is
not what was last loaded, created or saved, then no command but EDIT changes the text or the name, except SAVE for the
name and, for both, LOAD and NEW with an answer that means yes. -/
theorem C63_unsaved (C : CaseOps) (cs : List DeskCmd) (c : DeskCmd) (hc : ∀ W H ks, c ≠ .edit W H ks)
    (h : ¬ SameText (Desk.history C cs).1.program.text (Desk.history C cs).2) :
    let d := (Desk.history C cs).1
    let d' := (d.step C c).2
    (d'.program.text = d.program.text ∧ (d'.program.name = d.program.name ∨ ∃ n, c = .save n)) ∨
    ∃ a, Yes C.up a ∧ ((∃ n, c = .load n (.ok a)) ∨ c = .new (.ok a)) := by
  intro d d'
  have hd : d.program.dirty = true := by
    cases hd : d.program.dirty with
    | true => rfl
    | false => exact absurd ((desk_history C cs).text hd) h
  have keep : d'.program = d.program → (d'.program.text = d.program.text ∧ (d'.program.name = d.program.name ∨ ∃ n, c = .save n)) := by
    intro e; rw [e]; exact ⟨rfl, .inl rfl⟩
  cases c with
  | edit W H ks => exact absurd rfl (hc W H ks)
  | load n a =>
    by_cases hy : continueIfModified C d.program a = .ok true
    · rcases continue_true.1 hy with h1 | ⟨s, rfl, h1⟩
      · rw [hd] at h1; cases h1
      · exact .inr ⟨s, h1, .inl ⟨n, rfl⟩⟩
    · refine .inl (keep ?_)
      show (d.load C n a).2.program = _
      unfold Desk.load
      split
      · rfl
      · rfl
      · next h1 => exact absurd h1 hy
  | new a =>
    by_cases hy : continueIfModified C d.program a = .ok true
    · rcases continue_true.1 hy with h1 | ⟨s, rfl, h1⟩
      · rw [hd] at h1; cases h1
      · exact .inr ⟨s, h1, .inr rfl⟩
    · refine .inl (keep ?_)
      show (d.new C a).2.program = _
      unfold Desk.new
      split
      · rfl
      · rfl
      · next h1 => exact absurd h1 hy
  | run => exact .inl (keep rfl)
  | save n =>
    refine .inl ⟨?_, .inr ⟨n, rfl⟩⟩
    show (d.save C n).2.program.text = _
    unfold Desk.save
    split
    · rfl
    · split
      · rfl
      · rfl
      · split <;> rfl
  | storage c =>
    refine .inl (keep ?_)
    show (d.step C (.storage c)).2.program = _
    unfold Desk.step
    simp only
    split <;> rfl

/-- **C63** SAVE: with a file name that is given or that of the program, the file of that name, with the extension added
if there is none, has exactly the text, no other file changes, the program gets the full name of the file and has
no changes to save.  Otherwise nothing changes. -/
theorem C63_save (C : CaseOps) (hu : UpperOk C.up) (cs : List DeskCmd) (name : Option Str) :
    let d := (Desk.history C cs).1
    let fs := absStorage d.storage
    let wanted := fun n => name = some n ∨ name = none ∧ d.program.name = some n
    (∀ n dr f g, wanted n → Names C.up fs n dr f g →
      ∃ p st, FullName C.up p dr f ∧
        d.step C (.save name) = (.done, ⟨{ d.program with name := some p, dirty := false }, st, d.actions⟩) ∧
        absStorage st = fs.set dr f (some (utf8 d.program.text, ((g f).map (·.2)).getD noReaders))) ∧
    ((∀ n dr f g, wanted n → ¬ Names C.up fs n dr f g) → d.step C (.save name) = (.failed, d)) := by
  intro d fs wanted
  obtain ⟨ss, hss⟩ := (desk_history C cs).storage
  have hi : StorageInv d.storage := by rw [show d.storage = _ from hss]; exact storageRun_inv C (storageInv_init C) ss
  have hk : KeysOk C.up (absStorage d.storage) := by rw [show d.storage = _ from hss]; exact keysOk_run C ss
  have hw : ∀ n, wanted n ↔ name.or d.program.name = some n := by
    intro n
    cases name with
    | none => simp [wanted]
    | some m => simp [wanted]
  constructor
  · rintro n dr f g hn ⟨n', h1, rfl, h3⟩
    rcases canonicalExt C hu hk n with ⟨p, d0, n0, k1, k2, k3, k4, -⟩ | ⟨-, k2⟩
    · obtain ⟨rfl, rfl⟩ := k4 _ _ h1
      obtain ⟨st, s1, s2⟩ := (put_spec C hi (k3 _) (utf8 d.program.text)).1 g h3
      refine ⟨p, st, k3, ?_, s2⟩
      show d.save C name = _
      unfold Desk.save
      rw [(hw n).1 hn]
      simp only [k1]
      rw [show utf8Bytes d.program.text = utf8 d.program.text from rfl, s1]
      rfl
    · exact absurd h1 (k2 _ _)
  · intro hno
    show d.save C name = _
    unfold Desk.save
    cases hn : name.or d.program.name with
    | none => rfl
    | some n =>
      simp only
      rcases canonicalExt C hu hk n with ⟨p, d0, n0, k1, k2, k3, k4, -⟩ | ⟨⟨e, k1⟩, k2⟩
      · have hd : (absStorage d.storage).drives d0 = none := by
          cases hg : (absStorage d.storage).drives d0 with
          | none => rfl
          | some g => exact absurd ⟨n0, k2, rfl, hg⟩ (hno n d0 _ g ((hw n).2 hn))
        obtain ⟨e, s1⟩ := (put_spec C hi (k3 _) (utf8 d.program.text)).2 hd
        simp only [k1]
        rw [show utf8Bytes d.program.text = utf8 d.program.text from rfl, s1]
      · simp only [k1]

/-- **C63** LOAD: if there are no changes to save or the answer means yes, and the file exists and is a text, then the
program is that text, with the full name of the file and no changes to save, and the machine will be cleared.  Otherwise
nothing changes. -/
theorem C63_load (C : CaseOps) (hu : UpperOk C.up) (cs : List DeskCmd) (n : Str) (answer : Except ReadErr Str) :
    let d := (Desk.history C cs).1
    let fs := absStorage d.storage
    let may := d.program.dirty = false ∨ ∃ a, answer = .ok a ∧ Yes C.up a
    (∀ dr f g t acl, may → Names C.up fs n dr f g → g f = some (utf8 t, acl) →
      ∃ p e, FullName C.up p dr f ∧ d.step C (.load n answer) = (.done, ⟨e, d.storage, d.actions ++ [.clear]⟩) ∧
        e.name = some p ∧ e.text = Buffer.normalize t ∧ e.dirty = false) ∧
    ((∀ dr f g t acl, may → Names C.up fs n dr f g → g f ≠ some (utf8 t, acl)) →
      (d.step C (.load n answer)).1 ≠ .done ∧ (d.step C (.load n answer)).1 ≠ .crash ∧ (d.step C (.load n answer)).2 = d) := by
  intro d fs may
  obtain ⟨ss, hss⟩ := (desk_history C cs).storage
  have hi : StorageInv d.storage := by rw [show d.storage = _ from hss]; exact storageRun_inv C (storageInv_init C) ss
  have hk : KeysOk C.up (absStorage d.storage) := by rw [show d.storage = _ from hss]; exact keysOk_run C ss
  constructor
  · rintro dr f g t acl hm ⟨n', h1, rfl, h3⟩ hf
    rcases canonicalExt C hu hk n with ⟨p, d0, n0, k1, k2, k3, k4, -⟩ | ⟨-, k2⟩
    · obtain ⟨rfl, rfl⟩ := k4 _ _ h1
      have hget := (get_spec C hi (k3 _)).1 g _ h3 hf
      refine ⟨p, d.program.load (some p) t, k3, ?_, rfl, ?_, rfl⟩
      · show d.load C n answer = _
        unfold Desk.load
        rw [continue_true.2 hm]
        simp only [k1, hget]
        rw [utf8Text_iff.2 rfl]
      · rw [Edit.text_flat]
        exact (Edit.lines_flat t [] (by intro x hx; cases hx))
    · exact absurd h1 (k2 _ _)
  · intro hno
    show (d.load C n answer).1 ≠ _ ∧ (d.load C n answer).1 ≠ _ ∧ (d.load C n answer).2 = d
    unfold Desk.load
    cases hm : continueIfModified C d.program answer with
    | error e => simp
    | ok b =>
      cases b with
      | false => simp
      | true =>
        have hm := continue_true.1 hm
        simp only
        rcases canonicalExt C hu hk n with ⟨p, d0, n0, k1, k2, k3, k4, -⟩ | ⟨⟨e, k1⟩, k2⟩
        · simp only [k1]
          cases hg : d.storage.get C p with
          | panic =>
            exfalso
            by_cases hx : ∃ g x, (absStorage d.storage).drives d0 = some g ∧ g (basName n0) = some x
            · obtain ⟨g, x, x1, x2⟩ := hx
              have := (get_spec C hi (k3 _)).1 g x x1 x2
              rw [hg] at this; cases this
            · obtain ⟨e, he⟩ := (get_spec C hi (k3 _)).2 fun g x x1 x2 => hx ⟨g, x, x1, x2⟩
              rw [hg] at he; cases he
          | error e => simp
          | ok b =>
            simp only
            cases ht : utf8Text b with
            | none => simp
            | some t =>
              exfalso
              have ht := utf8Text_iff.1 ht
              by_cases hx : ∃ g x, (absStorage d.storage).drives d0 = some g ∧ g (basName n0) = some x
              · obtain ⟨g, x, x1, x2⟩ := hx
                have := (get_spec C hi (k3 _)).1 g x x1 x2
                rw [hg] at this
                have hb : b = x.1 := by simpa using this
                exact hno d0 (basName n0) g t x.2 hm ⟨n0, k2, rfl, x1⟩ (by rw [x2, ← ht, hb])
              · obtain ⟨e, he⟩ := (get_spec C hi (k3 _)).2 fun g x x1 x2 => hx ⟨g, x, x1, x2⟩
                rw [hg] at he; cases he
        · simp only [k1]; simp

/-- **C63** NEW: if there are no changes to save or the answer means yes, the program is empty, without name and without
changes to save, and the machine will be cleared.  Otherwise nothing changes. -/
theorem C63_new (C : CaseOps) (cs : List DeskCmd) (answer : Except ReadErr Str) :
    let d := (Desk.history C cs).1
    let may := d.program.dirty = false ∨ ∃ a, answer = .ok a ∧ Yes C.up a
    (may → ∃ e, d.step C (.new answer) = (.done, ⟨e, d.storage, d.actions ++ [.clear]⟩) ∧
      e.name = none ∧ e.text = [] ∧ e.dirty = false) ∧
    (¬ may → (d.step C (.new answer)).1 ≠ .done ∧ (d.step C (.new answer)).1 ≠ .crash ∧ (d.step C (.new answer)).2 = d) := by
  intro d may
  show (may → ∃ e, d.new C answer = _ ∧ _) ∧ (_ → (d.new C answer).1 ≠ _ ∧ (d.new C answer).1 ≠ _ ∧ (d.new C answer).2 = _)
  unfold Desk.new
  constructor
  · intro hm
    rw [continue_true.2 hm]
    exact ⟨_, rfl, rfl, rfl, rfl⟩
  · intro hm
    cases hc : continueIfModified C d.program answer with
    | error e => simp
    | ok b =>
      cases b with
      | false => simp
      | true => exact absurd (continue_true.1 hc) hm

/-- **C63** RUN asks the machine to run exactly the text of the program, which it does not change. -/
theorem C63_run (C : CaseOps) (cs : List DeskCmd) :
    let d := (Desk.history C cs).1
    d.step C .run = (.done, { d with actions := d.actions ++ [.run d.program.text] }) := rfl

theorem normalize_id : ∀ {s : Str}, ¬ ['\r', '\n'] <:+: s → (s = [] ∨ s.getLast? = some '\n') → Buffer.normalize s = s
  | [], _, _ => rfl
  | [c], _, h => by
    rcases h with h | h
    · cases h
    · simp at h; subst h; rfl
  | c :: c' :: s, hr, h => by
    have ih := normalize_id (s := c' :: s) (fun e => hr (e.trans (List.suffix_cons _ _).isInfix)) (.inr (by
      rcases h with h | h
      · cases h
      · simpa [List.getLast?_cons_cons] using h))
    rw [Buffer.normalize]
    · rw [ih]
    · rintro s' rfl h2
      cases h2
      exact hr ⟨[], s, rfl⟩
    · intro h1; cases h1

theorem flat_ends (c : List Str) : Edit.flat c = [] ∨ (Edit.flat c).getLast? = some '\n' := by
  rcases Edit.flat_last c with h | ⟨t, h⟩
  · exact .inl (List.reverse_eq_nil_iff.1 h)
  · right
    have := congrArg List.head? h
    simpa using this

/-- C63 (partial: only if no line ends with a carriage return) What is saved can be loaded again: a program that was saved
in a file is the same after it is loaded, any time later, by the name of the program and while the file is not
changed. -/
theorem C63_reload_partial (C : CaseOps) (hu : UpperOk C.up) (cs cs' : List DeskCmd) (name : Option Str) (d1 : Desk)
    (hs : (Desk.history C cs).1.step C (.save name) = (.done, d1)) (hr : ¬ ['\r', '\n'] <:+: (Desk.history C cs).1.program.text) (answer : Except ReadErr Str) :
    let d2 := (Desk.history C cs').1
    (d2.program.dirty = false ∨ ∃ a, answer = .ok a ∧ Yes C.up a) →
    ∃ p, d1.program.name = some p ∧
      ((storageStep C d2.storage (.get p)).1 = (storageStep C d1.storage (.get p)).1 →
        (d2.step C (.load p answer)).1 = .done ∧
        (d2.step C (.load p answer)).2.program.text = (Desk.history C cs).1.program.text ∧
        (d2.step C (.load p answer)).2.program.name = some p) := by
  intro d2 hm
  generalize hd : (Desk.history C cs).1 = d at hs hr
  obtain ⟨ss, hss⟩ := (desk_history C cs).storage
  rw [hd] at hss
  have hi : StorageInv d.storage := by rw [hss]; exact storageRun_inv C (storageInv_init C) ss
  have hk : KeysOk C.up (absStorage d.storage) := by rw [hss]; exact keysOk_run C ss
  replace hs : d.save C name = (.done, d1) := hs
  unfold Desk.save at hs
  cases hn : name.or d.program.name with
  | none => rw [hn] at hs; simp at hs
  | some n =>
    rw [hn] at hs
    simp only at hs
    rcases canonicalExt C hu hk n with ⟨p, d0, n0, k1, k2, k3, k4, k5⟩ | ⟨⟨e, k1⟩, k2⟩
    · rw [k1] at hs
      simp only at hs
      cases hp : d.storage.put C p (utf8Bytes d.program.text) with
      | panic => rw [hp] at hs; simp at hs
      | error e => rw [hp] at hs; simp at hs
      | ok st =>
        rw [hp] at hs
        simp only [Prod.mk.injEq, true_and] at hs
        subst hs
        refine ⟨p, rfl, fun hsame => ?_⟩
        have h1 := (read_after_write C hi p p (utf8Bytes d.program.text) st (by
          show updateResult _ (d.storage.put C p _) = _; rw [hp]; rfl)).1 _ _ (k3 _) (k3 _)
        replace hsame : (storageStep C d2.storage (.get p)).1 = (storageStep C st (.get p)).1 := hsame
        rw [h1] at hsame
        have hget : d2.storage.get C p = .ok (utf8Bytes d.program.text) := by
          replace hsame : (queryResult d2.storage .content (d2.storage.get C p)).1 = _ := hsame
          cases hg : d2.storage.get C p with
          | ok b => rw [hg] at hsame; simp only [queryResult, StorageResult.content.injEq] at hsame; rw [hsame]
          | error e => rw [hg] at hsame; simp [queryResult] at hsame
          | panic => rw [hg] at hsame; simp [queryResult] at hsame
        have hl : d2.load C p answer = (.done, { d2 with program := d2.program.load (some p) d.program.text, actions := d2.actions ++ [.clear] }) := by
          unfold Desk.load
          rw [continue_true.2 hm]
          simp only [k5, hget]
          rw [show utf8Bytes d.program.text = utf8 d.program.text from rfl, utf8Text_iff.2 rfl]
        show (d2.load C p answer).1 = _ ∧ (d2.load C p answer).2.program.text = _ ∧ (d2.load C p answer).2.program.name = _
        rw [hl]
        refine ⟨rfl, ?_, rfl⟩
        show (Edit.State.load d2.program (some p) d.program.text).text = _
        rw [Edit.text_flat]
        refine (Edit.lines_flat d.program.text [] (by intro x hx; cases hx)).trans ?_
        rw [List.reverse_nil, List.nil_append]
        exact normalize_id hr (by rw [Edit.text_flat]; exact flat_ends _)
    · rw [k1] at hs; simp at hs

/-- A session: a program is typed and saved, changed, and not discarded when the user says no. -/
def Ex.desk : List DeskCmd :=
  [.edit 80 25 [.char 'A', .char '=', .char '1', .escape], .save (some "foo".toList), .edit 80 25 [.char 'B', .escape],
   .new (.ok "no".toList), .load "other".toList (.ok "maybe".toList)]

example : (Desk.history asciiCase Ex.desk).1.program.text = "A=1B\n".toList ∧ (Desk.history asciiCase Ex.desk).2 = "A=1\n".toList ∧
    (Desk.history asciiCase Ex.desk).1.program.name = some "MEMORY:foo.bas".toList := by
  refine ⟨?_, ?_, ?_⟩ <;> decide +kernel

example : ((Desk.history asciiCase Ex.desk).1.step asciiCase (.load "foo".toList (.ok "Yes".toList))).2.program.text = "A=1\n".toList := by
  decide +kernel

/-- C63: a program with a line that ends with a carriage return is saved and loaded, and is another program. -/
theorem C63_counterexample : ∃ d, (Desk.history asciiCase [.storage (.put "a.bas".toList (utf8 "x\r\r\n".toList)), .load "a".toList (.ok []),
      .save (some "b".toList)]).1 = d ∧ d.program.name = some "MEMORY:b.bas".toList ∧ d.program.dirty = false ∧
    (d.step asciiCase (.load "b".toList (.ok []))).1 = .done ∧
    (d.step asciiCase (.load "b".toList (.ok []))).2.program.text ≠ d.program.text := by
  refine ⟨_, rfl, ?_, ?_, ?_, ?_⟩ <;> decide +kernel

/-! ## C64 -/

/-- C64 (partial: not for the end of the input and errors of the console): the interpreter ends by a line that exits only if
the program has no changes to save or the answer to the question means yes; otherwise it goes on. -/
theorem C64_leave_partial {S : Type} (C : CaseOps) (exec : S → Str → LineResult × S) (program : S → Edit.State) (s s' : S)
    (inputs : List (Except ReadErr Str × Except ReadErr Str)) (code : Nat)
    (h : replLoop C exec program s inputs = .leave code s') :
    ∃ pre line answer post s0, inputs = pre ++ (line, answer) :: post ∧ replLoop C exec program s pre = .again s0 ∧
      ((∃ l, line = .ok l ∧ exec s0 l = (.exit code, s') ∧ ((program s').dirty = false ∨ ∃ a, answer = .ok a ∧ Yes C.up a)) ∨
        ((line = .error .eof ∧ code = 0) ∨ (line = .error .other ∧ code = 1)) ∧ s' = s0) := by
  induction inputs generalizing s with
  | nil => simp [replLoop] at h
  | cons x rest ih =>
    obtain ⟨line, answer⟩ := x
    rw [replLoop] at h
    cases ht : replTurn C exec program s line answer with
    | again s1 =>
      rw [ht] at h
      obtain ⟨pre, line', answer', post, s0, h1, h2, h3⟩ := ih s1 h
      exact ⟨(line, answer) :: pre, line', answer', post, s0, by rw [h1]; rfl, by rw [replLoop, ht]; exact h2, h3⟩
    | fail e s1 => rw [ht] at h; cases h
    | leave c s1 =>
      rw [ht] at h
      cases h
      refine ⟨[], line, answer, rest, s, rfl, rfl, ?_⟩
      unfold replTurn at ht
      split at ht
      · next l =>
        split at ht
        · cases ht
        · next code' s2 hx =>
          split at ht
          · cases ht
          · next hc =>
            cases ht
            exact .inl ⟨l, rfl, hx, continue_true.1 hc⟩
          · cases ht
        · cases ht
      · cases ht
      · cases ht; exact .inr ⟨.inl ⟨rfl, rfl⟩, rfl⟩
      · cases ht; exact .inr ⟨.inr ⟨rfl, rfl⟩, rfl⟩

/-- **C64** If the program has changes to save and the answer does not mean yes, the interpreter goes on with the program. -/
theorem C64_stays {S : Type} (C : CaseOps) (exec : S → Str → LineResult × S) (program : S → Edit.State) (s s' : S) (l a : Str) (code : Nat)
    (hx : exec s l = (.exit code, s')) (hd : (program s').dirty = true) (ha : ¬ Yes C.up a)
    (rest : List (Except ReadErr Str × Except ReadErr Str)) :
    replLoop C exec program s ((.ok l, .ok a) :: rest) = replLoop C exec program s' rest := by
  rw [replLoop]
  have : continueIfModified C (program s') (.ok a) = .ok false := by
    unfold continueIfModified
    rw [hd]
    have : (parseBoolean C a).getD false = false := by
      cases hb : (parseBoolean C a).getD false with
      | false => rfl
      | true => exact absurd (parseBoolean_yes.1 hb) ha
    simp [this]
  simp only [replTurn, hx, this]

/-- **C64** A line that does not end the program, or fails, or is interrupted does not end the interpreter: what it did is
kept, and nothing is asked. -/
theorem C64_goes_on {S : Type} (C : CaseOps) (exec : S → Str → LineResult × S) (program : S → Edit.State) (s s' : S)
    (line answer : Except ReadErr Str)
    (hx : (∃ l r, line = .ok l ∧ exec s l = (r, s') ∧ ∀ code, r ≠ .exit code) ∨ (line = .error .interrupted ∧ s' = s))
    (rest : List (Except ReadErr Str × Except ReadErr Str)) :
    replLoop C exec program s ((line, answer) :: rest) = replLoop C exec program s' rest := by
  rw [replLoop]
  rcases hx with ⟨l, r, rfl, h, hr⟩ | ⟨rfl, rfl⟩
  · cases r with
    | exit code => exact absurd rfl (hr code)
    | eof => simp only [replTurn, h]
    | failed => simp only [replTurn, h]
  · rfl

/-- An interpreter whose lines are the commands `EDIT` and `END`. -/
def Ex.repl (d : Desk) (line : Str) : LineResult × Desk :=
  if line = "END".toList then (.exit 3, d)
  else if line = "EDIT".toList then (.eof, (d.step asciiCase (.edit 80 25 [.char 'A', .escape])).2)
  else (.failed, d)

/-- A line that fails. -/
example (rest : List (Except ReadErr Str × Except ReadErr Str)) : replLoop asciiCase Ex.repl (·.program) (.fresh asciiCase)
    ((.ok "oops".toList, .ok []) :: rest) = replLoop asciiCase Ex.repl (·.program) (.fresh asciiCase) rest :=
  C64_goes_on _ _ _ _ _ _ _ (.inl ⟨_, .failed, rfl, rfl, nofun⟩) _

/-- The program is typed, and not thrown away. -/
example : ∃ d, replLoop asciiCase Ex.repl (·.program) (.fresh asciiCase)
    [(.ok "EDIT".toList, .error .other), (.ok "END".toList, .ok "n".toList), (.error .interrupted, .error .other), (.ok "END".toList, .ok "y".toList)] =
    .leave 3 d ∧ d.program.text = "A\n".toList := by
  refine ⟨_, rfl, by decide +kernel⟩

/-- C64: the end of the input (CTRL-D) leaves the interpreter with changes that were not saved and without a question. -/
theorem C64_counterexample : ∃ d, replLoop asciiCase Ex.repl (·.program) (.fresh asciiCase)
    [(.ok "EDIT".toList, .ok "n".toList), (.error .eof, .ok "n".toList)] = .leave 0 d ∧ d.program.dirty = true ∧ d.program.text = "A\n".toList ∧
    ¬ Yes asciiCase.up "n".toList := by
  refine ⟨_, rfl, by decide +kernel, by decide +kernel, ?_⟩
  unfold Yes
  decide +kernel

end EB
