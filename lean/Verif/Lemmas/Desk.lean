import Verif.Spec.Desk
import Verif.Props.Storage
import Verif.Props.Editor
import Mathlib.Tactic.SplitIfs
/-!
# The stored program
-/

namespace EB
open Spec

/-! ## Bytes -/

theorem utf8Text_iff {b : List UInt8} {t : Str} : utf8Text b = some t ↔ b = utf8 t := by
  have henc : ∀ t : Str, (utf8 t).toByteArray = t.utf8Encode := fun t => rfl
  constructor
  · intro h
    unfold utf8Text at h
    obtain ⟨a, h1, h2⟩ := Option.map_eq_some_iff.1 h
    have h3 := @ByteArray.utf8Encode_get_utf8Decode? b.toByteArray (by rw [h1]; rfl)
    simp only [h1, Option.get_some] at h3
    rw [h2, ← henc] at h3
    have h4 := congrArg (fun x => x.data.toList) h3
    simpa using h4.symm
  · rintro rfl
    unfold utf8Text
    rw [henc, List.utf8Decode?_utf8Encode]
    simp

/-! ## Names of files -/

theorem fileName_ext {n e : Str} (h : FileName n) (he : ∀ c ∈ e, c ≠ '/' ∧ c ≠ '\\' ∧ c ≠ ':') (hl : 2 ≤ e.length) : FileName (n ++ e) := by
  obtain ⟨h1, h2, _, _⟩ := h
  have hn : 0 < n.length := List.length_pos_iff.2 h1
  refine ⟨by simp [h1], ?_, ?_, ?_⟩
  · intro c hc
    rcases List.mem_append.1 hc with hc | hc
    · exact h2 c hc
    · exact he c hc
  · intro h; have := congrArg List.length h; simp at this; omega
  · intro h; have := congrArg List.length h; simp at this; omega

theorem basName_spec (n : Str) : ('.' ∈ n ∧ basName n = n) ∨ ('.' ∉ n ∧ ∃ e, basName n = n ++ e ∧ (e = ".bas".toList ∨ e = ".BAS".toList)) := by
  unfold basName
  by_cases h : '.' ∈ n
  · rw [if_pos h]; exact .inl ⟨h, rfl⟩
  · rw [if_neg h]
    refine .inr ⟨h, ?_⟩
    split
    · exact ⟨_, rfl, .inl rfl⟩
    · exact ⟨_, rfl, .inr rfl⟩

theorem basName_dot (n : Str) : '.' ∈ basName n := by
  rcases basName_spec n with ⟨h, e⟩ | ⟨_, e, h, rfl | rfl⟩
  · rw [e]; exact h
  · rw [h]; simp
  · rw [h]; simp

theorem basName_file {n : Str} (h : FileName n) : FileName (basName n) := by
  rcases basName_spec n with ⟨_, e⟩ | ⟨_, e, h1, rfl | rfl⟩
  · rw [e]; exact h
  · rw [h1]; exact fileName_ext h (by decide) (by decide)
  · rw [h1]; exact fileName_ext h (by decide) (by decide)

theorem setExtension_path {l : Location} {n : Str} (h : l.leaf = some n) (hn : n ≠ []) :
    ∃ p, l.setExtension "bas".toList = { l with path := p } ∧ ∃ q, l.path = q ++ n ∧ p = q ++ basName n := by
  have hq : ∃ q, l.path = q ++ n := by
    unfold Location.leaf at h
    split at h
    · simp at h
    · split at h
      · next h1 =>
        cases hp : l.path with
        | nil => rw [hp] at h1; simp at h1
        | cons c p =>
          rw [hp] at h h1
          simp at h h1
          exact ⟨[c], by simp [h]⟩
      · simp at h; exact ⟨[], by simp [h]⟩
  obtain ⟨q, hq⟩ := hq
  unfold Location.setExtension
  rw [h]
  have hne : n.isEmpty = false := by simpa using hn
  have hany : n.any isAsciiLower = true ↔ ∃ c ∈ n, 'a' ≤ c ∧ c ≤ 'z' := by
    simp [List.any_eq_true, isAsciiLower]
  simp only [hne, Bool.false_eq_true, if_false, List.contains_iff_mem]
  unfold basName
  by_cases hd : '.' ∈ n
  · simp only [hd, if_true]
    exact ⟨_, rfl, q, hq, hq⟩
  · simp only [hd, if_false]
    by_cases ha : ∃ c ∈ n, 'a' ≤ c ∧ c ≤ 'z'
    · rw [if_pos ha, hany.mpr ha]
      exact ⟨_, rfl, q, hq, by rw [hq]; simp⟩
    · have : n.any isAsciiLower = false := by
        rw [Bool.eq_false_iff]; exact fun e => ha (hany.mp e)
      rw [if_neg ha, this]
      exact ⟨_, rfl, q, hq, by rw [hq]; simp [asciiUpper]⟩

/-- The canonical name with the extension of programs. -/
theorem canonicalExt (C : CaseOps) (hu : UpperOk C.up) {st : Storage} (hk : KeysOk C.up (absStorage st)) (loc : Str) :
    (∃ p d n, st.makeCanonicalExt C loc "bas".toList = .ok p ∧ Denotes C.up (absStorage st) loc d n ∧ FullName C.up p d (basName n) ∧
      (∀ d' n', Denotes C.up (absStorage st) loc d' n' → d' = d ∧ n' = n) ∧ (∀ st' : Storage, st'.makeCanonicalExt C p "bas".toList = .ok p)) ∨
    ((∃ e, st.makeCanonicalExt C loc "bas".toList = .error e) ∧ ∀ d n, ¬ Denotes C.up (absStorage st) loc d n) := by
  by_cases hp : ∃ dr n, Path C.up loc dr (some n)
  · obtain ⟨dr, n, hp⟩ := hp
    obtain ⟨l, h1, h2, h3⟩ := location_of_path hp
    have hn := path_fileName hp
    obtain ⟨p, h4, q, h5, h6⟩ := setExtension_path (l := ⟨some (l.drive.getD st.current), l.path⟩) (n := n) h3 hn.1
    have hdn : DriveName (l.drive.getD st.current) ∧ upper C.up (l.drive.getD st.current) = l.drive.getD st.current := by
      have hcur : ∃ x, DriveName x ∧ st.current = upper C.up x := hk.1 _ hk.2
      cases hd : l.drive with
      | none =>
        obtain ⟨x, h1, h2⟩ := hcur
        simp only [Option.getD_none]
        rw [h2]
        exact ⟨upper_driveName hu h1, upper_idem hu x⟩
      | some d =>
        have hp := location_new_ok h1
        rw [hd] at hp
        cases hp with
        | absolute d0 _ _ h7 => exact ⟨upper_driveName hu h7, upper_idem hu d0⟩
    have hmk : st.makeCanonicalExt C loc "bas".toList = .ok (l.drive.getD st.current ++ ':' :: p) := by
      unfold Storage.makeCanonicalExt
      rw [h1]
      have hl : Location.leaf ⟨some (l.drive.getD st.current), l.path⟩ = some n := h3
      simp only [hl, h4, Location.toStr]
    -- the path with the extension
    have hpart : PathPart p (some (basName n)) := by
      have := location_path_stable h1
      obtain ⟨leaf, k1, k2⟩ := checkPath_ok this
      have hleaf : leaf = some n := by rw [← k2 l.drive]; exact h3
      rw [hleaf] at k1
      generalize hpl : l.path = pl at k1 h5
      cases k1 with
      | file _ hf =>
        have : q = [] := by
          have h5 : n = q ++ n := by simpa using h5
          have := congrArg List.length h5; simp at this; exact this
        rw [h6, this]; exact .file _ (basName_file hn)
      | rooted _ hf =>
        have : q = ['/'] := by
          have h5 : '/' :: n = q ++ n := by simpa using h5
          exact (List.append_cancel_right (h5 : ['/'] ++ n = q ++ n)).symm
        rw [h6, this]; exact .rooted _ (basName_file hn)
    have hpath : Path C.up (l.drive.getD st.current ++ ':' :: p) (some (l.drive.getD st.current)) (some (basName n)) := by
      have := Path.absolute (u := C.up) _ _ _ hdn.1 hpart
      rwa [hdn.2] at this
    have hcheck : checkPath p = .ok p := by
      obtain ⟨r, k1, k2⟩ := checkPath_part hpart
      have : r = p := by
        unfold checkPath at k1
        split at k1
        · next he => simp at he; rw [he] at h6; exact absurd (List.append_eq_nil_iff.1 h6.symm).2 (basName_file hn).1
        · split at k1
          · simp at k1
          · simp only at k1
            split at k1
            · simp at k1
            · simpa using k1.symm
      rw [k1, this]
    have hnew := location_of_parts (C := C) hdn.1 hdn.2 hcheck
    refine .inl ⟨_, l.drive.getD st.current, n, hmk, ⟨dr, hp, by rw [← h2]; rfl⟩, fun fs => ⟨_, hpath, rfl⟩, ?_, ?_⟩
    · rintro d' n' ⟨dr', hp', rfl⟩
      obtain ⟨l', k1, k2, k3⟩ := location_of_path hp'
      rw [h1] at k1; cases k1
      rw [h3] at k3; cases k3
      exact ⟨by rw [← k2]; rfl, rfl⟩
    · intro st'
      unfold Storage.makeCanonicalExt
      rw [hnew]
      obtain ⟨l', k1, k2, k3⟩ := location_of_path hpath
      rw [hnew] at k1; cases k1
      simp only [Option.getD_some, k3]
      obtain ⟨p', k4, q', k5, k6⟩ := setExtension_path (l := ⟨some (l.drive.getD st.current), p⟩) (n := basName n) k3 (basName_file hn).1
      rw [k4]
      have : basName (basName n) = basName n := by
        rcases basName_spec (basName n) with ⟨_, e⟩ | ⟨h, _⟩
        · exact e
        · exact absurd (basName_dot n) h
      rw [this] at k6
      have : p' = p := by rw [k6]; exact k5.symm
      rw [this]; rfl
  · refine .inr ⟨(C35_extension C st loc "bas".toList).2 fun dr n h => hp ⟨dr, n, h⟩, ?_⟩
    rintro d n ⟨dr, h, _⟩
    exact hp ⟨dr, n, h⟩

/-! ## The editor -/

open Edit in
theorem press_kept {e : Edit.State} {W H : Nat} {k : Key} {s : Edit.Step} (h : e.press W H k = some s) :
    s.state.name = e.name ∧ ((s.state.content = e.content ∧ s.state.dirty = e.dirty) ∨ s.state.dirty = true) := by
  have go : ∀ {x : Option Edit.State} {s : Edit.Step}, (x.map fun e' => (⟨e', .none, []⟩ : Edit.Step)) = some s → x = some s.state := by
    intro x s h
    obtain ⟨a, h1, rfl⟩ := Option.map_eq_some_iff.1 h
    exact h1
  have down : ∀ {n : Nat} {e' : Edit.State}, e.moveDown n = some e' → e'.name = e.name ∧ e'.content = e.content ∧ e'.dirty = e.dirty := by
    intro n e' h
    simp only [State.moveDown, Option.bind_eq_bind, Option.bind_eq_some_iff, Option.pure_def, Option.some.injEq] at h
    obtain ⟨_, _, _, _, rfl⟩ := h
    exact ⟨rfl, rfl, rfl⟩
  have up : ∀ {n : Nat} {e' : Edit.State}, e.moveUp n = some e' → e'.name = e.name ∧ e'.content = e.content ∧ e'.dirty = e.dirty := by
    intro n e' h
    simp only [State.moveUp, Option.bind_eq_bind, Option.bind_eq_some_iff, Option.pure_def, Option.some.injEq] at h
    obtain ⟨_, _, rfl⟩ := h
    exact ⟨rfl, rfl, rfl⟩
  have join : ∀ {e e' : Edit.State} {n : Nat}, e.joinNextLineInto n = some e' → e'.name = e.name ∧ e'.dirty = true := by
    intro e e' n h
    simp only [State.joinNextLineInto, Option.bind_eq_bind, Option.bind_eq_some_iff, Option.pure_def, Option.some.injEq] at h
    obtain ⟨_, _, _, _, rfl⟩ := h
    exact ⟨rfl, rfl⟩
  have del : ∀ {s : Edit.Step}, e.delete = some s → s.state.name = e.name ∧ ((s.state.content = e.content ∧ s.state.dirty = e.dirty) ∨ s.state.dirty = true) := by
    intro s h
    simp only [State.delete, Option.bind_eq_bind, Option.bind_eq_some_iff, Option.pure_def] at h
    obtain ⟨l, _, h⟩ := h
    split at h
    · split at h <;> (cases h; exact ⟨rfl, .inr rfl⟩)
    · split at h
      · obtain ⟨e', h1, h2⟩ := Option.bind_eq_some_iff.1 h
        cases h2
        exact ⟨(join h1).1, .inr (join h1).2⟩
      · cases h; exact ⟨rfl, .inl ⟨rfl, rfl⟩⟩
  have nl : ∀ {s : Edit.Step}, e.newLine = some s → s.state.name = e.name ∧ s.state.dirty = true := by
    intro s h
    simp only [State.newLine, Option.bind_eq_bind, Option.bind_eq_some_iff, Option.pure_def, Option.some.injEq] at h
    obtain ⟨_, _, _, _, rfl⟩ := h
    exact ⟨rfl, rfl⟩
  cases k with
  | arrowUp => obtain ⟨h1, h2, h3⟩ := up (go h); exact ⟨h1, .inl ⟨h2, h3⟩⟩
  | arrowDown => obtain ⟨h1, h2, h3⟩ := down (go h); exact ⟨h1, .inl ⟨h2, h3⟩⟩
  | arrowLeft =>
    have := go (x := some _) h
    simp only [Option.some.injEq] at this
    rw [← this]
    split <;> exact ⟨rfl, .inl ⟨rfl, rfl⟩⟩
  | arrowRight =>
    obtain ⟨l, _, h2⟩ := Option.map_eq_some_iff.1 (go h)
    rw [← h2]
    split <;> exact ⟨rfl, .inl ⟨rfl, rfl⟩⟩
  | backspace =>
    have h : e.backspace = some s := h
    unfold State.backspace at h
    split at h
    · next hc =>
      simp only [Option.bind_eq_bind, Option.bind_eq_some_iff, Option.pure_def, Option.some.injEq] at h
      obtain ⟨l, h1, h2⟩ := h
      rw [← h2]
      refine ⟨rfl, .inr ?_⟩
      have hnp : (if e.col ≥ indentWidth then (e.col - 1) / indentWidth * indentWidth else 0) < e.col := by
        show (if e.col ≥ 4 then (e.col - 1) / 4 * 4 else 0) < e.col
        by_cases h4 : e.col ≥ 4
        · rw [if_pos h4]; omega
        · rw [if_neg h4]; exact hc
      simp only
      generalize (if e.col ≥ indentWidth then (e.col - 1) / indentWidth * indentWidth else 0) = np at hnp
      by_cases hi : findIndentEnd l ≥ e.col
      · simp only [hi, if_true]; rw [if_pos (by omega)]
      · simp only [hi, if_false]; rfl
    · split at h
      · simp only [Option.bind_eq_bind, Option.bind_eq_some_iff, Option.pure_def, Option.some.injEq] at h
        obtain ⟨l, h1, e1, h2, rfl⟩ := h
        exact ⟨(join h2).1, .inr (join h2).2⟩
      · cases h; exact ⟨rfl, .inl ⟨rfl, rfl⟩⟩
  | delete => exact del h
  | eofOrDelete => exact del h
  | char c =>
    have h : e.char W c = some s := h
    simp only [State.char, Option.bind_eq_bind, Option.bind_eq_some_iff, Option.pure_def, Option.some.injEq] at h
    obtain ⟨_, _, _, _, _, _, rfl⟩ := h
    exact ⟨rfl, .inr rfl⟩
  | «end» =>
    obtain ⟨l, _, h2⟩ := Option.map_eq_some_iff.1 (go h)
    rw [← h2]
    exact ⟨rfl, .inl ⟨rfl, rfl⟩⟩
  | home =>
    have h : e.home = some s := h
    simp only [State.home, Option.bind_eq_bind, Option.bind_eq_some_iff, Option.pure_def, Option.some.injEq] at h
    obtain ⟨_, _, rfl⟩ := h
    exact ⟨rfl, .inl ⟨rfl, rfl⟩⟩
  | newLine => exact ⟨(nl h).1, .inr (nl h).2⟩
  | carriageReturn => exact ⟨(nl h).1, .inr (nl h).2⟩
  | pageDown =>
    obtain ⟨n, _, h⟩ := Option.bind_eq_some_iff.1 h
    obtain ⟨h1, h2, h3⟩ := down (go h); exact ⟨h1, .inl ⟨h2, h3⟩⟩
  | pageUp =>
    obtain ⟨n, _, h⟩ := Option.bind_eq_some_iff.1 h
    obtain ⟨h1, h2, h3⟩ := up (go h); exact ⟨h1, .inl ⟨h2, h3⟩⟩
  | tab =>
    have h : e.tab = some s := h
    simp only [State.tab, Option.bind_eq_bind, Option.bind_eq_some_iff, Option.pure_def, Option.some.injEq] at h
    obtain ⟨_, _, rfl⟩ := h
    exact ⟨rfl, .inr rfl⟩
  | escape => cases h; exact ⟨rfl, .inl ⟨rfl, rfl⟩⟩
  | interrupt => cases h; exact ⟨rfl, .inl ⟨rfl, rfl⟩⟩
  | unknown => cases h; exact ⟨rfl, .inl ⟨rfl, rfl⟩⟩

open Edit in
theorem show_kept {e e' : Edit.State} {W H : Nat} {r : Edit.Refresh} {ops : List Edit.EdOp} (h : e.show W H r = some (e', ops)) :
    e'.name = e.name ∧ e'.content = e.content ∧ e'.dirty = e.dirty := by
  simp only [State.show, Option.bind_eq_bind, Option.bind_eq_some_iff, Option.pure_def] at h
  obtain ⟨⟨e1, r1⟩, h1, h⟩ := h
  have k1 : e1.name = e.name ∧ e1.content = e.content ∧ e1.dirty = e.dirty := by
    unfold State.adjustLine at h1
    split at h1
    · cases h1; exact ⟨rfl, rfl, rfl⟩
    · simp only [Option.bind_eq_bind, Option.bind_eq_some_iff, Option.pure_def] at h1
      obtain ⟨_, _, h1⟩ := h1
      split at h1
      · simp only [Option.bind_eq_some_iff] at h1
        obtain ⟨_, _, h1⟩ := h1
        cases h1; exact ⟨rfl, rfl, rfl⟩
      · cases h1; exact ⟨rfl, rfl, rfl⟩
  have k2 : (e1.adjustCol W r1).1.name = e1.name ∧ (e1.adjustCol W r1).1.content = e1.content ∧ (e1.adjustCol W r1).1.dirty = e1.dirty := by
    unfold State.adjustCol
    split
    · exact ⟨rfl, rfl, rfl⟩
    · split <;> exact ⟨rfl, rfl, rfl⟩
  have last : ∀ {x y : Nat} {ops' : List EdOp}, (if x < 65536 ∧ y < 65536 then some ((e1.adjustCol W r1).1, ops') else none) = some (e', ops) →
      e'.name = e.name ∧ e'.content = e.content ∧ e'.dirty = e.dirty := by
    intro x y ops' h
    split at h
    · cases h; exact ⟨k2.1.trans k1.1, k2.2.1.trans k1.2.1, k2.2.2.trans k1.2.2⟩
    · cases h
  split at h
  · simp only [Option.bind_eq_some_iff] at h
    obtain ⟨_, _, _, _, _, _, h⟩ := h
    exact last h
  · simp only [Option.bind_eq_some_iff] at h
    obtain ⟨_, _, _, _, _, _, _, _, _, _, h⟩ := h
    exact last h
  · simp only [Option.bind_eq_some_iff] at h
    obtain ⟨_, _, _, _, _, _, _, _, h⟩ := h
    exact last h

open Edit in
theorem loop_kept {W H : Nat} : ∀ {ks : List Key} {e e' : Edit.State} {r : Edit.Refresh} {ops : List Edit.EdOp} {b : Bool},
    e.loop W H r ks = some (e', ops, b) →
    e'.name = e.name ∧ ((e'.content = e.content ∧ e'.dirty = e.dirty) ∨ e'.dirty = true)
  | [], e, e', r, ops, b, h => by
    obtain ⟨p, h1, h2⟩ := Option.map_eq_some_iff.1 h
    cases h2
    obtain ⟨k1, k2, k3⟩ := show_kept h1
    exact ⟨k1, .inl ⟨k2, k3⟩⟩
  | k :: ks, e, e', r, ops, b, h => by
    simp only [State.loop, Option.bind_eq_bind, Option.bind_eq_some_iff, Option.pure_def] at h
    obtain ⟨⟨e1, ops1⟩, h1, h⟩ := h
    obtain ⟨k1, k2, k3⟩ := show_kept h1
    split at h
    · cases h; exact ⟨k1, .inl ⟨k2, k3⟩⟩
    · simp only [Option.bind_eq_some_iff] at h
      obtain ⟨s, h2, ⟨e2, ops2, b2⟩, h3, h4⟩ := h
      cases h4
      obtain ⟨m1, m2⟩ := press_kept h2
      obtain ⟨n1, n2⟩ := loop_kept h3
      refine ⟨n1.trans (m1.trans k1), ?_⟩
      rcases n2 with ⟨n2, n3⟩ | n2
      · rcases m2 with ⟨m2, m3⟩ | m2
        · exact .inl ⟨n2.trans (m2.trans k2), n3.trans (m3.trans k3)⟩
        · exact .inr (n3.trans m2)
      · exact .inr n2

end EB
