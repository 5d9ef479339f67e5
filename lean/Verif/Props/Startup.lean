import Verif.Model.Startup
import Verif.Props.Account
import Verif.Lemmas.Desk
/-!
# C86: what runs when the interpreter starts
-/

namespace EB

open Spec

theorem autorun_key (C : CaseOps) : driveKey C "AUTORUN".toList = .ok ("AUTORUN".toList.flatMap C.up) := by
  unfold driveKey
  rw [show driveValid "AUTORUN".toList = true by decide]
  rfl

theorem autorun_new (C : CaseOps) {p q : Str} (hp : ':' ∉ p) (h : checkPath p = .ok q) :
    Location.new C ("AUTORUN:".toList ++ p) = .ok ⟨some ("AUTORUN".toList.flatMap C.up), q⟩ := by
  have e : "AUTORUN:".toList ++ p = "AUTORUN".toList ++ ':' :: p := rfl
  unfold Location.new
  rw [e, splitChar_append p (by decide), splitChar_not_mem hp]
  simp only
  rw [autorun_key, h]

theorem checkPath_rooted {n : Str} (h : FileName n) : checkPath ('/' :: n) = .ok ('/' :: n) := by
  obtain ⟨q, hq, _⟩ := checkPath_part (.rooted n h)
  have := hq
  unfold checkPath at this
  rw [if_neg (by simp)] at this
  split at this
  · simp at this
  · simp only at this
    split at this
    · simp at this
    · rw [hq, ← this]

theorem autorun_file (C : CaseOps) {n : Str} (h : FileName n) :
    Location.new C ("AUTORUN:/".toList ++ n) = .ok ⟨some ("AUTORUN".toList.flatMap C.up), '/' :: n⟩ := by
  have e : "AUTORUN:/".toList ++ n = "AUTORUN:".toList ++ '/' :: n := rfl
  rw [e, autorun_new C _ (checkPath_rooted h)]
  simp only [List.mem_cons, not_or]
  exact ⟨by decide, fun hc => (h.2.1 _ hc).2.2 rfl⟩

theorem autorun_root (C : CaseOps) : Location.new C "AUTORUN:/".toList = .ok ⟨some ("AUTORUN".toList.flatMap C.up), ['/']⟩ :=
  autorun_new C (p := ['/']) (by decide) (by decide)

theorem split_user {user rest : Str} (h : '/' ∉ user) : splitOnce '/' (user ++ '/' :: rest) = some (user, rest) := by
  induction user with
  | nil => simp [splitOnce]
  | cons c d ih =>
    simp only [List.mem_cons, not_or] at h
    rw [List.cons_append, splitOnce, if_neg (Ne.symm h.1), ih h.2]
    rfl

theorem user_split : ∀ {arg user rest : Str}, splitOnce '/' arg = some (user, rest) → arg = user ++ '/' :: rest ∧ '/' ∉ user
  | [], _, _, h => by simp [splitOnce] at h
  | c :: cs, user, rest, h => by
    rw [splitOnce] at h
    split at h
    next hc =>
      cases h
      exact ⟨by rw [hc]; rfl, by simp⟩
    next hc =>
      cases hs : splitOnce '/' cs with
      | none => simp [hs] at h
      | some x =>
        obtain ⟨u, r⟩ := x
        rw [hs] at h
        cases h
        obtain ⟨rfl, hu⟩ := user_split hs
        refine ⟨rfl, ?_⟩
        simp only [List.mem_cons, not_or]
        exact ⟨Ne.symm hc, hu⟩

/-- The drives after AUTORUN is mounted and is the current drive. -/
theorem autorun_ready (C : CaseOps) (files : Str → MemDrive) (st : Storage) (user : Str)
    (hm : st.drives.get? ("AUTORUN".toList.flatMap C.up) = none) :
    ∃ st1 st2, st.attach C "AUTORUN".toList ("cloud://".toList ++ user) (files user) = .ok st1 ∧ st1.cd C "AUTORUN:/".toList = .ok st2 ∧
      st2.current = "AUTORUN".toList.flatMap C.up ∧
      st2.drives = st.drives.insert ("AUTORUN".toList.flatMap C.up) ⟨"cloud://".toList ++ user, files user⟩ := by
  refine ⟨{ st with drives := st.drives.insert ("AUTORUN".toList.flatMap C.up) ⟨"cloud://".toList ++ user, files user⟩ },
    ⟨st.drives.insert ("AUTORUN".toList.flatMap C.up) ⟨"cloud://".toList ++ user, files user⟩, "AUTORUN".toList.flatMap C.up⟩, ?_, ?_, rfl, rfl⟩
  · unfold Storage.attach
    rw [autorun_key]
    simp only
    rw [hm]
  · unfold Storage.cd
    rw [autorun_root]
    simp only [Location.leaf, if_true]
    rw [FMap.get?_insert, if_pos rfl]

theorem autorun_get (C : CaseOps) (st : Storage) {m : Mounted} {n : Str} (h : FileName n)
    (hm : st.drives.get? ("AUTORUN".toList.flatMap C.up) = some m) :
    st.get C ("AUTORUN:/".toList ++ n) = m.drive.get n := by
  have hl : Location.leaf ⟨some ("AUTORUN".toList.flatMap C.up), '/' :: n⟩ = some n := by
    simp [Location.leaf, h.1]
  unfold Storage.get
  rw [autorun_file C h]
  simp only [Storage.getLocation, Storage.withFile]
  rw [hl]
  simp only [Storage.getDrive]
  rw [hm]

/-- **C86**: `user/file` loads exactly the text of that file of that user, runs it and returns its exit code, with their drive mounted as
AUTORUN and current, and no other drive changed. -/
theorem C86_runs (C : CaseOps) (files : Str → MemDrive) (machine : Str → GuestEnd) (st : Storage) {user name text : Str} {f : MemFile}
    (hu : '/' ∉ user) (hne : user ≠ []) (hn : FileName name) (hm : st.drives.get? ("AUTORUN".toList.flatMap C.up) = none)
    (hf : (files user).get? name = some f) (ht : f.content = utf8 text) :
    (runFromCloud C files machine st (user ++ '/' :: name)).program = some ("AUTORUN:/".toList ++ name, text) ∧
      (runFromCloud C files machine st (user ++ '/' :: name)).code =
        .ok (match machine text with | .eof => 0 | .exit code => code | .stopped => 130 | .error _ => 1) ∧
      (runFromCloud C files machine st (user ++ '/' :: name)).st.current = "AUTORUN".toList.flatMap C.up ∧
      ∀ d, (runFromCloud C files machine st (user ++ '/' :: name)).st.drives.get? d =
        if d = "AUTORUN".toList.flatMap C.up then some ⟨"cloud://".toList ++ user, files user⟩ else st.drives.get? d := by
  obtain ⟨st1, st2, h1, h2, h3, h4⟩ := autorun_ready C files st user hm
  have hg : st2.get C ("AUTORUN:/".toList ++ name) = .ok (utf8 text) := by
    rw [autorun_get C st2 hn (by rw [h4, FMap.get?_insert, if_pos rfl])]
    unfold MemDrive.get
    simp only
    rw [hf]
    simp only
    rw [ht]
  have hc : cloudFactory user = .ok [] := by simp [cloudFactory, hne]
  have key : runFromCloud C files machine st (user ++ '/' :: name) =
      ⟨st2, some ("AUTORUN:/".toList ++ name, text), .ok (guestCode (machine text))⟩ := by
    unfold runFromCloud
    rw [split_user hu]
    simp only
    rw [hc]
    simp only
    rw [h1]
    simp only
    rw [h2]
    simp only
    rw [hg]
    simp only
    rw [utf8Text_iff.mpr rfl]
  rw [key]
  refine ⟨rfl, ?_, h3, ?_⟩
  · cases machine text <;> rfl
  · intro d
    simp only
    rw [h4, FMap.get?_insert]

/-- **C86**: nothing else is ever run: whatever the argument, a program that was run is the text of the file of the user that the argument
names. -/
theorem C86_only (C : CaseOps) (files : Str → MemDrive) (machine : Str → GuestEnd) (st : Storage) (arg path text : Str)
    (h : (runFromCloud C files machine st arg).program = some (path, text)) :
    ∃ user name f, arg = user ++ '/' :: name ∧ '/' ∉ user ∧ user ≠ [] ∧ path = "AUTORUN:/".toList ++ name ∧ FileName name ∧
      (files user).get? name = some f ∧ f.content = utf8 text := by
  unfold runFromCloud at h
  split at h
  · simp at h
  next user name hs =>
    obtain ⟨rfl, hu⟩ := user_split hs
    split at h
    · simp at h
    · simp at h
    next d hc =>
      have hne : user ≠ [] := by
        intro e
        simp [cloudFactory, e] at hc
      split at h
      · simp at h
      · simp at h
      next st1 h1 =>
        have hm : st.drives.get? ("AUTORUN".toList.flatMap C.up) = none := by
          cases hg : st.drives.get? ("AUTORUN".toList.flatMap C.up) with
          | none => rfl
          | some m =>
            unfold Storage.attach at h1
            rw [autorun_key] at h1
            simp only at h1
            rw [hg] at h1
            simp at h1
        obtain ⟨st1', st2', e1, e2, _, e4⟩ := autorun_ready C files st user hm
        rw [h1] at e1
        cases e1
        rw [e2] at h
        simp only at h
        split at h
        · simp at h
        · simp at h
        next content hg =>
          split at h
          · simp at h
          next t ht =>
            simp only [Option.some.injEq, Prod.mk.injEq] at h
            obtain ⟨rfl, rfl⟩ := h
            have hn : FileName name := by
              unfold Storage.get at hg
              have e : "AUTORUN:/".toList ++ name = "AUTORUN".toList ++ ':' :: ('/' :: name) := rfl
              unfold Location.new at hg
              rw [e, splitChar_append _ (by decide)] at hg
              cases hs : splitChar ':' ('/' :: name) with
              | nil => exact absurd hs (splitChar_ne_nil _ _)
              | cons x xs =>
                cases xs with
                | cons y ys => simp [hs] at hg
                | nil =>
                  obtain ⟨rfl, _⟩ := splitChar_one hs
                  rw [hs] at hg
                  simp only at hg
                  rw [autorun_key] at hg
                  simp only at hg
                  cases hp : checkPath ('/' :: name) with
                  | panic => simp [hp] at hg
                  | error e => simp [hp] at hg
                  | ok q =>
                    rw [hp] at hg
                    simp only [Storage.getLocation, Storage.withFile] at hg
                    obtain ⟨leaf, hl, hq⟩ := checkPath_ok hp
                    rw [hq] at hg
                    cases hl with
                    | root => simp at hg
                    | file _ hf => exact absurd rfl (hf.2.1 '/' (by simp)).1
                    | rooted _ hf => exact hf
            rw [autorun_get C st2' hn (by rw [e4, FMap.get?_insert, if_pos rfl])] at hg
            unfold MemDrive.get at hg
            split at hg
            next f hf =>
              simp only [Outcome.ok.injEq] at hg
              exact ⟨user, name, f, rfl, hu, hne, rfl, hn, hf, by rw [hg]; exact utf8Text_iff.mp ht⟩
            next => simp at hg

/-- **C86**: the link that `SHARE` prints for a public file in the root of a drive runs that file for everyone. -/
theorem C86_link (C : CaseOps) (W : ShareWorld) (files : Str → MemDrive) (machine : Str → GuestEnd) (st : Storage)
    {drive user name text : Str} {args : List Str} {cs : List AclChange} {f : MemFile} (h : List.Forall₂ AclSays args cs) (hn : args ≠ [])
    (hw : W.user = some user) (hd : '/' ∉ drive)
    (ho : W.update (drive ++ [':'] ++ ['/'] ++ name) (allowed cs) (forbidden cs) = .ok ()) (he : ∃ u ∈ allowed cs, Everyone u)
    (hu : '/' ∉ user) (hne : user ≠ []) (hf : FileName name) (hm : st.drives.get? ("AUTORUN".toList.flatMap C.up) = none)
    (hg : (files user).get? name = some f) (ht : f.content = utf8 text) :
    ∃ arg, W.base ++ "?run=".toList ++ arg ∈ (shareExec W (drive ++ [':'] ++ ['/'] ++ name) args).lines ∧
      (runFromCloud C files machine st arg).program = some ("AUTORUN:/".toList ++ name, text) := by
  refine ⟨user ++ '/' :: name, ?_, (C86_runs C files machine st hu hne hf hm hg ht).1⟩
  have := ((C82_public W _ user h hn hw ho).2.1 he).1 (drive ++ [':']) name rfl (by simp [hd])
  simpa using this

/-- The link that `SHARE` prints for a public file that is named with its drive but without a slash runs nothing for anyone. -/
theorem C86_link_counterexample (C : CaseOps) (W : ShareWorld) (files : Str → MemDrive) (machine : Str → GuestEnd) (st : Storage) (user : Str)
    (hw : W.user = some user) (hu : '/' ∉ user) (ho : ∀ f a r, W.update f a r = .ok ()) :
    W.base ++ "?run=".toList ++ (user ++ '/' :: "CLOUD:a.bas".toList) ∈ (shareExec W "CLOUD:a.bas".toList ["public+r".toList]).lines ∧
      (runFromCloud C files machine st (user ++ '/' :: "CLOUD:a.bas".toList)).program = none := by
  have hp : parseAcls ["public+r".toList] 1 ⟨[], []⟩ = .ok ⟨["public".toList], []⟩ := by
    have := parsed_all (.cons (.allow (u := "public".toList) (r := 'r') (by decide) (.inl rfl)) .nil)
    exact this
  have hs : linkPath "CLOUD:a.bas".toList = "CLOUD:a.bas".toList := by decide +kernel
  have hx : hasPublicAcl ["public".toList] = true := by decide +kernel
  refine ⟨?_, ?_⟩
  · unfold shareExec
    rw [hp]
    simp only
    rw [if_neg (by simp), ho, hx, hw, hs]
    simp
  · cases hr : (runFromCloud C files machine st (user ++ '/' :: "CLOUD:a.bas".toList)).program with
    | none => rfl
    | some x =>
      obtain ⟨u, n, f, e, hu', _, _, hf, _⟩ := C86_only C files machine st _ x.1 x.2 hr
      have := split_user (rest := "CLOUD:a.bas".toList) hu
      rw [e, split_user hu'] at this
      simp only [Option.some.injEq, Prod.mk.injEq] at this
      rw [this.2] at hf
      exact absurd rfl (hf.2.1 ':' (by decide)).2.2

/-- **C86**: the program AUTOEXEC.BAS of the current drive runs once, without changes, if there is one, and whatever it does, the interpreter
starts; if it fails, that is said. -/
theorem C86_autoexec (C : CaseOps) (shown : String → Str) (machine : List UInt8 → GuestEnd) (st : Storage) {m : Mounted}
    (hm : st.drives.get? st.current = some m) :
    (m.drive.get? "AUTOEXEC.BAS".toList = none → tryAutoexec C shown machine st = .ok ⟨[], []⟩) ∧
      ∀ f, m.drive.get? "AUTOEXEC.BAS".toList = some f → ∃ lines, tryAutoexec C shown machine st = .ok ⟨lines, [f.content]⟩ ∧
        (lines = [] ↔ machine f.content = .eof ∨ ∃ code, machine f.content = .exit code) := by
  have hl : Location.new C "AUTOEXEC.BAS".toList = .ok ⟨none, "AUTOEXEC.BAS".toList⟩ := by
    unfold Location.new
    rw [splitChar_not_mem (by decide)]
    rfl
  have hg : st.get C "AUTOEXEC.BAS".toList = m.drive.get "AUTOEXEC.BAS".toList := by
    unfold Storage.get
    rw [hl]
    simp only [Storage.getLocation, Storage.withFile]
    rw [show Location.leaf ⟨none, "AUTOEXEC.BAS".toList⟩ = some "AUTOEXEC.BAS".toList by decide +kernel]
    simp only [Storage.getDrive]
    rw [hm]
  unfold tryAutoexec
  rw [hg]
  unfold MemDrive.get
  constructor
  · intro h
    rw [h]
    rfl
  · intro f h
    rw [h]
    simp only
    cases machine f.content with
    | eof => exact ⟨[], rfl, by simp⟩
    | exit c => exact ⟨[], rfl, by simp⟩
    | stopped => exact ⟨_, rfl, by simp⟩
    | error e => exact ⟨_, rfl, by simp⟩

example : FileName "a.bas".toList ∧ (Storage.init asciiCase).drives.get? ("AUTORUN".toList.flatMap asciiCase.up) = none ∧
    (runFromCloud asciiCase (fun _ => [("a.bas".toList, ⟨utf8 "END 3".toList, []⟩)]) (fun _ => .exit 3) (Storage.init asciiCase)
      "me/a.bas".toList).code = .ok 3 := by
  refine ⟨⟨by decide, by decide, by decide, by decide⟩, rfl, ?_⟩
  exact (C86_runs asciiCase _ _ _ (user := "me".toList) (name := "a.bas".toList) (text := "END 3".toList) (f := ⟨utf8 "END 3".toList, []⟩) (by decide)
    (by decide) ⟨by decide, by decide, by decide, by decide⟩ rfl (by decide +kernel) rfl).2.1

end EB
