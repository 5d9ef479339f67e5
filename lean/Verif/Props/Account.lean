import Verif.Spec.Account
import Verif.Props.Share
import Verif.Lemmas.Storage
/-!
# C84: who has logged in and the drive of the cloud; C85: `SIGNUP` sends what was typed and confirmed
-/

namespace EB

open Spec

/-- The key of the drive of the cloud. -/
theorem cloud_key (C : CaseOps) : driveKey C "CLOUD".toList = .ok ("CLOUD".toList.flatMap C.up) := by
  unfold driveKey
  rw [show driveValid "CLOUD".toList = true by decide]
  rfl

theorem attach_cloud (C : CaseOps) (st : Storage) (uri : Str) (d : MemDrive)
    (h : st.drives.get? ("CLOUD".toList.flatMap C.up) = none) :
    st.attach C "CLOUD".toList uri d = .ok { st with drives := st.drives.insert ("CLOUD".toList.flatMap C.up) ⟨uri, d⟩ } := by
  unfold Storage.attach
  rw [cloud_key]
  simp only
  rw [h]

theorem two_drives {m : FMap Str Mounted} {a b : Str} {x y : Mounted} (ha : m.get? a = some x) (hb : m.get? b = some y) (hn : a ≠ b) :
    m.length > 1 := by
  match m with
  | [] => simp [FMap.get?] at ha
  | [(k, v)] =>
    simp only [FMap.get?] at ha hb
    split at ha <;> split at hb <;> simp_all
  | _ :: _ :: _ => simp

/-- **C84**, in part: a login that the server accepts ends with the user logged in and their drive mounted as CLOUD, and changes nothing else.
What is missing: another drive is already mounted as CLOUD, and names that are empty. -/
theorem C84_login_partial (C : CaseOps) (server : Str → Str → Option String) (a : Account) (name p : Str) (hu : a.user = none)
    (hs : server name p = none) (hn : name ≠ []) (hc : a.st.drives.get? ("CLOUD".toList.flatMap C.up) = none) :
    ∃ a' lines, loginExec C server a name (some p) = (a', .ok lines) ∧ a'.user = some name ∧ a'.st.current = a.st.current ∧
      a'.st.drives.get? ("CLOUD".toList.flatMap C.up) = some ⟨"cloud://".toList ++ name, []⟩ ∧
      ∀ d, d ≠ "CLOUD".toList.flatMap C.up → a'.st.drives.get? d = a.st.drives.get? d := by
  refine ⟨⟨some name, { a.st with drives := a.st.drives.insert ("CLOUD".toList.flatMap C.up) ⟨"cloud://".toList ++ name, []⟩ }⟩, [], ?_, ?_⟩
  · unfold loginExec cloudFactory
    simp only [hu, Option.isSome_none, Bool.false_eq_true, if_false, hs, ne_eq, hn, not_false_eq_true, if_true]
    rw [attach_cloud C a.st _ _ hc]
  · refine ⟨rfl, rfl, ?_, ?_⟩
    · simp [FMap.get?_insert]
    · intro d hd
      rw [FMap.get?_insert, if_neg hd]

/-- **C84**: a login that is not possible or that the server refuses is reported and changes nothing. -/
theorem C84_login_refused (C : CaseOps) (server : Str → Str → Option String) (a : Account) (name : Str) (p : Option Str)
    (h : a.user ≠ none ∨ p = none ∨ ∃ p' e, p = some p' ∧ server name p' = some e) :
    ∃ e, loginExec C server a name p = (a, .error e) := by
  unfold loginExec
  by_cases hu : a.user.isSome = true
  · exact ⟨_, by rw [if_pos hu]⟩
  · rw [if_neg hu]
    rcases h with h | rfl | ⟨p', e, rfl, h⟩
    · exact absurd (Option.ne_none_iff_isSome.mp h) hu
    · exact ⟨_, rfl⟩
    · exact ⟨e, by simp [h]⟩

/-- **C84**, in part: a logout that the server accepts ends with nobody logged in and no drive CLOUD, and changes nothing else; it says if
the drive was mounted.  It is refused without any change if nobody is logged in or if CLOUD is the current drive.  What is missing: a logout
that the server refuses. -/
theorem C84_logout_partial (C : CaseOps) (server : Option String) (a : Account) (hw : (a.st.drives.get? a.st.current).isSome) :
    (a.user = none → ∃ e, logoutExec C server a = (a, .error e)) ∧
      (a.user ≠ none → a.st.current = "CLOUD".toList.flatMap C.up → ∃ e, logoutExec C server a = (a, .error e)) ∧
      (a.user ≠ none → a.st.current ≠ "CLOUD".toList.flatMap C.up → server = none →
        ∃ a' lines, logoutExec C server a = (a', .ok lines) ∧ a'.user = none ∧ a'.st.current = a.st.current ∧
          a'.st.drives.get? ("CLOUD".toList.flatMap C.up) = none ∧
          (∀ d, d ≠ "CLOUD".toList.flatMap C.up → a'.st.drives.get? d = a.st.drives.get? d) ∧
          ("    Unmounted CLOUD drive".toList ∈ lines ↔ a.st.drives.get? ("CLOUD".toList.flatMap C.up) ≠ none)) := by
  obtain ⟨cur, hcur⟩ := Option.isSome_iff_exists.mp hw
  refine ⟨?_, ?_, ?_⟩
  · intro h
    exact ⟨_, by unfold logoutExec; rw [h]; rfl⟩
  · intro h hc
    have hu : a.user.isNone = false := by cases hx : a.user <;> simp_all
    have hm : a.st.unmount C "CLOUD".toList = .error "AlreadyExists" := by
      unfold Storage.unmount
      rw [cloud_key]
      simp only
      rw [hc] at hcur
      rw [hcur]
      simp only
      rw [if_pos hc]
    refine ⟨"Cannot log out while the CLOUD drive is active", ?_⟩
    unfold logoutExec
    rw [hu, hm]
    simp
  · intro h hc hs
    have hu : a.user.isNone = false := by cases hx : a.user <;> simp_all
    subst hs
    cases hd : a.st.drives.get? ("CLOUD".toList.flatMap C.up) with
    | none =>
      have hm : a.st.unmount C "CLOUD".toList = .error "NotFound" := by
        unfold Storage.unmount
        rw [cloud_key]
        simp only
        rw [hd]
      refine ⟨{ a with user := none }, [[], "    Good bye!".toList, []], ?_, rfl, rfl, hd, fun _ _ => rfl, ?_⟩
      · unfold logoutExec
        rw [hu, hm]
        simp
      · simp only [ne_eq, not_true_eq_false, iff_false]
        decide
    | some m =>
      have hm : a.st.unmount C "CLOUD".toList = .ok { a.st with drives := a.st.drives.erase ("CLOUD".toList.flatMap C.up) } := by
        unfold Storage.unmount
        rw [cloud_key]
        simp only
        rw [hd]
        simp only
        rw [if_neg hc, if_pos (two_drives hcur hd hc)]
      refine ⟨⟨none, { a.st with drives := a.st.drives.erase ("CLOUD".toList.flatMap C.up) }⟩,
        [[], "    Unmounted CLOUD drive".toList, "    Good bye!".toList, []], ?_, rfl, rfl, ?_, ?_, ?_⟩
      · unfold logoutExec
        rw [hu, hm]
        simp
      · simp [FMap.get?_erase]
      · intro d hd
        rw [FMap.get?_erase, if_neg hd]
      · simp

/-- **C84** is false of `LOGIN`: with another drive mounted as CLOUD it reports an error, but the user is logged in. -/
theorem C84_login_counterexample :
    ∃ (a : Account) (e : String), a.user = none ∧ (a.st.drives.get? a.st.current).isSome ∧
      (loginExec asciiCase (fun _ _ => none) a "me".toList (some "secret12".toList)).2 = .error e ∧
      (loginExec asciiCase (fun _ _ => none) a "me".toList (some "secret12".toList)).1.user = some "me".toList := by
  refine ⟨⟨none, ⟨[("MEMORY".toList, ⟨"memory://".toList, []⟩), ("CLOUD".toList, ⟨"memory://".toList, []⟩)], "MEMORY".toList⟩⟩,
    "AlreadyExists", rfl, by decide +kernel, ?_, ?_⟩ <;> rfl

/-- **C84** is false of `LOGOUT`: if the server refuses, an error is reported and the user is still logged in, but the drive is gone. -/
theorem C84_logout_counterexample (C : CaseOps) (e : String) (a : Account) (m : Mounted)
    (hw : (a.st.drives.get? a.st.current).isSome) (hu : a.user ≠ none) (hc : a.st.current ≠ "CLOUD".toList.flatMap C.up)
    (hd : a.st.drives.get? ("CLOUD".toList.flatMap C.up) = some m) :
    (logoutExec C (some e) a).2 = .error e ∧ (logoutExec C (some e) a).1.user = a.user ∧
      (logoutExec C (some e) a).1.st.drives.get? ("CLOUD".toList.flatMap C.up) = none := by
  obtain ⟨cur, hcur⟩ := Option.isSome_iff_exists.mp hw
  have hn : a.user.isNone = false := by cases hx : a.user <;> simp_all
  have hm : a.st.unmount C "CLOUD".toList = .ok { a.st with drives := a.st.drives.erase ("CLOUD".toList.flatMap C.up) } := by
    unfold Storage.unmount
    rw [cloud_key]
    simp only
    rw [hd]
    simp only
    rw [if_neg hc, if_pos (two_drives hcur hd hc)]
  unfold logoutExec
  rw [hn, hm]
  simp [FMap.get?_erase]

example : (Storage.init asciiCase).drives.get? ("CLOUD".toList.flatMap asciiCase.up) = none ∧
    ((Storage.init asciiCase).drives.get? (Storage.init asciiCase).current).isSome ∧
    (Storage.init asciiCase).current ≠ "CLOUD".toList.flatMap asciiCase.up := ⟨rfl, rfl, by decide⟩

/-- A state in which `LOGOUT` is tried. -/
example : ∃ (a : Account) (m : Mounted), (a.st.drives.get? a.st.current).isSome ∧ a.user ≠ none ∧
    a.st.current ≠ "CLOUD".toList.flatMap asciiCase.up ∧ a.st.drives.get? ("CLOUD".toList.flatMap asciiCase.up) = some m :=
  ⟨(loginExec asciiCase (fun _ _ => none) ⟨none, Storage.init asciiCase⟩ "me".toList (some [])).1, ⟨"cloud://me".toList, []⟩, rfl, by decide,
    by decide, rfl⟩

/-! ## `SIGNUP` -/

theorem cut_blanks {w blanks : Str} (hb : ∀ c ∈ blanks, isWhite c = true) (hw : ∀ c, w.getLast? = some c → isWhite c = false) :
    cutBlanks (w ++ blanks) = w := by
  have h1 : ∀ (b v : Str), (∀ c ∈ b, isWhite c = true) → (∀ c, v.head? = some c → isWhite c = false) →
      (b ++ v).dropWhile isWhite = v := by
    intro b v hb hv
    induction b with
    | nil =>
      cases v with
      | nil => rfl
      | cons c v => simp [List.dropWhile, hv c rfl]
    | cons c b ih =>
      rw [List.cons_append, List.dropWhile_cons_of_pos (hb c (by simp))]
      exact ih fun d hd => hb d (by simp [hd])
  unfold cutBlanks
  rw [List.reverse_append, h1 _ _ (by simpa using hb) (by simpa using hw), List.reverse_reverse]

theorem blanks_cut (s : Str) : ∃ blanks, s = cutBlanks s ++ blanks ∧ (∀ c ∈ blanks, isWhite c = true) ∧
    ∀ c, (cutBlanks s).getLast? = some c → isWhite c = false := by
  refine ⟨(s.reverse.takeWhile isWhite).reverse, ?_, ?_, ?_⟩
  · unfold cutBlanks
    rw [← List.reverse_append, List.takeWhile_append_dropWhile, List.reverse_reverse]
  · intro c hc
    rw [List.mem_reverse] at hc
    exact List.all_eq_true.mp List.all_takeWhile c hc
  · intro c hc
    unfold cutBlanks at hc
    rw [List.getLast?_reverse] at hc
    have := List.head?_dropWhile_not isWhite s.reverse
    rw [hc] at this
    simpa using this

theorem boolean_iff (C : CaseOps) (w : Str) (b : Bool) : parseBoolean C w = some b ↔ w.flatMap C.up ∈ yesNoWords b := by
  unfold parseBoolean
  simp only
  generalize w.flatMap C.up = u
  constructor
  · intro h
    split at h
    next h1 => cases h; simpa [yesNoWords] using h1
    next =>
      split at h
      next h2 => cases h; simpa [yesNoWords] using h2
      next => exact absurd h (by simp)
  · intro h
    cases b with
    | true => rw [if_pos (by simpa [yesNoWords] using h)]
    | false =>
      have h2 : u = "FALSE".toList ∨ u = "NO".toList ∨ u = "N".toList := by simpa [yesNoWords] using h
      rw [if_neg (by rcases h2 with rfl | rfl | rfl <;> decide), if_pos h2]

theorem says_iff (C : CaseOps) (line : Str) (b : Bool) : SaysYesNo C line b ↔ parseBoolean C (cutBlanks line) = some b := by
  rw [boolean_iff]
  constructor
  · rintro ⟨w, blanks, rfl, h1, h2, h3⟩
    rwa [cut_blanks h1 h2]
  · intro h
    obtain ⟨blanks, h1, h2, h3⟩ := blanks_cut line
    exact ⟨_, blanks, h1, h2, h3, h⟩

theorem ask_talk {C : CaseOps} {lines : List Str} {b : Bool} (h : YesNoTalk C lines b) (rest : List Str) :
    askBool C false (lines ++ rest) = some (b, rest) := by
  induction h with
  | enter => simp [askBool]
  | answer hn h =>
    rw [says_iff] at h
    simp [askBool, hn, h]
  | @again line lines b hn h _ ih =>
    have : parseBoolean C (cutBlanks line) = none := by
      cases hp : parseBoolean C (cutBlanks line) with
      | none => rfl
      | some b => exact absurd ((says_iff C line b).mpr hp) (h b)
    rw [List.cons_append, askBool, if_neg hn, this]
    exact ih

theorem talk_ask {C : CaseOps} : ∀ {lines : List Str} {b : Bool} {rest : List Str}, askBool C false lines = some (b, rest) →
    ∃ talk, lines = talk ++ rest ∧ YesNoTalk C talk b
  | [], _, _, h => by simp [askBool] at h
  | s :: lines, b, rest, h => by
    rw [askBool] at h
    split at h
    next hs =>
      cases h
      exact ⟨[[]], by simp [hs], .enter⟩
    next hs =>
      split at h
      next b' hp =>
        cases h
        exact ⟨[s], rfl, .answer hs ((says_iff C s _).mpr hp)⟩
      next hp =>
        obtain ⟨talk, rfl, ht⟩ := talk_ask h
        exact ⟨s :: talk, rfl, .again hs (fun b hb => by rw [says_iff, hp] at hb; simp at hb) ht⟩

theorem password_talk {al nu : Char → Bool} {lines : List Str} {p : Str}
    (h : PasswordTalk (fun p => validatePassword al nu p = none) lines p) (rest : List Str) :
    askPassword al nu (lines ++ rest) = some (p, rest) := by
  induction h with
  | twice h => simp [askPassword, h]
  | @weak w p lines h ht ih =>
    have hw : (validatePassword al nu w).isSome = true := Option.ne_none_iff_isSome.mp h
    obtain ⟨q, ls, hq⟩ : ∃ q ls, lines = q :: ls := by cases ht <;> exact ⟨_, _, rfl⟩
    subst hq
    rw [List.cons_append, List.cons_append, askPassword, if_pos hw]
    exact ih
  | mistyped h hq _ ih =>
    rw [List.cons_append, List.cons_append, askPassword, if_neg (by simp [h]), if_pos hq]
    exact ih

theorem talk_password {al nu : Char → Bool} : ∀ (n : Nat) {lines : List Str} {p : Str} {rest : List Str}, lines.length ≤ n →
    askPassword al nu lines = some (p, rest) →
    ∃ talk, lines = talk ++ rest ∧ PasswordTalk (fun p => validatePassword al nu p = none) talk p
  | _, [], _, _, _, h => by simp [askPassword] at h
  | _, [p], _, _, _, h => by
    rw [askPassword] at h
    split at h <;> simp [askPassword] at h
  | 0, _ :: _ :: _, _, _, hl, _ => by simp at hl
  | n + 1, p :: q :: lines, r, rest, hl, h => by
    simp only [List.length_cons] at hl
    rw [askPassword] at h
    split at h
    next hp =>
      obtain ⟨talk, e, ht⟩ := talk_password n (by simp only [List.length_cons]; omega) h
      exact ⟨p :: talk, by rw [e]; rfl, .weak (Option.ne_none_iff_isSome.mpr hp) ht⟩
    next hp =>
      have hg : validatePassword al nu p = none := by
        cases hv : validatePassword al nu p with
        | none => rfl
        | some e => simp [hv] at hp
      split at h
      next hq =>
        obtain ⟨talk, e, ht⟩ := talk_password n (by omega) h
        exact ⟨p :: q :: talk, by rw [e]; rfl, .mistyped hg hq ht⟩
      next hq =>
        cases h
        have : q = p := by simpa using hq
        subst this
        exact ⟨[q, q], rfl, .twice hg⟩

/-- **C85**: after a conversation, exactly the answers that were given are shown for review, and they are sent once if they are confirmed and
not at all otherwise; the error of the server is reported. -/
theorem C85_talk (C : CaseOps) (al nu : Char → Bool) (server : SignupForm → Bool) {user p email : Str} {ps bs cs rest : List Str}
    {b ok : Bool} (hp : PasswordTalk (fun p => validatePassword al nu p = none) ps p) (hb : YesNoTalk C bs b) (hc : YesNoTalk C cs ok) :
    (signupExec C al nu server ([user] ++ ps ++ [email] ++ bs ++ cs ++ rest)).review =
        ["Username: ".toList ++ user, "Email address: ".toList ++ email,
          "Promotional email: ".toList ++ if b then "yes".toList else "no".toList] ∧
      (ok = true → (signupExec C al nu server ([user] ++ ps ++ [email] ++ bs ++ cs ++ rest)).requests = [⟨user, p, email, b⟩] ∧
        (signupExec C al nu server ([user] ++ ps ++ [email] ++ bs ++ cs ++ rest)).ok = server ⟨user, p, email, b⟩) ∧
      (ok = false → (signupExec C al nu server ([user] ++ ps ++ [email] ++ bs ++ cs ++ rest)).requests = [] ∧
        (signupExec C al nu server ([user] ++ ps ++ [email] ++ bs ++ cs ++ rest)).ok = true) := by
  have e : [user] ++ ps ++ [email] ++ bs ++ cs ++ rest = user :: (ps ++ (email :: (bs ++ (cs ++ rest)))) := by simp
  rw [e]
  unfold signupExec
  simp only
  rw [password_talk hp]
  simp only
  rw [ask_talk hb]
  simp only
  rw [ask_talk hc]
  cases ok <;> simp

/-- **C85**: nothing is ever sent but the answers of a conversation that was confirmed. -/
theorem C85_only (C : CaseOps) (al nu : Char → Bool) (server : SignupForm → Bool) (lines : List Str) (f : SignupForm)
    (h : f ∈ (signupExec C al nu server lines).requests) :
    ∃ ps bs cs rest, lines = [f.username] ++ ps ++ [f.email] ++ bs ++ cs ++ rest ∧
      PasswordTalk (fun p => validatePassword al nu p = none) ps f.password ∧ YesNoTalk C bs f.promotional ∧ YesNoTalk C cs true := by
  cases lines with
  | nil => simp [signupExec] at h
  | cons user lines =>
    unfold signupExec at h
    simp only at h
    split at h
    · simp at h
    next p lines' hp =>
      split at h
      · simp at h
      next email lines'' =>
        split at h
        · simp at h
        next b lines3 hb =>
          split at h
          · simp at h
          next ok rest hc =>
            cases ok with
            | false => simp at h
            | true =>
              simp only [Bool.not_true, Bool.false_eq_true, if_false, List.mem_singleton] at h
              subst h
              obtain ⟨ps, rfl, h1⟩ := talk_password _ (Nat.le_refl _) hp
              obtain ⟨bs, rfl, h2⟩ := talk_ask hb
              obtain ⟨cs, rfl, h3⟩ := talk_ask hc
              exact ⟨ps, bs, cs, rest, by simp, h1, h2, h3⟩

set_option maxRecDepth 100000 in
example : signupExec asciiCase Char.isAlpha Char.isDigit (fun _ => true)
    ["me".toList, "weak".toList, "secret12".toList, "secret13".toList, "secret12".toList, "secret12".toList, "me@x".toList, "what".toList,
      "Yes ".toList, "y".toList] =
    ⟨[⟨"me".toList, "secret12".toList, "me@x".toList, true⟩],
      ["Username: me".toList, "Email address: me@x".toList, "Promotional email: yes".toList], true⟩ := by decide +kernel

example : PasswordTalk (fun p => validatePassword Char.isAlpha Char.isDigit p = none)
    ["weak".toList, "secret12".toList, "secret13".toList, "secret12".toList, "secret12".toList] "secret12".toList :=
  .weak (by decide +kernel) (.mistyped (by decide +kernel) (by decide) (.twice (by decide +kernel)))

example : SaysYesNo asciiCase "yes ".toList true := ⟨"yes".toList, [' '], by decide, by decide, by decide, by decide⟩

end EB
