import Verif.Spec.Share
import Verif.Props.Propline
/-!
# C82: `SHARE` asks for the changes it is told; C83: passwords
-/

namespace EB

open Spec

theorem byteLen_two (u v : Str) : byteLen (u ++ v) = byteLen u + byteLen v := by
  induction u with
  | nil => simp [byteLen]
  | cons c u ih => simp only [List.cons_append, byteLen, ih]; omega

/-- What is added to the lists by a change. -/
def addChange (l : AclLists) : AclChange → AclLists
  | .allow u => { l with add := l.add ++ [u] }
  | .forbid u => { l with remove := l.remove ++ [u] }

theorem parse_cut {a b : Str} (hb : byteLen b = 2) (ha : a ≠ []) (l : AclLists) :
    parseAcl (a ++ b) l =
      if b = ['+', 'r'] ∨ b = ['+', 'R'] then .ok (addChange l (.allow a))
      else if b = ['-', 'r'] ∨ b = ['-', 'R'] then .ok (addChange l (.forbid a)) else .error "Invalid ACL" := by
  have h1 : byteLen a ≠ 0 := fun h => ha (size_zero.mp h)
  have h2 := byteLen_two a b
  unfold parseAcl
  rw [if_neg (by omega), show byteLen (a ++ b) - 2 = byteLen a by omega, takeBytes_front, dropBytes_front]
  simp only [addChange, ne_eq, ha, not_false_eq_true, and_true]
  split_ifs <;> simp_all

theorem parse_says {s : Str} {c : AclChange} (h : AclSays s c) (l : AclLists) : parseAcl s l = .ok (addChange l c) := by
  cases h with
  | allow hu hr => rcases hr with rfl | rfl <;> rw [parse_cut (by decide) hu] <;> simp
  | forbid hu hr => rcases hr with rfl | rfl <;> rw [parse_cut (by decide) hu] <;> simp

theorem parse_bad {s : Str} (h : CutsCleanly s) (hn : ∀ c, ¬ AclSays s c) (l : AclLists) :
    parseAcl s l = .error "Invalid ACL" := by
  rcases h with h | ⟨a, b, rfl, hb⟩
  · unfold parseAcl
    rw [if_pos h]
    simp
  · by_cases ha : a = []
    · subst ha
      unfold parseAcl
      rw [if_pos (by simp [hb])]
      simp
    · rw [parse_cut hb ha]
      split_ifs with h1 h2
      · rcases h1 with rfl | rfl
        · exact absurd (.allow ha (.inl rfl)) (hn _)
        · exact absurd (.allow ha (.inr rfl)) (hn _)
      · rcases h2 with rfl | rfl
        · exact absurd (.forbid ha (.inl rfl)) (hn _)
        · exact absurd (.forbid ha (.inr rfl)) (hn _)
      · rfl

theorem parse_crash {s : Str} (h : ¬ CutsCleanly s) (l : AclLists) : parseAcl s l = .panic := by
  simp only [CutsCleanly, not_or] at h
  unfold parseAcl
  rw [if_neg h.1]
  cases ht : takeBytes s (byteLen s - 2) with
  | none => rfl
  | some t =>
    obtain ⟨u, rfl, hl⟩ := takeBytes_split ht
    have := byteLen_two t u
    exact absurd ⟨t, u, rfl, by omega⟩ h.2

theorem says_clean {s : Str} {c : AclChange} (h : AclSays s c) : CutsCleanly s := by
  cases h with
  | allow hu hr => exact .inr ⟨_, _, rfl, by rcases hr with rfl | rfl <;> decide⟩
  | forbid hu hr => exact .inr ⟨_, _, rfl, by rcases hr with rfl | rfl <;> decide⟩

theorem parse_all {args : List Str} {cs : List AclChange} (h : List.Forall₂ AclSays args cs) :
    ∀ (rest : List Str) (i : Nat) (l : AclLists),
      parseAcls (args ++ rest) i l = parseAcls rest (i + args.length) ⟨l.add ++ allowed cs, l.remove ++ forbidden cs⟩ := by
  induction h with
  | nil => intro rest i l; simp [allowed, forbidden]
  | @cons s c args cs hs _ ih =>
    intro rest i l
    rw [List.cons_append, parseAcls, parse_says hs]
    simp only
    rw [ih]
    cases c <;> simp [addChange, allowed, forbidden, Nat.add_comm, Nat.add_left_comm]

theorem public_iff (l : List Str) : hasPublicAcl l = true ↔ ∃ u ∈ l, Everyone u := by
  simp [hasPublicAcl, Everyone, low_eq]

theorem some_change {args : List Str} {cs : List AclChange} (h : List.Forall₂ AclSays args cs) (hn : args ≠ []) :
    ¬ (allowed cs = [] ∧ forbidden cs = []) := by
  cases h with
  | nil => exact absurd rfl hn
  | @cons s c => cases c <;> simp [allowed, forbidden]

theorem parsed_all {args : List Str} {cs : List AclChange} (h : List.Forall₂ AclSays args cs) :
    parseAcls args 1 ⟨[], []⟩ = .ok ⟨allowed cs, forbidden cs⟩ := by
  have := parse_all h [] 1 ⟨[], []⟩
  rw [List.append_nil] at this
  rw [this]
  simp [parseAcls]

/-- **C82**: with changes that are well formed, the storage is asked exactly once to make exactly these changes, and its error is reported. -/
theorem C82_update (W : ShareWorld) (file : Str) {args : List Str} {cs : List AclChange} (h : List.Forall₂ AclSays args cs)
    (hn : args ≠ []) :
    (shareExec W file args).requests = [.update file (allowed cs) (forbidden cs)] ∧
      ∀ e, W.update file (allowed cs) (forbidden cs) = .error e →
        (shareExec W file args).lines = [] ∧ (shareExec W file args).ending = .failed e := by
  unfold shareExec
  rw [parsed_all h]
  simp only
  rw [if_neg (some_change h hn)]
  constructor
  · split
    · rfl
    · split
      · split <;> rfl
      · rfl
  · intro e he
    rw [he]
    exact ⟨rfl, rfl⟩

/-- **C82**: after the changes are made, the link for everyone is printed if the file was made public and nothing is printed otherwise. -/
theorem C82_public (W : ShareWorld) (file user : Str) {args : List Str} {cs : List AclChange} (h : List.Forall₂ AclSays args cs)
    (hn : args ≠ []) (hu : W.user = some user) (ho : W.update file (allowed cs) (forbidden cs) = .ok ()) :
    (shareExec W file args).ending = .done ∧
      ((∃ u ∈ allowed cs, Everyone u) →
        (∀ drive path, file = drive ++ ['/'] ++ path → '/' ∉ drive →
          W.base ++ "?run=".toList ++ user ++ ['/'] ++ path ∈ (shareExec W file args).lines) ∧
        ('/' ∉ file → W.base ++ "?run=".toList ++ user ++ ['/'] ++ file ∈ (shareExec W file args).lines)) ∧
      ((¬ ∃ u ∈ allowed cs, Everyone u) → (shareExec W file args).lines = []) := by
  unfold shareExec
  rw [parsed_all h]
  simp only
  rw [if_neg (some_change h hn), ho, hu]
  simp only
  by_cases hp : ∃ u ∈ allowed cs, Everyone u
  · rw [if_pos ((public_iff _).mpr hp)]
    refine ⟨rfl, fun _ => ⟨?_, ?_⟩, fun h => absurd hp h⟩
    · intro drive path e hd
      have key : ∀ d : Str, '/' ∉ d → splitOnce '/' (d ++ '/' :: path) = some (d, path) := by
        intro d hd
        induction d with
        | nil => simp [splitOnce]
        | cons c d ih =>
          simp only [List.mem_cons, not_or] at hd
          rw [List.cons_append, splitOnce, if_neg (Ne.symm hd.1), ih hd.2]
          rfl
      have : linkPath file = path := by
        unfold linkPath
        rw [e, List.append_assoc, List.singleton_append, key drive hd]
      rw [this]
      simp
    · intro hf
      have key : ∀ d : Str, '/' ∉ d → splitOnce '/' d = none := by
        intro d hd
        induction d with
        | nil => rfl
        | cons c d ih =>
          simp only [List.mem_cons, not_or] at hd
          rw [splitOnce, if_neg (Ne.symm hd.1), ih hd.2]
          rfl
      have : linkPath file = file := by
        unfold linkPath
        rw [key file hf]
      rw [this]
      simp
  · rw [if_neg (fun h => hp ((public_iff _).mp h))]
    exact ⟨rfl, fun h => absurd h hp, fun _ => rfl⟩

/-- **C82**: without changes, the readers of the file are shown and nothing is changed. -/
theorem C82_show (W : ShareWorld) (file : Str) :
    (shareExec W file []).requests = [.get file] ∧
      (∀ e, W.get file = .error e → (shareExec W file []).ending = .failed e) ∧
      (W.get file = .ok [] → shareExec W file [] = ⟨[.get file], [[], "    No ACLs on ".toList ++ file, []], .done⟩) ∧
      (∀ readers, W.get file = .ok readers → readers ≠ [] →
        (shareExec W file []).ending = .done ∧
        (shareExec W file []).lines =
          [[], "    Reader ACLs on ".toList ++ file ++ [':']] ++ readers.map ("    ".toList ++ ·) ++ [[]]) := by
  have : shareExec W file [] = showAcls W file := by simp [shareExec, parseAcls]
  rw [this]
  unfold showAcls
  refine ⟨?_, ?_, ?_, ?_⟩
  · split
    · rfl
    · split <;> rfl
  · intro e he
    rw [he]
  · intro he
    rw [he]
    simp
  · intro r he hr
    rw [he]
    simp [hr]

/-- **C82**, in part: the first argument that is not well formed is refused and nothing is changed.  What is missing: arguments that cannot be
cut before their last two bytes. -/
theorem C82_refuses_partial (W : ShareWorld) (file bad : Str) {args rest : List Str} {cs : List AclChange}
    (h : List.Forall₂ AclSays args cs) (hb : ∀ c, ¬ AclSays bad c) (hc : CutsCleanly bad) :
    shareExec W file (args ++ bad :: rest) = ⟨[], [], .syntaxError (args.length + 1)⟩ := by
  unfold shareExec
  rw [parse_all h, parseAcls, parse_bad hc hb]
  simp [Nat.add_comm]

/-- **C82**, the crash: an argument that cannot be cut before its last two bytes ends the interpreter. -/
theorem C82_crash (W : ShareWorld) (file bad : Str) {args rest : List Str} {cs : List AclChange}
    (h : List.Forall₂ AclSays args cs) (hc : ¬ CutsCleanly bad) :
    shareExec W file (args ++ bad :: rest) = ⟨[], [], .panic⟩ := by
  unfold shareExec
  rw [parse_all h, parseAcls, parse_crash hc]

/-- **C82** is false: an argument with a euro sign at its end is not refused but crashes. -/
theorem C82_counterexample (W : ShareWorld) (file : Str) :
    (∀ c, ¬ AclSays "user€".toList c) ∧ shareExec W file ["user€".toList] = ⟨[], [], .panic⟩ := by
  constructor
  · intro c h
    have e : "user€".toList = ['u', 's', 'e', 'r', '€'] := by decide
    generalize hs : "user€".toList = s at h
    rw [e] at hs
    cases h with
    | @allow u r hu hr =>
      have := congrArg List.getLast? hs
      rcases hr with rfl | rfl <;> simp at this
    | @forbid u r hu hr =>
      have := congrArg List.getLast? hs
      rcases hr with rfl | rfl <;> simp at this
  · have : parseAcl "user€".toList ⟨[], []⟩ = .panic := by decide +kernel
    unfold shareExec
    rw [parseAcls, this]

/-- The link is wrong for a file that is named with its drive but without a slash: it has the name of the drive in it. -/
theorem C82_link_counterexample :
    (∃ l, Location.new asciiCase "CLOUD:a.bas".toList = .ok l ∧ l.leaf = some "a.bas".toList) ∧
      linkPath "CLOUD:a.bas".toList = "CLOUD:a.bas".toList := by
  refine ⟨⟨_, rfl, ?_⟩, ?_⟩ <;> decide +kernel

example : List.Forall₂ AclSays ["alice+r".toList, "Public+R".toList, "bob-r".toList]
    [.allow "alice".toList, .allow "Public".toList, .forbid "bob".toList] :=
  .cons (.allow (u := "alice".toList) (by decide) (.inl rfl)) (.cons (.allow (u := "Public".toList) (by decide) (.inr rfl))
    (.cons (.forbid (u := "bob".toList) (by decide) (.inl rfl)) .nil))

example : Everyone "Public".toList := by unfold Everyone; decide

example : CutsCleanly "alice".toList := .inr ⟨"ali".toList, "ce".toList, by decide, by decide⟩

example : CutsCleanly "+r".toList := .inl (by decide)

/-! ## Passwords -/

theorem loop_eq (alphabetic numeric : Char → Bool) (p : Str) : ∀ a n,
    passwordLoop alphabetic numeric p (a, n) = (a || p.any alphabetic, n || p.any fun c => !alphabetic c && numeric c) := by
  induction p with
  | nil => intro a n; simp [passwordLoop]
  | cons c p ih =>
    intro a n
    rw [passwordLoop]
    cases h1 : alphabetic c <;> cases h2 : numeric c <;> simp [ih, h1, h2]

theorem ascii_size {p : Str} (h : ∀ c ∈ p, c.toNat < 128) : byteLen p = p.length := by
  induction p with
  | nil => rfl
  | cons c p ih =>
    have hc : c.utf8Size = 1 := by
      have := h c (by simp)
      rw [Char.utf8Size_eq_one_iff]
      show c.toNat ≤ 127
      omega
    rw [byteLen, ih fun d hd => h d (by simp [hd]), hc, List.length_cons]
    omega

theorem size_length (p : Str) : p.length ≤ byteLen p := by
  induction p with
  | nil => simp
  | cons c p ih => have := Char.utf8Size_pos c; simp only [byteLen, List.length_cons]; omega

theorem validate_iff (alphabetic numeric : Char → Bool) (p : Str) :
    validatePassword alphabetic numeric p = none ↔
      8 ≤ byteLen p ∧ (∃ c ∈ p, alphabetic c = true) ∧ ∃ c ∈ p, numeric c = true ∧ alphabetic c = false := by
  unfold validatePassword
  rw [loop_eq]
  have ea : p.any alphabetic = true ↔ ∃ c ∈ p, alphabetic c = true := List.any_eq_true
  have en : (p.any fun c => !alphabetic c && numeric c) = true ↔ ∃ c ∈ p, numeric c = true ∧ alphabetic c = false := by
    simp [and_comm]
  by_cases h : byteLen p < 8
  · rw [if_pos h]
    exact ⟨fun h => absurd h (by simp), fun h' => absurd h'.1 (by omega)⟩
  · have h' : 8 ≤ byteLen p := by omega
    rw [if_neg h, ← ea, ← en]
    cases p.any alphabetic <;> cases p.any fun c => !alphabetic c && numeric c <;> simp [h']

/-- **C83**, in part: a password of ASCII is accepted exactly if it has eight characters or more, a letter and a number.  What is missing:
other passwords, whose length is counted in bytes. -/
theorem C83_ascii_partial {alphabetic numeric : Char → Bool} {p : Str} (hp : ∀ c ∈ p, c.toNat < 128)
    (ht : ∀ c, c.toNat < 128 → numeric c = true → alphabetic c = false) :
    validatePassword alphabetic numeric p = none ↔
      8 ≤ p.length ∧ (∃ c ∈ p, alphabetic c = true) ∧ ∃ c ∈ p, numeric c = true := by
  rw [validate_iff, ascii_size hp]
  constructor
  · rintro ⟨h1, h2, c, hc, h3, _⟩
    exact ⟨h1, h2, c, hc, h3⟩
  · rintro ⟨h1, h2, c, hc, h3⟩
    exact ⟨h1, h2, c, hc, h3, ht c (hp c hc) h3⟩

/-- **C83**: any password that is accepted has letters and numbers, whatever its characters. -/
theorem C83_complex {alphabetic numeric : Char → Bool} {p : Str} (h : validatePassword alphabetic numeric p = none) :
    (∃ c ∈ p, alphabetic c = true) ∧ ∃ c ∈ p, numeric c = true := by
  obtain ⟨_, h1, c, hc, h2, _⟩ := (validate_iff _ _ _).mp h
  exact ⟨h1, c, hc, h2⟩

/-- **C83**: a password with eight characters or more, a letter and a number that is no letter is accepted, whatever its characters. -/
theorem C83_accepts {alphabetic numeric : Char → Bool} {p : Str} (h8 : 8 ≤ p.length) (ha : ∃ c ∈ p, alphabetic c = true)
    (hn : ∃ c ∈ p, numeric c = true ∧ alphabetic c = false) : validatePassword alphabetic numeric p = none :=
  (validate_iff _ _ _).mpr ⟨Nat.le_trans h8 (size_length p), ha, hn⟩

/-- **C83** is false: a password with five characters is accepted. -/
theorem C83_counterexample {alphabetic numeric : Char → Bool} (hn : alphabetic 'ñ' = true) (h1 : numeric '1' = true)
    (h2 : alphabetic '1' = false) :
    "ñññ1ñ".toList.length = 5 ∧ validatePassword alphabetic numeric "ñññ1ñ".toList = none := by
  refine ⟨by decide, (validate_iff _ _ _).mpr ⟨by decide +kernel, ⟨'ñ', by decide, hn⟩, '1', by decide, h1, h2⟩⟩

example : validatePassword Char.isAlpha Char.isDigit "secret12".toList = none ∧
    validatePassword Char.isAlpha Char.isDigit "secret1".toList = some "Must be at least 8 characters long" ∧
    validatePassword Char.isAlpha Char.isDigit "secretive".toList = some "Must contain letters and numbers" := by decide +kernel

example : ∀ c : Char, c.toNat < 128 → c.isDigit = true → c.isAlpha = false := by
  intro c h
  have key : ∀ n < 128, (Char.ofNat n).isDigit = true → (Char.ofNat n).isAlpha = false := by decide
  have := key c.toNat h
  rwa [Char.ofNat_toNat] at this

end EB
