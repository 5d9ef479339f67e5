import Verif.Model.WebDrive
import Verif.Lemmas.Storage
/-!
# C88: the drive of the web interface keeps files
-/

namespace EB

theorem webKey_eq (a b : Str) : webKey a = webKey b ↔ a.map asciiUpper = b.map asciiUpper := by
  unfold webKey
  simp

/-- **C88**: a file that was saved is read back under its name in any case, and no other file changes. -/
theorem C88_put (m : WebStore) (name : Str) (content : List UInt8) (other : Str) :
    webGet (webPut m name content) other =
      if other.map asciiUpper = name.map asciiUpper then .ok content else webGet m other := by
  unfold webGet webPut
  rw [FMap.get?_insert]
  by_cases h : other.map asciiUpper = name.map asciiUpper
  · rw [if_pos ((webKey_eq _ _).mpr h), if_pos h]
  · rw [if_neg fun e => h ((webKey_eq _ _).mp e), if_neg h]

/-- **C88**: a file that is deleted is gone, no other file changes, and a file that is not there cannot be deleted. -/
theorem C88_delete (m : WebStore) (name : Str) :
    (webGet m name = .error "NotFound" → webDelete m name = .error "NotFound") ∧
      (webGet m name ≠ .error "NotFound" → ∃ m', webDelete m name = .ok m' ∧ ∀ other,
        webGet m' other = if other.map asciiUpper = name.map asciiUpper then .error "NotFound" else webGet m other) := by
  unfold webDelete
  constructor
  · intro h
    unfold webGet at h
    cases hg : m.get? (webKey name) with
    | none => rfl
    | some v => rw [hg] at h; cases v <;> simp at h
  · intro h
    cases hg : m.get? (webKey name) with
    | none => exact absurd (by unfold webGet; rw [hg]) h
    | some v =>
      refine ⟨_, rfl, fun other => ?_⟩
      unfold webGet
      rw [FMap.get?_erase]
      by_cases h : other.map asciiUpper = name.map asciiUpper
      · rw [if_pos ((webKey_eq _ _).mpr h), if_pos h]
      · rw [if_neg fun e => h ((webKey_eq _ _).mp e), if_neg h]

theorem parse_name {raw name : Str} (h : webParse raw = some name) :
    raw = webPrefix ++ name ∧ ∃ stem, name.map asciiUpper = stem ++ ".BAS".toList := by
  unfold webParse at h
  split at h
  next hc =>
    simp only [Bool.and_eq_true, List.isPrefixOf_iff_prefix, List.isSuffixOf_iff_suffix] at hc
    obtain ⟨⟨t, rfl⟩, s, hs⟩ := hc
    simp only [List.drop_left, Option.some.injEq] at h
    subst h
    refine ⟨rfl, ?_⟩
    rw [List.map_append] at hs
    rcases List.append_eq_append_iff.mp hs with ⟨x, h1, h2⟩ | ⟨x, h1, h2⟩
    · have hx : x.length ≤ 4 := by
        have := congrArg List.length h2
        simp at this
        omega
      have hd : x = [] := by
        rcases x with _ | ⟨c, x⟩
        · rfl
        · exfalso
          have e : c = '.' := by
            have := congrArg List.head? h2
            simpa using this.symm
          subst e
          have hm : '.' ∈ webPrefix.map asciiUpper := by rw [h1]; simp
          exact absurd hm (by decide +kernel)
      subst hd
      exact ⟨[], by simpa using h2.symm⟩
    · exact ⟨x, h2⟩
  next => simp at h

theorem name_parse {name stem : Str} (h : name.map asciiUpper = stem ++ ".BAS".toList) : webParse (webPrefix ++ name) = some name := by
  unfold webParse
  rw [if_pos]
  · simp
  · simp only [Bool.and_eq_true, List.isPrefixOf_iff_prefix, List.isSuffixOf_iff_suffix]
    refine ⟨⟨name, rfl⟩, webPrefix.map asciiUpper ++ stem, ?_⟩
    rw [List.map_append, h, List.append_assoc]

theorem upper_upper (c : Char) : asciiUpper (asciiUpper c) = asciiUpper c := by
  unfold asciiUpper
  split
  next h =>
    have key : ∀ n < 26, ∀ c : Char, c.toNat = 97 + n → asciiUpper (asciiUpper c) = asciiUpper c := by
      intro n hn c hc
      have : c = Char.ofNat (97 + n) := by rw [← hc, Char.ofNat_toNat]
      subst this
      revert n
      decide
    have h' : 97 ≤ c.toNat ∧ c.toNat ≤ 122 := h
    have := key (c.toNat - 97) (by omega) c (by omega)
    unfold asciiUpper at this
    rw [if_pos h] at this
    exact this
  next => rfl

/-- **C88**, in part: the listing has exactly the files whose name ends with .BAS, with their sizes.  What is missing: files with other
names. -/
theorem C88_list_partial (m : WebStore) (l : List (Str × Nat)) (h : webEnumerate m = .ok l) (name : Str) (size : Nat) :
    (name, size) ∈ l ↔ ∃ c, (webPrefix ++ name, .entry c) ∈ m ∧ size = c.length ∧ ∃ stem, name.map asciiUpper = stem ++ ".BAS".toList := by
  induction m generalizing l with
  | nil =>
    simp only [webEnumerate, Outcome.ok.injEq] at h
    subst h
    simp
  | cons e m ih =>
    obtain ⟨raw, v⟩ := e
    rw [webEnumerate] at h
    split at h
    next hp =>
      rw [ih l h]
      constructor
      · rintro ⟨c, h1, h2⟩
        exact ⟨c, List.mem_cons_of_mem _ h1, h2⟩
      · rintro ⟨c, h1, h2, stem, h3⟩
        rcases List.mem_cons.mp h1 with e | h1
        · cases e
          rw [name_parse h3] at hp
          simp at hp
        · exact ⟨c, h1, h2, stem, h3⟩
    next n hp =>
      obtain ⟨rfl, stem, hstem⟩ := parse_name hp
      cases v with
      | other t => simp at h
      | entry c =>
        simp only at h
        cases he : webEnumerate m with
        | error e => simp [he] at h
        | panic => simp [he] at h
        | ok l' =>
          rw [he] at h
          simp only [Outcome.ok.injEq] at h
          subst h
          rw [List.mem_cons, ih l' he]
          constructor
          · rintro (e | ⟨c', h1, h2⟩)
            · cases e
              exact ⟨c, by simp, rfl, stem, hstem⟩
            · exact ⟨c', List.mem_cons_of_mem _ h1, h2⟩
          · rintro ⟨c', h1, h2, h3⟩
            rcases List.mem_cons.mp h1 with e | h1
            · simp only [Prod.mk.injEq, List.append_cancel_left_eq, WebValue.entry.injEq] at e
              obtain ⟨rfl, rfl⟩ := e
              left
              rw [h2]
            · exact .inr ⟨c', h1, h2, h3⟩

/-- **C88** is false of listings: a file with another extension is saved and read back, but is not listed. -/
theorem C88_list_counterexample : webGet (webPut [] "a.txt".toList [1]) "a.txt".toList = .ok [1] ∧
    webEnumerate (webPut [] "a.txt".toList [1]) = .ok [] := by decide +kernel

/-- **C88**, in part: a drive whose names are all in capital letters is opened without changes, in any order of its keys.  What is missing:
drives of older versions, with names in other letters. -/
theorem C88_open_partial (order : WebStore → List Str) (m : WebStore) (ho : (order m).length = m.length)
    (hc : ∀ raw ∈ order m, ∀ name, webParse raw = some name → name.map asciiUpper = name) : webOpen order m = .ok m := by
  have key : ∀ k i, i + k ≤ m.length → fixupLoop order k i m = .ok m := by
    intro k
    induction k with
    | zero => intro i _; rfl
    | succ k ih =>
      intro i hi
      rw [fixupLoop]
      have hlt : i < (order m).length := by omega
      rw [List.getElem?_eq_getElem hlt]
      simp only
      cases hp : webParse (order m)[i] with
      | none => exact ih (i + 1) (by omega)
      | some name =>
        simp only
        have h1 := hc _ (List.getElem_mem hlt) name hp
        have h2 := (parse_name hp).1
        rw [if_neg (by rw [webKey, h1]; simp [h2])]
        exact ih (i + 1) (by omega)
  unfold webOpen
  rw [key _ 0 (by omega)]

/-- **C88** is false of drives of older versions: with two files whose names differ in the case of letters, opening the drive crashes or loses
the content of one of them, depending on the order of the keys; and in the order in which they were written, names are missed. -/
theorem C88_open_counterexample :
    webOpen (fun m => m.map (·.1)) [(webPrefix ++ "a.bas".toList, .entry [1]), (webPrefix ++ "A.BAS".toList, .entry [2])] = .panic ∧
      webOpen (fun m => m.map (·.1)) [(webPrefix ++ "A.BAS".toList, .entry [2]), (webPrefix ++ "a.bas".toList, .entry [1])] =
        .ok [(webPrefix ++ "A.BAS".toList, .entry [1])] ∧
      ∃ m, webOpen (fun m => m.reverse.map (·.1)) [(webPrefix ++ "b.bas".toList, .entry [2]), (webPrefix ++ "a.bas".toList, .entry [1])] = .ok m ∧
        webGet m "b.bas".toList = .error "NotFound" := by
  refine ⟨by decide +kernel, by decide +kernel,
    [(webPrefix ++ "A.BAS".toList, .entry [1]), (webPrefix ++ "b.bas".toList, .entry [2])], by decide +kernel, by decide +kernel⟩

/-- Names that were saved by this version are in capital letters, so that the drive can be opened. -/
theorem C88_saved (name n : Str) (h : webParse (webKey name) = some n) : n.map asciiUpper = n := by
  have := (parse_name h).1
  unfold webKey at this
  rw [← List.append_cancel_left this]
  simp [upper_upper]

example : webEnumerate (webPut (webPut [("theme".toList, .other "dark".toList)] "a.bas".toList [1, 2]) "B.bas".toList [3]) =
    .ok [("B.BAS".toList, 1), ("A.BAS".toList, 2)] := by decide +kernel

example : webGet (webPut [] "a.bas".toList [1]) "A.Bas".toList = .ok [1] := by decide +kernel

end EB
