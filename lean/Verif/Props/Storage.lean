import Verif.Lemmas.StorageRun
/-!
# C32 to C35: storage
-/

namespace EB
open Spec

/-! ## C32 -/

theorem resolveAux_plain (dir : List Str) (cur n : Str) (h : ∀ c ∈ n, c ≠ '/') :
    resolveAux dir cur n = resolveAux.enter dir (cur.reverse ++ n) := by
  induction n generalizing cur with
  | nil => simp [resolveAux]
  | cons c n ih =>
    have hc := h c (by simp)
    rw [resolveAux]
    · rw [ih (c :: cur) (fun d hd => h d (by simp [hd]))]; simp
    · intro e; exact hc e

theorem resolve_fileName {dir : List Str} {n : Str} (h : FileName n) : resolve dir n = dir ++ [n] := by
  obtain ⟨h1, h2, h3, h4⟩ := h
  have : resolve dir n = resolveAux dir [] n := by
    match n, h1 with
    | c :: n, _ =>
      unfold resolve
      split
      next hc => simp only [List.cons.injEq] at hc; exact absurd hc.1 (h2 c (by simp)).1
      next => rfl
  rw [this, resolveAux_plain _ _ _ (fun c hc => (h2 c hc).1)]
  simp [resolveAux.enter, h1, h3, h4]

/-- **C32** Whatever path a program supplies, the name handed to the drive is a plain file name, and
the operating system resolves it to an entry directly inside the directory of the drive. -/
theorem C32_contained (C : CaseOps) (loc : Str) (l : Location) (n : Str) (dir : List Str)
    (h : Location.new C loc = .ok l) (hl : l.leaf = some n) :
    FileName n ∧ resolve dir n = dir ++ [n] := by
  have := location_new_ok h
  rw [hl] at this
  have hf := path_fileName this
  exact ⟨hf, resolve_fileName hf⟩

/-- **C32** The same holds for the destination of COPY when its name is taken from the source. -/
theorem C32_copy (C : CaseOps) (src dest : Str) (s d : Location) (sn n : Str) (dir : List Str)
    (hs : Location.new C src = .ok s) (hd : Location.new C dest = .ok d) (hsn : s.leaf = some sn)
    (hn : (if d.leaf.isNone then d.setLeaf sn else d).leaf = some n) :
    FileName n ∧ resolve dir n = dir ++ [n] := by
  cases hl : d.leaf with
  | none =>
    have h1 := C32_contained C src s sn dir hs hsn
    rw [hl] at hn
    simp only [Option.isNone_none, if_true] at hn
    rw [(setLeaf_leaf hl h1.1).1] at hn
    simp only [Option.some.injEq] at hn
    subst hn
    exact h1
  | some m =>
    rw [hl] at hn
    simp only [Option.isNone_some, Bool.false_eq_true, if_false] at hn
    exact C32_contained C dest d n dir hd hn

/-- All stored files have plain names. -/
def NamesOk (fs : FS) : Prop := ∀ d g n f, fs.drives d = some g → g n = some f → FileName n

theorem namesOk_set {fs : FS} (h : NamesOk fs) {d n : Str} {v : Option File} (hn : v ≠ none → FileName n) :
    NamesOk (fs.set d n v) := by
  intro d' g n' f hg hf
  unfold FS.set at hg
  simp only at hg
  split at hg
  · simp only [Option.map_eq_some_iff] at hg
    obtain ⟨g0, h1, h2⟩ := hg
    subst h2
    simp only at hf
    split at hf
    next e => subst e; exact hn (by simp [hf])
    next e => exact h _ _ _ _ h1 hf
  · exact h _ _ _ _ hg hf

theorem fsStep_names {u : Char → Str} {low : Str → Str} {fs fs' : FS} {c : StorageCmd} {r : StorageResult}
    (h : FsStep u low fs c r fs') (hn : NamesOk fs) : NamesOk fs' := by
  have den : ∀ {p d n}, Denotes u fs p d n → FileName n := by
    rintro p d n ⟨dr, hp, -⟩; exact path_fileName hp
  cases h with
  | put _ _ _ _ _ hd => exact namesOk_set hn fun _ => den hd
  | delete => exact namesOk_set hn fun h => absurd rfl h
  | copy _ _ _ _ _ _ _ _ _ hd _ _ ht =>
    refine namesOk_set hn fun _ => ?_
    rcases ht with ht | ⟨-, rfl⟩
    · exact den ht
    · exact den hd
  | updateAcls _ _ _ _ _ _ _ hd => exact namesOk_set hn fun _ => den hd
  | mount =>
    intro d g n f hg hf
    unfold FS.setDrive at hg
    simp only at hg
    split at hg
    · simp only [Option.some.injEq] at hg; subst hg; simp at hf
    · exact hn _ _ _ _ hg hf
  | unmount =>
    intro d g n f hg hf
    unfold FS.setDrive at hg
    simp only at hg
    split at hg
    · simp at hg
    · exact hn _ _ _ _ hg hf
  | cd => exact hn
  | _ => exact hn

theorem fsTrace_induction {u : Char → Str} {low : Str → Str} {P : FS → Prop}
    (hstep : ∀ fs fs' c r, FsStep u low fs c r fs' → P fs → P fs') {fs fs' : FS} {cs rs}
    (h : FsTrace u low fs cs rs fs') (hp : P fs) : P fs' := by
  induction h with
  | nil => exact hp
  | cons fs fs' fs'' c r cs rs h1 h2 ih => exact ih (hstep _ _ _ _ h1 hp)

/-- **C32** After any history of commands, every file created on any drive has a plain name. -/
theorem C32_stored_names (C : CaseOps) (cs : List StorageCmd) (d : Str) (m : Mounted) (n : Str) (f : MemFile)
    (hd : (storageRun C (Storage.init C) cs).2.drives.get? d = some m) (hf : m.drive.get? n = some f) :
    FileName n := by
  have ht := storageRun_trace C (storageInv_init C) cs
  have h0 : NamesOk (absStorage (Storage.init C)) := by
    rw [absStorage_init]
    intro d g n f hg hf
    unfold FS.init at hg
    simp only at hg
    split at hg
    · simp only [Option.some.injEq] at hg; subst hg; simp at hf
    · simp at hg
  have := fsTrace_induction (P := NamesOk) (fun fs fs' c r h hp => fsStep_names h hp) ht h0
  exact this d _ n _ (abs_of_get hd) (by simp only [absDrive, hf, Option.map_some]; rfl)

example : (∃ l, Location.new asciiCase "Disk:/a..b".toList = .ok l ∧ l.drive = some "DISK".toList ∧
    l.leaf = some "a..b".toList) ∧
    (∃ e, Location.new asciiCase "disk:../x".toList = .error e) ∧
    (∃ e, Location.new asciiCase "..".toList = .error e) ∧
    resolve ["home".toList] "../x".toList = ["x".toList] := by
  exact ⟨⟨_, rfl, rfl, rfl⟩, ⟨_, rfl⟩, ⟨_, rfl⟩, by decide +kernel⟩

/-! ## C33 -/

theorem upper_idem {u : Char → Str} (hu : UpperOk u) (s : Str) : upper u (upper u s) = upper u s := by
  unfold upper
  induction s with
  | nil => rfl
  | cons c s ih =>
    simp only [List.flatMap_cons, List.flatMap_append, ih]
    congr 1
    have := hu.stable c
    generalize u c = l at this
    induction l with
    | nil => rfl
    | cons d l ih2 =>
      simp only [List.flatMap_cons, this d (by simp), List.cons_append, List.nil_append]
      rw [ih2 (fun x hx => this x (by simp [hx]))]

theorem upper_driveName {u : Char → Str} (hu : UpperOk u) {d : Str} (h : DriveName d) : DriveName (upper u d) := by
  obtain ⟨h1, h2⟩ := h
  constructor
  · match d, h1 with
    | c :: d, _ =>
      simp only [upper, List.flatMap_cons, ne_eq, List.append_eq_nil_iff, not_and]
      intro e; exact absurd e (hu.nonempty c)
  · intro x hx
    simp only [upper, List.mem_flatMap] at hx
    obtain ⟨c, hc, hx⟩ := hx
    have hs := hu.separators c x hx
    have hc' := h2 c hc
    refine ⟨?_, ?_, ?_, ?_⟩ <;> rintro rfl <;> simp at hs <;> subst hs <;> simp at hc'

/-- Mounted drives have canonical names. -/
def KeysOk (u : Char → Str) (fs : FS) : Prop :=
  (∀ d, fs.drives d ≠ none → ∃ x, DriveName x ∧ d = upper u x) ∧ fs.drives fs.cur ≠ none

theorem set_mounted (fs : FS) (d n : Str) (v : Option File) (d' : Str) :
    (fs.set d n v).drives d' = none ↔ fs.drives d' = none := by
  unfold FS.set
  simp only
  split
  next e => subst e; simp
  next => rfl

theorem fsStep_keys {u : Char → Str} {low : Str → Str} {fs fs' : FS} {c : StorageCmd} {r : StorageResult}
    (h : FsStep u low fs c r fs') (hn : KeysOk u fs) : KeysOk u fs' := by
  have hset : ∀ d n v, KeysOk u (fs.set d n v) := fun d n v =>
    ⟨fun d' h => hn.1 d' (fun e => h ((set_mounted fs d n v d').mpr e)),
      fun e => hn.2 ((set_mounted fs d n v _).mp e)⟩
  cases h with
  | put => exact hset _ _ _
  | delete => exact hset _ _ _
  | copy => exact hset _ _ _
  | updateAcls => exact hset _ _ _
  | mount name uri h1 h2 h3 =>
    constructor
    · intro d hd
      unfold FS.setDrive at hd
      simp only at hd
      split at hd
      next e => exact ⟨name, h1, e⟩
      next e => exact hn.1 d hd
    · unfold FS.setDrive
      simp only
      split
      · simp
      · exact hn.2
  | unmount name h1 h2 h3 =>
    constructor
    · intro d hd
      unfold FS.setDrive at hd
      simp only at hd
      split at hd
      · simp at hd
      · exact hn.1 d hd
    · unfold FS.setDrive
      simp only
      rw [if_neg (Ne.symm h3)]
      exact hn.2
  | cd p d h1 h2 => exact ⟨hn.1, h2⟩
  | _ => exact hn

theorem keysOk_run (C : CaseOps) (cs : List StorageCmd) :
    KeysOk C.up (absStorage (storageRun C (Storage.init C) cs).2) := by
  have ht := storageRun_trace C (storageInv_init C) cs
  refine fsTrace_induction (P := KeysOk C.up) (fun fs fs' c r h hp => fsStep_keys h hp) ht ?_
  rw [absStorage_init]
  constructor
  · intro d hd
    unfold FS.init at hd
    simp only at hd
    split at hd
    next e => exact ⟨_, by unfold DriveName; decide, e⟩
    next => simp at hd
  · simp [FS.init]

/-- **C33** After any history the current drive is mounted. -/
theorem C33_current_mounted (C : CaseOps) (cs : List StorageCmd) :
    ∃ m, (storageRun C (Storage.init C) cs).2.drives.get? (storageRun C (Storage.init C) cs).2.current = some m :=
  (storageRun_inv C (storageInv_init C) cs).cur

/-- **C33** After any history no two mounted drives have the same name up to letter case. -/
theorem C33_distinct_names (C : CaseOps) (hu : UpperOk C.up) (cs : List StorageCmd) :
    ((storageRun C (Storage.init C) cs).2.drives.map (·.1)).Pairwise fun a b => upper C.up a ≠ upper C.up b := by
  have hi := storageRun_inv C (storageInv_init C) cs
  have hk := keysOk_run C cs
  generalize (storageRun C (Storage.init C) cs).2 = st at hi hk
  have hfix : ∀ a ∈ st.drives.map (·.1), upper C.up a = a := by
    intro a ha
    simp only [List.mem_map] at ha
    obtain ⟨⟨k, m⟩, hm, rfl⟩ := ha
    have := FMap.get?_of_mem hi.wf hm
    obtain ⟨x, -, hx⟩ := hk.1 k (by simp [absStorage, this])
    simp only
    rw [hx, upper_idem hu]
  refine (List.Pairwise.imp_of_mem ?_ hi.wf)
  intro a b ha hb hab
  rw [hfix a ha, hfix b hb]
  exact hab

/-- **C33** Commands never crash, and a failed command changes nothing. -/
theorem C33_failures (C : CaseOps) (cs : List StorageCmd) (c : StorageCmd) :
    let st := (storageRun C (Storage.init C) cs).2
    (storageStep C st c).1 ≠ .crash ∧ ((storageStep C st c).1 = .failed → (storageStep C st c).2 = st) := by
  intro st
  have h := (refines C (storageRun_inv C (storageInv_init C) cs) c).1
  constructor
  · intro e
    rw [show (storageStep C (storageRun C (Storage.init C) cs).2 c).1 = .crash from e] at h
    cases h
  · have hu : ∀ o, (updateResult st o).1 = .failed → (updateResult st o).2 = st := by
      intro o; cases o <;> simp [updateResult]
    have hq : ∀ (α : Type) (f : α → StorageResult) o, (queryResult st f o).2 = st := by
      intro α f o; cases o <;> simp [queryResult]
    cases c <;> first | exact hu _ | exact fun _ => hq _ _ _ | exact fun _ => rfl

/-- The assumptions about letter case hold for ASCII. -/
theorem upperOk_ascii : UpperOk asciiCase.up := by
  have key : ∀ c : Char, asciiUpper c = c ∨ ('A' ≤ asciiUpper c ∧ asciiUpper c ≤ 'Z') := by
    intro c
    unfold asciiUpper
    split
    next h =>
      right
      have h1 : 97 ≤ c.toNat := h.1
      have h2 : c.toNat ≤ 122 := h.2
      have hv : (Char.ofNat (c.toNat - 32)).toNat = c.toNat - 32 := by
        have : (c.toNat - 32).isValidChar := by left; omega
        rw [Char.ofNat, dif_pos this]
        rfl
      constructor
      · show 65 ≤ (Char.ofNat (c.toNat - 32)).toNat
        rw [hv]; omega
      · show (Char.ofNat (c.toNat - 32)).toNat ≤ 90
        rw [hv]; omega
    next => left; rfl
  refine ⟨fun c => by simp [asciiCase], ?_, ?_⟩
  · intro c d hd
    simp only [asciiCase, List.mem_singleton] at hd ⊢
    subst hd
    have : asciiUpper (asciiUpper c) = asciiUpper c := by
      rcases key c with e | ⟨h1, h2⟩
      · rw [e, e]
      · have hx : ¬ ('a' ≤ asciiUpper c ∧ asciiUpper c ≤ 'z') := by
          rintro ⟨h3, -⟩
          exact absurd (Char.le_trans h3 h2) (by decide)
        generalize asciiUpper c = x at hx
        unfold asciiUpper
        rw [if_neg hx]
    rw [this]
  · intro c d hd hsep
    simp only [asciiCase, List.mem_singleton] at hd
    subst hd
    rcases key c with e | ⟨h1, h2⟩
    · exact e
    · exfalso
      rcases hsep with e | e | e | e <;> rw [e] at h1 h2 <;> revert h1 h2 <;> decide

/-! ## C34 -/

/-- **C34** Any history of storage commands has the results and effects of the map from drives and
names to contents and readers: see `Spec.FsStep` for what each command must do. -/
theorem C34_files (C : CaseOps) (cs : List StorageCmd) :
    FsTrace C.up C.low (FS.init C.up) cs (storageRun C (Storage.init C) cs).1
      (absStorage (storageRun C (Storage.init C) cs).2) := by
  rw [← absStorage_init]
  exact storageRun_trace C (storageInv_init C) cs

theorem getLocation_eq {st : Storage} (hi : StorageInv st) {l : Location} {n : Str} (hl : l.leaf = some n) :
    st.getLocation l = match st.drives.get? (l.drive.getD st.current) with
      | some m => m.drive.get n
      | none => .error "NotFound" := by
  unfold Storage.getLocation Storage.withFile
  rw [hl]
  simp only [getDrive_eq hi]
  cases st.drives.get? (l.drive.getD st.current) <;> rfl

theorem read_after_write (C : CaseOps) {st : Storage} (hi : StorageInv st) (p q : Str) (c : List UInt8) (st' : Storage)
    (hput : storageStep C st (.put p c) = (.done, st')) :
    (∀ d n, Denotes C.up (absStorage st) p d n → Denotes C.up (absStorage st) q d n →
      (storageStep C st' (.get q)).1 = .content c) ∧
    ((∀ d n, ¬ (Denotes C.up (absStorage st) p d n ∧ Denotes C.up (absStorage st) q d n)) →
      (storageStep C st' (.get q)).1 = (storageStep C st (.get q)).1) := by
  rcases file_cases C hi p with ⟨l, d, n, m, h1, h2, h3, -, h4, h5, -⟩ | ⟨h1, h2⟩
  · have e : st.put C p c = .ok (st.setDrive d m (m.drive.put n c)) := by
      simp only [Storage.put, h1, Storage.putLocation, h4]
    simp only [storageStep, e, updateResult, Prod.mk.injEq, true_and] at hput
    subst hput
    have hi' : StorageInv (st.setDrive d m (m.drive.put n c)) := setDrive_inv hi (wf_put (hi.files _ _ h3) _ _)
    have hget : ∀ d', (st.setDrive d m (m.drive.put n c)).drives.get? d' =
        if d' = d then some { m with drive := m.drive.put n c } else st.drives.get? d' :=
      fun d' => FMap.get?_insert _ _ _ _
    have hcur : (st.setDrive d m (m.drive.put n c)).current = st.current := rfl
    constructor
    · intro d' n' hp hq
      obtain ⟨rfl, rfl⟩ := h5 _ _ hp
      obtain ⟨dr, hq, e1⟩ := hq
      obtain ⟨l', a1, a2, a3⟩ := location_of_path hq
      have hd : l'.drive.getD st.current = d' := by rw [a2]; exact e1.symm
      have : (st.setDrive d' m (m.drive.put n' c)).get C q = .ok c := by
        simp only [Storage.get, a1]
        rw [getLocation_eq hi' a3, hcur, hd, hget, if_pos rfl]
        simp only [MemDrive.get, drive_put, if_true]
      simp only [storageStep, this, queryResult]
    · intro hno
      have key : (st.setDrive d m (m.drive.put n c)).get C q = st.get C q := by
        unfold Storage.get
        cases hl : Location.new C q with
        | error e => rfl
        | panic => rfl
        | ok l' =>
          simp only
          cases hleaf : l'.leaf with
          | none => simp [Storage.getLocation, Storage.withFile, hleaf]
          | some n' =>
            rw [getLocation_eq hi' hleaf, getLocation_eq hi hleaf, hcur, hget]
            have hq : Denotes C.up (absStorage st) q (l'.drive.getD st.current) n' := by
              have := location_new_ok hl
              rw [hleaf] at this
              exact ⟨_, this, rfl⟩
            by_cases hd : l'.drive.getD st.current = d
            · have hn : n' ≠ n := by
                rintro rfl
                exact hno d n' ⟨h2, hd ▸ hq⟩
              rw [if_pos hd, hd, h3]
              simp only [MemDrive.get, drive_put, hn, if_false]
            · rw [if_neg hd]
      simp only [storageStep, key]
      cases st.get C q <;> rfl
  · have e : ∃ e, st.put C p c = .error e := by
      rcases h1 with ⟨e, h1⟩ | ⟨l, h1, -, hk⟩
      · exact ⟨e, by simp [Storage.put, h1]⟩
      · obtain ⟨e, he⟩ := hk _ (fun key m name => .ok (st.setDrive key m (m.drive.put name c)))
        exact ⟨e, by simp only [Storage.put, h1, Storage.putLocation]; exact he⟩
    obtain ⟨e, e⟩ := e
    simp only [storageStep, e, updateResult, Prod.mk.injEq, reduceCtorEq, false_and] at hput

/-- **C34** Reading right after a successful write: the same file has the new contents, and every
other file still has the result it had before. -/
theorem C34_read_after_write (C : CaseOps) (cs : List StorageCmd) (p q : Str) (c : List UInt8) (st' : Storage) :
    let st := (storageRun C (Storage.init C) cs).2
    storageStep C st (.put p c) = (.done, st') →
    (∀ d n, Denotes C.up (absStorage st) p d n → Denotes C.up (absStorage st) q d n →
      (storageStep C st' (.get q)).1 = .content c) ∧
    ((∀ d n, ¬ (Denotes C.up (absStorage st) p d n ∧ Denotes C.up (absStorage st) q d n)) →
      (storageStep C st' (.get q)).1 = (storageStep C st (.get q)).1) :=
  read_after_write C (storageRun_inv C (storageInv_init C) cs) p q c st'

example : (storageRun asciiCase (Storage.init asciiCase)
    [.put "a".toList [1], .mount "Other".toList "MEMORY://".toList, .copy "A".toList "other:".toList,
     .copy "a".toList "other:".toList, .put "/a".toList [2], .get "memory:a".toList, .get "OTHER:/a".toList,
     .cd "other:".toList, .unmount "memory".toList, .get "a".toList]).1 =
    [.done, .done, .failed, .done, .done, .content [2], .content [1], .done, .done, .content [1]] := by
  rfl

/-! ## C35 -/

theorem checkPath_stable {p q : Str} (h : checkPath p = .ok q) : checkPath q = .ok q := by
  unfold checkPath at h
  split at h
  · simp only [Outcome.ok.injEq] at h; subst h; rfl
  · next he =>
    have h0 := h
    split at h
    · simp at h
    · simp only at h
      split at h
      · simp at h
      · next h1 h2 =>
        simp only [Outcome.ok.injEq] at h
        subst h
        unfold checkPath
        rw [if_neg he, if_neg h1]
        simp only
        rw [if_neg h2]

theorem location_path_stable {C : CaseOps} {s : Str} {l : Location} (h : Location.new C s = .ok l) :
    checkPath l.path = .ok l.path := by
  unfold Location.new at h
  split at h
  · next d p hs =>
    rcases driveKey_spec C d with ⟨hd, e⟩ | ⟨hd, e⟩
    · rw [e] at h
      simp only at h
      split at h
      · next q hq =>
        simp only [Outcome.ok.injEq] at h
        subst h
        exact checkPath_stable hq
      · simp at h
      · simp at h
    · rw [e] at h; simp at h
  · split at h
    · next q hq =>
      simp only [Outcome.ok.injEq] at h
      subst h
      exact checkPath_stable hq
    · simp at h
    · simp at h
  · simp at h

theorem location_of_parts {C : CaseOps} {d p : Str} (hd : DriveName d) (hfix : upper C.up d = d)
    (hp : checkPath p = .ok p) : Location.new C (d ++ ':' :: p) = .ok ⟨some d, p⟩ := by
  obtain ⟨leaf, h1, -⟩ := checkPath_ok hp
  unfold Location.new
  rw [splitChar_append p (fun hm => (hd.2 _ hm).1 rfl), splitChar_not_mem (pathPart_no_colon h1)]
  rcases driveKey_spec C d with ⟨-, e⟩ | ⟨hd', -⟩
  · simp [e, hp, hfix]
  · exact absurd hd hd'

/-- **C35** The canonical form of a path exists exactly for valid paths; it is its own canonical
form, whatever the current drive is then (`st'`), and denotes the same file or drive. -/
theorem C35_canonical (C : CaseOps) (hu : UpperOk C.up) (cs : List StorageCmd) (loc p : Str) :
    let st := (storageRun C (Storage.init C) cs).2
    st.makeCanonical C loc = .ok p →
    (∀ st' : Storage, st'.makeCanonical C p = .ok p) ∧
    (∀ (fs' : FS) d n, Denotes C.up fs' p d n ↔ Denotes C.up (absStorage st) loc d n) ∧
    (∀ (fs' : FS) d, DenotesDrive C.up fs' p d ↔ DenotesDrive C.up (absStorage st) loc d) := by
  intro st h
  have hk : KeysOk C.up (absStorage st) := keysOk_run C cs
  unfold Storage.makeCanonical at h
  cases hl : Location.new C loc with
  | error e => rw [hl] at h; simp at h
  | panic => rw [hl] at h; simp at h
  | ok l =>
    rw [hl] at h
    simp only [Outcome.ok.injEq, Location.toStr] at h
    have hdn : DriveName (l.drive.getD st.current) ∧ upper C.up (l.drive.getD st.current) = l.drive.getD st.current := by
      have hcur : ∃ x, DriveName x ∧ st.current = upper C.up x := hk.1 _ hk.2
      cases hd : l.drive with
      | none =>
        obtain ⟨x, h1, h2⟩ := hcur
        simp only [Option.getD_none]
        rw [h2]
        exact ⟨upper_driveName hu h1, upper_idem hu x⟩
      | some d =>
        have hp := location_new_ok hl
        rw [hd] at hp
        cases hp with
        | absolute d0 _ _ h1 => exact ⟨upper_driveName hu h1, upper_idem hu d0⟩
    have hnew : Location.new C p = .ok ⟨some (l.drive.getD st.current), l.path⟩ := by
      rw [← h]
      exact location_of_parts hdn.1 hdn.2 (location_path_stable hl)
    have hleaf : Location.leaf ⟨some (l.drive.getD st.current), l.path⟩ = l.leaf := rfl
    have hpath : ∀ dr leaf, Path C.up p dr leaf ↔ dr = some (l.drive.getD st.current) ∧ leaf = l.leaf := by
      intro dr leaf
      constructor
      · intro hp
        obtain ⟨l', h1, h2, h3⟩ := location_of_path hp
        rw [hnew] at h1
        simp only [Outcome.ok.injEq] at h1
        subst h1
        exact ⟨h2.symm, h3.symm⟩
      · rintro ⟨rfl, rfl⟩
        exact location_new_ok hnew
    have hpath' : ∀ dr leaf, Path C.up loc dr leaf ↔ dr = l.drive ∧ leaf = l.leaf := by
      intro dr leaf
      constructor
      · intro hp
        obtain ⟨l', h1, h2, h3⟩ := location_of_path hp
        rw [hl] at h1
        simp only [Outcome.ok.injEq] at h1
        subst h1
        exact ⟨h2.symm, h3.symm⟩
      · rintro ⟨rfl, rfl⟩
        exact location_new_ok hl
    refine ⟨?_, ?_, ?_⟩
    · intro st'
      unfold Storage.makeCanonical
      rw [hnew]
      simp only [Option.getD_some, Location.toStr, h]
    · intro fs' d n
      unfold Denotes
      simp only [hpath, hpath']
      constructor
      · rintro ⟨dr, ⟨rfl, e⟩, rfl⟩
        exact ⟨_, ⟨rfl, e⟩, rfl⟩
      · rintro ⟨dr, ⟨rfl, e⟩, rfl⟩
        exact ⟨_, ⟨rfl, e⟩, rfl⟩
    · intro fs' d
      unfold DenotesDrive
      simp only [hpath, hpath']
      constructor
      · rintro ⟨dr, ⟨rfl, e⟩, rfl⟩
        exact ⟨_, ⟨rfl, e⟩, rfl⟩
      · rintro ⟨dr, ⟨rfl, e⟩, rfl⟩
        exact ⟨_, ⟨rfl, e⟩, rfl⟩

/-- **C35** Valid paths, and only those, have a canonical form. -/
theorem C35_exists (C : CaseOps) (st : Storage) (loc : Str) :
    (∃ p, st.makeCanonical C loc = .ok p) ↔ ∃ dr leaf, Path C.up loc dr leaf := by
  unfold Storage.makeCanonical
  rcases location_cases C loc with ⟨l, h1, h2, -⟩ | ⟨e, h1, h2⟩
  · rw [h1]; exact ⟨fun _ => ⟨_, _, h2⟩, fun _ => ⟨_, rfl⟩⟩
  · rw [h1]
    simp only [reduceCtorEq, exists_false, false_iff, not_exists]
    exact h2

/-- **C35** Adding a default extension: paths without a file name are rejected, names that contain a
dot are left alone, and other names get the extension, in upper case if the name has no lower case
letter. -/
theorem C35_extension (C : CaseOps) (st : Storage) (loc ext : Str) :
    (∀ dr n, Path C.up loc dr (some n) → ∃ p, st.makeCanonical C loc = .ok p ∧
      st.makeCanonicalExt C loc ext = .ok (
        if '.' ∈ n then p
        else if ∃ c ∈ n, 'a' ≤ c ∧ c ≤ 'z' then p ++ '.' :: ext
        else p ++ '.' :: ext.map asciiUpper)) ∧
    ((∀ dr n, ¬ Path C.up loc dr (some n)) → ∃ e, st.makeCanonicalExt C loc ext = .error e) := by
  constructor
  · intro dr n hp
    obtain ⟨l, h1, h2, h3⟩ := location_of_path hp
    have hn := (path_fileName hp).1
    refine ⟨_, by unfold Storage.makeCanonical; rw [h1], ?_⟩
    unfold Storage.makeCanonicalExt
    rw [h1]
    have hl : Location.leaf ⟨some (l.drive.getD st.current), l.path⟩ = some n := h3
    simp only [hl, Outcome.ok.injEq]
    unfold Location.setExtension
    simp only [hl]
    have hne : n.isEmpty = false := by simpa using hn
    simp only [hne, Bool.false_eq_true, if_false, List.contains_iff_mem, Location.toStr]
    by_cases hd : '.' ∈ n
    · simp only [hd, if_true]
    · simp only [hd, if_false]
      have hany : n.any isAsciiLower = true ↔ ∃ c ∈ n, 'a' ≤ c ∧ c ≤ 'z' := by
        simp [List.any_eq_true, isAsciiLower]
      by_cases ha : ∃ c ∈ n, 'a' ≤ c ∧ c ≤ 'z'
      · rw [if_pos ha, hany.mpr ha]; simp
      · have : n.any isAsciiLower = false := by
          rw [Bool.eq_false_iff]; exact fun e => ha (hany.mp e)
        rw [if_neg ha, this]; simp
  · intro h
    unfold Storage.makeCanonicalExt
    rcases location_cases C loc with ⟨l, h1, h2, -⟩ | ⟨e, h1, h2⟩
    · rw [h1]
      cases hl : l.leaf with
      | none =>
        have hl' : Location.leaf ⟨some (l.drive.getD st.current), l.path⟩ = none := hl
        simp only [hl']
        exact ⟨_, rfl⟩
      | some n => rw [hl] at h2; exact absurd h2 (h _ _)
    · rw [h1]; exact ⟨_, rfl⟩

example : (Storage.init asciiCase).makeCanonical asciiCase "hello".toList = .ok "MEMORY:hello".toList ∧
    (Storage.init asciiCase).makeCanonicalExt asciiCase "other:/HELLO".toList "bas".toList =
      .ok "OTHER:/HELLO.BAS".toList := by
  constructor <;> decide +kernel

end EB
