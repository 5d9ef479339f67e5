import Verif.Lemmas.Storage
import Mathlib.Tactic.Tauto
import Mathlib.Tactic.Convert
/-!
# The storage model refines its specification
-/

namespace EB
open Spec

/-- The abstract file. -/
def absFile (f : MemFile) : File := (f.content, fun x => x ∈ f.readers)

/-- The abstract drive. -/
def absDrive (d : MemDrive) : Str → Option File := fun n => (d.get? n).map absFile

/-- The abstract storage. -/
def absStorage (st : Storage) : FS :=
  { cur := st.current, drives := fun d => (st.drives.get? d).map fun m => absDrive m.drive }

/-- Invariant: the current drive is mounted and no key appears twice. -/
structure StorageInv (st : Storage) : Prop where
  wf : st.drives.Wf
  cur : ∃ m, st.drives.get? st.current = some m
  files : ∀ k m, st.drives.get? k = some m → m.drive.Wf

theorem wf_nil {K V : Type} : FMap.Wf ([] : FMap K V) := by simp [FMap.Wf]

theorem storageInv_init (C : CaseOps) : StorageInv (Storage.init C) := by
  refine ⟨by simp [Storage.init, FMap.Wf], ⟨_, by simp [Storage.init, FMap.get?]; rfl⟩, ?_⟩
  intro k m h
  simp only [Storage.init, FMap.get?] at h
  split at h
  · simp only [Option.some.injEq] at h; subst h; exact wf_nil
  · simp at h

theorem absStorage_init (C : CaseOps) : absStorage (Storage.init C) = FS.init C.up := by
  unfold absStorage Storage.init FS.init upper
  simp only [FMap.get?]
  congr 1
  funext d
  by_cases h : d = "MEMORY".toList.flatMap C.up
  · simp only [h, if_true, Option.map_some]; rfl
  · simp only [h, if_false, Ne.symm h, Option.map_none]

theorem setDrive_inv {st : Storage} (hi : StorageInv st) {key : Str} {m : Mounted} {d : MemDrive}
    (hd : d.Wf) : StorageInv (st.setDrive key m d) := by
  refine ⟨FMap.wf_insert hi.wf _ _, ?_, ?_⟩
  · unfold Storage.setDrive
    simp only [FMap.get?_insert]
    split
    · exact ⟨_, rfl⟩
    · exact hi.cur
  · intro k m' h
    unfold Storage.setDrive at h
    simp only [FMap.get?_insert] at h
    split at h
    · simp only [Option.some.injEq] at h; subst h; exact hd
    · exact hi.files k m' h

theorem abs_setDrive {st : Storage} {key n : Str} {m : Mounted} {d : MemDrive} {v : Option MemFile}
    (hm : st.drives.get? key = some m) (hd : ∀ n', d.get? n' = if n' = n then v else m.drive.get? n') :
    absStorage (st.setDrive key m d) = (absStorage st).set key n (v.map absFile) := by
  unfold absStorage Storage.setDrive FS.set
  simp only [FMap.get?_insert]
  congr 1
  funext d'
  by_cases h : d' = key
  · subst h
    simp only [if_true, hm, Option.map_some, Option.some.injEq]
    funext n'
    unfold absDrive
    rw [hd]
    by_cases h' : n' = n <;> simp [h']
  · simp only [h, if_false]

theorem abs_drives {st : Storage} {d : Str} {g : Str → Option File} (h : (absStorage st).drives d = some g) :
    ∃ m, st.drives.get? d = some m ∧ g = absDrive m.drive := by
  unfold absStorage at h
  simp only [Option.map_eq_some_iff] at h
  obtain ⟨m, h1, h2⟩ := h
  exact ⟨m, h1, h2.symm⟩

/-- How a path to a file is treated. -/
theorem file_cases (C : CaseOps) {st : Storage} (hi : StorageInv st) (loc : Str) :
    (∃ l d n m, Location.new C loc = .ok l ∧ Denotes C.up (absStorage st) loc d n ∧ st.drives.get? d = some m ∧
      l.leaf = some n ∧
      (∀ (α : Type) (k : Str → Mounted → Str → Outcome α), st.withFile l k = k d m n) ∧
      (∀ d' n', Denotes C.up (absStorage st) loc d' n' → d' = d ∧ n' = n) ∧
      (∀ d', ¬ DenotesDrive C.up (absStorage st) loc d')) ∨
    (((∃ e, Location.new C loc = .error e) ∨
        ∃ l, Location.new C loc = .ok l ∧ Path C.up loc l.drive l.leaf ∧
          ∀ (α : Type) (k : Str → Mounted → Str → Outcome α), ∃ e, st.withFile l k = .error e) ∧
      ∀ d n g, Denotes C.up (absStorage st) loc d n → (absStorage st).drives d ≠ some g) := by
  rcases location_cases C loc with ⟨l, h1, h2, h3⟩ | ⟨e, h1, h2⟩
  · have key : ∀ d n, Denotes C.up (absStorage st) loc d n → d = l.drive.getD st.current ∧ l.leaf = some n := by
      rintro d n ⟨dr, hp, rfl⟩
      obtain ⟨rfl, e⟩ := h3 _ _ hp
      exact ⟨rfl, e.symm⟩
    cases hleaf : l.leaf with
    | none =>
      right
      refine ⟨.inr ⟨l, h1, hleaf ▸ h2, fun α k => ⟨"NotFound", by simp [Storage.withFile, hleaf]⟩⟩, ?_⟩
      intro d n g hd
      rw [hleaf] at key
      exact absurd (key d n hd).2 (by simp)
    | some n =>
      have hg : st.getDrive l = match st.drives.get? (l.drive.getD st.current) with
          | some m => .ok (l.drive.getD st.current, m)
          | none => .error "NotFound" := by
        unfold Storage.getDrive
        obtain ⟨mc, hc⟩ := hi.cur
        cases hdr : l.drive with
        | none => simp [hc]
        | some d => rfl
      cases hm : st.drives.get? (l.drive.getD st.current) with
      | none =>
        right
        refine ⟨.inr ⟨l, h1, hleaf ▸ h2, fun α k => ⟨"NotFound", by simp [Storage.withFile, hleaf, hg, hm]⟩⟩, ?_⟩
        intro d n g hd he
        obtain ⟨m, hm', -⟩ := abs_drives he
        rw [(key d n hd).1, hm] at hm'
        simp at hm'
      | some m =>
        left
        refine ⟨l, l.drive.getD st.current, n, m, h1, ⟨l.drive, hleaf ▸ h2, rfl⟩, hm, hleaf, ?_, ?_, ?_⟩
        · intro α k
          simp [Storage.withFile, hleaf, hg, hm]
        · intro d' n' hd
          have := key d' n' hd
          rw [hleaf] at this
          exact ⟨this.1, by simpa using this.2.symm⟩
        · rintro d' ⟨dr, hp, -⟩
          have := (h3 _ _ hp).2
          rw [hleaf] at this
          simp at this
  · right
    refine ⟨.inl ⟨e, h1⟩, ?_⟩
    rintro d n g ⟨dr, hp, -⟩
    exact absurd hp (h2 _ _)

/-- How a path to a drive is treated. -/
theorem drive_cases (C : CaseOps) (st : Storage) (loc : Str) :
    (∃ l d, Location.new C loc = .ok l ∧ DenotesDrive C.up (absStorage st) loc d ∧ l.leaf = none ∧
      d = l.drive.getD st.current ∧ ∀ d', DenotesDrive C.up (absStorage st) loc d' → d' = d) ∨
    (((∃ e, Location.new C loc = .error e) ∨ ∃ l n, Location.new C loc = .ok l ∧ l.leaf = some n) ∧
      ∀ d, ¬ DenotesDrive C.up (absStorage st) loc d) := by
  rcases location_cases C loc with ⟨l, h1, h2, h3⟩ | ⟨e, h1, h2⟩
  · cases hleaf : l.leaf with
    | none =>
      left
      refine ⟨l, l.drive.getD st.current, h1, ⟨l.drive, hleaf ▸ h2, rfl⟩, hleaf, rfl, ?_⟩
      rintro d' ⟨dr, hp, rfl⟩
      rw [(h3 _ _ hp).1]; rfl
    | some n =>
      right
      refine ⟨.inr ⟨l, n, h1, hleaf⟩, ?_⟩
      rintro d ⟨dr, hp, -⟩
      have := (h3 _ _ hp).2
      rw [hleaf] at this
      simp at this
  · right
    refine ⟨.inl ⟨e, h1⟩, ?_⟩
    rintro d ⟨dr, hp, -⟩
    exact absurd hp (h2 _ _)

theorem abs_of_get {st : Storage} {d : Str} {m : Mounted} (h : st.drives.get? d = some m) :
    (absStorage st).drives d = some (absDrive m.drive) := by simp [absStorage, h]

theorem drive_put (d : MemDrive) (n : Str) (c : List UInt8) (n' : Str) :
    (d.put n c).get? n' = if n' = n then some ⟨c, ((d.get? n).map (·.readers)).getD []⟩ else d.get? n' := by
  unfold MemDrive.put
  cases h : d.get? n with
  | none => simp only [FMap.get?_insert, Option.map_none, Option.getD_none]
  | some f => simp only [FMap.get?_insert, Option.map_some, Option.getD_some]

theorem wf_put {d : MemDrive} (hd : d.Wf) (n : Str) (c : List UInt8) : (d.put n c).Wf := by
  unfold MemDrive.put
  split <;> exact FMap.wf_insert hd _ _

theorem abs_put {st : Storage} {d n : Str} {m : Mounted} {c : List UInt8} (hm : st.drives.get? d = some m) :
    absStorage (st.setDrive d m (m.drive.put n c)) =
      (absStorage st).set d n (some (c, ((absDrive m.drive n).map (·.2)).getD noReaders)) := by
  rw [abs_setDrive hm (drive_put m.drive n c)]
  congr 1
  simp only [Option.map_some, absFile, absDrive]
  congr 2
  cases m.drive.get? n with
  | none => funext x; simp [noReaders]
  | some f => rfl

/-- The result of one command, its effect and the invariant. -/
def Refines (C : CaseOps) (st : Storage) (c : StorageCmd) : Prop :=
  FsStep C.up C.low (absStorage st) c (storageStep C st c).1 (absStorage (storageStep C st c).2) ∧
    StorageInv (storageStep C st c).2

theorem refines_put (C : CaseOps) {st : Storage} (hi : StorageInv st) (loc : Str) (c : List UInt8) :
    Refines C st (.put loc c) := by
  unfold Refines storageStep
  rcases file_cases C hi loc with ⟨l, d, n, m, h1, h2, h3, -, h4, -⟩ | ⟨h1, h2⟩
  · have e : st.put C loc c = .ok (st.setDrive d m (m.drive.put n c)) := by
      simp [Storage.put, h1, Storage.putLocation, h4]
    simp only [e, updateResult]
    refine ⟨?_, setDrive_inv hi (wf_put (hi.files _ _ h3) _ _)⟩
    rw [abs_put h3]
    exact .put _ _ _ _ _ _ h2 (abs_of_get h3)
  · have e : ∃ e, st.put C loc c = .error e := by
      rcases h1 with ⟨e, h1⟩ | ⟨l, h1, -, hk⟩
      · exact ⟨e, by simp [Storage.put, h1]⟩
      · obtain ⟨e, he⟩ := hk _ (fun key m name => .ok (st.setDrive key m (m.drive.put name c)))
        exact ⟨e, by simp [Storage.put, h1, Storage.putLocation, he]⟩
    obtain ⟨e, e⟩ := e
    simp only [e, updateResult]
    exact ⟨.put_fails _ _ _ h2, hi⟩

theorem drive_get (d : MemDrive) (n : Str) :
    (∃ f, d.get n = .ok f.content ∧ d.get? n = some f) ∨ (d.get n = .error "NotFound" ∧ d.get? n = none) := by
  unfold MemDrive.get
  cases h : d.get? n with
  | none => right; simp
  | some f => left; exact ⟨f, rfl, rfl⟩

theorem refines_get (C : CaseOps) {st : Storage} (hi : StorageInv st) (loc : Str) : Refines C st (.get loc) := by
  unfold Refines storageStep
  rcases file_cases C hi loc with ⟨l, d, n, m, h1, h2, h3, -, h4, h5, -⟩ | ⟨h1, h2⟩
  · have e : st.get C loc = m.drive.get n := by
      simp [Storage.get, h1, Storage.getLocation, h4]
    rcases drive_get m.drive n with ⟨f, ef, hf⟩ | ⟨ef, hf⟩
    · simp only [e, ef, queryResult]
      exact ⟨.get _ _ _ _ _ (absFile f) h2 (abs_of_get h3) (by simp [absDrive, hf]), hi⟩
    · simp only [e, ef, queryResult]
      refine ⟨.get_fails _ _ ?_, hi⟩
      intro d' n' g f hd hg
      obtain ⟨rfl, rfl⟩ := h5 _ _ hd
      rw [abs_of_get h3] at hg
      simp only [Option.some.injEq] at hg
      subst hg
      simp [absDrive, hf]
  · have e : ∃ e, st.get C loc = .error e := by
      rcases h1 with ⟨e, h1⟩ | ⟨l, h1, -, hk⟩
      · exact ⟨e, by simp [Storage.get, h1]⟩
      · obtain ⟨e, he⟩ := hk _ (fun _ m name => m.drive.get name)
        exact ⟨e, by simp [Storage.get, h1, Storage.getLocation, he]⟩
    obtain ⟨e, e⟩ := e
    simp only [e, queryResult]
    exact ⟨.get_fails _ _ fun d n g f hd hg => absurd hg (h2 d n g hd), hi⟩

theorem refines_delete (C : CaseOps) {st : Storage} (hi : StorageInv st) (loc : Str) : Refines C st (.delete loc) := by
  unfold Refines storageStep
  rcases file_cases C hi loc with ⟨l, d, n, m, h1, h2, h3, -, h4, h5, -⟩ | ⟨h1, h2⟩
  · cases hf : m.drive.get? n with
    | some f =>
      have e : st.delete C loc = .ok (st.setDrive d m (m.drive.erase n)) := by
        simp [Storage.delete, h1, h4, MemDrive.delete, hf]
      simp only [e, updateResult]
      refine ⟨?_, setDrive_inv hi (FMap.wf_erase (hi.files _ _ h3) _)⟩
      rw [abs_setDrive (v := none) h3 (fun n' => FMap.get?_erase _ _ _)]
      exact .delete _ _ _ _ _ (absFile f) h2 (abs_of_get h3) (by simp [absDrive, hf])
    | none =>
      have e : st.delete C loc = .error "NotFound" := by
        simp [Storage.delete, h1, h4, MemDrive.delete, hf]
      simp only [e, updateResult]
      refine ⟨.delete_fails _ _ ?_, hi⟩
      intro d' n' g f hd hg
      obtain ⟨rfl, rfl⟩ := h5 _ _ hd
      rw [abs_of_get h3] at hg
      simp only [Option.some.injEq] at hg
      subst hg
      simp [absDrive, hf]
  · have e : ∃ e, st.delete C loc = .error e := by
      rcases h1 with ⟨e, h1⟩ | ⟨l, h1, -, hk⟩
      · exact ⟨e, by simp [Storage.delete, h1]⟩
      · obtain ⟨e, he⟩ := hk _ (fun key m name =>
          match m.drive.delete name with
          | .ok d => .ok (st.setDrive key m d)
          | .error e => .error e
          | .panic => .panic)
        exact ⟨e, by simp only [Storage.delete, h1]; exact he⟩
    obtain ⟨e, e⟩ := e
    simp only [e, updateResult]
    exact ⟨.delete_fails _ _ fun d n g f hd hg => absurd hg (h2 d n g hd), hi⟩

theorem refines_getAcls (C : CaseOps) {st : Storage} (hi : StorageInv st) (loc : Str) : Refines C st (.getAcls loc) := by
  unfold Refines storageStep
  rcases file_cases C hi loc with ⟨l, d, n, m, h1, h2, h3, -, h4, h5, -⟩ | ⟨h1, h2⟩
  · have e : st.getAcls C loc = m.drive.getAcls n := by
      simp [Storage.getAcls, h1, h4]
    cases hf : m.drive.get? n with
    | some f =>
      have ef : m.drive.getAcls n = .ok f.readers := by simp [MemDrive.getAcls, hf]
      simp only [e, ef, queryResult]
      exact ⟨.getAcls _ _ _ _ _ (absFile f) _ h2 (abs_of_get h3) (by simp [absDrive, hf]) (fun x => Iff.rfl), hi⟩
    | none =>
      have ef : m.drive.getAcls n = .error "NotFound" := by simp [MemDrive.getAcls, hf]
      simp only [e, ef, queryResult]
      refine ⟨.getAcls_fails _ _ ?_, hi⟩
      intro d' n' g f hd hg
      obtain ⟨rfl, rfl⟩ := h5 _ _ hd
      rw [abs_of_get h3] at hg
      simp only [Option.some.injEq] at hg
      subst hg
      simp [absDrive, hf]
  · have e : ∃ e, st.getAcls C loc = .error e := by
      rcases h1 with ⟨e, h1⟩ | ⟨l, h1, -, hk⟩
      · exact ⟨e, by simp [Storage.getAcls, h1]⟩
      · obtain ⟨e, he⟩ := hk _ (fun _ m name => m.drive.getAcls name)
        exact ⟨e, by simp [Storage.getAcls, h1, he]⟩
    obtain ⟨e, e⟩ := e
    simp only [e, queryResult]
    exact ⟨.getAcls_fails _ _ fun d n g f hd hg => absurd hg (h2 d n g hd), hi⟩

theorem mem_foldl_remove (remove l : List Str) (x : Str) :
    x ∈ remove.foldl (fun r x => r.filter (· ≠ x)) l ↔ x ∈ l ∧ x ∉ remove := by
  induction remove generalizing l with
  | nil => simp
  | cons a r ih =>
    simp only [List.foldl_cons, ih, List.mem_filter, List.mem_cons, not_or, decide_eq_true_eq]
    tauto

theorem mem_foldl_add (add l : List Str) (x : Str) :
    x ∈ add.foldl (fun r x => if x ∈ r then r else x :: r) l ↔ x ∈ add ∨ x ∈ l := by
  induction add generalizing l with
  | nil => simp
  | cons a r ih =>
    simp only [List.foldl_cons, ih, List.mem_cons]
    by_cases h : a ∈ l
    · simp only [h, if_true]
      constructor
      · tauto
      · rintro ((rfl | h') | h') <;> tauto
    · simp only [h, if_false, List.mem_cons]
      tauto

theorem refines_updateAcls (C : CaseOps) {st : Storage} (hi : StorageInv st) (loc : Str) (add remove : List Str) :
    Refines C st (.updateAcls loc add remove) := by
  unfold Refines storageStep
  rcases file_cases C hi loc with ⟨l, d, n, m, h1, h2, h3, -, h4, h5, -⟩ | ⟨h1, h2⟩
  · cases hf : m.drive.get? n with
    | some f =>
      have e : st.updateAcls C loc add remove = .ok (st.setDrive d m (m.drive.insert n ⟨f.content,
          add.foldl (fun r x => if x ∈ r then r else x :: r) (remove.foldl (fun r x => r.filter (· ≠ x)) f.readers)⟩)) := by
        simp [Storage.updateAcls, h1, h4, MemDrive.updateAcls, hf]
      simp only [e, updateResult]
      refine ⟨?_, setDrive_inv hi (FMap.wf_insert (hi.files _ _ h3) _ _)⟩
      rw [abs_setDrive (v := some _) h3 (fun n' => FMap.get?_insert _ _ _ _)]
      have := FsStep.updateAcls (u := C.up) (low := C.low) (absStorage st) loc add remove d n _ (absFile f) h2
        (abs_of_get h3) (by simp [absDrive, hf])
      convert this using 5
      simp only [Option.map_some, absFile]
      congr 2
      funext x
      simp only [mem_foldl_add, mem_foldl_remove]
    | none =>
      have e : st.updateAcls C loc add remove = .error "NotFound" := by
        simp [Storage.updateAcls, h1, h4, MemDrive.updateAcls, hf]
      simp only [e, updateResult]
      refine ⟨.updateAcls_fails _ _ _ _ ?_, hi⟩
      intro d' n' g f hd hg
      obtain ⟨rfl, rfl⟩ := h5 _ _ hd
      rw [abs_of_get h3] at hg
      simp only [Option.some.injEq] at hg
      subst hg
      simp [absDrive, hf]
  · have e : ∃ e, st.updateAcls C loc add remove = .error e := by
      rcases h1 with ⟨e, h1⟩ | ⟨l, h1, -, hk⟩
      · exact ⟨e, by simp [Storage.updateAcls, h1]⟩
      · obtain ⟨e, he⟩ := hk _ (fun key m name =>
          match m.drive.updateAcls name add remove with
          | .ok d => .ok (st.setDrive key m d)
          | .error e => .error e
          | .panic => .panic)
        exact ⟨e, by simp only [Storage.updateAcls, h1]; exact he⟩
    obtain ⟨e, e⟩ := e
    simp only [e, updateResult]
    exact ⟨.updateAcls_fails _ _ _ _ fun d n g f hd hg => absurd hg (h2 d n g hd), hi⟩

theorem getDrive_eq {st : Storage} (hi : StorageInv st) (l : Location) :
    st.getDrive l = match st.drives.get? (l.drive.getD st.current) with
      | some m => .ok (l.drive.getD st.current, m)
      | none => .error "NotFound" := by
  unfold Storage.getDrive
  obtain ⟨mc, hc⟩ := hi.cur
  cases hdr : l.drive with
  | none => simp [hc]
  | some d => rfl

theorem refines_enumerate (C : CaseOps) {st : Storage} (hi : StorageInv st) (loc : Str) :
    Refines C st (.enumerate loc) := by
  unfold Refines storageStep
  rcases drive_cases C st loc with ⟨l, d, h1, h2, h3, h4, h5⟩ | ⟨h1, h2⟩
  · cases hm : st.drives.get? d with
    | some m =>
      have e : st.enumerate C loc = .ok m.drive.enumerate := by
        simp [Storage.enumerate, h1, h3, getDrive_eq hi, ← h4, hm]
      simp only [e, queryResult]
      refine ⟨.enumerate _ _ _ _ _ h2 (abs_of_get hm) ?_, hi⟩
      intro n k
      unfold MemDrive.enumerate absDrive
      simp only [List.mem_map, Prod.mk.injEq, Option.map_eq_some_iff, exists_exists_and_eq_and]
      constructor
      · rintro ⟨⟨n', f⟩, hm', rfl, rfl⟩
        exact ⟨f, FMap.get?_of_mem (hi.files _ _ hm) hm', rfl⟩
      · rintro ⟨f, hf, rfl⟩
        exact ⟨(n, f), FMap.mem_of_get? hf, rfl, rfl⟩
    | none =>
      have e : st.enumerate C loc = .error "NotFound" := by
        simp [Storage.enumerate, h1, h3, getDrive_eq hi, ← h4, hm]
      simp only [e, queryResult]
      refine ⟨.enumerate_fails _ _ ?_, hi⟩
      intro d' g hd hg
      rw [h5 _ hd] at hg
      simp [absStorage, hm] at hg
  · have e : ∃ e, st.enumerate C loc = .error e := by
      rcases h1 with ⟨e, h1⟩ | ⟨l, n, h1, hk⟩
      · exact ⟨e, by simp [Storage.enumerate, h1]⟩
      · exact ⟨"NotFound", by simp [Storage.enumerate, h1, hk]⟩
    obtain ⟨e, e⟩ := e
    simp only [e, queryResult]
    exact ⟨.enumerate_fails _ _ fun d g hd => absurd hd (h2 d), hi⟩

theorem refines_cd (C : CaseOps) {st : Storage} (hi : StorageInv st) (loc : Str) : Refines C st (.cd loc) := by
  unfold Refines storageStep
  rcases drive_cases C st loc with ⟨l, d, h1, h2, h3, h4, h5⟩ | ⟨h1, h2⟩
  · cases hm : st.drives.get? d with
    | some m =>
      have e : st.cd C loc = .ok { st with current := d } := by
        cases hd : l.drive with
        | none =>
          rw [hd] at h4
          simp at h4
          subst h4
          simp [Storage.cd, h1, h3, hd]
        | some d' =>
          rw [hd] at h4
          simp at h4
          subst h4
          simp [Storage.cd, h1, h3, hd, hm]
      simp only [e, updateResult]
      exact ⟨.cd _ _ _ h2 (by simp [absStorage, hm]), ⟨hi.wf, ⟨m, hm⟩, hi.files⟩⟩
    | none =>
      have e : st.cd C loc = .error "AlreadyExists" := by
        cases hd : l.drive with
        | none =>
          rw [hd] at h4
          simp at h4
          subst h4
          obtain ⟨m, hc⟩ := hi.cur
          rw [hm] at hc; simp at hc
        | some d' =>
          rw [hd] at h4
          simp at h4
          subst h4
          simp [Storage.cd, h1, h3, hd, hm]
      simp only [e, updateResult]
      refine ⟨.cd_fails _ _ ?_, hi⟩
      intro d' hd
      rw [h5 _ hd]
      simp [absStorage, hm]
  · have e : ∃ e, st.cd C loc = .error e := by
      rcases h1 with ⟨e, h1⟩ | ⟨l, n, h1, hk⟩
      · exact ⟨e, by simp [Storage.cd, h1]⟩
      · exact ⟨"InvalidInput", by simp [Storage.cd, h1, hk]⟩
    obtain ⟨e, e⟩ := e
    simp only [e, updateResult]
    exact ⟨.cd_fails _ _ fun d hd => absurd hd (h2 d), hi⟩

theorem abs_setDrives {st : Storage} {key : Str} {ds : FMap Str Mounted} {v : Option Mounted}
    (h : ∀ d, ds.get? d = if d = key then v else st.drives.get? d) :
    absStorage { st with drives := ds } = (absStorage st).setDrive key (v.map fun m => absDrive m.drive) := by
  unfold absStorage FS.setDrive
  simp only [h]
  congr 1
  funext d
  by_cases hd : d = key <;> simp [hd]

theorem splitUriAux_spec (uri : Str) :
    (∀ s p, splitUriAux uri = some (s, p) → uri = s ++ [':', '/', '/'] ++ p ∧
      ∀ s' t, uri = s' ++ [':', '/', '/'] ++ t → s.length ≤ s'.length) ∧
    (splitUriAux uri = none → ∀ s' t, uri ≠ s' ++ [':', '/', '/'] ++ t) := by
  induction uri with
  | nil => simp [splitUriAux]
  | cons c uri ih =>
    unfold splitUriAux
    split
    next rest => simp
    next h =>
      constructor
      · intro s p hs
        simp only [Option.map_eq_some_iff, Prod.mk.injEq] at hs
        obtain ⟨⟨a, b⟩, h1, h2, h3⟩ := hs
        subst h2; subst h3
        obtain ⟨e1, e2⟩ := ih.1 a b h1
        refine ⟨by rw [e1]; simp, ?_⟩
        intro s' t ht
        cases s' with
        | nil =>
          simp only [List.nil_append, List.cons_append, List.cons.injEq] at ht
          exact absurd ht.2 (fun e => h t ht.1 e)
        | cons x s' =>
          simp only [List.cons_append, List.cons.injEq] at ht
          have := e2 s' t (by simpa using ht.2)
          simp; omega
      · intro hn s' t ht
        simp only [Option.map_eq_none_iff] at hn
        cases s' with
        | nil =>
          simp only [List.nil_append, List.cons_append, List.cons.injEq] at ht
          exact absurd ht.2 (fun e => h t ht.1 e)
        | cons x s' =>
          simp only [List.cons_append, List.cons.injEq] at ht
          exact ih.2 hn s' t (by simpa using ht.2)

/-- `mount` creates an in-memory drive exactly for the URIs of such drives. -/
theorem mount_cases (C : CaseOps) (st : Storage) (name uri : Str) :
    (MemoryUri C.low uri ∧ st.mount C name uri = st.attach C name uri []) ∨
    (¬ MemoryUri C.low uri ∧ ∃ e, st.mount C name uri = .error e) := by
  obtain ⟨hs, hn⟩ := splitUriAux_spec uri
  unfold Storage.mount splitUri
  cases h : splitUriAux uri with
  | none =>
    right
    refine ⟨?_, ⟨_, rfl⟩⟩
    rintro ⟨s, -, e, -⟩
    exact hn h s [] (by simpa using e)
  | some sp =>
    obtain ⟨s, p⟩ := sp
    obtain ⟨e1, e2⟩ := hs s p h
    have uniq : ∀ t, uri = t ++ [':', '/', '/'] → (∀ s' t', uri = s' ++ [':', '/', '/'] ++ t' → t.length ≤ s'.length) →
        t = s ∧ p = [] := by
      intro t ht hmin
      have l1 := hmin s p e1
      have l2 := e2 t [] (by simpa using ht)
      have hlen : t.length = s.length := by omega
      have : t ++ ([':', '/', '/'] ++ []) = s ++ ([':', '/', '/'] ++ p) := by
        rw [List.append_nil, ← ht, e1, List.append_assoc]
      obtain ⟨a, b⟩ := List.append_inj this hlen
      refine ⟨a, ?_⟩
      simpa using (List.append_cancel_left b).symm
    simp only
    by_cases hse : s = []
    · right
      subst hse
      simp only [List.isEmpty_nil, if_true]
      refine ⟨?_, ⟨_, rfl⟩⟩
      rintro ⟨t, h1, h2, -, h4⟩
      exact h1 (uniq t h2 h4).1
    · have : s.isEmpty = false := by simpa using hse
      simp only [this, Bool.false_eq_true, if_false]
      by_cases hlow : C.low s = "memory".toList
      · simp only [hlow, if_true, memoryFactory]
        by_cases hp : p = []
        · left
          subst hp
          exact ⟨⟨s, hse, by simpa using e1, hlow, e2⟩, rfl⟩
        · right
          have : p.isEmpty = false := by simpa using hp
          simp only [this, Bool.false_eq_true, if_false]
          refine ⟨?_, ⟨_, rfl⟩⟩
          rintro ⟨t, h1, h2, -, h4⟩
          exact hp (uniq t h2 h4).2
      · right
        simp only [hlow, if_false]
        refine ⟨?_, ⟨_, rfl⟩⟩
        rintro ⟨t, h1, h2, h3, h4⟩
        rw [(uniq t h2 h4).1] at h3
        exact hlow h3

theorem refines_mount (C : CaseOps) {st : Storage} (hi : StorageInv st) (name uri : Str) :
    Refines C st (.mount name uri) := by
  unfold Refines storageStep
  rcases mount_cases C st name uri with ⟨hu, e⟩ | ⟨hu, e, he⟩
  · rcases driveKey_spec C name with ⟨hn, ek⟩ | ⟨hn, ek⟩
    · cases hm : st.drives.get? (upper C.up name) with
      | none =>
        have e' : st.mount C name uri = .ok { st with drives := st.drives.insert (upper C.up name) ⟨uri, []⟩ } := by
          rw [e]; simp [Storage.attach, ek, hm]
        simp only [e', updateResult]
        constructor
        · rw [abs_setDrives (v := some ⟨uri, []⟩) (fun d => FMap.get?_insert _ _ _ _)]
          exact .mount _ _ _ hn hu (by simp [absStorage, hm])
        · refine ⟨FMap.wf_insert hi.wf _ _, ?_, ?_⟩
          · simp only [FMap.get?_insert]
            split
            · exact ⟨_, rfl⟩
            · exact hi.cur
          · intro k m h
            simp only [FMap.get?_insert] at h
            split at h
            · simp only [Option.some.injEq] at h; subst h; exact wf_nil
            · exact hi.files _ _ h
      | some m =>
        have e' : st.mount C name uri = .error "AlreadyExists" := by
          rw [e]; simp [Storage.attach, ek, hm]
        simp only [e', updateResult]
        refine ⟨.mount_fails _ _ _ ?_, hi⟩
        rintro ⟨-, -, h⟩
        simp [absStorage, hm] at h
    · have e' : st.mount C name uri = .error "InvalidInput" := by
        rw [e]; simp [Storage.attach, ek]
      simp only [e', updateResult]
      exact ⟨.mount_fails _ _ _ fun h => hn h.1, hi⟩
  · simp only [he, updateResult]
    exact ⟨.mount_fails _ _ _ fun h => hu h.2.1, hi⟩

theorem length_of_two {st : Storage} {a b : Str} {m n : Mounted} (h1 : st.drives.get? a = some m)
    (h2 : st.drives.get? b = some n) (hab : a ≠ b) : st.drives.length > 1 := by
  match h : st.drives with
  | [] => rw [h] at h1; simp [FMap.get?] at h1
  | [(k, v)] =>
    rw [h] at h1 h2
    simp only [FMap.get?] at h1 h2
    split at h1 <;> split at h2 <;> simp at h1 h2
    next e1 e2 => exact absurd (e1.symm.trans e2) hab
  | _ :: _ :: _ => simp

theorem refines_unmount (C : CaseOps) {st : Storage} (hi : StorageInv st) (name : Str) :
    Refines C st (.unmount name) := by
  unfold Refines storageStep
  rcases driveKey_spec C name with ⟨hn, ek⟩ | ⟨hn, ek⟩
  · cases hm : st.drives.get? (upper C.up name) with
    | none =>
      have e : st.unmount C name = .error "NotFound" := by simp [Storage.unmount, ek, hm]
      simp only [e, updateResult]
      refine ⟨.unmount_fails _ _ ?_, hi⟩
      rintro ⟨-, h, -⟩
      simp [absStorage, hm] at h
    | some m =>
      by_cases hc : st.current = upper C.up name
      · have e : st.unmount C name = .error "AlreadyExists" := by simp [Storage.unmount, ek, hm, hc]
        simp only [e, updateResult]
        exact ⟨.unmount_fails _ _ fun h => h.2.2 hc.symm, hi⟩
      · obtain ⟨mc, hmc⟩ := hi.cur
        have hl := length_of_two hmc hm hc
        have e : st.unmount C name = .ok { st with drives := st.drives.erase (upper C.up name) } := by
          simp [Storage.unmount, ek, hm, hc, hl]
        simp only [e, updateResult]
        constructor
        · rw [abs_setDrives (v := none) (fun d => FMap.get?_erase _ _ _)]
          exact .unmount _ _ hn (by simp [absStorage, hm]) (Ne.symm hc)
        · refine ⟨FMap.wf_erase hi.wf _, ⟨mc, ?_⟩, ?_⟩
          · simp only [FMap.get?_erase, hc, if_false]; exact hmc
          · intro k m h
            simp only [FMap.get?_erase] at h
            split at h
            · simp at h
            · exact hi.files _ _ h
  · have e : st.unmount C name = .error "InvalidInput" := by simp [Storage.unmount, ek]
    simp only [e, updateResult]
    exact ⟨.unmount_fails _ _ fun h => hn h.1, hi⟩

theorem setLeaf_leaf {l : Location} {n : Str} (hl : l.leaf = none) (hn : FileName n) :
    (l.setLeaf n).leaf = some n ∧ (l.setLeaf n).drive = l.drive := by
  obtain ⟨dr, p⟩ := l
  unfold Location.leaf at hl
  simp only at hl
  split at hl
  next hp =>
    subst hp
    simp [Location.setLeaf, Location.leaf, hn.1]
  next => split at hl <;> simp at hl

theorem refines_copy (C : CaseOps) {st : Storage} (hi : StorageInv st) (src dst : Str) :
    Refines C st (.copy src dst) := by
  unfold Refines storageStep
  rcases file_cases C hi src with ⟨l, d, n, m, h1, h2, h3, hleaf, h4, h5, -⟩ | ⟨h1, h2⟩
  · have hgl : st.getLocation l = m.drive.get n := by simp [Storage.getLocation, h4]
    have hfn : FileName n := by obtain ⟨dr, hp, -⟩ := h2; exact path_fileName hp
    -- the destination
    have hdst : (∃ l' d' n' m', Location.new C dst = .ok l' ∧
          (∀ (α : Type) (k : Str → Mounted → Str → Outcome α),
            st.withFile (if l'.leaf.isNone then l'.setLeaf n else l') k = k d' m' n') ∧
          CopyTarget C.up (absStorage st) dst n d' n' ∧ st.drives.get? d' = some m') ∨
        (((∃ e, Location.new C dst = .error e) ∨ ∃ l', Location.new C dst = .ok l' ∧
          ∀ (α : Type) (k : Str → Mounted → Str → Outcome α),
            ∃ e, st.withFile (if l'.leaf.isNone then l'.setLeaf n else l') k = .error e) ∧
          ∀ d' n' g', CopyTarget C.up (absStorage st) dst n d' n' → (absStorage st).drives d' ≠ some g') := by
      rcases drive_cases C st dst with ⟨l', d', g1, g2, g3, g4, g5⟩ | ⟨g1, g2⟩
      · obtain ⟨s1, s2⟩ := setLeaf_leaf g3 hfn
        have hw : ∀ (α : Type) (k : Str → Mounted → Str → Outcome α),
            st.withFile (if l'.leaf.isNone then l'.setLeaf n else l') k =
              match st.drives.get? d' with
              | some m' => k d' m' n
              | none => .error "NotFound" := by
          intro α k
          simp only [g3, Option.isNone_none, if_true, Storage.withFile, s1, getDrive_eq hi, s2, ← g4]
          cases st.drives.get? d' <;> rfl
        cases hm : st.drives.get? d' with
        | some m' =>
          left
          refine ⟨l', d', n, m', g1, ?_, .inr ⟨g2, rfl⟩, hm⟩
          intro α k; rw [hw, hm]
        | none =>
          right
          refine ⟨.inr ⟨l', g1, fun α k => ⟨"NotFound", by rw [hw, hm]⟩⟩, ?_⟩
          intro d'' n' g' ht hg
          rcases ht with ht | ⟨ht, -⟩
          · obtain ⟨dr, hp, -⟩ := ht
            obtain ⟨l'', q1, q2, q3⟩ := location_of_path hp
            rw [g1] at q1
            simp only [Outcome.ok.injEq] at q1
            subst q1
            rw [g3] at q3
            simp at q3
          · rw [g5 _ ht] at hg
            simp [absStorage, hm] at hg
      · rcases file_cases C hi dst with ⟨l', d', n', m', q1, q2, q3, ql, q4, q5, q6⟩ | ⟨q1, q2⟩
        · left
          refine ⟨l', d', n', m', q1, ?_, .inl q2, q3⟩
          intro α k
          simp only [ql, Option.isNone_some, Bool.false_eq_true, if_false]
          exact q4 α k
        · right
          constructor
          · rcases q1 with q1 | ⟨l', q1, q3, q4⟩
            · exact .inl q1
            · right
              refine ⟨l', q1, ?_⟩
              cases hl' : l'.leaf with
              | none =>
                rw [hl'] at q3
                exact absurd ⟨_, q3, rfl⟩ (g2 (l'.drive.getD st.current))
              | some n' =>
                intro α k
                simp only [Option.isNone_some, Bool.false_eq_true, if_false]
                exact q4 α k
          · intro d' n' g' ht
            rcases ht with ht | ⟨ht, -⟩
            · exact q2 _ _ _ ht
            · exact absurd ht (g2 _)
    rcases drive_get m.drive n with ⟨f, ef, hf⟩ | ⟨ef, hf⟩
    · rcases hdst with ⟨l', d', n', m', r1, r2, r3, r4⟩ | ⟨r1, r2⟩
      · have e : st.copy C src dst = .ok (st.setDrive d' m' (m'.drive.put n' f.content)) := by
          simp only [Storage.copy, h1, hleaf, r1, hgl, ef, Storage.putLocation]
          exact r2 _ _
        simp only [e, updateResult]
        refine ⟨?_, setDrive_inv hi (wf_put (hi.files _ _ r4) _ _)⟩
        rw [abs_put r4]
        exact .copy (f := absFile f) _ _ _ _ _ _ _ _ _ h2 (abs_of_get h3) (by simp [absDrive, hf]) r3 (abs_of_get r4)
      · have e : ∃ e, st.copy C src dst = .error e := by
          rcases r1 with ⟨e, r1⟩ | ⟨l', r1, rk⟩
          · exact ⟨e, by simp [Storage.copy, h1, hleaf, r1]⟩
          · obtain ⟨e, he⟩ := rk _ (fun key m name => .ok (st.setDrive key m (m.drive.put name f.content)))
            refine ⟨e, ?_⟩
            simp only [Storage.copy, h1, hleaf, r1, hgl, ef, Storage.putLocation]
            exact he
        obtain ⟨e, e⟩ := e
        simp only [e, updateResult]
        refine ⟨.copy_fails _ _ _ ?_, hi⟩
        intro d1 n1 d' n' g g' f' q1 q2 q3 q4
        obtain ⟨rfl, rfl⟩ := h5 _ _ q1
        exact r2 _ _ _ q4
    · have e : ∃ e, st.copy C src dst = .error e := by
        simp only [Storage.copy, h1, hleaf, hgl, ef]
        rcases location_cases C dst with ⟨l', r1, -⟩ | ⟨e, r1, -⟩
        · exact ⟨_, by rw [r1]⟩
        · exact ⟨_, by rw [r1]⟩
      obtain ⟨e, e⟩ := e
      simp only [e, updateResult]
      refine ⟨.copy_fails _ _ _ ?_, hi⟩
      intro d1 n1 d' n' g g' f' q1 q2 q3
      obtain ⟨rfl, rfl⟩ := h5 _ _ q1
      rw [abs_of_get h3] at q2
      simp only [Option.some.injEq] at q2
      subst q2
      simp [absDrive, hf] at q3
  · have e : ∃ e, st.copy C src dst = .error e := by
      rcases h1 with ⟨e, h1⟩ | ⟨l, h1, -, hk⟩
      · exact ⟨e, by simp [Storage.copy, h1]⟩
      · cases hl : l.leaf with
        | none => exact ⟨"NotFound", by simp [Storage.copy, h1, hl]⟩
        | some n =>
          obtain ⟨e, he⟩ := hk _ (fun _ m name => m.drive.get name)
          simp only [Storage.copy, h1, hl, Storage.getLocation, he]
          rcases location_cases C dst with ⟨l', r1, -⟩ | ⟨e, r1, -⟩
          · exact ⟨_, by rw [r1]⟩
          · exact ⟨_, by rw [r1]⟩
    obtain ⟨e, e⟩ := e
    simp only [e, updateResult]
    refine ⟨.copy_fails _ _ _ ?_, hi⟩
    intro d1 n1 d' n' g g' f' q1 q2
    exact absurd q2 (h2 _ _ _ q1)

theorem refines (C : CaseOps) {st : Storage} (hi : StorageInv st) (c : StorageCmd) : Refines C st c := by
  cases c with
  | put => exact refines_put C hi _ _
  | get => exact refines_get C hi _
  | delete => exact refines_delete C hi _
  | copy => exact refines_copy C hi _ _
  | enumerate => exact refines_enumerate C hi _
  | getAcls => exact refines_getAcls C hi _
  | updateAcls => exact refines_updateAcls C hi _ _ _
  | mount => exact refines_mount C hi _ _
  | unmount => exact refines_unmount C hi _
  | cd => exact refines_cd C hi _
  | cwd =>
    refine ⟨?_, hi⟩
    exact .cwd _

theorem storageRun_inv (C : CaseOps) {st : Storage} (hi : StorageInv st) (cs : List StorageCmd) :
    StorageInv (storageRun C st cs).2 := by
  induction cs generalizing st with
  | nil => exact hi
  | cons c cs ih => exact ih (refines C hi c).2

theorem storageRun_trace (C : CaseOps) {st : Storage} (hi : StorageInv st) (cs : List StorageCmd) :
    FsTrace C.up C.low (absStorage st) cs (storageRun C st cs).1 (absStorage (storageRun C st cs).2) := by
  induction cs generalizing st with
  | nil => exact .nil _
  | cons c cs ih =>
    obtain ⟨h1, h2⟩ := refines C hi c
    exact .cons _ _ _ _ _ _ _ h1 (ih h2)

end EB
