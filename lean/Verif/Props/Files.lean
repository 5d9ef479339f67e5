import Verif.Spec.Files
import Verif.Props.Storage
import Verif.Props.Console
/-!
# C78: the commands for files show what is stored
-/

namespace EB

open Spec

theorem strLe_lex : ∀ {a b : Str}, strLe a b → a ≠ b → List.Lex (· < ·) a b
  | [], [], _, h => absurd rfl h
  | [], _ :: _, _, _ => .nil
  | _ :: _, [], h, _ => by simp [strLe] at h
  | a :: as, b :: bs, h, hne => by
    simp only [strLe, Bool.or_eq_true, decide_eq_true_iff, Bool.and_eq_true, beq_iff_eq] at h
    rcases h with h | ⟨rfl, h⟩
    · exact .rel h
    · exact .cons (strLe_lex h (fun e => hne (by rw [e])))

theorem placeKey_perm {V : Type} (e : Str × V) (m : FMap Str V) : (placeKey e m).Perm (e :: m) := by
  induction m with
  | nil => exact .refl _
  | cons f m ih =>
    unfold placeKey
    split
    · exact .refl _
    · exact (ih.cons f).trans (.swap e f m)

theorem inOrder_perm {V : Type} (m : FMap Str V) : (inOrder m).Perm m := by
  induction m with
  | nil => exact .refl _
  | cons e m ih => exact (placeKey_perm e _).trans (ih.cons e)

theorem placeKey_sorted {V : Type} (e : Str × V) {m : FMap Str V} (h : m.Pairwise fun a b => strLe a.1 b.1) :
    (placeKey e m).Pairwise fun a b => strLe a.1 b.1 := by
  induction m with
  | nil => simp [placeKey]
  | cons f m ih =>
    unfold placeKey
    have hc := List.pairwise_cons.1 h
    split
    next he =>
      refine List.pairwise_cons.2 ⟨fun g hg => ?_, h⟩
      rcases List.mem_cons.1 hg with rfl | hg
      · exact he
      · exact strLe_trans _ _ _ he (hc.1 g hg)
    next he =>
      refine List.pairwise_cons.2 ⟨fun g hg => ?_, ih hc.2⟩
      rcases List.mem_cons.1 ((placeKey_perm e m).mem_iff.1 hg) with rfl | hg
      · have := strLe_total g.1 f.1
        simp only [Bool.or_eq_true] at this
        exact this.resolve_left he
      · exact hc.1 g hg

theorem inOrder_sorted {V : Type} (m : FMap Str V) : (inOrder m).Pairwise fun a b => strLe a.1 b.1 := by
  induction m with
  | nil => exact .nil
  | cons e m ih => exact placeKey_sorted e ih

theorem inOrder_dictionary {V : Type} {m : FMap Str V} (hw : m.Wf) : Dictionary ((inOrder m).map (·.1)) := by
  have h1 : (inOrder m).Pairwise (fun a b => strLe a.1 b.1) :=
    inOrder_sorted m
  have h2 : ((inOrder m).map (·.1)).Nodup := ((inOrder_perm m).map Prod.fst).nodup_iff.2 hw
  have h3 : ((inOrder m).map (·.1)).Pairwise (fun a b => strLe a b) := List.pairwise_map.2 h1
  exact (h3.and h2).imp fun h => strLe_lex h.1 h.2

theorem foldl_add_sum (l : List (Str × Nat)) : ∀ n, l.foldl (fun n f => n + f.2) n = n + (l.map (·.2)).sum := by
  induction l with
  | nil => simp
  | cons f l ih => intro n; rw [List.foldl_cons, ih]; simp [Nat.add_assoc]

theorem leaf_root {q : Str} (hq : (Location.mk none q).leaf = none) : q = ['/'] := by
  unfold Location.leaf at hq
  simp only at hq
  split at hq
  next e => exact e
  next =>
    split at hq <;> simp at hq

theorem gap_eq {α : Type} (l : List α) : gap l = if l.length > 0 then [[]] else [] := by
  cases l <;> simp [gap]

/-- C78: `DIR` of a drive shows all its files and no others, each of them once, in the order of the dictionary, with its size, and how many they
are and how long together; `DIR` of anything else fails.  It changes nothing. -/
theorem C78_dir (C : CaseOps) (cs : List StorageCmd) (date : Str → Str) (path : Option Str) :
    let st := (storageRun C (Storage.init C) cs).2
    (∀ d g, DenotesDrive C.up (absStorage st) (path.getD []) d → (absStorage st).drives d = some g →
      ∃ files, ListOf g files ∧
        filesExec C false date st (.dir path) = (.printed (wideListing date d files), st) ∧
        filesExec C true date st (.dir path) = (.printed (narrowListing d files), st)) ∧
    ((∀ d, DenotesDrive C.up (absStorage st) (path.getD []) d → (absStorage st).drives d = none) →
      ∀ narrow, filesExec C narrow date st (.dir path) = (.failed, st)) := by
  intro st
  have hi : StorageInv st := storageRun_inv C (storageInv_init C) cs
  constructor
  · intro d g hd hg
    rcases drive_cases C st (path.getD []) with ⟨l, d', h1, h2, h3, h4, h5⟩ | ⟨-, h2⟩
    · obtain rfl := h5 d hd
      obtain ⟨m, hm, rfl⟩ := abs_drives hg
      have hroot : l.path = ['/'] := leaf_root h3
      have e1 : st.makeCanonical C (path.getD []) = .ok (d ++ ":/".toList) := by
        unfold Storage.makeCanonical
        rw [h1]
        simp only [Location.toStr, ← h4, hroot]
        rfl
      have e2 : st.enumerate C (path.getD []) = .ok m.drive.enumerate := by
        simp [Storage.enumerate, h1, h3, getDrive_eq hi, ← h4, hm]
      have hw : FMap.Wf m.drive.enumerate := by
        have := hi.files _ _ hm
        unfold FMap.Wf MemDrive.enumerate at *
        rw [List.map_map]
        exact this
      refine ⟨inOrder m.drive.enumerate, ⟨inOrder_dictionary hw, fun n k => ?_⟩, ?_, ?_⟩
      · rw [(inOrder_perm _).mem_iff]
        unfold MemDrive.enumerate absDrive
        simp only [List.mem_map, Prod.mk.injEq, Option.map_eq_some_iff, exists_exists_and_eq_and]
        constructor
        · rintro ⟨⟨n', f⟩, hm', rfl, rfl⟩
          exact ⟨f, FMap.get?_of_mem (hi.files _ _ hm) hm', rfl⟩
        · rintro ⟨f, hf, rfl⟩
          exact ⟨(n, f), FMap.mem_of_get? hf, rfl, rfl⟩
      · simp only [filesExec, showDir, e1, e2, dirLines, wideListing, gap_eq, foldl_add_sum]
        simp
      · simp only [filesExec, showDir, e1, e2, dirLines, narrowListing, gap_eq]
        simp
    · exact absurd hd (h2 d)
  · intro hno narrow
    have e1 : st.makeCanonical C (path.getD []) ≠ .panic := by
      intro h
      unfold Storage.makeCanonical at h
      have := location_no_panic C (path.getD [])
      cases hl : Location.new C (path.getD []) <;> rw [hl] at h <;> simp_all
    have e2 : ∃ e, st.enumerate C (path.getD []) = .error e := by
      rcases drive_cases C st (path.getD []) with ⟨l, d', h1, h2, h3, h4, h5⟩ | ⟨h1, -⟩
      · have := hno _ h2
        have hm : st.drives.get? d' = none := by
          simpa [absStorage] using this
        exact ⟨"NotFound", by simp [Storage.enumerate, h1, h3, getDrive_eq hi, ← h4, hm]⟩
      · rcases h1 with ⟨e, h1⟩ | ⟨l, n, h1, hk⟩
        · exact ⟨e, by simp [Storage.enumerate, h1]⟩
        · exact ⟨"NotFound", by simp [Storage.enumerate, h1, hk]⟩
    obtain ⟨e, e2⟩ := e2
    simp only [filesExec, showDir, e2]
    cases hc : st.makeCanonical C (path.getD []) with
    | ok p => rfl
    | error e => rfl
    | panic => exact absurd hc e1

/-- Where a drive points to. -/
def targetOf (st : Storage) : Str → Option Str := fun d => (st.drives.get? d).map (·.uri)

theorem target_irrelevant (u : Char → Str) (c : StorageCmd) (r : StorageResult) (h : List (StorageCmd × StorageResult)) (t : Str → Option Str)
    (hc : r = .done → (∀ n v, c ≠ .mount n v) ∧ ∀ n, c ≠ .unmount n) : target u ((c, r) :: h) t = target u h t := by
  cases c <;> cases r <;> first | rfl | simp at hc

theorem setDrive_target (st : Storage) {key : Str} {m : Mounted} (hm : st.drives.get? key = some m) (d : MemDrive) :
    targetOf (st.setDrive key m d) = targetOf st := by
  funext x
  unfold targetOf Storage.setDrive
  simp only [FMap.get?_insert]
  split
  next e => subst e; simp [hm]
  next => rfl

theorem withFile_target (st : Storage) (l : Location) (k : Str → Mounted → Str → Outcome Storage) (st' : Storage)
    (hk : ∀ key m n st', st.drives.get? key = some m → k key m n = .ok st' → targetOf st' = targetOf st)
    (h : st.withFile l k = .ok st') : targetOf st' = targetOf st := by
  unfold Storage.withFile at h
  cases hl : l.leaf with
  | none => rw [hl] at h; simp at h
  | some n =>
    rw [hl] at h
    simp only at h
    cases hg : st.getDrive l with
    | error e => rw [hg] at h; simp at h
    | panic => rw [hg] at h; simp at h
    | ok r =>
      rw [hg] at h
      refine hk r.1 r.2 n st' ?_ h
      unfold Storage.getDrive at hg
      split at hg
      next key _ =>
        cases hd : st.drives.get? key with
        | none => rw [hd] at hg; simp at hg
        | some m => rw [hd] at hg; simp at hg; subst hg; exact hd
      next =>
        cases hd : st.drives.get? st.current with
        | none => rw [hd] at hg; simp at hg
        | some m => rw [hd] at hg; simp at hg; subst hg; exact hd

theorem putLocation_target {st : Storage} {l : Location} {c : List UInt8} {st' : Storage} (h : st.putLocation l c = .ok st') :
    targetOf st' = targetOf st := by
  refine withFile_target st l _ st' ?_ h
  intro key m n st'' hm hk
  simp only [Outcome.ok.injEq] at hk
  rw [← hk]
  exact setDrive_target st hm _

theorem attach_target {C : CaseOps} {st : Storage} {name uri : Str} {d : MemDrive} {st' : Storage} (h : st.attach C name uri d = .ok st') :
    targetOf st' = fun x => if x = upper C.up name then some uri else targetOf st x := by
  unfold Storage.attach driveKey at h
  split at h
  next key hk =>
    split at hk
    · simp at hk
    · simp only [Outcome.ok.injEq] at hk
      subst hk
      split at h
      · simp at h
      · simp only [Outcome.ok.injEq] at h
        subst h
        funext x
        simp only [targetOf, FMap.get?_insert]
        by_cases e : x = upper C.up name
        · have e' : x = List.flatMap C.up name := e
          rw [if_pos e, if_pos e']; rfl
        · have e' : ¬ x = List.flatMap C.up name := e
          rw [if_neg e, if_neg e']
  · simp at h
  · simp at h

theorem mount_target {C : CaseOps} {st : Storage} {name uri : Str} {st' : Storage} (h : st.mount C name uri = .ok st') :
    targetOf st' = fun x => if x = upper C.up name then some uri else targetOf st x := by
  unfold Storage.mount at h
  split at h
  · split at h
    · split at h
      · exact attach_target h
      · simp at h
      · simp at h
    · simp at h
  · simp at h
  · simp at h

theorem unmount_target {C : CaseOps} {st : Storage} {name : Str} {st' : Storage} (h : st.unmount C name = .ok st') :
    targetOf st' = fun x => if x = upper C.up name then none else targetOf st x := by
  unfold Storage.unmount driveKey at h
  split at h
  next key hk =>
    split at hk
    · simp at hk
    · simp only [Outcome.ok.injEq] at hk
      subst hk
      split at h
      · simp at h
      · split at h
        · simp at h
        · split at h
          · simp only [Outcome.ok.injEq] at h
            subst h
            funext x
            simp only [targetOf, FMap.get?_erase]
            by_cases e : x = upper C.up name
            · have e' : x = List.flatMap C.up name := e
              rw [if_pos e, if_pos e']; rfl
            · have e' : ¬ x = List.flatMap C.up name := e
              rw [if_neg e, if_neg e']
          · simp at h
  · simp at h
  · simp at h

theorem cd_target {C : CaseOps} {st : Storage} {loc : Str} {st' : Storage} (h : st.cd C loc = .ok st') : targetOf st' = targetOf st := by
  unfold Storage.cd at h
  repeat' split at h
  all_goals first | (simp only [Outcome.ok.injEq] at h; subst h; rfl) | simp at h

theorem put_target {C : CaseOps} {st : Storage} {loc : Str} {c : List UInt8} {st' : Storage} (h : st.put C loc c = .ok st') :
    targetOf st' = targetOf st := by
  unfold Storage.put at h
  split at h
  · exact putLocation_target h
  · simp at h
  · simp at h

theorem delete_target {C : CaseOps} {st : Storage} {loc : Str} {st' : Storage} (h : st.delete C loc = .ok st') :
    targetOf st' = targetOf st := by
  unfold Storage.delete at h
  split at h
  · refine withFile_target st _ _ st' ?_ h
    intro key m n st'' hm hk
    split at hk
    · simp only [Outcome.ok.injEq] at hk
      rw [← hk]
      exact setDrive_target st hm _
    · simp at hk
    · simp at hk
  · simp at h
  · simp at h

theorem updateAcls_target {C : CaseOps} {st : Storage} {loc : Str} {a r : List Str} {st' : Storage} (h : st.updateAcls C loc a r = .ok st') :
    targetOf st' = targetOf st := by
  unfold Storage.updateAcls at h
  split at h
  · refine withFile_target st _ _ st' ?_ h
    intro key m n st'' hm hk
    split at hk
    · simp only [Outcome.ok.injEq] at hk
      rw [← hk]
      exact setDrive_target st hm _
    · simp at hk
    · simp at hk
  · simp at h
  · simp at h

theorem copy_target {C : CaseOps} {st : Storage} {s d : Str} {st' : Storage} (h : st.copy C s d = .ok st') :
    targetOf st' = targetOf st := by
  unfold Storage.copy at h
  repeat' split at h
  all_goals first | exact putLocation_target h | simp at h

theorem step_target (C : CaseOps) (st : Storage) (c : StorageCmd) (h : List (StorageCmd × StorageResult)) :
    target C.up ((c, (storageStep C st c).1) :: h) (targetOf st) = target C.up h (targetOf (storageStep C st c).2) := by
  have key : ∀ (o : Outcome Storage), (∀ st', o = .ok st' → targetOf st' = targetOf st) →
      targetOf (updateResult st o).2 = targetOf st := by
    intro o ho
    cases o with
    | ok st' => exact ho _ rfl
    | error e => rfl
    | panic => rfl
  have query : ∀ {α : Type} (f : α → StorageResult) (o : Outcome α), (queryResult st f o).2 = st := by
    intro α f o
    cases o <;> rfl
  cases c with
  | put loc x =>
    rw [target_irrelevant _ _ _ _ _ (by simp)]
    simp only [storageStep]; rw [key _ fun _ => put_target]
  | get loc =>
    rw [target_irrelevant _ _ _ _ _ (by simp)]
    simp only [storageStep]; rw [query]
  | delete loc =>
    rw [target_irrelevant _ _ _ _ _ (by simp)]
    simp only [storageStep]; rw [key _ fun _ => delete_target]
  | copy a b =>
    rw [target_irrelevant _ _ _ _ _ (by simp)]
    simp only [storageStep]; rw [key _ fun _ => copy_target]
  | enumerate loc =>
    rw [target_irrelevant _ _ _ _ _ (by simp)]
    simp only [storageStep]; rw [query]
  | getAcls loc =>
    rw [target_irrelevant _ _ _ _ _ (by simp)]
    simp only [storageStep]; rw [query]
  | updateAcls loc a r =>
    rw [target_irrelevant _ _ _ _ _ (by simp)]
    simp only [storageStep]; rw [key _ fun _ => updateAcls_target]
  | cd loc =>
    rw [target_irrelevant _ _ _ _ _ (by simp)]
    simp only [storageStep]; rw [key _ fun _ => cd_target]
  | cwd => rw [target_irrelevant _ _ _ _ _ (by simp)]; rfl
  | mount name uri =>
    simp only [storageStep]
    cases hm : st.mount C name uri with
    | ok st' => rw [updateResult, mount_target hm]; rfl
    | error e => rfl
    | panic => rfl
  | unmount name =>
    simp only [storageStep]
    cases hm : st.unmount C name with
    | ok st' => rw [updateResult, unmount_target hm]; rfl
    | error e => rfl
    | panic => rfl

theorem run_target (C : CaseOps) (cs : List StorageCmd) : ∀ st : Storage,
    target C.up (cs.zip (storageRun C st cs).1) (targetOf st) = targetOf (storageRun C st cs).2 := by
  induction cs with
  | nil => intro st; rfl
  | cons c cs ih =>
    intro st
    exact (step_target C st c _).trans (ih (storageStep C st c).2)

theorem foldl_max (l : List (Str × Str)) : ∀ n, n ≤ l.foldl (fun m d => Nat.max m (byteLen d.1)) n ∧
    (∀ d ∈ l, byteLen d.1 ≤ l.foldl (fun m d => Nat.max m (byteLen d.1)) n) ∧
    (l.foldl (fun m d => Nat.max m (byteLen d.1)) n = n ∨ ∃ d ∈ l, l.foldl (fun m d => Nat.max m (byteLen d.1)) n = byteLen d.1) := by
  induction l with
  | nil => intro n; simp
  | cons e l ih =>
    intro n
    rw [List.foldl_cons]
    obtain ⟨h1, h2, h3⟩ := ih (Nat.max n (byteLen e.1))
    have m1 : n ≤ Nat.max n (byteLen e.1) := Nat.le_max_left _ _
    have m2 : byteLen e.1 ≤ Nat.max n (byteLen e.1) := Nat.le_max_right _ _
    refine ⟨by omega, ?_, ?_⟩
    · intro d hd
      rcases List.mem_cons.1 hd with rfl | hd
      · omega
      · exact h2 d hd
    · rcases h3 with h3 | ⟨d, hd, h3⟩
      · rw [h3]
        rcases Nat.le_total n (byteLen e.1) with h | h
        · exact .inr ⟨e, by simp, Nat.max_eq_right h⟩
        · exact .inl (Nat.max_eq_left h)
      · exact .inr ⟨d, by simp [hd], h3⟩

theorem mapM_some {α β : Type} {f : α → Option β} {g : α → β} {l : List α} (h : ∀ a ∈ l, f a = some (g a)) : l.mapM f = some (l.map g) := by
  induction l with
  | nil => rfl
  | cons a l ih => simp [List.mapM_cons, h a (by simp), ih fun b hb => h b (by simp [hb])]

/-- C78: `MOUNT` shows all drives and no others, each once, in the order of the dictionary, with what the last successful `MOUNT` of each said; the
targets are below each other, right of the longest name. -/
theorem C78_drives (C : CaseOps) (cs : List StorageCmd) (narrow : Bool) (date : Str → Str) :
    let st := (storageRun C (Storage.init C) cs).2
    ∃ drives width, Dictionary (drives.map (·.1)) ∧
      (∀ d t, (d, t) ∈ drives ↔ target C.up (cs.zip (storageRun C (Storage.init C) cs).1) (firstTarget C.up) d = some t) ∧
      (∀ d ∈ drives, byteLen d.1 ≤ width) ∧ 4 ≤ width ∧ (width = 4 ∨ ∃ d ∈ drives, byteLen d.1 = width) ∧
      filesExec C narrow date st .drives = (.printed (driveListing width drives), st) := by
  intro st
  have hi : StorageInv st := storageRun_inv C (storageInv_init C) cs
  have hw : FMap.Wf (st.drives.map fun d => (d.1, d.2.uri)) := by
    have := hi.wf
    unfold FMap.Wf at *
    rw [List.map_map]
    exact this
  obtain ⟨h1, h2, h3⟩ := foldl_max st.mounted 4
  refine ⟨st.mounted, st.mounted.foldl (fun m d => Nat.max m (byteLen d.1)) 4, inOrder_dictionary hw, ?_, h2, h1, ?_, ?_⟩
  · intro d t
    have e0 : firstTarget C.up = targetOf (Storage.init C) := by
      funext x
      simp only [firstTarget, targetOf, Storage.init, FMap.get?]
      by_cases hx : x = upper C.up "MEMORY".toList
      · rw [if_pos hx, if_pos (by rw [hx]; rfl)]; rfl
      · rw [if_neg hx, if_neg (fun e => hx e.symm)]; rfl
    rw [e0, run_target]
    unfold Storage.mounted
    rw [(inOrder_perm _).mem_iff]
    simp only [List.mem_map, Prod.mk.injEq, targetOf, Option.map_eq_some_iff]
    constructor
    · rintro ⟨⟨d', m⟩, hm, rfl, rfl⟩
      exact ⟨m, FMap.get?_of_mem hi.wf hm, rfl⟩
    · rintro ⟨m, hm, rfl⟩
      exact ⟨(d, m), FMap.mem_of_get? hm, rfl, rfl⟩
  · rcases h3 with h3 | ⟨d, hd, h3⟩
    · exact .inl h3
    · exact .inr ⟨d, hd, h3.symm⟩
  · have n4 : byteLen "Name".toList = 4 := by decide
    simp only [filesExec, showDrives, n4]
    generalize hmax : st.mounted.foldl (fun m d => Nat.max m (byteLen d.1)) 4 = w at *
    rw [mapM_some (g := fun d => "    ".toList ++ d.1 ++ List.replicate (w - byteLen d.1) ' ' ++ "    ".toList ++ d.2)
      (fun d hd => by rw [if_pos (h2 d hd)]; rfl), if_pos h1]
    simp only [driveListing, n4]
    simp

/-- C78: `PWD` shows the current drive, and `CD` with what it showed leads back to it from anywhere at any later time, as long as the drive is
mounted. -/
theorem C78_pwd (C : CaseOps) (hu : UpperOk C.up) (cs cs' : List StorageCmd) (narrow : Bool) (date : Str → Str) :
    let st := (storageRun C (Storage.init C) cs).2
    let st' := (storageRun C st cs').2
    filesExec C narrow date st .pwd = (.printed [[], "    Working directory: ".toList ++ st.cwd, "    No system location available".toList, []], st) ∧
    (st'.drives.get? st.current ≠ none → filesExec C narrow date st' (.cd st.cwd) = (.printed [], { st' with current := st.current })) := by
  intro st st'
  have hi : StorageInv st := storageRun_inv C (storageInv_init C) cs
  have hk : KeysOk C.up (absStorage st) := keysOk_run C cs
  obtain ⟨x, hx, ex⟩ := hk.1 _ hk.2
  have ex : st.current = upper C.up x := ex
  have hnew : Location.new C st.cwd = .ok ⟨some st.current, ['/']⟩ := by
    refine location_of_parts (p := ['/']) ?_ ?_ (by decide)
    · rw [ex]; exact upper_driveName hu hx
    · rw [ex]; exact upper_idem hu x
  obtain ⟨m, hm⟩ := hi.cur
  refine ⟨?_, fun hmount => ?_⟩
  · simp [filesExec, Storage.systemPath, hnew, Storage.getDrive, hm]
  · simp only [filesExec, Storage.cd, hnew]
    cases hd : st'.drives.get? st.current with
    | none => exact absurd hd hmount
    | some m' => simp [Location.leaf, filesChange]

/-- The command of the storage for a command of the user that may change something. -/
def Spec.asStorage : FilesCmd → Option StorageCmd
  | .cd path => some (.cd path)
  | .copy src dest => some (.copy src dest)
  | .kill path => some (.delete path)
  | .mount target name => some (.mount name target)
  | .unmount name => some (.unmount name)
  | .dir _ | .drives | .pwd => none

/-- C78: `CD`, `COPY`, `KILL`, `MOUNT` and `UNMOUNT` do what the specification of the storage says (`Spec.FsStep`), print nothing, and say that they
failed if and only if they did. -/
theorem C78_changes (C : CaseOps) (cs : List StorageCmd) (narrow : Bool) (date : Str → Str) (c : FilesCmd) (sc : StorageCmd) (h : asStorage c = some sc) :
    let st := (storageRun C (Storage.init C) cs).2
    (filesExec C narrow date st c).1 = .printed [] ∧ FsStep C.up C.low (absStorage st) sc .done (absStorage (filesExec C narrow date st c).2) ∨
    (filesExec C narrow date st c).1 = .failed ∧ FsStep C.up C.low (absStorage st) sc .failed (absStorage st) ∧ (filesExec C narrow date st c).2 = st := by
  intro st
  have hi : StorageInv st := storageRun_inv C (storageInv_init C) cs
  have hs := (refines C hi sc).1
  have hf := C33_failures C cs sc
  simp only at hf
  have key : ∀ o : Outcome Storage, storageStep C st sc = updateResult st o → filesExec C narrow date st c = filesChange st o →
      (filesExec C narrow date st c).1 = .printed [] ∧ FsStep C.up C.low (absStorage st) sc .done (absStorage (filesExec C narrow date st c).2) ∨
      (filesExec C narrow date st c).1 = .failed ∧ FsStep C.up C.low (absStorage st) sc .failed (absStorage st) ∧ (filesExec C narrow date st c).2 = st := by
    intro o h1 h2
    rw [h2]
    rw [h1] at hs
    cases o with
    | ok st' => exact .inl ⟨rfl, hs⟩
    | error e => exact .inr ⟨rfl, hs, rfl⟩
    | panic => exact absurd (congrArg Prod.fst h1) hf.1
  cases c <;> simp only [asStorage, Option.some.injEq, reduceCtorEq] at h <;> subst h <;> exact key _ rfl rfl

/-! ## A concrete case -/

namespace Ex

/-- Two drives, files on one of them, and a drive that was unmounted. -/
def filesHistory : List StorageCmd :=
  [.put "b.bas".toList [1, 2, 3], .mount "other disk".toList "memory://".toList, .mount "x".toList "memory://".toList, .put "A.DAT".toList (List.replicate 12 7),
   .put "c".toList [], .delete "MEMORY:/c".toList, .unmount "X".toList, .cd "Other Disk:".toList]

/-- The storage then. -/
def filesStorage : Storage := (storageRun asciiCase (Storage.init asciiCase) filesHistory).2

set_option maxRecDepth 100000 in
example : filesExec asciiCase false (fun _ => "2020-05-06 09:37".toList) filesStorage (.dir (some "memory:/".toList)) = (.printed
    ["".toList, "    Directory of MEMORY:/".toList, "".toList, "    Modified              Size    Name".toList,
     "    2020-05-06 09:37        12    A.DAT".toList, "    2020-05-06 09:37         3    b.bas".toList, "".toList,
     "    2 file(s), 15 bytes".toList, "".toList], filesStorage) := by
  have : (filesExec asciiCase false (fun _ => "2020-05-06 09:37".toList) filesStorage (.dir (some "memory:/".toList))).1 = .printed
    ["".toList, "    Directory of MEMORY:/".toList, "".toList, "    Modified              Size    Name".toList,
     "    2020-05-06 09:37        12    A.DAT".toList, "    2020-05-06 09:37         3    b.bas".toList, "".toList,
     "    2 file(s), 15 bytes".toList, "".toList] := by decide +kernel
  exact Prod.ext this rfl

set_option maxRecDepth 100000 in
example : (filesExec asciiCase false (fun _ => []) filesStorage .drives).1 = .printed
    ["".toList, "    Name          Target".toList, "    MEMORY        memory://".toList, "    OTHER DISK    memory://".toList, "".toList,
     "    2 drive(s)".toList, "".toList] := by decide +kernel

set_option maxRecDepth 100000 in
example : (filesExec asciiCase false (fun _ => []) filesStorage .pwd).1 = .printed
    ["".toList, "    Working directory: OTHER DISK:/".toList, "    No system location available".toList, "".toList] := by decide +kernel

/-- The hypothesis of `C78_dir` is met. -/
example : DenotesDrive asciiCase.up (absStorage filesStorage) "memory:/".toList "MEMORY".toList :=
  ⟨some "MEMORY".toList, .absolute "memory".toList ['/'] none (by unfold DriveName; decide) .root, rfl⟩

end Ex

end EB
