import Verif.Lemmas.Blocks
/-!
# Sessions, images, jumps and names (C09, C19 to C23)

`compileMore` is `Compiler::compile_more`.  `Spec.Reached c img` are the states of compiler and image that
some history of chunks leads to, `Spec.Later` is any number of later chunks, accepted or not.
-/

namespace EB
open Spec

/-! ## Examples -/

namespace Ex

/-- The first chunk of the examples: `x# = 1.5` (with the bits of a double), `@top`, `y = 2`, `GOTO @top`. -/
def chunk1 : Source := ⟨
  .cons (.assign ⟨"x".toList, some .double⟩ ⟨1, 1⟩ (.dbl 0x3FF8000000000000#64 ⟨1, 6⟩))
  (.cons (.label "Top".toList ⟨2, 1⟩)
  (.cons (.assign ⟨"y".toList, none⟩ ⟨3, 1⟩ (.int 2#32 ⟨3, 5⟩))
  (.cons (.goto "top".toList ⟨4, 1⟩) .nil))), none⟩

/-- The second chunk: `GOTO @TOP`. -/
def chunk2 : Source := ⟨.cons (.goto "TOP".toList ⟨1, 1⟩) .nil, none⟩

/-- A chunk that fails: `z = nothing`. -/
def chunk3 : Source := ⟨.cons (.assign ⟨"z".toList, none⟩ ⟨1, 1⟩ (.sym ⟨"nothing".toList, none⟩ ⟨1, 5⟩)) .nil, none⟩

/-- A new compiler without builtins and globals. -/
@[irreducible] def start : Ctx := match Compiler.new [] [] with
  | .ok c => c
  | .error _ => ⟨.empty, [], [], [], none, [], [], ⟨.empty, [], [], .empty⟩⟩

/-- After the first chunk. -/
@[irreducible] def after1 : Ctx × Image := (compileMore chunk1 start .default).2

/-- After the second chunk. -/
@[irreducible] def after2 : Ctx × Image := (compileMore chunk2 after1.1 after1.2).2

theorem done {r : Except CErr Unit × Ctx × Image} (h : r.1 = .ok ()) : r = (.ok (), r.2.1, r.2.2) := by
  obtain ⟨a, b, c⟩ := r
  simp only at h
  rw [h]

theorem start_new : Compiler.new [] [] = .ok start := by unfold start; rfl
theorem after1_ok : compileMore chunk1 start .default = (.ok (), after1.1, after1.2) := by
  unfold after1; exact done (by decide +kernel)
theorem after2_ok : compileMore chunk2 after1.1 after1.2 = (.ok (), after2.1, after2.2) := by
  unfold after2; exact done (by decide +kernel)

theorem reached0 : Reached start .default := ⟨[], [], start, start_new, .refl _⟩
theorem later01 : Later (start, Image.default) after1 := .more (.refl _) ⟨_, after1_ok⟩
theorem later12 : Later after1 after2 := .more (.refl _) ⟨_, after2_ok⟩
theorem reached1 : Reached after1.1 after1.2 := ⟨[], [], start, start_new, later01⟩

example : after2.2.code = [.loadConst 64#8 0#16, .loadInt 65#8 2#16, .jump 1#16, .jump 1#16, .eof] := by
  decide +kernel
example : after2.2.constants = [.double 0x3FF8000000000000#64] := by decide +kernel
example : (compileMore chunk3 after1.1 after1.2).1 = .error (.undefinedSymbol ⟨1, 5⟩ ⟨"nothing".toList, none⟩) := by
  decide +kernel

end Ex

/-! ## C19 -/

/-- A chunk that fails leaves compiler and image as they were. -/
theorem C19_failed_chunk_changes_nothing {src : Source} {c c' : Ctx} {img img' : Image} {e : CErr}
    (h : compileMore src c img = (.error e, c', img')) : c' = c ∧ img' = img := compileMore_err h

/-- A session ends as if the chunks that failed had never been entered. -/
theorem C19_failed_chunks_leave_no_trace (srcs : List Source) (s : Ctx × Image) :
    session (acceptedChunks srcs s) s = session srcs s := by
  induction srcs generalizing s with
  | nil => rfl
  | cons src srcs ih =>
    simp only [acceptedChunks, session]
    by_cases h : accepted src s
    · rw [if_pos h, session]; exact ih _
    · rw [if_neg h]
      have : (compileMore src s.1 s.2).2 = s := by
        obtain ⟨r, c', img', hx⟩ : ∃ r c' img', compileMore src s.1 s.2 = (r, c', img') := ⟨_, _, _, rfl⟩
        unfold accepted at h
        rw [hx] at h ⊢
        cases r with
        | ok u => simp at h
        | error e =>
          obtain ⟨rfl, rfl⟩ := compileMore_err hx
          rfl
      rw [this]; exact ih _

example : (acceptedChunks [Ex.chunk1, Ex.chunk3, Ex.chunk2] (Ex.start, .default)).length = 2 := by decide +kernel

/-- Whatever is entered later, the code compiled so far stays as it is apart from the end marker, together
with the positions and statement marks of its instructions. -/
theorem C19_code_kept {c c' : Ctx} {img img' : Image} (h : Reached c img) (hl : Later (c, img) (c', img')) :
    (∃ body, img.code = body ++ [.eof]) ∧ (∃ body', img'.code = body' ++ [.eof]) ∧
      img.code.dropLast <+: img'.code.dropLast ∧ img.instrs.dropLast <+: img'.instrs.dropLast ∧
      img'.instrs.length = img'.code.length := by
  have hs := synced_of_reached h
  have hs' := synced_of_later hl hs
  obtain ⟨h1, h2, _⟩ := grown_later hl hs
  exact ⟨(image_ok hs).2.1, (image_ok hs').2.1, h1, h2, (image_ok hs').1⟩

example : (∃ body, Ex.after1.2.code = body ++ [.eof]) ∧ (∃ body', Ex.after2.2.code = body' ++ [.eof]) ∧
    Ex.after1.2.code.dropLast <+: Ex.after2.2.code.dropLast ∧
    Ex.after1.2.instrs.dropLast <+: Ex.after2.2.instrs.dropLast ∧
    Ex.after2.2.instrs.length = Ex.after2.2.code.length := C19_code_kept Ex.reached1 Ex.later12

/-! ## C20 -/

/-- The tables of constants, builtins and `DATA` values only grow at their ends. -/
theorem C20_indices_stay {c c' : Ctx} {img img' : Image} (h : Reached c img) (hl : Later (c, img) (c', img')) :
    img.constants <+: img'.constants ∧ img.upcalls <+: img'.upcalls ∧ img.data <+: img'.data := by
  obtain ⟨_, _, h3, h4, h5⟩ := grown_later hl (synced_of_reached h)
  exact ⟨h3, h4, h5⟩

example : Ex.after1.2.constants <+: Ex.after2.2.constants ∧ Ex.after1.2.upcalls <+: Ex.after2.2.upcalls ∧
    Ex.after1.2.data <+: Ex.after2.2.data := C20_indices_stay Ex.reached1 Ex.later12

/-- Equal constants share an index and distinct ones do not, and likewise for builtins. -/
theorem C20_one_index_each {c : Ctx} {img : Image} (h : Reached c img) : img.constants.Nodup ∧ img.upcalls.Nodup := by
  have := image_ok (synced_of_reached h)
  exact ⟨this.2.2.1, this.2.2.2.1⟩

example : Ex.after1.2.constants.Nodup ∧ Ex.after1.2.upcalls.Nodup := C20_one_index_each Ex.reached1

/-- The index handed out for a constant denotes that constant; asking again gives the same index and changes
nothing; asking for another constant gives another index. -/
theorem C20_get_constant {g g' : Codegen} {d : ConstantDatum} {pos : LineCol} {k : U16}
    (hw : g.constants.Wf) (hl : g.constants.len ≤ 65536) (h : getConstant d pos g = .ok (k, g')) :
    g'.constants.keys[k.toNat]? = some d ∧ g.constants.keys <+: g'.constants.keys ∧
      (∀ pos', getConstant d pos' g' = .ok (k, g')) ∧
      ∀ d' pos' k' g'', getConstant d' pos' g' = .ok (k', g'') → (k' = k ↔ d' = d) := by
  have key : ∀ {g g' : Codegen} {d : ConstantDatum} {pos : LineCol} {k : U16}, g.constants.Wf →
      g.constants.len ≤ 65536 → getConstant d pos g = .ok (k, g') →
      g'.constants.get? d = some ((g'.constants.get? d).elim d.etype (·.1), k.toNat) ∧ g.constants.Ext g'.constants ∧
        g'.constants.len ≤ 65536 := by
    intro g g' d pos k hw hl h
    unfold getConstant at h
    split at h
    next v id hk =>
      cases h
      have hlt := IdMap.id_lt hw hk
      have : (BitVec.ofNat 16 id).toNat = id := by rw [BitVec.toNat_ofNat]; exact Nat.mod_eq_of_lt (by omega)
      rw [this, hk]
      exact ⟨rfl, .refl _, hl⟩
    next hk =>
      split at h
      next o id m hm =>
        by_cases hlt : g.constants.len < 65536
        · rw [IdMap.insert_new hk hlt] at hm
          cases hm
          cases h
          have : (BitVec.ofNat 16 g.constants.len).toNat = g.constants.len := by
            rw [BitVec.toNat_ofNat]; exact Nat.mod_eq_of_lt (by omega)
          rw [this]
          simp only
          rw [IdMap.get?_insert_new, if_pos rfl]
          exact ⟨rfl, IdMap.ext_insert_new hk, by rw [IdMap.len_insert_new]; omega⟩
        · rw [IdMap.insert_full hk hlt] at hm
          simp at hm
      next => simp at h
  obtain ⟨h1, h2, h3⟩ := key hw hl h
  have hw' := h2.wf hw
  refine ⟨(IdMap.keys_getElem? hw').2 ⟨_, h1⟩, h2.keys hw, ?_, ?_⟩
  · intro pos'
    unfold getConstant
    rw [h1]
    simp
  · intro d' pos' k' g'' h'
    obtain ⟨h4, h5, h6⟩ := key hw' h3 h'
    constructor
    · rintro rfl
      exact IdMap.id_inj (h5.wf hw') h4 (h5.ids _ _ _ h1)
    · rintro rfl
      have := h5.ids _ _ _ h1
      rw [h4] at this
      simp only [Option.some.injEq, Prod.mk.injEq] at this
      exact BitVec.eq_of_toNat_eq this.2

example : Ex.after1.1.cg.constants.Wf ∧ Ex.after1.1.cg.constants.len ≤ 65536 ∧
    (match getConstant (.double 0#64) ⟨1, 1⟩ Ex.after1.1.cg with | .ok (k, _) => some k | .error _ => none) = some 1#16 :=
  ⟨(synced_of_reached Ex.reached1).idle.inv.constants, (synced_of_reached Ex.reached1).idle.inv.constLimit,
    by decide +kernel⟩

/-- Every instruction that refers to a constant or a builtin refers to one that is there, and goes on
referring to the same one in every later image. -/
theorem C20_references_keep_their_meaning {c c' : Ctx} {img img' : Image} (h : Reached c img)
    (hl : Later (c, img) (c', img')) {a : Nat} {i : Instr} (ha : img.code.dropLast[a]? = some i) :
    img'.code[a]? = some i ∧
      (∀ k ∈ i.constRefs, ∃ d, img.constants[k]? = some d ∧ img'.constants[k]? = some d) ∧
      ∀ k ∈ i.upcallRefs, ∃ f, img.upcalls[k]? = some f ∧ img'.upcalls[k]? = some f := by
  have hs := synced_of_reached h
  obtain ⟨h1, _, h3, h4, _⟩ := grown_later hl hs
  obtain ⟨_, ⟨b', hb'⟩, _⟩ := image_ok (synced_of_later hl hs)
  obtain ⟨_, _, _, _, _, hc, hu⟩ := image_ok hs
  have hmem : i ∈ img.code := List.dropLast_subset _ (List.mem_of_getElem? ha)
  have pre : ∀ {α : Type} {l l' : List α} {n : Nat}, l <+: l' → n < l.length → ∃ d, l[n]? = some d ∧ l'[n]? = some d := by
    intro α l l' n hp hn
    obtain ⟨t, rfl⟩ := hp
    exact ⟨l[n], List.getElem?_eq_getElem hn, by rw [List.getElem?_append_left hn]; exact List.getElem?_eq_getElem hn⟩
  refine ⟨?_, fun k hk => pre h3 (hc i hmem k hk), fun k hk => pre h4 (hu i hmem k hk)⟩
  obtain ⟨t, ht⟩ := h1
  have hlt : a < img.code.dropLast.length := (List.getElem?_eq_some_iff.1 ha).1
  have : img'.code.dropLast[a]? = some i := by rw [← ht, List.getElem?_append_left hlt]; exact ha
  have hd : img'.code.dropLast = b' := by
    have : img'.code = b' ++ [.eof] := hb'
    rw [this]; simp
  rw [hd] at this
  have hb'' : img'.code = b' ++ [.eof] := hb'
  rw [hb'', List.getElem?_append_left (List.getElem?_eq_some_iff.1 this).1]
  exact this

example : ∃ d, Ex.after1.2.constants[0]? = some d ∧ Ex.after2.2.constants[0]? = some d :=
  (C20_references_keep_their_meaning Ex.reached1 Ex.later12 (a := 0) (i := .loadConst 64#8 0#16) (by decide +kernel)).2.1 0
    (by simp [Instr.constRefs])

/-! ## C21 -/

/-- In every image of a session, whatever an instruction may jump to is the address of an instruction. -/
theorem C21_targets_inside {c : Ctx} {img : Image} (h : Reached c img) {i : Instr} (hi : i ∈ img.code) {t : Nat}
    (ht : t ∈ i.targets) : t < img.code.length := (image_ok (synced_of_reached h)).2.2.2.2.1 i hi t ht

example : 1 < Ex.after1.2.code.length :=
  C21_targets_inside Ex.reached1 (i := .jump 1#16) (by decide +kernel) (t := 1) (by decide +kernel)

/-- What a part of an accepted chunk leaves behind. -/
theorem found {src : Source} {c c' : Ctx} {img img' : Image} {u : Unit} (hs : Synced c img)
    (h : compileMore src c img = (.ok u, c', img')) {sub : Stmts} (hsub : Sub sub src.stmts) :
    ∃ c1 v c2, compileStmts sub c1 = .ok (v, c2) ∧ Inv c1 ∧ c2.cg.code.length < img'.code.length ∧
      (∀ k a, c2.cg.labels.get? k = some a → c'.cg.labels.get? k = some a) ∧
      (∀ k a, c2.cg.callables.get? k = some a → c'.cg.callables.get? k = some a) ∧
      (∀ k md, c2.sy.user.get? k = some md → c'.sy.user.get? k = some md) ∧ c'.sy.upcalls = c2.sy.upcalls ∧
      ∀ i, c1.cg.code.length ≤ i → i < c2.cg.code.length →
        (img'.instrs[i]?).map (·.linecol) = (c2.cg.instrs[i]?).map (·.linecol) ∧
        (¬ Pending c2 i → img'.code[i]? = c2.cg.code[i]?) ∧
        ∀ f, c2.cg.fixups.get? i = some f → ∃ m ins, img'.instrs[i]? = some m ∧
          c'.cg.fixupInstr m.linecol f = .ok ins ∧ img'.code[i]? = some ins := by
  obtain ⟨d, hc, rfl⟩ := compileMore_ok h
  obtain ⟨_, hf⟩ := synced_more hs hc
  obtain ⟨cE, h1, _, hinv, E, code, hcode, rfl, _⟩ := compileTop_ok hs.idle hc
  obtain ⟨c1, v, c2, hi1, _, h2, K, _⟩ := passed_sub hsub hinv h1
  have hlen : code.length = cE.cg.code.length + 1 := by rw [applyFixups_len hcode]; simp [Codegen.push]
  refine ⟨c1, v, c2, h2, hi1, ?_, K.labels, K.callables, K.user, K.builtin, ?_⟩
  · rw [hf.code]
    have := K.len
    show _ < code.length
    omega
  · intro i hlo hhi
    have hiE : i < cE.cg.code.length := Nat.lt_of_lt_of_le hhi K.len
    have hiE' : i < cE.cg.instrs.length := by rw [E.inv.lens]; exact hiE
    have hin : (img.append d).instrs[i]? = cE.cg.instrs[i]? := by
      rw [hf.instrs]
      show (cE.cg.instrs ++ _)[i]? = _
      rw [List.getElem?_append_left hiE']
    have hfx : cE.cg.fixups.get? i = c2.cg.fixups.get? i := by
      by_contra hne
      have := K.fixups i hne
      omega
    refine ⟨by rw [hin]; exact K.lines i hhi, ?_, ?_⟩
    · intro hp
      have hno : c2.cg.fixups.get? i = none := by
        by_contra hne; exact hp (.inr hne)
      rw [hf.code]
      show code[i]? = _
      rw [applyFixups_none hcode (hfx.trans hno)]
      show (cE.cg.code ++ _)[i]? = _
      rw [List.getElem?_append_left hiE]
      exact K.code i hlo hhi fun ho => hp (.inl ho)
    · intro f hff
      obtain ⟨m, ins, hm, hins, hat⟩ := applyFixups_some hcode (hfx.trans hff)
      refine ⟨m, ins, ?_, ?_, ?_⟩
      · rw [hf.instrs]; exact hm
      · cases f <;> exact hins
      · rw [hf.code]
        exact hat (by simp [Codegen.push]; omega)

theorem placed_of_sub {src : Source} {c c' : Ctx} {img img' : Image} {u : Unit} (hs : Synced c img)
    (h : compileMore src c img = (.ok u, c', img')) {name : Str} {pos : LineCol} {rest : Stmts}
    (hsub : Sub (.cons (.label name pos) rest) src.stmts) :
    ∃ a, c'.cg.labels.get? (symKey name) = some a ∧ Placed rest img' a := by
  obtain ⟨c1, v, c2, h2, hi1, hlt, hlab, _, _, _, hall⟩ := found hs h hsub
  unfold compileStmts at h2
  seq h2 st c3 h3
  obtain ⟨rfl, rfl⟩ := pcNow_eq h3
  seq h2 u1 c4 h4
  have e4 := SStep.compileStmtBody _ 0 _ _ _ hi1 (Nat.zero_le _) h4
  unfold compileStmtBody at h4
  simp only at h4
  split at h4
  · simp at h4
  next hnone =>
    cases h4
    seq h2 u2 c5 h5
    have : c5 = { c1 with cg := { c1.cg with labels := c1.cg.labels.insert (symKey name) c1.cg.code.length } } := by
      unfold markIf at h5
      simp [Stmt.marks] at h5
      exact h5.symm
    subst this
    have e6 := SStep.compileStmts rest 0 _ _ _ e4.inv (Nat.zero_le _) h2
    refine ⟨c1.cg.code.length, ?_, _, c2, _, h2, rfl, hlt, ?_⟩
    · refine hlab _ _ (e6.labels _ _ ?_)
      simp only [FMap.get?_insert, if_pos]
    · intro i hlo hhi
      exact ⟨(hall i hlo hhi).1, (hall i hlo hhi).2.1⟩

theorem labels_more {src : Source} {s s' : Ctx × Image} (hs : Synced s.1 s.2) (h : After src s s') {k : Str} {a : Nat}
    (hk : s.1.cg.labels.get? k = some a) : s'.1.cg.labels.get? k = some a := by
  obtain ⟨r, h⟩ := h
  cases r with
  | error e => rw [(compileMore_err h).1]; exact hk
  | ok u =>
    obtain ⟨d, hc, _⟩ := compileMore_ok h
    obtain ⟨cE, h1, _, hinv, E, code, hcode, heq, _⟩ := compileTop_ok hs.idle hc
    rw [heq]
    exact E.labels k a hk

theorem placed_later {s s' : Ctx × Image} (hs : Synced s.1 s.2) (hl : Later s s') {ss : Stmts} {a : Nat}
    (h : Placed ss s.2 a) : Placed ss s'.2 a := by
  obtain ⟨c1, c2, u, h1, h2, h3, h4⟩ := h
  obtain ⟨g1, g2, _⟩ := grown_later hl hs
  obtain ⟨hil, ⟨b, hb⟩, _⟩ := image_ok hs
  obtain ⟨hil', ⟨b', hb'⟩, _⟩ := image_ok (synced_of_later hl hs)
  have dl : ∀ {α : Type} {l l' : List α} {i : Nat}, l.dropLast <+: l'.dropLast → i + 1 < l.length → l'[i]? = l[i]? := by
    intro α l l' i hp hi
    have hle := hp.length_le
    rw [List.length_dropLast, List.length_dropLast] at hle
    obtain ⟨t, ht⟩ := hp
    have h1 : l'.dropLast[i]? = l.dropLast[i]? := by
      rw [← ht, List.getElem?_append_left (by rw [List.length_dropLast]; omega)]
    rw [List.getElem?_dropLast, List.getElem?_dropLast] at h1
    rw [if_pos (by omega)] at h1
    split at h1
    · exact h1
    · rw [List.getElem?_eq_getElem (by omega)] at h1; simp at h1
  refine ⟨c1, c2, u, h1, h2, ?_, ?_⟩
  · have e1 : s.2.code.dropLast.length ≤ s'.2.code.dropLast.length := g1.length_le
    rw [List.length_dropLast, List.length_dropLast] at e1
    have : 0 < s'.2.code.length := by rw [hb']; simp
    omega
  · intro i hlo hhi
    obtain ⟨p, q⟩ := h4 i hlo hhi
    refine ⟨?_, fun hp => ?_⟩
    · rw [dl g2 (by omega)]; exact p
    · rw [dl g1 (by omega)]; exact q hp

/-- What the three statements that name a label are compiled to. -/
def jumpTo : Stmt → Option (Str × (U16 → Instr))
  | .goto l _ => some (l, .jump)
  | .gosub l _ => some (l, .gosub)
  | .onError (.goto l _ _) => some (l, .setErrorHandler .jump)
  | _ => none

/-- Labels denote the statement that follows them.  If `GOTO`, `GOSUB` or `ON ERROR GOTO` of a label is found
anywhere in an accepted chunk, and the label is found anywhere in that chunk or in an earlier accepted one, then
the code of the former starts with an instruction whose target is the address where the code that follows the
label starts.  In particular that address fits 16 bits. -/
theorem C21_labels {s0 s1 s s' : Ctx × Image} {src0 src : Source} {u0 u : Unit} (hr : Reached s0.1 s0.2)
    (h0 : compileMore src0 s0.1 s0.2 = (.ok u0, s1)) (hl : Later s1 s')
    (hr' : Reached s.1 s.2) (h1 : compileMore src s.1 s.2 = (.ok u, s'))
    {st : Stmt} {rest rest0 : Stmts} {name label : Str} {lpos : LineCol} {mk : U16 → Instr}
    (hst : jumpTo st = some (label, mk)) (hname : symKey name = symKey label)
    (hsub : Sub (.cons st rest) src.stmts) (hsub0 : Sub (.cons (.label name lpos) rest0) src0.stmts) :
    ∃ a t, Placed (.cons st rest) s'.2 a ∧ s'.2.code[a]? = some (mk t) ∧ Placed rest0 s'.2 t.toNat := by
  have hs0 := synced_of_reached hr
  have hs := synced_of_reached hr'
  have hs1 : Synced s1.1 s1.2 := synced_of_later (.more (.refl s0) ⟨.ok u0, h0⟩) hs0
  obtain ⟨target, hlab, hpl⟩ := placed_of_sub hs0 h0 hsub0
  have hlab' : s'.1.cg.labels.get? (symKey name) = some target := by
    clear h1 hst hsub
    induction hl with
    | refl => exact hlab
    | more hl' hm ih => exact labels_more (synced_of_later hl' hs1) hm ih
  have hpl' := placed_later hs1 hl hpl
  obtain ⟨c1, v, c2, h2, hi1, hlt, _, _, _, _, hall⟩ := found hs h1 hsub
  have hplace : Placed (.cons st rest) s'.2 c1.cg.code.length :=
    ⟨c1, c2, v, h2, rfl, hlt, fun i a b => ⟨(hall i a b).1, (hall i a b).2.1⟩⟩
  obtain ⟨f, pos, hbody, hfix⟩ : ∃ f pos, compileStmtBody st = emitFixup pos f ∧
      ∀ g : Codegen, ∀ p ins, g.fixupInstr p f = .ok ins → ∀ tgt, g.labels.get? (symKey label) = some tgt →
        ∃ t, ins = mk t ∧ t.toNat = tgt := by
    cases st <;> simp [jumpTo] at hst
    case goto l pos =>
      obtain ⟨rfl, rfl⟩ := hst
      refine ⟨_, _, by unfold compileStmtBody; rfl, ?_⟩
      intro g p ins h tgt ht
      unfold Codegen.fixupInstr at h
      simp only [ht] at h
      split at h
      next t hm => cases h; exact ⟨t, rfl, mkTarget_ok hm⟩
      · simp at h
    case gosub l pos =>
      obtain ⟨rfl, rfl⟩ := hst
      refine ⟨_, _, by unfold compileStmtBody; rfl, ?_⟩
      intro g p ins h tgt ht
      unfold Codegen.fixupInstr at h
      simp only [ht] at h
      split at h
      next t hm => cases h; exact ⟨t, rfl, mkTarget_ok hm⟩
      · simp at h
    case onError o =>
      cases o <;> simp at hst
      obtain ⟨rfl, rfl⟩ := hst
      refine ⟨_, _, by unfold compileStmtBody; rfl, ?_⟩
      intro g p ins h tgt ht
      unfold Codegen.fixupInstr at h
      simp only [ht] at h
      split at h
      next t hm => cases h; exact ⟨t, rfl, mkTarget_ok hm⟩
      · simp at h
  unfold compileStmts at h2
  rw [hbody] at h2
  seq h2 stt c3 h3
  obtain ⟨rfl, rfl⟩ := pcNow_eq h3
  seq h2 u1 c4 h4
  have e4 := SStep.emitFixup _ _ 0 _ _ _ hi1 (Nat.zero_le _) h4
  have := emitFixup_ok.1 h4
  cases this
  seq h2 u2 c5 h5
  have e5 := ext_markIf (n := 0) e4.inv (Nat.zero_le _) h5
  have e6 := SStep.compileStmts rest 0 _ _ _ e5.inv (Nat.zero_le _) h2
  have hlen : c1.cg.code.length < c2.cg.code.length := by
    have := e5.len.trans e6.len
    simp only [Codegen.addFixup, Codegen.push, List.length_append, List.length_singleton] at this
    omega
  have hfx : c2.cg.fixups.get? c1.cg.code.length = some f := by
    have h45 := e5.trans e6
    by_contra hne
    have := h45.fixups c1.cg.code.length (by
      simp only [Codegen.addFixup, FMap.get?_insert, if_pos]; exact hne)
    simp only [Codegen.addFixup, Codegen.push, List.length_append, List.length_singleton] at this
    omega
  obtain ⟨m, ins, _, hins, hat⟩ := (hall _ (Nat.le_refl _) hlen).2.2 f hfx
  obtain ⟨t, rfl, ht⟩ := hfix _ _ _ hins target (by rw [← hname]; exact hlab')
  exact ⟨_, t, hplace, hat, by rw [ht]; exact hpl'⟩

/-- The label of the first chunk of the example, used from the second one. -/
example : ∃ a t, Placed Ex.chunk2.stmts Ex.after2.2 a ∧ Ex.after2.2.code[a]? = some (.jump t) ∧
    Placed (.cons (.assign ⟨"y".toList, none⟩ ⟨3, 1⟩ (.int 2#32 ⟨3, 5⟩))
      (.cons (.goto "top".toList ⟨4, 1⟩) .nil)) Ex.after2.2 t.toNat :=
  C21_labels (s0 := (Ex.start, .default)) (s1 := Ex.after1) (s := Ex.after1) (src0 := Ex.chunk1) (name := "Top".toList)
    Ex.reached0 Ex.after1_ok Ex.later12 Ex.reached1 Ex.after2_ok (st := .goto "TOP".toList ⟨1, 1⟩) rfl rfl .here
    (.later .here)

end EB
