import Verif.Lemmas.Names
import Verif.Props.Compiler
import Verif.Model.Run
/-!
# Names, scopes and registers (C09, C22, C23)
-/

namespace EB
open Spec

/-! ## C22 -/

theorem sameLetter_iff (x y : Char) : asciiUpper x = asciiUpper y ↔ SameLetter x y := by
  have lower : ∀ c : Char, ('a' ≤ c ∧ c ≤ 'z') ↔ ∃ n < 26, c = Char.ofNat (97 + n) := by
    intro c
    constructor
    · rintro ⟨h1, h2⟩
      have h1 : 97 ≤ c.toNat := h1
      have h2 : c.toNat ≤ 122 := h2
      refine ⟨c.toNat - 97, by omega, ?_⟩
      rw [show 97 + (c.toNat - 97) = c.toNat by omega, Char.ofNat_toNat]
    · rintro ⟨n, hn, rfl⟩
      have : ∀ n < 26, 'a' ≤ Char.ofNat (97 + n) ∧ Char.ofNat (97 + n) ≤ 'z' := by decide
      exact this n hn
  have up : ∀ n < 26, asciiUpper (Char.ofNat (97 + n)) = Char.ofNat (65 + n) := by decide
  have upu : ∀ n < 26, asciiUpper (Char.ofNat (65 + n)) = Char.ofNat (65 + n) := by decide
  have inj : ∀ n < 26, ∀ m < 26, Char.ofNat (65 + n) = Char.ofNat (65 + m) → n = m := by decide
  have other : ∀ c : Char, (¬ ∃ n < 26, c = Char.ofNat (97 + n)) → asciiUpper c = c := by
    intro c h
    rw [← lower] at h
    unfold asciiUpper
    rw [if_neg h]
  constructor
  · intro h
    by_cases hx : ∃ n < 26, x = Char.ofNat (97 + n)
    · obtain ⟨n, hn, rfl⟩ := hx
      rw [up n hn] at h
      by_cases hy : ∃ m < 26, y = Char.ofNat (97 + m)
      · obtain ⟨m, hm, rfl⟩ := hy
        rw [up m hm] at h
        rw [inj n hn m hm h]; exact .inl rfl
      · rw [other y hy] at h
        exact .inr ⟨n, hn, .inr ⟨rfl, h.symm⟩⟩
    · rw [other x hx] at h
      by_cases hy : ∃ m < 26, y = Char.ofNat (97 + m)
      · obtain ⟨m, hm, rfl⟩ := hy
        rw [up m hm] at h
        exact .inr ⟨m, hm, .inl ⟨h, rfl⟩⟩
      · rw [other y hy] at h; exact .inl h
  · rintro (rfl | ⟨n, hn, ⟨rfl, rfl⟩ | ⟨rfl, rfl⟩⟩)
    · rfl
    · rw [up n hn, upu n hn]
    · rw [up n hn, upu n hn]

/-- Two names have the same key exactly when they differ only in the case of the letters A to Z. -/
theorem C22_same_key (a b : Str) : symKey a = symKey b ↔ SameName a b := by
  unfold symKey SameName
  induction a generalizing b with
  | nil => cases b <;> simp
  | cons x a ih =>
    cases b with
    | nil => simp
    | cons y b => simp [sameLetter_iff, ih]

example : SameName "Foo_1".toList "fOO_1".toList := (C22_same_key _ _).1 (by decide)

/-- Two references to a variable that differ only in the case of letters are accepted or not together, and
denote the same register and type. -/
theorem C22_same_variable (s : Syms) {v w : VarRef} (hn : SameName v.name w.name) (ht : v.ty = w.ty)
    (r : Reg) (p : Proto) : s.getVar v = .ok (r, p) ↔ s.getVar w = .ok (r, p) := by
  have hk := (C22_same_key _ _).2 hn
  have hacc : ∀ t, v.accepts t = w.accepts t := by intro t; unfold VarRef.accepts; rw [ht]
  have one : ∀ (t : IdMap Str Proto) (mk : Nat → Option Reg) (sc : RegScope) (x : Reg × Proto),
      getVar v t mk sc = .ok x ↔ getVar w t mk sc = .ok x := by
    intro t mk sc x
    unfold getVar
    rw [hk]
    cases t.get? (symKey w.name) with
    | none => simp
    | some e =>
      obtain ⟨p, id⟩ := e
      simp only [hacc]
      split
      · simp
      · rfl
  have und : ∀ (t : IdMap Str Proto) (mk : Nat → Option Reg) (sc : RegScope),
      (∃ u, getVar v t mk sc = .error (.undefinedSymbol u)) ↔ ∃ u, getVar w t mk sc = .error (.undefinedSymbol u) := by
    intro t mk sc
    unfold getVar
    rw [hk]
    cases t.get? (symKey w.name) with
    | none => simp
    | some e =>
      obtain ⟨p, id⟩ := e
      simp only [hacc]
      split
      · simp
      · rfl
  have sym : ∀ v w : VarRef, (∀ t mk sc x, getVar v t mk sc = .ok x ↔ getVar w t mk sc = .ok x) →
      (∀ t mk sc, (∃ u, getVar v t mk sc = .error (.undefinedSymbol u)) ↔
        ∃ u, getVar w t mk sc = .error (.undefinedSymbol u)) → s.getVar v = .ok (r, p) → s.getVar w = .ok (r, p) := by
    intro v w one und h
    unfold Syms.getVar at h ⊢
    cases hv : getVar v s.locals mkLocal .local with
    | ok x =>
      rw [hv] at h
      rw [(one _ _ _ _).1 hv]
      exact h
    | error e =>
      rw [hv] at h
      cases e <;> simp only at h <;> try (exact absurd h (by simp))
      obtain ⟨u, hu⟩ := (und _ _ _).1 ⟨_, hv⟩
      rw [hu]
      exact (one _ _ _ _).1 h
  exact ⟨sym v w one und, sym w v (fun t mk sc x => (one t mk sc x).symm) fun t mk sc => (und t mk sc).symm⟩

example : Ex.after1.1.sy.getVar ⟨"X".toList, none⟩ = .ok (64#8, .scalar .double) := by decide +kernel
example : Ex.after1.1.sy.getVar ⟨"x".toList, none⟩ = .ok (64#8, .scalar .double) :=
  (C22_same_variable _ (v := ⟨"X".toList, none⟩) (w := ⟨"x".toList, none⟩) ((C22_same_key _ _).1 (by decide)) rfl _ _).1
    (show Ex.after1.1.sy.getVar ⟨"X".toList, none⟩ = .ok (64#8, .scalar .double) by decide +kernel)

theorem agrees_iff (v : VarRef) (p : Proto) : v.accepts p.ty = true ↔ Agrees v p := by
  unfold VarRef.accepts Agrees
  cases v.ty <;> simp

/-! ## C23 -/

/-- A name denotes the local variable if there is one, else the shared variable if there is one, else nothing;
an annotation is accepted exactly when it agrees with the type.  (C22 and C23) -/
theorem C23_lookup {s : Syms} {ls gs : Decls} (hl : Represents s.locals ls) (hg : Represents s.globals gs)
    (hln : ls.length ≤ 192) (hgn : gs.length ≤ 64) (v : VarRef) : s.getVar v = lookup ls gs v := by
  unfold Syms.getVar lookup nameRef
  simp only [getVar, hl.get, hg.get]
  have reg : ∀ {n : Nat} {r : Reg} {m : Nat}, r.toNat = m → m < 256 → r = BitVec.ofNat 8 m := by
    intro n r m h1 h2
    apply BitVec.eq_of_toNat_eq
    rw [h1, BitVec.toNat_ofNat, Nat.mod_eq_of_lt h2]
  cases hpl : position (symKey v.name) ls with
  | some e =>
    obtain ⟨p, n⟩ := e
    have hlt := declPos_lt hpl
    obtain ⟨r, hr⟩ := mkLocal_some (n := n) (by omega)
    have hrn := hr.2
    simp only [hr.1]
    by_cases ha : Agrees v p
    · have := (agrees_iff v p).2 ha
      simp only [this, Bool.not_true, Bool.false_eq_true, if_false, if_pos ha]
      simp only [Place.reg]
      rw [reg (n := n) hrn (by omega)]
    · have : v.accepts p.ty = false := by rw [← Bool.not_eq_true, agrees_iff]; exact ha
      simp only [this, Bool.not_false, if_true, if_neg ha]
  | none =>
    simp only
    cases hpg : position (symKey v.name) gs with
    | none => rfl
    | some e =>
      obtain ⟨p, n⟩ := e
      have hlt := declPos_lt hpg
      obtain ⟨r, hr⟩ := mkGlobal_some (n := n) (by omega)
      have hrn := hr.2
      simp only [hr.1]
      by_cases ha : Agrees v p
      · have := (agrees_iff v p).2 ha
        simp only [this, Bool.not_true, Bool.false_eq_true, if_false, if_pos ha]
        simp only [Place.reg]
        rw [reg (n := n) hrn (by omega)]
      · have : v.accepts p.ty = false := by rw [← Bool.not_eq_true, agrees_iff]; exact ha
        simp only [this, Bool.not_false, if_true, if_neg ha]

/-- At the start there are no declarations. -/
theorem C23_empty : Represents .empty [] := ⟨rfl, by simp, fun k => by simp [IdMap.get?, IdMap.empty, FMap.get?, position]⟩

theorem represents_put {t : IdMap Str Proto} {ds : Decls} (h : Represents t ds) {k : Str} (hk : position k ds = none)
    (p : Proto) : Represents ⟨(k, p, t.len) :: t.map⟩ (ds ++ [(k, p)]) := by
  refine ⟨by rw [IdMap.len_insert_new, h.len]; simp, ?_, ?_⟩
  · rw [List.map_append, List.nodup_append]
    refine ⟨h.once, by simp, ?_⟩
    intro a ha b hb heq
    obtain ⟨d, hd, rfl⟩ := List.mem_map.1 ha
    simp only [List.map_cons, List.map_nil, List.mem_singleton] at hb
    exact declPos_none.1 hk d hd (heq.trans hb)
  · intro k'
    rw [IdMap.get?_insert_new, declPos_append, ← h.get, h.len]
    by_cases hkk : k' = k
    · subst hkk
      rw [if_pos rfl, h.get, hk]; simp [position]
    · rw [if_neg hkk]
      cases t.get? k' with
      | some e => rfl
      | none => simp [position, Ne.symm hkk]

/-- Defining a local variable adds one declaration, of a name that the scope did not have, at the end; the
register is that of its position.  It fails when the name is there already and when the registers are used up. -/
theorem C23_define_local {s : Syms} {ls : Decls} (hl : Represents s.locals ls) (hln : ls.length ≤ 192) (k : Str)
    (p : Proto) :
    (position k ls = none → ls.length < 192 → ∃ s', s.putLocal k p = .ok (BitVec.ofNat 8 (ls.length + 64), s') ∧
      Represents s'.locals (ls ++ [(k, p)]) ∧ s' = { s with locals := s'.locals }) ∧
    (position k ls = none → ls.length = 192 → s.putLocal k p = .error (.outOfRegisters .local)) ∧
    (position k ls ≠ none → ∃ e, s.putLocal k p = .error e) := by
  unfold Syms.putLocal putVar
  refine ⟨?_, ?_, ?_⟩
  · intro hk hlt
    rw [IdMap.insert_new (by rw [hl.get]; exact hk) (by rw [hl.len]; omega)]
    obtain ⟨r, hr⟩ := mkLocal_some hlt
    have hrn := hr.2
    have : r = BitVec.ofNat 8 (ls.length + 64) := by
      apply BitVec.eq_of_toNat_eq
      rw [hrn, BitVec.toNat_ofNat, Nat.mod_eq_of_lt (by omega)]
    simp only [hl.len, hr.1]
    exact ⟨_, by rw [this], by have := represents_put hl hk p; rw [hl.len] at this; exact this, rfl⟩
  · intro hk heq
    rw [IdMap.insert_new (by rw [hl.get]; exact hk) (by rw [hl.len]; omega)]
    simp only [hl.len, heq]
    rfl
  · intro hk
    cases hp : position k ls with
    | none => exact absurd hp hk
    | some e =>
      obtain ⟨q, n⟩ := e
      have : s.locals.insert 256 k p = some ((some q, n), ⟨s.locals.map.insert k (p, n)⟩) := by
        have := hl.get k
        unfold IdMap.get? at this
        unfold IdMap.insert
        rw [this, hp]
      rw [this]
      exact ⟨_, rfl⟩

/-- The same for `DIM SHARED`. -/
theorem C23_define_shared {s : Syms} {gs : Decls} (hg : Represents s.globals gs) (hgn : gs.length ≤ 64) (k : Str)
    (p : Proto) :
    (position k gs = none → gs.length < 64 → ∃ s', s.putGlobal k p = .ok (BitVec.ofNat 8 gs.length, s') ∧
      Represents s'.globals (gs ++ [(k, p)]) ∧ s' = { s with globals := s'.globals }) ∧
    (position k gs = none → gs.length = 64 → s.putGlobal k p = .error (.outOfRegisters .global)) ∧
    (position k gs ≠ none → ∃ e, s.putGlobal k p = .error e) := by
  unfold Syms.putGlobal putVar
  refine ⟨?_, ?_, ?_⟩
  · intro hk hlt
    rw [IdMap.insert_new (by rw [hg.get]; exact hk) (by rw [hg.len]; omega)]
    obtain ⟨r, hr⟩ := mkGlobal_some hlt
    have hrn := hr.2
    have : r = BitVec.ofNat 8 gs.length := by
      apply BitVec.eq_of_toNat_eq
      rw [hrn, BitVec.toNat_ofNat, Nat.mod_eq_of_lt (by omega)]
    simp only [hg.len, hr.1]
    exact ⟨_, by rw [this], by have := represents_put hg hk p; rw [hg.len] at this; exact this, rfl⟩
  · intro hk heq
    rw [IdMap.insert_new (by rw [hg.get]; exact hk) (by rw [hg.len]; omega)]
    simp only [hg.len, heq]
    rfl
  · intro hk
    cases hp : position k gs with
    | none => exact absurd hp hk
    | some e =>
      obtain ⟨q, n⟩ := e
      have : s.globals.insert 256 k p = some ((some q, n), ⟨s.globals.map.insert k (p, n)⟩) := by
        have := hg.get k
        unfold IdMap.get? at this
        unfold IdMap.insert
        rw [this, hp]
      rw [this]
      exact ⟨_, rfl⟩

/-- A new declaration in either scope does not change what other names denote, and a new shared variable does not
change what the name of a local variable denotes. -/
theorem C23_others_keep (ls gs : Decls) (d : Str × Proto) (v : VarRef) :
    (symKey v.name ≠ d.1 → nameRef (ls ++ [d]) gs v = nameRef ls gs v ∧ nameRef ls (gs ++ [d]) v = nameRef ls gs v) ∧
    (position (symKey v.name) ls ≠ none → nameRef ls (gs ++ [d]) v = nameRef ls gs v) := by
  obtain ⟨k, p⟩ := d
  refine ⟨fun h => ?_, fun h => ?_⟩
  · have hp : position (symKey v.name) [(k, p)] = none := by simp [position, Ne.symm h]
    unfold nameRef
    simp only [declPos_append, hp, Option.map_none, Option.or_none]
    exact ⟨trivial, trivial⟩
  · unfold nameRef
    cases hl : position (symKey v.name) ls with
    | none => exact absurd hl h
    | some e => rfl

example : nameRef ([("X".toList, .scalar .double)] ++ [("Y".toList, .scalar .integer)]) [] ⟨"x".toList, none⟩ =
    nameRef [("X".toList, .scalar .double)] [] ⟨"x".toList, none⟩ :=
  ((C23_others_keep [("X".toList, .scalar .double)] [] ("Y".toList, .scalar .integer) ⟨"x".toList, none⟩).1
    (by decide)).1

/-- `DIM` and `DIM SHARED` of a name that the scope has already, or that is the name of a callable, are errors. -/
theorem C23_no_second_definition {c : Ctx} {ls gs : Decls} (hl : Represents c.sy.locals ls)
    (hg : Represents c.sy.globals gs) (name : Str) (pos : LineCol) (shared : Bool) (p : Proto)
    (h : position (symKey name) (if shared then gs else ls) ≠ none ∨ (c.sy.getCallable (symKey name)).isSome) :
    dimVar name pos shared p c = .error (.alreadyDefined pos ⟨name, none⟩) := by
  unfold dimVar
  cases hc : c.sy.getCallable (symKey name) with
  | some md => rfl
  | none =>
    have h : position (symKey name) (if shared then gs else ls) ≠ none := by
      rcases h with h | h
      · exact h
      · rw [hc] at h; simp at h
    cases shared with
    | true =>
      simp only [if_true] at h ⊢
      rw [hg.get]
      cases hp : position (symKey name) gs with
      | none => exact absurd hp h
      | some e => rfl
    | false =>
      simp only [Bool.false_eq_true, if_false] at h ⊢
      rw [hl.get]
      cases hp : position (symKey name) ls with
      | none => exact absurd hp h
      | some e => rfl

/-- Assigning to a name defines it, as a local variable, exactly when it denotes neither a variable nor a
callable. -/
theorem C23_assignment_defines {c c' : Ctx} {ls gs : Decls} (hl : Represents c.sy.locals ls)
    (hg : Represents c.sy.globals gs) (hln : ls.length ≤ 192) (hgn : gs.length ≤ 64) {v : VarRef} {pos : LineCol}
    {r : Reg × Option ExprType × Bool} (h : assignDest v pos c = .ok (r, c')) :
    match nameRef ls gs v with
    | .var place p => c' = c ∧ ∃ t, p = .scalar t ∧ r = (BitVec.ofNat 8 place.reg, some t, true)
    | .wrongType => False
    | .undefined => c.sy.getCallable (symKey v.name) = none ∧
        c'.sy.globals = c.sy.globals ∧ r = (BitVec.ofNat 8 (ls.length + 64), v.ty, false) ∧
        Represents c'.sy.locals (ls ++ [(symKey v.name, .scalar (v.ty.getD .integer))]) := by
  have hv := C23_lookup hl hg hln hgn v
  unfold lookup at hv
  rcases assignDest_ok h with ⟨reg, t, h1, rfl, rfl⟩ | ⟨w, reg, sy, h1, h2, h3, rfl, rfl⟩
  · rw [h1] at hv
    cases hr : nameRef ls gs v with
    | var place p =>
      rw [hr] at hv
      simp only [Except.ok.injEq, Prod.mk.injEq] at hv
      exact ⟨rfl, t, hv.2.symm, by rw [hv.1]⟩
    | wrongType => rw [hr] at hv; simp at hv
    | undefined => rw [hr] at hv; simp at hv
  · rw [h1] at hv
    have hnl : position (symKey v.name) ls = none := by rw [← hl.get]; exact (getVar_undefined_local h1).1
    cases hr : nameRef ls gs v with
    | var place p => rw [hr] at hv; simp at hv
    | wrongType => rw [hr] at hv; simp at hv
    | undefined =>
      obtain ⟨d1, d2, _⟩ := C23_define_local hl hln (symKey v.name) (.scalar (v.ty.getD .integer))
      have hlt : ls.length < 192 := by
        by_contra hge
        rw [d2 hnl (by omega)] at h3
        simp at h3
      obtain ⟨s', e1, e2, e3⟩ := d1 hnl hlt
      rw [h3] at e1
      simp only [Except.ok.injEq, Prod.mk.injEq] at e1
      obtain ⟨rfl, rfl⟩ := e1
      exact ⟨h2, by rw [e3], rfl, e2⟩

example : (match assignDest ⟨"z".toList, none⟩ ⟨1, 1⟩ Ex.after1.1 with | .ok (r, _) => some r | .error _ => none) =
    some (66#8, none, false) := by decide +kernel

/-- In every state of a session the tables stand for lists of declarations within the limits, and later chunks
only add to them. -/
theorem C23_session {c c' : Ctx} {img img' : Image} (h : Reached c img) (hl : Later (c, img) (c', img')) :
    ∃ ls gs ls' gs', Represents c.sy.locals ls ∧ Represents c.sy.globals gs ∧ ls.length ≤ 192 ∧ gs.length ≤ 64 ∧
      Represents c'.sy.locals (ls ++ ls') ∧ Represents c'.sy.globals (gs ++ gs') := by
  have hs := synced_of_reached h
  have hs' := synced_of_later hl hs
  obtain ⟨ls, hls⟩ := represents_of_wf hs.idle.inv.locals
  obtain ⟨gs, hgs⟩ := represents_of_wf hs.idle.inv.globals
  obtain ⟨ls', hls'⟩ := represents_of_wf hs'.idle.inv.locals
  obtain ⟨gs', hgs'⟩ := represents_of_wf hs'.idle.inv.globals
  have hext : c.sy.locals.Ext c'.sy.locals ∧ c.sy.globals.Ext c'.sy.globals := by
    clear hls hgs hls' hgs' hs'
    have key : ∀ {s s' : Ctx × Image}, Later s s' → Synced s.1 s.2 →
        s.1.sy.locals.Ext s'.1.sy.locals ∧ s.1.sy.globals.Ext s'.1.sy.globals := by
      intro s s' hl hs
      induction hl with
      | refl => exact ⟨.refl _, .refl _⟩
      | more hl' hm ih =>
        obtain ⟨r, hm⟩ := hm
        have hs1 := synced_of_later hl' hs
        cases r with
        | error e => rw [(compileMore_err hm).1]; exact ih
        | ok u =>
          obtain ⟨d, hc, _⟩ := compileMore_ok hm
          obtain ⟨cE, h1, _, hinv, E, code, hcode, heq, _⟩ := compileTop_ok hs1.idle hc
          rw [heq]
          exact ⟨ih.1.trans E.locals, ih.2.trans E.globals⟩
    exact key hl hs
  obtain ⟨a, rfl⟩ := represents_ext hls hls' hext.1
  obtain ⟨b, rfl⟩ := represents_ext hgs hgs' hext.2
  exact ⟨ls, gs, a, b, hls, hgs, by rw [← hls.len]; exact hs.idle.inv.localLimit,
    by rw [← hgs.len]; exact hs.idle.inv.globalLimit, hls', hgs'⟩

example : ∃ ls gs ls' gs', Represents Ex.after1.1.sy.locals ls ∧ Represents Ex.after1.1.sy.globals gs ∧
    ls.length ≤ 192 ∧ gs.length ≤ 64 ∧ Represents Ex.after2.1.sy.locals (ls ++ ls') ∧
    Represents Ex.after2.1.sy.globals (gs ++ gs') := C23_session Ex.reached1 Ex.later12

/-! ## C09 -/

structure SymsOk (s : Syms) : Prop where
  locals : s.locals.Wf
  globals : s.globals.Wf
  nlocals : s.locals.len ≤ 192
  nglobals : s.globals.len ≤ 64

/-- The register of the local variable with that key, and of the shared one. -/
structure SameRegs (s s' : Syms) : Prop where
  locals : ∀ k p n, s.locals.get? k = some (p, n) → ∃ p', s'.locals.get? k = some (p', n)
  globals : ∀ k p n, s.globals.get? k = some (p, n) → ∃ p', s'.globals.get? k = some (p', n)

theorem symOp_ok {s s' : Syms} {op : SymOp} (h : op.run s = .ok s') (hs : SymsOk s) : SymsOk s' ∧ SameRegs s s' := by
  cases op with
  | «local» name p =>
    cases hp : s.putLocal (symKey name) p with
    | error e => simp only [SymOp.run, hp] at h; simp [Except.map] at h
    | ok x =>
      obtain ⟨r, s1⟩ := x
      simp only [SymOp.run, hp] at h
      cases h
      obtain ⟨h1, h2, rfl⟩ := putLocal_ok hp
      have := (mkLocal_lt h2).1
      refine ⟨⟨IdMap.wf_insert_new hs.locals h1, hs.globals, by rw [IdMap.len_insert_new]; omega, hs.nglobals⟩,
        ⟨?_, fun k p n h => ⟨p, h⟩⟩⟩
      intro k p n hk
      exact ⟨p, (IdMap.ext_insert_new h1).ids _ _ _ hk⟩
  | shared name p =>
    cases hp : s.putGlobal (symKey name) p with
    | error e => simp only [SymOp.run, hp] at h; simp [Except.map] at h
    | ok x =>
      obtain ⟨r, s1⟩ := x
      simp only [SymOp.run, hp] at h
      cases h
      obtain ⟨h1, h2, rfl⟩ := putGlobal_ok hp
      have := (mkGlobal_lt h2).1
      refine ⟨⟨hs.locals, IdMap.wf_insert_new hs.globals h1, hs.nlocals, by rw [IdMap.len_insert_new]; omega⟩,
        ⟨fun k p n h => ⟨p, h⟩, ?_⟩⟩
      intro k p n hk
      exact ⟨p, (IdMap.ext_insert_new h1).ids _ _ _ hk⟩
  | retype v t =>
    simp only [SymOp.run, Syms.fixupLocalType] at h
    split at h
    next =>
      cases h
      refine ⟨⟨IdMap.wf_update hs.locals _ _, hs.globals, by rw [IdMap.len_update hs.locals]; exact hs.nlocals, hs.nglobals⟩,
        ⟨?_, fun k p n h => ⟨p, h⟩⟩⟩
      intro k p n hk
      simp only
      rw [IdMap.get?_update]
      by_cases hkk : k = symKey v.name
      · rw [if_pos hkk, ← hkk, hk]; exact ⟨_, rfl⟩
      · rw [if_neg hkk]; exact ⟨p, hk⟩
    next => simp at h

theorem symOps_ok {ops : List SymOp} {s s' : Syms} (h : SymOp.runAll ops s = .ok s') (hs : SymsOk s) :
    SymsOk s' ∧ SameRegs s s' := by
  induction ops generalizing s with
  | nil => cases h; exact ⟨hs, ⟨fun k p n h => ⟨p, h⟩, fun k p n h => ⟨p, h⟩⟩⟩
  | cons op ops ih =>
    unfold SymOp.runAll at h
    split at h
    next s1 h1 =>
      obtain ⟨h2, h3⟩ := symOp_ok h1 hs
      obtain ⟨h4, h5⟩ := ih h h2
      refine ⟨h4, ?_, ?_⟩
      · intro k p n hk
        obtain ⟨p', hp'⟩ := h3.locals k p n hk
        exact h5.locals k p' n hp'
      · intro k p n hk
        obtain ⟨p', hp'⟩ := h3.globals k p n hk
        exact h5.globals k p' n hp'
    next => simp at h

theorem getVar_ok {v : VarRef} {t : IdMap Str Proto} {mk : Nat → Option Reg} {sc : RegScope} {r : Reg} {p : Proto}
    (h : getVar v t mk sc = .ok (r, p)) : ∃ n, t.get? (symKey v.name) = some (p, n) ∧ mk n = some r := by
  unfold getVar at h
  split at h
  next q n hk =>
    split at h
    · simp at h
    · split at h
      next r' hr => cases h; exact ⟨n, hk, hr⟩
      · simp at h
  · simp at h

/-- Where a reference that is accepted is found. -/
theorem symsGetVar_ok {s : Syms} {v : VarRef} {r : Reg} {p : Proto} (h : s.getVar v = .ok (r, p)) :
    (∃ n, s.locals.get? (symKey v.name) = some (p, n) ∧ mkLocal n = some r) ∨
    (s.locals.get? (symKey v.name) = none ∧ ∃ n, s.globals.get? (symKey v.name) = some (p, n) ∧ mkGlobal n = some r) := by
  unfold Syms.getVar at h
  split at h
  next x hx => cases h; exact .inl (getVar_ok hx)
  next u hx =>
    refine .inr ⟨?_, getVar_ok h⟩
    unfold getVar at hx
    split at hx
    · split at hx
      · simp at hx
      · split at hx <;> simp at hx
    next hk => exact hk
  next => simp at h

/-- After any sequence of definitions, and however many temporaries are in use: two names have the same register
only if they are the same name; a temporary has neither the register of a variable nor that of another temporary;
a temporary is refused exactly when the registers are used up; and further definitions do not move variables.

What is missing from the full property is that the register of a temporary never becomes that of a variable which
is defined *later*: see `C09_counterexample`. -/
theorem C09_registers_partial {ops ops' : List SymOp} {user upcalls : FMap Str Md} {s s' : Syms}
    (h : SymOp.runAll ops ⟨.empty, upcalls, user, .empty⟩ = .ok s) (h' : SymOp.runAll ops' s = .ok s') :
    (∀ v w r p q, s.getVar v = .ok (r, p) → s.getVar w = .ok (r, q) → SameName v.name w.name) ∧
    (∀ t pos r, allocTemp s t pos = .ok r →
      (∀ v p, s.getVar v ≠ .ok (r, p)) ∧ ∀ t' pos', allocTemp s t' pos' = .ok r → t' = t) ∧
    (∀ t pos, (s.nlocals + t < 192 → ∃ r, allocTemp s t pos = .ok r) ∧
      (192 ≤ s.nlocals + t → allocTemp s t pos = .error (.outOfRegisters pos .temp))) ∧
    (∀ k p n, s.locals.get? k = some (p, n) → ∃ p', s'.locals.get? k = some (p', n)) ∧
    (∀ k p n, s.globals.get? k = some (p, n) → ∃ p', s'.globals.get? k = some (p', n)) := by
  have h0 : SymsOk ⟨.empty, upcalls, user, .empty⟩ :=
    ⟨IdMap.wf_empty, IdMap.wf_empty, by simp [IdMap.len, IdMap.empty], by simp [IdMap.len, IdMap.empty]⟩
  obtain ⟨hs, _⟩ := symOps_ok h h0
  obtain ⟨_, hr⟩ := symOps_ok h' hs
  have temp : ∀ {t pos r}, allocTemp s t pos = .ok r → s.nlocals + t < 192 ∧ r.toNat = s.nlocals + t + 64 := by
    intro t pos r h
    unfold allocTemp at h
    split at h
    · split at h
      next r' hm => cases h; exact mkLocal_lt hm
      · simp at h
    · simp at h
  refine ⟨?_, ?_, ?_, hr.locals, hr.globals⟩
  · intro v w r p q hv hw
    rw [← C22_same_key]
    rcases symsGetVar_ok hv with ⟨n, h1, h2⟩ | ⟨_, n, h1, h2⟩ <;>
      rcases symsGetVar_ok hw with ⟨m, h3, h4⟩ | ⟨_, m, h3, h4⟩
    · have := mkLocal_lt h2
      have := mkLocal_lt h4
      obtain rfl : n = m := by omega
      exact IdMap.id_inj hs.locals h1 h3
    · have := mkLocal_lt h2
      have := mkGlobal_lt h4
      omega
    · have := mkGlobal_lt h2
      have := mkLocal_lt h4
      omega
    · have := mkGlobal_lt h2
      have := mkGlobal_lt h4
      obtain rfl : n = m := by omega
      exact IdMap.id_inj hs.globals h1 h3
  · intro t pos r ht
    obtain ⟨h1, h2⟩ := temp ht
    refine ⟨?_, ?_⟩
    · intro v p hv
      rcases symsGetVar_ok hv with ⟨n, h3, h4⟩ | ⟨_, n, h3, h4⟩
      · have := mkLocal_lt h4
        have := IdMap.id_lt hs.locals h3
        unfold Syms.nlocals at h2
        omega
      · have := mkGlobal_lt h4
        have := IdMap.id_lt hs.globals h3
        have := hs.nglobals
        omega
    · intro t' pos' ht'
      obtain ⟨h3, h4⟩ := temp ht'
      omega
  · intro t pos
    unfold allocTemp
    refine ⟨fun hlt => ?_, fun hge => ?_⟩
    · rw [if_pos (by omega)]
      obtain ⟨r, hr⟩ := mkLocal_some hlt
      rw [hr.1]; exact ⟨r, rfl⟩
    · split
      · have : mkLocal (s.nlocals + t) = none := by
          cases hm : mkLocal (s.nlocals + t) with
          | none => rfl
          | some r => have := mkLocal_lt hm; omega
        rw [this]
      · rfl

example : ∃ s, SymOp.runAll [.local "a".toList (.scalar .integer), .shared "a".toList (.scalar .text),
    .local "b".toList (.array .double 2), .retype ⟨"a".toList, none⟩ .double] ⟨.empty, [], [], .empty⟩ = .ok s ∧
    s.getVar ⟨"B".toList, none⟩ = .ok (65#8, .array .double 2) := ⟨_, rfl, by decide +kernel⟩

/-- `FOR i = 1 TO 3: x = i * 2: NEXT`. -/
def Ex.loop : Source := ⟨.cons (.forLoop ⟨"i".toList, none⟩ ⟨1, 5⟩ false (.int 1#32 ⟨1, 9⟩)
  (.bin .le (.sym ⟨"i".toList, none⟩ ⟨1, 5⟩) (.int 3#32 ⟨1, 14⟩) ⟨1, 14⟩)
  (.bin .add (.sym ⟨"i".toList, none⟩ ⟨1, 5⟩) (.int 1#32 ⟨1, 14⟩) ⟨1, 14⟩)
  (.cons (.assign ⟨"x".toList, none⟩ ⟨2, 3⟩ (.bin .mul (.sym ⟨"i".toList, none⟩ ⟨2, 7⟩) (.int 2#32 ⟨2, 11⟩) ⟨2, 9⟩))
    .nil)) .nil, none⟩

/-- No double is used by the example. -/
def Ex.noFloat : FloatOps :=
  ⟨fun _ _ => 0, fun _ _ => 0, fun _ _ => 0, fun _ _ => 0, fun _ _ => 0, fun _ _ => 0, fun _ => 0, fun _ _ => false,
    fun _ _ => false, fun _ _ => false, fun _ => 0, fun _ => none⟩

/-- After `FOR i = 1 TO 3: x = i * 2: NEXT` the variable `x` is 0 and not 6: the condition of the loop was compiled
when `x` was not defined yet, so that its temporary has the register that `x` got later. -/
theorem C09_counterexample :
    let r := compileMore Ex.loop Ex.start .default
    let m := Mach.drive Ex.noFloat r.2.2 100 (Mach.new 100 100)
    r.1 = .ok () ∧ r.2.2.code[m.pc]? = some .eof ∧
      r.2.1.sy.getVar ⟨"x".toList, none⟩ = .ok (65#8, .scalar .integer) ∧ m.get 65#8 = 0#64 ∧
      r.2.1.sy.getVar ⟨"i".toList, none⟩ = .ok (64#8, .scalar .integer) ∧ m.get 64#8 = 4#64 := by
  refine ⟨?_, ?_, ?_, ?_, ?_, ?_⟩ <;> decide +kernel

end EB
