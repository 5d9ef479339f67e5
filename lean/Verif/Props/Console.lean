import Verif.Model.Colors
import Verif.Spec.Console
import Verif.Lemmas.Ids
/-!
# C46: colours, and C52: console specifications
-/

namespace EB
open Spec

/-! ## C46 -/

theorem colors_length : colors.length = 256 := by decide +kernel

theorem ansi_eq (c : BitVec 8) : ansiColorToRgb c = colors[c.toNat]? := by
  unfold ansiColorToRgb
  rw [colors_length, Nat.mod_eq_of_lt c.isLt]

/-- Every number has a colour. -/
theorem C46_total (c : BitVec 8) : ∃ rgb, ansiColorToRgb c = some rgb := by
  rw [ansi_eq]
  have h : c.toNat < colors.length := by rw [colors_length]; exact c.isLt
  exact ⟨_, List.getElem?_eq_getElem h⟩

/-- The number that is found for a colour has that colour, and is the first one. -/
theorem C46_found {rgb : RGB} {c : BitVec 8} :
    rgbToAnsiColor rgb = some c ↔ ansiColorToRgb c = some rgb ∧ ∀ d : BitVec 8, d < c → ansiColorToRgb d ≠ some rgb := by
  unfold rgbToAnsiColor
  constructor
  · intro h
    obtain ⟨i, hi, hc⟩ := Option.map_eq_some_iff.1 h
    obtain ⟨hlt, hp, hm⟩ := List.findIdx?_eq_some_iff_getElem.1 hi
    have hlt' : i < 256 := by rw [colors_length] at hlt; exact hlt
    have hn : c.toNat = i := by rw [← hc, BitVec.toNat_ofNat]; omega
    constructor
    · rw [ansi_eq, hn, List.getElem?_eq_getElem hlt]
      simpa using hp
    · intro d hd hx
      rw [ansi_eq] at hx
      have hd' : d.toNat < i := by rw [← hn]; exact hd
      have := hm d.toNat hd'
      rw [List.getElem?_eq_getElem (by omega)] at hx
      simp at hx this
      exact this hx
  · rintro ⟨h, hm⟩
    refine Option.map_eq_some_iff.2 ⟨c.toNat, ?_, by simp⟩
    rw [ansi_eq] at h
    obtain ⟨hlt, hx⟩ := List.getElem?_eq_some_iff.1 h
    refine List.findIdx?_eq_some_iff_getElem.2 ⟨hlt, by simp [hx], ?_⟩
    intro j hj
    have hlt' : j < 256 := by rw [colors_length] at hlt; omega
    have hb : (BitVec.ofNat 8 j).toNat = j := by rw [BitVec.toNat_ofNat]; omega
    have := hm (BitVec.ofNat 8 j) (by show (BitVec.ofNat 8 j).toNat < c.toNat; rw [hb]; exact hj)
    rw [ansi_eq, hb, List.getElem?_eq_getElem (by omega)] at this
    simpa using this

/-- From a number to its colour and back: a number with the same colour. -/
theorem C46_round_trip (c : BitVec 8) : ∃ rgb d, ansiColorToRgb c = some rgb ∧ rgbToAnsiColor rgb = some d ∧ ansiColorToRgb d = some rgb := by
  obtain ⟨rgb, h⟩ := C46_total c
  cases hf : rgbToAnsiColor rgb with
  | some d => exact ⟨rgb, d, h, hf, (C46_found.1 hf).1⟩
  | none =>
    exfalso
    unfold rgbToAnsiColor at hf
    rw [Option.map_eq_none_iff, List.findIdx?_eq_none_iff] at hf
    rw [ansi_eq] at h
    have := hf rgb (List.mem_of_getElem? h)
    simp at this

/-- Colours that no number has are not found. -/
theorem C46_not_found {rgb : RGB} : rgbToAnsiColor rgb = none ↔ ∀ c, ansiColorToRgb c ≠ some rgb := by
  constructor
  · intro h c hc
    obtain ⟨rgb', d, h1, h2, _⟩ := C46_round_trip c
    rw [hc] at h1
    cases h1
    rw [h] at h2
    cases h2
  · intro h
    cases hf : rgbToAnsiColor rgb with
    | none => rfl
    | some d => exact absurd (C46_found.1 hf).1 (h d)

example : ansiColorToRgb 231#8 = some (255, 255, 255) ∧ rgbToAnsiColor (255, 255, 255) = some 15#8 ∧
    rgbToAnsiColor (1, 2, 3) = none := by decide +kernel

/-! ## C52: resolutions -/

theorem digit_range {c : Char} : ('0' ≤ c ∧ c ≤ '9') ↔ c ∈ "0123456789".toList := by
  simp only [String.reduceToList, List.mem_cons, List.not_mem_nil, or_false]
  constructor
  · rintro ⟨h1, h2⟩
    have h1 : 48 ≤ c.toNat := h1
    have h2 : c.toNat ≤ 57 := h2
    have key : ∀ d : Char, c.toNat = d.toNat → c = d := fun d h => Char.toNat_inj.1 h
    have : c.toNat = 48 ∨ c.toNat = 49 ∨ c.toNat = 50 ∨ c.toNat = 51 ∨ c.toNat = 52 ∨ c.toNat = 53 ∨ c.toNat = 54 ∨
        c.toNat = 55 ∨ c.toNat = 56 ∨ c.toNat = 57 := by omega
    rcases this with h | h | h | h | h | h | h | h | h | h
    · exact .inl (key '0' h)
    · exact .inr (.inl (key '1' h))
    · exact .inr (.inr (.inl (key '2' h)))
    · exact .inr (.inr (.inr (.inl (key '3' h))))
    · exact .inr (.inr (.inr (.inr (.inl (key '4' h)))))
    · exact .inr (.inr (.inr (.inr (.inr (.inl (key '5' h))))))
    · exact .inr (.inr (.inr (.inr (.inr (.inr (.inl (key '6' h)))))))
    · exact .inr (.inr (.inr (.inr (.inr (.inr (.inr (.inl (key '7' h))))))))
    · exact .inr (.inr (.inr (.inr (.inr (.inr (.inr (.inr (.inl (key '8' h)))))))))
    · exact .inr (.inr (.inr (.inr (.inr (.inr (.inr (.inr (.inr (key '9' h)))))))))
  · rintro (h | h | h | h | h | h | h | h | h | h) <;> subst h <;> decide

theorem digit_value {c : Char} (h : c ∈ "0123456789".toList) : c.toNat - '0'.toNat = "0123456789".toList.idxOf c := by
  simp only [String.reduceToList, List.mem_cons, List.not_mem_nil, or_false] at h
  rcases h with h | h | h | h | h | h | h | h | h | h <;> subst h <;> decide

theorem value_mono (s : Str) (a : Nat) : a ≤ s.foldl (fun n c => n * 10 + "0123456789".toList.idxOf c) a := by
  induction s generalizing a with
  | nil => exact Nat.le_refl _
  | cons c s ih => exact Nat.le_trans (show a ≤ a * 10 + _ by omega) (ih _)

theorem parseU32Digits_ok {s : Str} {a n : Nat} (ha : a < 2 ^ 32) : parseU32Digits a s = .ok n ↔
    Decimal s ∧ n = s.foldl (fun n c => n * 10 + "0123456789".toList.idxOf c) a ∧ n < 2 ^ 32 := by
  induction s generalizing a with
  | nil =>
    simp only [parseU32Digits, Except.ok.injEq, List.foldl_nil]
    exact ⟨fun h => ⟨fun _ h => by simp at h, h.symm, h ▸ ha⟩, fun h => h.2.1.symm⟩
  | cons c s ih =>
    simp only [parseU32Digits, List.foldl_cons]
    by_cases hd : '0' ≤ c ∧ c ≤ '9'
    · have hm := digit_range.1 hd
      rw [if_pos hd, digit_value hm]
      split
      next hlt =>
        rw [ih hlt]
        unfold Decimal
        simp only [List.mem_cons, forall_eq_or_imp]
        exact ⟨fun h => ⟨⟨hm, h.1⟩, h.2⟩, fun h => ⟨h.1.2, h.2⟩⟩
      next hge =>
        constructor
        · intro h; cases h
        · rintro ⟨_, h, hlt⟩
          have := value_mono s (a * 10 + "0123456789".toList.idxOf c)
          omega
    · rw [if_neg hd]
      constructor
      · intro h; cases h
      · rintro ⟨h, _⟩
        exact absurd (digit_range.2 (h c (List.mem_cons_self ..))) hd

theorem stripPlus_cases {s ds : Str} (hd : ds ≠ []) (hp : ∀ cs, ds ≠ '+' :: cs) : stripPlus s = ds ↔ s = ds ∨ s = '+' :: ds := by
  unfold stripPlus
  split
  next c cs =>
    constructor
    · rintro rfl; exact Or.inr rfl
    · rintro (h | h)
      · exact absurd h.symm (hp _)
      · cases h; rfl
  next hne =>
    constructor
    · rintro rfl; exact Or.inl rfl
    · rintro (h | h)
      · exact h
      · cases ds with
        | nil => exact absurd rfl hd
        | cons c cs => exact absurd h (hne c cs)

theorem parseNonZero_ok {s : Str} {n : Nat} : parseNonZero s = .ok n ↔ Size s n := by
  unfold parseNonZero Size
  constructor
  · intro h
    split at h
    · cases h
    next hne =>
      split at h
      · cases h
      next k hk =>
        obtain ⟨h1, h2, h3⟩ := (parseU32Digits_ok (by decide)).1 hk
        split at h
        · cases h
        next hz =>
          cases h
          refine ⟨stripPlus s, (stripPlus_cases hne ?_).1 rfl, hne, h1, h2, by omega, h3⟩
          intro cs hcs
          have := h1 '+' (by rw [hcs]; exact List.mem_cons_self ..)
          simp at this
  · rintro ⟨ds, hs, hne, h1, h2, h3, h4⟩
    have hp : stripPlus s = ds := (stripPlus_cases hne (by
      intro cs hcs
      have := h1 '+' (by rw [hcs]; exact List.mem_cons_self ..)
      simp at this)).2 hs
    rw [hp, if_neg hne, (parseU32Digits_ok (by decide)).2 ⟨h1, h2, h4⟩]
    exact if_neg (by omega)

theorem splitOnce_some {sep : Char} {s a b : Str} : splitOnce sep s = some (a, b) ↔ sep ∉ a ∧ s = a ++ sep :: b := by
  induction s generalizing a with
  | nil => simp [splitOnce]
  | cons c s ih =>
    simp only [splitOnce]
    split
    next h =>
      subst h
      constructor
      · intro h; cases h; simp
      · rintro ⟨hn, hs⟩
        cases a with
        | nil => simp at hs; rw [hs]
        | cons d a => simp only [List.cons_append, List.cons.injEq] at hs; simp [hs.1] at hn
    next h =>
      constructor
      · intro hm
        obtain ⟨⟨a', b'⟩, hx, he⟩ := Option.map_eq_some_iff.1 hm
        cases he
        obtain ⟨h1, h2⟩ := ih.1 hx
        exact ⟨by simp [h1]; exact fun hc => h hc.symm, by simp [h2]⟩
      · rintro ⟨hn, hs⟩
        cases a with
        | nil => simp at hs; exact absurd hs.1 h
        | cons d a =>
          simp only [List.cons_append, List.cons.injEq] at hs
          obtain ⟨rfl, hs⟩ := hs
          have := ih.2 ⟨fun hm => hn (List.mem_cons_of_mem _ hm), hs⟩
          rw [this]; rfl

theorem splitOnce_none {sep : Char} {s : Str} : splitOnce sep s = none ↔ sep ∉ s := by
  induction s with
  | nil => simp [splitOnce]
  | cons c s ih =>
    simp only [splitOnce]
    split
    next h => simp [h]
    next h =>
      simp only [Option.map_eq_none_iff, ih, List.mem_cons, not_or]
      exact ⟨fun hx => ⟨fun hc => h hc.symm, hx⟩, fun hx => hx.2⟩

theorem stripSuffix_some {suf s p : Str} : stripSuffix suf s = some p ↔ s = p ++ suf := by
  unfold stripSuffix
  constructor
  · intro h
    split at h
    next hc =>
      cases h
      conv_lhs => rw [← List.take_append_drop (s.length - suf.length) s]
      rw [hc.2]
    · cases h
  · rintro rfl
    simp

theorem decimal_free {s : Str} {n : Nat} (h : Size s n) {c : Char} (hc : c ∉ "+0123456789".toList) : c ∉ s := by
  obtain ⟨ds, hs, _, hd, _⟩ := h
  intro hm
  have : c ∈ ds ∨ c = '+' := by
    rcases hs with rfl | rfl
    · exact Or.inl hm
    · rcases List.mem_cons.1 hm with h | h
      · exact Or.inr h
      · exact Or.inl h
  rcases this with h | h
  · exact hc (List.mem_cons_of_mem _ (hd c h))
  · subst h; simp at hc

/-- Resolutions are accepted exactly in the documented form, with the sizes that were written. -/
theorem C52_resolution {s : Str} {r : Resolution} : parseResolution s = .ok r ↔ Resolves s r := by
  unfold parseResolution
  constructor
  · intro h
    split at h
    next hfs => cases h; subst hfs; exact .desktop
    next hfs =>
      have both : ∀ (d : Str) (full : Bool), (match splitOnce 'x' d with
          | some (w, h) =>
            match parseNonZero w with
            | .error e => .error (.width w s e)
            | .ok width =>
              match parseNonZero h with
              | .error e => .error (.height h s e)
              | .ok height => if full then .ok (.fullScreen width height) else .ok (.windowed width height)
          | none => .error (.form s) : Except SpecErr Resolution) = .ok r →
          ∃ a b w h, Size a w ∧ Size b h ∧ d = a ++ 'x' :: b ∧ r = if full then .fullScreen w h else .windowed w h := by
        intro d full h
        split at h
        next a b hs =>
          split at h
          · cases h
          next w hw =>
            split at h
            · cases h
            next h' hh =>
              refine ⟨a, b, w, h', parseNonZero_ok.1 hw, parseNonZero_ok.1 hh, (splitOnce_some.1 hs).2, ?_⟩
              cases full <;> simp at h ⊢ <;> exact h.symm
        · cases h
      cases hsuf : stripSuffix "fs".toList s with
      | some p =>
        rw [hsuf] at h
        obtain ⟨a, b, w, h', hw, hh, hd, hr⟩ := both p true h
        rw [stripSuffix_some.1 hsuf, hd, hr, List.append_assoc]
        exact .full hw hh
      | none =>
        rw [hsuf] at h
        obtain ⟨a, b, w, h', hw, hh, hd, hr⟩ := both s false h
        rw [hd, hr]
        exact .windowed hw hh
  · intro h
    cases h with
    | desktop => rfl
    | windowed hw hh =>
      rename_i a b w h
      have hx : 'x' ∉ a := decimal_free hw (by decide)
      have hs : splitOnce 'x' (a ++ 'x' :: b) = some (a, b) := splitOnce_some.2 ⟨hx, rfl⟩
      have hsuf : stripSuffix "fs".toList (a ++ 'x' :: b) = none := by
        cases hc : stripSuffix "fs".toList (a ++ 'x' :: b) with
        | none => rfl
        | some p =>
          exfalso
          have := stripSuffix_some.1 hc
          have hl := congrArg List.getLast? this
          obtain ⟨ds, hb, hne, _⟩ := hh
          have hbne : b ≠ [] := by rcases hb with rfl | rfl <;> simp [hne]
          rw [List.getLast?_append, List.getLast?_append] at hl
          have hbl : ('x' :: b).getLast? = b.getLast? := by
            cases b with
            | nil => exact absurd rfl hbne
            | cons y ys => simp [List.getLast?_cons]
          rw [hbl] at hl
          have hlb : b.getLast? = some 's' := by
            cases hbb : b.getLast? with
            | none => rw [List.getLast?_eq_none_iff] at hbb; exact absurd hbb hbne
            | some y => rw [hbb] at hl; simpa using hl
          exact decimal_free ⟨ds, hb, hne, by assumption⟩ (c := 's') (by decide) (List.mem_of_getLast? hlb)
      have hne : ¬ (a ++ 'x' :: b) = "fs".toList := by
        intro hc
        have : 'x' ∈ "fs".toList := by rw [← hc]; simp
        simp at this
      rw [if_neg hne, hsuf]
      simp only [hs, parseNonZero_ok.2 hw, parseNonZero_ok.2 hh]
      rfl
    | full hw hh =>
      rename_i a b w h
      have hx : 'x' ∉ a := decimal_free hw (by decide)
      have hs : splitOnce 'x' (a ++ 'x' :: b) = some (a, b) := splitOnce_some.2 ⟨hx, rfl⟩
      have hsuf : stripSuffix "fs".toList (a ++ 'x' :: (b ++ "fs".toList)) = some (a ++ 'x' :: b) :=
        stripSuffix_some.2 (by simp)
      have hne : ¬ (a ++ 'x' :: (b ++ "fs".toList)) = "fs".toList := by
        intro hc
        have : 'x' ∈ "fs".toList := by rw [← hc]; simp
        simp at this
      rw [if_neg hne, hsuf]
      simp only [hs, parseNonZero_ok.2 hw, parseNonZero_ok.2 hh]
      rfl

example : parseResolution "800x600fs".toList = .ok (.fullScreen 800 600) ∧ Resolves "800x600fs".toList (.fullScreen 800 600) :=
  ⟨by decide, C52_resolution.1 (by decide)⟩

/-- A size of zero is not accepted. -/
example : ¬ ∃ r, Resolves "800x0".toList r := fun ⟨_, h⟩ => by
  have h1 : parseResolution "800x0".toList = .error (.height "0".toList "800x0".toList .zero) := by decide
  rw [C52_resolution.2 h] at h1
  cases h1

/-! ## C52: flags -/

theorem splitOn_intercalate {sep : Char} (items : List Str) (hne : items ≠ []) (hs : ∀ i ∈ items, sep ∉ i) :
    splitOn sep (List.intercalate [sep] items) = items := by
  induction items with
  | nil => exact absurd rfl hne
  | cons i rest ih =>
    have step : ∀ (i t : Str), sep ∉ i → splitOn sep (i ++ sep :: t) = i :: splitOn sep t := by
      intro i t h
      induction i with
      | nil => simp [splitOn]
      | cons c i ih2 =>
        simp only [List.mem_cons, not_or] at h
        simp only [List.cons_append, splitOn, if_neg (fun hc : c = sep => h.1 hc.symm), ih2 h.2]
    have last : ∀ i : Str, sep ∉ i → splitOn sep i = [i] := by
      intro i h
      induction i with
      | nil => rfl
      | cons c i ih2 =>
        simp only [List.mem_cons, not_or] at h
        simp only [splitOn, if_neg (fun hc : c = sep => h.1 hc.symm), ih2 h.2]
    cases rest with
    | nil => simpa using last i (hs i (List.mem_cons_self ..))
    | cons j rest =>
      have := ih (by simp) (fun k hk => hs k (List.mem_cons_of_mem _ hk))
      have e : List.intercalate [sep] (i :: j :: rest) = i ++ sep :: List.intercalate [sep] (j :: rest) := by
        simp [List.intercalate, List.intersperse]
      rw [e, step i _ (hs i (List.mem_cons_self ..)), this]

/-- What is in the specification after some queries. -/
structure Remains (items : List Str) (qs : List Query) (c : ConsoleSpec) : Prop where
  flags : ∀ f, f ∈ c.flags ↔ Plain items f ∧ .flag f ∉ qs
  nodup : c.flags.Nodup
  keyed : ∀ k v, c.keyed.get? k = some v ↔ LastValue items k v ∧ .keyed k ∉ qs
  wf : c.keyed.Wf

theorem lastValue_snoc_other {items : List Str} {x k v : Str} (hx : ∀ v', x ≠ k ++ '=' :: v') :
    LastValue (items ++ [x]) k v ↔ LastValue items k v := by
  constructor
  · rintro ⟨hk, before, after, he, ha⟩
    refine ⟨hk, ?_⟩
    rcases List.eq_nil_or_concat after with rfl | ⟨after', y, rfl⟩
    · have := (List.append_inj' he rfl).2
      simp at this
      exact absurd this (hx v)
    · rw [List.concat_eq_append, ← List.cons_append, ← List.append_assoc] at he
      obtain ⟨h1, _⟩ := List.append_inj' he rfl
      exact ⟨before, after', h1, fun v' hv => ha v' (by simp [hv])⟩
  · rintro ⟨hk, before, after, rfl, ha⟩
    refine ⟨hk, before, after ++ [x], by simp, fun v' hv => ?_⟩
    rcases List.mem_append.1 hv with h | h
    · exact ha v' h
    · simp at h; exact hx v' h.symm

theorem lastValue_snoc_same {items : List Str} {k v v' : Str} (hk : '=' ∉ k) :
    LastValue (items ++ [k ++ '=' :: v']) k v ↔ v = v' := by
  constructor
  · rintro ⟨_, before, after, he, ha⟩
    rcases List.eq_nil_or_concat after with rfl | ⟨after', y, rfl⟩
    · have := (List.append_inj' he rfl).2
      simp at this
      exact this.symm
    · rw [List.concat_eq_append, ← List.cons_append, ← List.append_assoc] at he
      have := (List.append_inj' he rfl).2
      simp only [List.cons.injEq, and_true] at this
      exact absurd (show k ++ '=' :: v' ∈ after'.concat y by rw [this]; simp) (ha v')
  · rintro rfl
    exact ⟨hk, items, [], rfl, by simp⟩

theorem remains_init {driver : Str} (items : List Str) : ∃ c, items.foldl ConsoleSpec.addFlag ⟨driver, [], []⟩ = c ∧
    c.driver = driver ∧ Remains items [] c := by
  refine ⟨_, rfl, ?_⟩
  induction items using List.reverseRecOn with
  | nil =>
    refine ⟨rfl, fun f => by simp [Plain], List.nodup_nil, fun k v => ?_, by simp [FMap.Wf]⟩
    simp [FMap.get?, LastValue]
  | append_singleton items x ih =>
    rw [List.foldl_append, List.foldl_cons, List.foldl_nil]
    obtain ⟨hd, ih⟩ := ih
    generalize items.foldl ConsoleSpec.addFlag ⟨driver, [], []⟩ = c at hd ih
    have plain : ∀ f, Plain (items ++ [x]) f ↔ Plain items f ∨ (f = x ∧ f ≠ [] ∧ '=' ∉ f) := by
      intro f
      unfold Plain
      simp only [List.mem_append, List.mem_singleton]
      tauto
    unfold ConsoleSpec.addFlag
    split
    next hx =>
      refine ⟨hd, fun f => ?_, ih.nodup, fun k v => ?_, ih.wf⟩
      · rw [ih.flags, plain]
        constructor
        · rintro ⟨h1, h2⟩; exact ⟨Or.inl h1, h2⟩
        · rintro ⟨h1 | h1, h2⟩
          · exact ⟨h1, h2⟩
          · exact absurd (h1.1.trans hx) h1.2.1
      · rw [ih.keyed, lastValue_snoc_other (by intro v' h; rw [hx] at h; simp at h)]
    next hx =>
      cases hs : splitOnce '=' x with
      | none =>
        have hn := splitOnce_none.1 hs
        refine ⟨hd, fun f => ?_, ?_, fun k v => ?_, ih.wf⟩
        · simp only
          have : f ∈ (if x ∈ c.flags then c.flags else x :: c.flags) ↔ f = x ∨ f ∈ c.flags := by
            split
            next h => exact ⟨Or.inr, fun h' => h'.elim (fun h' => h' ▸ h) id⟩
            · simp
          rw [this, ih.flags, plain]
          constructor
          · rintro (h | ⟨h, _⟩)
            · exact ⟨Or.inr ⟨h, by rw [h]; exact hx, by rw [h]; exact hn⟩, by simp⟩
            · exact ⟨Or.inl h, by simp⟩
          · rintro ⟨h | h, _⟩
            · exact Or.inr ⟨h, by simp⟩
            · exact Or.inl h.1
        · simp only
          split
          · exact ih.nodup
          next h => exact List.nodup_cons.2 ⟨h, ih.nodup⟩
        · rw [ih.keyed, lastValue_snoc_other (by intro v' h; rw [h] at hn; simp at hn)]
      | some kv =>
        obtain ⟨k0, v0⟩ := kv
        obtain ⟨hk0, hx0⟩ := splitOnce_some.1 hs
        refine ⟨hd, fun f => ?_, ih.nodup, fun k v => ?_, FMap.wf_insert ih.wf _ _⟩
        · simp only
          rw [ih.flags, plain]
          constructor
          · rintro ⟨h, h2⟩; exact ⟨Or.inl h, h2⟩
          · rintro ⟨h | h, h2⟩
            · exact ⟨h, h2⟩
            · exact absurd (by rw [h.1, hx0]; simp) h.2.2
        · simp only
          rw [FMap.get?_insert]
          by_cases hk : k = k0
          · subst hk
            rw [if_pos rfl, hx0, lastValue_snoc_same hk0]
            simp [eq_comm]
          · rw [if_neg hk, ih.keyed]
            by_cases hkk : '=' ∈ k
            · constructor
              · rintro ⟨h, _⟩; exact absurd hkk h.1
              · rintro ⟨h, _⟩; exact absurd hkk h.1
            · rw [lastValue_snoc_other]
              intro v' h
              have h1 : splitOnce '=' x = some (k, v') := splitOnce_some.2 ⟨hkk, h⟩
              rw [hs] at h1
              cases h1
              exact hk rfl

/-- The effect of a query. -/
def ConsoleSpec.ask (c : ConsoleSpec) : Query → ConsoleSpec
  | .flag f => (c.takeFlag f).2
  | .keyed k => (c.takeKeyed k).2

theorem remains_ask {items : List Str} {qs : List Query} {c : ConsoleSpec} (h : Remains items qs c) (q : Query) :
    (c.ask q).driver = c.driver ∧ Remains items (qs ++ [q]) (c.ask q) := by
  cases q with
  | flag f0 =>
    refine ⟨rfl, fun f => ?_, h.nodup.filter _, fun k v => ?_, h.wf⟩
    · show f ∈ c.flags.filter (· ≠ f0) ↔ _
      rw [List.mem_filter, h.flags]
      simp only [ne_eq, decide_not, Bool.not_eq_eq_eq_not, Bool.not_true, decide_eq_false_iff_not, List.mem_append,
        List.mem_singleton, Query.flag.injEq, not_or, and_assoc]
    · show c.keyed.get? k = some v ↔ _
      rw [h.keyed]
      simp
  | keyed k0 =>
    refine ⟨rfl, fun f => ?_, h.nodup, fun k v => ?_, FMap.wf_erase h.wf _⟩
    · show f ∈ c.flags ↔ _
      rw [h.flags]
      simp
    · show (c.keyed.erase k0).get? k = some v ↔ _
      rw [FMap.get?_erase]
      split
      next he => subst he; simp
      next hne =>
        rw [h.keyed]
        simp [hne]

theorem remains_asks {items : List Str} {c : ConsoleSpec} (h : Remains items [] c) (qs : List Query) :
    (qs.foldl ConsoleSpec.ask c).driver = c.driver ∧ Remains items qs (qs.foldl ConsoleSpec.ask c) := by
  induction qs using List.reverseRecOn with
  | nil => exact ⟨rfl, h⟩
  | append_singleton qs q ih =>
    rw [List.foldl_append, List.foldl_cons, List.foldl_nil]
    obtain ⟨h1, h2⟩ := remains_ask ih.2 q
    exact ⟨h1.trans ih.1, h2⟩

theorem init_remains {s driver : Str} {items : List Str} (hd : Describes s driver items) (hne : s ≠ []) :
    ∃ c, ConsoleSpec.init s = some c ∧ c.driver = driver ∧ Remains items [] c := by
  unfold ConsoleSpec.init
  rw [if_neg hne]
  obtain ⟨hc, hi, h⟩ := hd
  rcases h with ⟨rfl, rfl⟩ | ⟨hi0, rfl⟩
  · rw [splitOnce_none.2 hc]
    obtain ⟨c, h1, h2, h3⟩ := remains_init (driver := s) []
    refine ⟨_, rfl, ?_⟩
    subst h1
    exact ⟨rfl, h3⟩
  · rw [splitOnce_some.2 ⟨hc, rfl⟩]
    refine ⟨_, rfl, ?_⟩
    show ((splitOn ',' (List.intercalate [','] items)).foldl ConsoleSpec.addFlag ⟨driver, [], []⟩).driver = driver ∧
      Remains items [] ((splitOn ',' (List.intercalate [','] items)).foldl ConsoleSpec.addFlag ⟨driver, [], []⟩)
    rw [splitOn_intercalate items hi0 hi]
    obtain ⟨c, h1, h2, h3⟩ := remains_init (driver := driver) items
    subst h1
    exact ⟨h2, h3⟩

theorem keyed_last {items : List Str} {k : Str} : (∃ v, Keyed items k v) ↔ ∃ v, LastValue items k v := by
  constructor
  · rintro ⟨v, hk, hm⟩
    induction items using List.reverseRecOn with
    | nil => cases hm
    | append_singleton items x ih =>
      by_cases hx : ∃ v', x = k ++ '=' :: v'
      · obtain ⟨v', rfl⟩ := hx
        exact ⟨v', (lastValue_snoc_same hk).2 rfl⟩
      · rcases List.mem_append.1 hm with h | h
        · obtain ⟨v', hv⟩ := ih h
          exact ⟨v', (lastValue_snoc_other fun v'' he => hx ⟨v'', he⟩).2 hv⟩
        · simp at h; exact absurd ⟨v, h.symm⟩ hx
  · rintro ⟨v, hk, before, after, rfl, _⟩
    exact ⟨v, hk, by simp⟩

theorem splitOn_parts (sep : Char) (s : Str) :
    splitOn sep s ≠ [] ∧ (∀ i ∈ splitOn sep s, sep ∉ i) ∧ List.intercalate [sep] (splitOn sep s) = s := by
  induction s with
  | nil => exact ⟨by simp [splitOn], by simp [splitOn], rfl⟩
  | cons c s ih =>
    obtain ⟨h1, h2, h3⟩ := ih
    simp only [splitOn]
    split
    next hc =>
      subst hc
      refine ⟨by simp, by simpa using h2, ?_⟩
      cases hx : splitOn c s with
      | nil => exact absurd hx h1
      | cons x xs =>
        rw [hx] at h3
        have e : List.intercalate [c] ([] :: x :: xs) = c :: List.intercalate [c] (x :: xs) := by
          simp [List.intercalate, List.intersperse]
        rw [e, h3]
    next hc =>
      cases hx : splitOn sep s with
      | nil => exact absurd hx h1
      | cons x xs =>
        rw [hx] at h2 h3
        refine ⟨by simp, ?_, ?_⟩
        · intro i hi
          rcases List.mem_cons.1 hi with rfl | hi
          · intro hm
            rcases List.mem_cons.1 hm with h | h
            · exact hc h.symm
            · exact h2 x (List.mem_cons_self ..) h
          · exact h2 i (List.mem_cons_of_mem _ hi)
        · rw [← h3]
          cases xs <;> simp [List.intercalate, List.intersperse]

/-- Every text is a specification of that form. -/
theorem C52_describes (s : Str) : ∃ driver items, Describes s driver items := by
  cases h : splitOnce ':' s with
  | none => exact ⟨s, [], splitOnce_none.1 h, by simp, Or.inl ⟨rfl, rfl⟩⟩
  | some p =>
    obtain ⟨d, r⟩ := p
    obtain ⟨h1, h2⟩ := splitOnce_some.1 h
    obtain ⟨p1, p2, p3⟩ := splitOn_parts ',' r
    exact ⟨d, splitOn ',' r, h1, p2, Or.inr ⟨p1, by rw [p3]; exact h2⟩⟩

/-- The answers: a flag is there if it was written, a key has its last value; the second time they are gone. -/
theorem C52_queries {s driver : Str} {items : List Str} (hd : Describes s driver items) (hne : s ≠ []) (qs : List Query) :
    ∃ c, ConsoleSpec.init s = some c ∧
      (∀ f, ((qs.foldl ConsoleSpec.ask c).takeFlag f).1 = true ↔ Plain items f ∧ .flag f ∉ qs) ∧
      ∀ k v, ((qs.foldl ConsoleSpec.ask c).takeKeyed k).1 = some v ↔ LastValue items k v ∧ .keyed k ∉ qs := by
  obtain ⟨c, h1, h2, h3⟩ := init_remains hd hne
  obtain ⟨_, h4⟩ := remains_asks h3 qs
  refine ⟨c, h1, fun f => ?_, fun k v => h4.keyed k v⟩
  show decide _ = true ↔ _
  rw [decide_eq_true_iff]
  exact h4.flags f

theorem strLe_total : ∀ a b : Str, strLe a b || strLe b a
  | [], _ => rfl
  | _ :: _, [] => rfl
  | a :: as, b :: bs => by
    simp only [strLe]
    have := strLe_total as bs
    rcases Nat.lt_trichotomy a.toNat b.toNat with h | h | h
    · have : a < b := h
      simp [this]
    · have : a = b := Char.toNat_inj.1 h
      subst this
      simpa [strLe] using strLe_total as bs
    · have : b < a := h
      simp [this]

theorem strLe_trans : ∀ a b c : Str, strLe a b → strLe b c → strLe a c
  | [], _, _, _, _ => by simp [strLe]
  | _ :: _, [], _, h, _ => by simp [strLe] at h
  | _ :: _, _ :: _, [], _, h => by simp [strLe] at h
  | a :: as, b :: bs, c :: cs, h1, h2 => by
    simp only [strLe, Bool.or_eq_true, decide_eq_true_iff, Bool.and_eq_true, beq_iff_eq] at h1 h2 ⊢
    rcases h1 with h1 | ⟨rfl, h1⟩
    · rcases h2 with h2 | ⟨rfl, h2⟩
      · exact Or.inl (Nat.lt_trans (show a.toNat < b.toNat from h1) h2)
      · exact Or.inl h1
    · rcases h2 with h2 | ⟨rfl, h2⟩
      · exact Or.inl h2
      · exact Or.inr ⟨rfl, strLe_trans as bs cs h1 h2⟩

/-- At the end, every flag of the specification was consumed by a query or is reported, in order and with the name of
the driver. -/
theorem C52_finish {s driver : Str} {items : List Str} (hd : Describes s driver items) (hne : s ≠ []) (qs : List Query) :
    ∃ c, ConsoleSpec.init s = some c ∧
      ((qs.foldl ConsoleSpec.ask c).finish = .ok () ↔ (∀ f, Plain items f → .flag f ∈ qs) ∧ ∀ k v, Keyed items k v → .keyed k ∈ qs) ∧
      ∀ e, (qs.foldl ConsoleSpec.ask c).finish = .error e → ∃ names, e = .unknown driver names ∧
        names.Pairwise (fun a b => strLe a b) ∧
        ∀ x, x ∈ names ↔ (Plain items x ∧ .flag x ∉ qs) ∨ ((∃ v, Keyed items x v) ∧ .keyed x ∉ qs) := by
  obtain ⟨c, h1, h2, h3⟩ := init_remains hd hne
  obtain ⟨h5, h4⟩ := remains_asks h3 qs
  refine ⟨c, h1, ?_⟩
  generalize qs.foldl ConsoleSpec.ask c = c' at h4 h5 ⊢
  have hkey : ∀ k, k ∈ c'.keyed.map (·.1) ↔ (∃ v, Keyed items k v) ∧ .keyed k ∉ qs := by
    intro k
    rw [keyed_last]
    constructor
    · intro h
      obtain ⟨e, he, rfl⟩ := List.mem_map.1 h
      have := (h4.keyed e.1 e.2).1 ((FMap.get?_eq_some h4.wf).2 he)
      exact ⟨⟨_, this.1⟩, this.2⟩
    · rintro ⟨⟨v, hv⟩, hq⟩
      exact List.mem_map.2 ⟨(k, v), (FMap.get?_eq_some h4.wf).1 ((h4.keyed k v).2 ⟨hv, hq⟩), rfl⟩
  refine ⟨?_, ?_⟩
  · unfold ConsoleSpec.finish
    constructor
    · intro h
      split at h
      next hc =>
        constructor
        · intro f hf
          by_contra hq
          have := (h4.flags f).2 ⟨hf, hq⟩
          rw [hc.1] at this
          cases this
        · intro k v hk
          by_contra hq
          have := (hkey k).2 ⟨⟨v, hk⟩, hq⟩
          rw [hc.2] at this
          cases this
      · cases h
    · rintro ⟨hf, hk⟩
      rw [if_pos]
      constructor
      · rw [List.eq_nil_iff_forall_not_mem]
        intro f h
        obtain ⟨h1, h2⟩ := (h4.flags f).1 h
        exact h2 (hf f h1)
      · rw [List.eq_nil_iff_forall_not_mem]
        intro e h
        obtain ⟨⟨v, h1⟩, h2⟩ := (hkey e.1).1 (List.mem_map.2 ⟨e, h, rfl⟩)
        exact h2 (hk _ v h1)
  · intro e h
    unfold ConsoleSpec.finish at h
    split at h
    · cases h
    · cases h
      refine ⟨_, by rw [h5, h2], List.pairwise_mergeSort strLe_trans strLe_total _, fun x => ?_⟩
      rw [List.mem_mergeSort, List.mem_append, h4.flags, hkey]

/-- `sdl:a,b=1,b=2` is of that form. -/
example : Describes "sdl:a,b=1,b=2".toList "sdl".toList ["a".toList, "b=1".toList, "b=2".toList] ∧
    (ConsoleSpec.init "sdl:a,b=1,b=2".toList).map (fun c => ((c.takeKeyed "b".toList).1, (c.ask (.keyed "b".toList)).finish)) =
      some (some "2".toList, .error (.unknown "sdl".toList ["a".toList])) := by
  refine ⟨⟨by decide, by decide, Or.inr ⟨by decide, by decide⟩⟩, by decide +kernel⟩

end EB
