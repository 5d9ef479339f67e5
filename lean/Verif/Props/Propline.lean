import Verif.Spec.Propline
import Verif.Props.Readline
import Mathlib.Data.List.Induction
/-!
# C80: a script gets the console that its second line asks for
-/

namespace EB

open Spec

theorem takeLine_eol {a b : Str} (h : '\n' ∉ a) : takeLine (a ++ '\n' :: b) = (a ++ ['\n'], b) := by
  induction a with
  | nil => simp [takeLine]
  | cons c a ih =>
    simp only [List.mem_cons, not_or] at h
    rw [List.cons_append, takeLine, if_neg (Ne.symm h.1), ih h.2]
    rfl

theorem takeLine_end {a : Str} (h : '\n' ∉ a) : takeLine a = (a, []) := by
  induction a with
  | nil => rfl
  | cons c a ih =>
    simp only [List.mem_cons, not_or] at h
    rw [takeLine, if_neg (Ne.symm h.1), ih h.2]

theorem strip_end {a : Str} (h : '\n' ∉ a) : stripNewline a = a := by
  unfold stripNewline popIf
  rw [if_neg fun e => h (List.mem_of_getLast? e)]

theorem strip_eol {a : Str} (h : a.getLast? ≠ some '\r') : stripNewline (a ++ ['\n']) = a := by
  unfold stripNewline popIf
  rw [if_pos (by simp)]
  simp [h]

theorem strip_crlf (a : Str) : stripNewline (a ++ ['\r'] ++ ['\n']) = a := by
  unfold stripNewline popIf
  rw [if_pos (by simp)]
  simp

theorem strip_first (a : Str) : "#!".toList.isPrefixOf (stripNewline ("#!".toList ++ a ++ ['\n'])) = true := by
  by_cases h : ("#!".toList ++ a).getLast? = some '\r'
  · have : ∃ b, "#!".toList ++ a = "#!".toList ++ b ++ ['\r'] := by
      cases a using List.reverseRecOn with
      | nil => simp at h
      | append_singleton b c =>
        rw [← List.append_assoc, List.getLast?_append_cons] at h
        simp at h
        exact ⟨b, by rw [h, List.append_assoc]⟩
    obtain ⟨b, e⟩ := this
    rw [e, strip_crlf]
    simp [List.isPrefixOf]
  · rw [strip_eol h]
    simp [List.isPrefixOf]

theorem size_zero {s : Str} : byteLen s = 0 ↔ s = [] := by
  cases s with
  | nil => simp [byteLen]
  | cons c s => have := Char.utf8Size_pos c; simp [byteLen]; omega

/-- Only the second line counts. -/
theorem extract_second {text line : Str} (h : SecondLine text line) : extractPropline text = parsePropline line := by
  obtain ⟨first, tail, rfl, h1, h2, h3⟩ := h
  have hf : '\n' ∉ "#!".toList ++ first := by simp [h1]
  have e : "#!".toList ++ first ++ ['\n'] ++ line ++ tail = ("#!".toList ++ first) ++ '\n' :: (line ++ tail) := by simp
  unfold extractPropline
  rw [e, takeLine_eol hf]
  simp only
  rw [if_neg (by rw [size_zero]; simp), strip_first, if_neg (by simp)]
  rcases h3 with ⟨rfl, hne⟩ | ⟨⟨more, rfl⟩, hl⟩ | ⟨more, rfl⟩
  · rw [List.append_nil, takeLine_end h2]
    simp only
    rw [if_neg (by rw [size_zero]; exact hne), strip_end h2]
  · rw [takeLine_eol h2]
    simp only
    rw [if_neg (by rw [size_zero]; simp), strip_eol hl]
  · have e : line ++ '\r' :: '\n' :: more = (line ++ ['\r']) ++ '\n' :: more := by simp
    rw [e, takeLine_eol (by simp [h2])]
    simp only
    rw [if_neg (by rw [size_zero]; simp), strip_crlf]

theorem stripPrefix_append (p s : Str) : stripPrefix p (p ++ s) = some s := by
  unfold stripPrefix
  rw [if_pos (by rw [List.isPrefixOf_iff_prefix]; exact ⟨s, rfl⟩)]
  simp

theorem stripPrefix_some {p s t : Str} (h : stripPrefix p s = some t) : s = p ++ t := by
  unfold stripPrefix at h
  split at h
  next h' =>
    rw [List.isPrefixOf_iff_prefix] at h'
    obtain ⟨u, rfl⟩ := h'
    simp at h
    rw [h]
  next => exact absurd h (by simp)

theorem low_letter (c : Char) : (if 'A' ≤ c ∧ c ≤ 'Z' then Char.ofNat (c.toNat + 32) else c) = c.toLower := by
  unfold Char.toLower
  by_cases h : 'A' ≤ c ∧ c ≤ 'Z'
  · rw [if_pos h]
    have h1 : c.val ≥ 'A'.val ∧ c.val ≤ 'Z'.val := h
    rw [dif_pos h1]
    have key : ∀ n < 26, ∀ c : Char, c.toNat = 65 + n → Char.ofNat (c.toNat + 32) = c.toLower := by
      intro n hn c hc
      have : c = Char.ofNat (65 + n) := by rw [← hc, Char.ofNat_toNat]
      subst this
      revert n
      decide
    have hl : 65 ≤ c.toNat ∧ c.toNat ≤ 90 := h1
    have := key (c.toNat - 65) (by omega) c (by omega)
    rw [this]
    unfold Char.toLower
    rw [dif_pos h1]
  · have h1 : ¬ (c.val ≥ 'A'.val ∧ c.val ≤ 'Z'.val) := h
    rw [if_neg h, dif_neg h1]

theorem low_eq (s : Str) : asciiCase.low s = s.map Char.toLower := List.map_congr_left fun c _ => low_letter c

theorem lower_cases (c : Char) : c.toLower = c ∨ c.toNat < 128 := by
  unfold Char.toLower
  split
  next h =>
    have h2 : c.toNat ≤ 90 := h.2
    exact .inr (by omega)
  next => exact .inl rfl

theorem lower_small {c d : Char} (hd : d.toNat < 128) (h : c.toLower = d) : c.utf8Size = 1 := by
  have hc : c.toNat < 128 := by
    rcases lower_cases c with e | e
    · rw [← e, h]; exact hd
    · exact e
  unfold Char.utf8Size
  have : c.val ≤ 127 := by
    show c.toNat ≤ 127
    omega
  simp [this]

theorem lower_space {c : Char} (h : c.toLower = ' ') : c = ' ' := by
  by_cases h' : 'A' ≤ c ∧ c ≤ 'Z'
  · exfalso
    have h1 : 65 ≤ c.toNat := h'.1
    have h2 : c.toNat ≤ 90 := h'.2
    have key : ∀ n < 26, (Char.ofNat (65 + n)).toLower ≠ ' ' := by decide
    have := key (c.toNat - 65) (by omega)
    rw [show 65 + (c.toNat - 65) = c.toNat by omega, Char.ofNat_toNat] at this
    exact this h
  · rw [← low_letter, if_neg h'] at h
    exact h

theorem map_three {w : Str} (h : w.map Char.toLower = "rem".toList) :
    ∃ a b c, w = [a, b, c] ∧ a.toLower = 'r' ∧ b.toLower = 'e' ∧ c.toLower = 'm' := by
  have e : "rem".toList = ['r', 'e', 'm'] := by decide
  rw [e] at h
  obtain ⟨a, w, rfl, h1, h⟩ := List.map_eq_cons_iff.1 h
  obtain ⟨b, w, rfl, h2, h⟩ := List.map_eq_cons_iff.1 h
  obtain ⟨c, w, rfl, h3, h⟩ := List.map_eq_cons_iff.1 h
  rw [List.map_eq_nil_iff.1 h]
  exact ⟨a, b, c, rfl, h1, h2, h3⟩

theorem map_four {w : Str} (h : w.map Char.toLower = "rem ".toList) :
    ∃ a b c d, w = [a, b, c, d] ∧ a.toLower = 'r' ∧ b.toLower = 'e' ∧ c.toLower = 'm' ∧ d.toLower = ' ' := by
  have e : "rem ".toList = ['r', 'e', 'm', ' '] := by decide
  rw [e] at h
  obtain ⟨a, w, rfl, h1, h⟩ := List.map_eq_cons_iff.1 h
  obtain ⟨b, w, rfl, h2, h⟩ := List.map_eq_cons_iff.1 h
  obtain ⟨c, w, rfl, h3, h⟩ := List.map_eq_cons_iff.1 h
  obtain ⟨d, w, rfl, h4, h⟩ := List.map_eq_cons_iff.1 h
  rw [List.map_eq_nil_iff.1 h]
  exact ⟨a, b, c, d, rfl, h1, h2, h3, h4⟩

theorem rem_size {w : Str} (h : w.map Char.toLower = "rem".toList) : byteLen (w ++ [' ']) = 4 ∧ ¬ "' ".toList <+: w ++ [' '] := by
  obtain ⟨a, b, c, rfl, h'⟩ := map_three h
  refine ⟨?_, ?_⟩
  · simp only [List.cons_append, List.nil_append, byteLen, lower_small (d := 'r') (by decide) h'.1, lower_small (d := 'e') (by decide) h'.2.1,
      lower_small (d := 'm') (by decide) h'.2.2]
    decide
  · intro hp
    have e : "' ".toList = ['\'', ' '] := by decide
    rw [e] at hp
    have : a = '\'' := (List.cons_prefix_cons.1 hp).1.symm
    rw [this] at h'
    exact absurd h'.1 (by decide)

theorem takeBytes_front (t u : Str) : takeBytes (t ++ u) (byteLen t) = some t := by
  have := takeBytes_boundary (t ++ u) t.length
  simpa using this

theorem dropBytes_front (t u : Str) : dropBytes (t ++ u) (byteLen t) = some u := by
  induction t with
  | nil => cases u <;> rfl
  | cons c t ih =>
    have hc := Char.utf8Size_pos c
    obtain ⟨k, hk⟩ : ∃ k, c.utf8Size + byteLen t = k + 1 := ⟨c.utf8Size + byteLen t - 1, by omega⟩
    rw [byteLen, hk, List.cons_append, dropBytes, if_pos (by omega), ← ih]
    congr 1
    omega

theorem takeBytes_split : ∀ {s t : Str} {n : Nat}, takeBytes s n = some t → ∃ u, s = t ++ u ∧ byteLen t = n
  | s, t, 0, h => by
    have : t = [] := by cases s <;> simpa [takeBytes] using h.symm
    subst this
    exact ⟨s, rfl, rfl⟩
  | [], t, n + 1, h => by simp [takeBytes] at h
  | c :: s, t, n + 1, h => by
    rw [takeBytes] at h
    split at h
    next hc =>
      obtain ⟨t', h1, rfl⟩ := Option.map_eq_some_iff.1 h
      obtain ⟨u, rfl, hl⟩ := takeBytes_split h1
      exact ⟨u, rfl, by rw [byteLen, hl]; omega⟩
    next => exact absurd h (by simp)

/-- A remark that is not empty is found. -/
theorem comment_of_remark {line remark : Str} (h : Remark line remark) (hne : remark ≠ []) : lineComment line = .ok (some remark) := by
  unfold lineComment
  cases h with
  | quote => rw [stripPrefix_append]
  | @rem word _ hw =>
    obtain ⟨h4, hq⟩ := rem_size hw
    have hn : stripPrefix "' ".toList (word ++ [' '] ++ remark) = none := by
      unfold stripPrefix
      rw [if_neg]
      rw [List.isPrefixOf_iff_prefix]
      intro hp
      refine hq (List.prefix_of_prefix_length_le hp (List.prefix_append _ _) ?_)
      obtain ⟨a, b, c, rfl, -⟩ := map_three hw
      simp
    have hlen : byteLen (word ++ [' '] ++ remark) = 4 + byteLen remark := by rw [byteLen_append, h4]
    have hr : byteLen remark ≠ 0 := fun e => hne (size_zero.1 e)
    rw [hn]
    simp only
    rw [if_neg (by omega), ← h4, takeBytes_front]
    simp only
    have hl : asciiCase.low (word ++ [' ']) = "rem ".toList := by
      rw [low_eq, List.map_append, hw]
      decide
    rw [if_pos hl, dropBytes_front]

theorem remark_of_comment {line remark : Str} (h : lineComment line = .ok (some remark)) : Remark line remark := by
  unfold lineComment at h
  split at h
  next l hl =>
    cases h
    rw [stripPrefix_some hl]
    exact .quote
  next =>
    split at h
    · exact absurd h (by simp)
    · split at h
      · exact absurd h (by simp)
      next token ht =>
        obtain ⟨u, rfl, h4⟩ := takeBytes_split ht
        split at h
        next hl =>
          rw [← h4, dropBytes_front] at h
          cases h
          rw [low_eq] at hl
          obtain ⟨a, b, c, d, rfl, h'⟩ := map_four hl
          rw [lower_space h'.2.2.2]
          exact .rem (word := [a, b, c]) (by simp [h'.1, h'.2.1, h'.2.2.1])
        next => exact absurd h (by simp)

/-- C80: a script whose second line is a remark which asks for a console gets that console, word for word. -/
theorem C80_asks {text line spec : Str} (h : SecondLine text line) (hr : Remark line ("endbasic cli: console=".toList ++ spec))
    (hs : spec ≠ []) : extractPropline text = .ok (some spec) := by
  rw [extract_second h]
  unfold parsePropline
  rw [comment_of_remark hr (by simp)]
  have e : "endbasic cli: console=".toList ++ spec = "endbasic cli: ".toList ++ ("console=".toList ++ spec) := by simp
  simp only
  rw [e, stripPrefix_append]
  simp only
  rw [stripPrefix_append]
  simp only
  rw [if_neg hs]

/-- C80: a script whose second line is a remark for the command line that does not name a console is refused. -/
theorem C80_refuses {text line rest : Str} (h : SecondLine text line) (hr : Remark line ("endbasic cli: ".toList ++ rest))
    (hs : ∀ spec, spec ≠ [] → rest ≠ "console=".toList ++ spec) : ∃ msg, extractPropline text = .error msg := by
  rw [extract_second h]
  unfold parsePropline
  rw [comment_of_remark hr (by simp)]
  simp only
  rw [stripPrefix_append]
  simp only
  split
  · exact ⟨_, rfl⟩
  next spec hp =>
    by_cases hne : spec = []
    · rw [if_pos hne]; exact ⟨_, rfl⟩
    · exact absurd (stripPrefix_some hp) (hs spec hne)

/-- C80, in part: any other second line is left alone, if the fourth byte of the line is the last one of a character.  That it is left alone
in all cases is false (`C80_counterexample`). -/
theorem C80_plain_partial {text line : Str} (h : SecondLine text line) (hr : ∀ rest, ¬ Remark line ("endbasic cli: ".toList ++ rest))
    (hb : byteLen line ≤ 4 ∨ ∃ i, byteLen (line.take i) = 4) : extractPropline text = .ok none := by
  rw [extract_second h]
  unfold parsePropline
  have hc : ∃ c, lineComment line = .ok c := by
    unfold lineComment
    split
    · exact ⟨_, rfl⟩
    · split
      · exact ⟨_, rfl⟩
      next h4 =>
        rcases hb with hb | ⟨i, hi⟩
        · exact absurd hb h4
        · have e1 : takeBytes line 4 = some (line.take i) := hi ▸ takeBytes_boundary line i
          have e2 : dropBytes line 4 = some (line.drop i) := hi ▸ dropBytes_boundary line i
          rw [e1, e2]
          simp only
          split <;> exact ⟨_, rfl⟩
  obtain ⟨c, hc⟩ := hc
  rw [hc]
  cases c with
  | none => rfl
  | some remark =>
    simp only
    split
    · rfl
    next payload hp =>
      have := remark_of_comment hc
      rw [stripPrefix_some hp] at this
      exact absurd this (hr payload)

/-- C80: a script that does not begin with `#!`, or that has nothing after its first line, asks for nothing. -/
theorem C80_none {text : Str} (h : (∀ more, text ≠ "#!".toList ++ more) ∨ ∃ first, '\n' ∉ first ∧ (text = first ∨ text = first ++ ['\n'])) :
    extractPropline text = .ok none := by
  unfold extractPropline
  rcases h with h | ⟨first, hf, rfl | rfl⟩
  · have hsplit : ∀ t : Str, (takeLine t).1 <+: t := by
      intro t
      induction t with
      | nil => exact List.prefix_refl _
      | cons c t ih =>
        unfold takeLine
        split
        next e => subst e; exact ⟨t, rfl⟩
        next => exact List.cons_prefix_cons.2 ⟨rfl, ih⟩
    have hstrip : ∀ t : Str, stripNewline t <+: t := by
      intro t
      unfold stripNewline popIf
      split
      next s' hs =>
        split at hs
        · cases hs
          split
          · exact (List.dropLast_prefix _).trans (List.dropLast_prefix _)
          · exact List.dropLast_prefix _
        · exact absurd hs (by simp)
      next => exact List.prefix_refl _
    simp only
    split
    · rfl
    · rw [if_pos]
      rw [Bool.not_eq_true', Bool.eq_false_iff, ne_eq, List.isPrefixOf_iff_prefix]
      intro hp
      obtain ⟨more, e⟩ := hp.trans ((hstrip _).trans (hsplit _))
      exact h more e.symm
  · rw [takeLine_end hf]
    simp only
    split
    · rfl
    · split
      · rfl
      · rw [if_pos (by rfl)]
  · rw [takeLine_eol hf]
    simp only
    split
    · rfl
    · split
      · rfl
      · rw [if_pos (by rfl)]

set_option maxRecDepth 100000 in
/-- C80 fails: a script whose second line is `b="é"` crashes the command line. -/
theorem C80_counterexample : ∃ text line, SecondLine text line ∧ (∀ rest, ¬ Remark line ("endbasic cli: ".toList ++ rest)) ∧
    extractPropline text = .panic := by
  refine ⟨"#!/usr/bin/env endbasic\nb=\"é\"\nPRINT b\n".toList, "b=\"é\"".toList,
    ⟨"/usr/bin/env endbasic".toList, "\nPRINT b\n".toList, by decide +kernel, by decide +kernel, by decide +kernel,
      .inr (.inl ⟨⟨"PRINT b\n".toList, by decide +kernel⟩, by decide +kernel⟩)⟩, ?_, by decide +kernel⟩
  intro rest h
  have := comment_of_remark h (by simp)
  have e : lineComment "b=\"é\"".toList = .panic := by decide +kernel
  rw [e] at this
  exact absurd this (by simp)

set_option maxRecDepth 100000 in
/-- A script that asks for a graphical console. -/
example : SecondLine "#!/usr/bin/env endbasic\r\nRem endbasic cli: console=sdl:resolution=800x600\r\nPRINT 1".toList
      "Rem endbasic cli: console=sdl:resolution=800x600".toList ∧
    Remark "Rem endbasic cli: console=sdl:resolution=800x600".toList ("endbasic cli: console=".toList ++ "sdl:resolution=800x600".toList) :=
  ⟨⟨"/usr/bin/env endbasic\r".toList, "\r\nPRINT 1".toList, by decide +kernel, by decide +kernel, by decide +kernel,
    .inr (.inr ⟨"PRINT 1".toList, by decide +kernel⟩)⟩, .rem (word := "Rem".toList) (by decide +kernel)⟩

end EB
