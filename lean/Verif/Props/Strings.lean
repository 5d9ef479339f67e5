import Verif.Model.Strings
import Verif.Spec.Strings
/-!
# C31: string functions; C53: numeric prefixes
-/

namespace EB
open Spec

theorem utf8Size_pos' (c : Char) : 0 < c.utf8Size := Char.utf8Size_pos c

theorem charIndices_get (s : Str) (o i : Nat) :
    ((charIndices s o)[i]?).getD (o + byteLen s) = o + byteLen (s.take i) := by
  induction s generalizing o i with
  | nil => simp [charIndices, byteLen]
  | cons c s ih =>
    cases i with
    | zero => simp [charIndices, byteLen]
    | succ i =>
      have := ih (o + c.utf8Size) i
      simp only [charIndices, List.getElem?_cons_succ, byteLen, List.take_succ_cons]
      rw [← Nat.add_assoc, this, Nat.add_assoc]

theorem charIndexToByteIndex_eq (s : Str) (i : Nat) : charIndexToByteIndex s i = byteLen (s.take i) := by
  have := charIndices_get s 0 i
  simpa [charIndexToByteIndex] using this

theorem takeBytes_boundary (s : Str) (i : Nat) : takeBytes s (byteLen (s.take i)) = some (s.take i) := by
  induction s generalizing i with
  | nil => simp [byteLen, takeBytes]
  | cons c s ih =>
    cases i with
    | zero => simp [byteLen, takeBytes]
    | succ i =>
      have hp := utf8Size_pos' c
      simp only [List.take_succ_cons, byteLen]
      obtain ⟨n, hn⟩ : ∃ n, c.utf8Size + byteLen (s.take i) = n + 1 := ⟨c.utf8Size + byteLen (s.take i) - 1, by omega⟩
      rw [hn, takeBytes, if_pos (by omega), ← hn, Nat.add_sub_cancel_left, ih]; rfl

theorem dropBytes_boundary (s : Str) (i : Nat) : dropBytes s (byteLen (s.take i)) = some (s.drop i) := by
  induction s generalizing i with
  | nil => simp [byteLen, dropBytes]
  | cons c s ih =>
    cases i with
    | zero => simp [byteLen, dropBytes]
    | succ i =>
      have hp := utf8Size_pos' c
      simp only [List.take_succ_cons, byteLen, List.drop_succ_cons]
      obtain ⟨n, hn⟩ : ∃ n, c.utf8Size + byteLen (s.take i) = n + 1 := ⟨c.utf8Size + byteLen (s.take i) - 1, by omega⟩
      rw [hn, dropBytes, if_pos (by omega), ← hn, Nat.add_sub_cancel_left, ih]

theorem byteLen_append (a b : Str) : byteLen (a ++ b) = byteLen a + byteLen b := by
  induction a with
  | nil => simp [byteLen]
  | cons c a ih => simp [byteLen, ih]; omega

theorem byteLen_take_mono (s : Str) {i j : Nat} (h : i ≤ j) : byteLen (s.take i) ≤ byteLen (s.take j) := by
  have : s.take j = s.take i ++ (s.drop i).take (j - i) := by
    rw [← List.take_add]; congr 1; omega
  rw [this, byteLen_append]; omega

theorem sliceByCharRange_eq (s : Str) {a b : Nat} (h : a ≤ b) :
    sliceByCharRange s a b = some ((s.take b).drop a) := by
  unfold sliceByCharRange sliceBytes
  rw [charIndexToByteIndex_eq, charIndexToByteIndex_eq, if_pos (byteLen_take_mono s h), takeBytes_boundary]
  have : s.take a = (s.take b).take a := by rw [List.take_take, Nat.min_eq_left h]
  simp only [Option.bind_some]
  rw [this, dropBytes_boundary]

theorem findBytes_some {s search : Str} {off : Nat} (h : findBytes s search = some off) :
    ∃ k, off = byteLen (s.take k) ∧ k ≤ s.length ∧ search <+: s.drop k ∧ ∀ j, j < k → ¬ search <+: s.drop j := by
  induction s generalizing off with
  | nil =>
    unfold findBytes at h
    split at h
    next hp => simp at h; subst h; exact ⟨0, by simp [byteLen], by simp, by simpa using hp, by simp⟩
    · simp at h
  | cons c s ih =>
    unfold findBytes at h
    split at h
    next hp => simp at h; subst h; exact ⟨0, by simp [byteLen], by simp, by simpa using hp, by simp⟩
    next hp =>
      simp only [Option.map_eq_some_iff] at h
      obtain ⟨o, ho, rfl⟩ := h
      obtain ⟨k, h1, h2, h3, h4⟩ := ih ho
      refine ⟨k + 1, by simp [byteLen, h1], by simp; omega, by simpa using h3, ?_⟩
      intro j hj
      cases j with
      | zero => simpa using hp
      | succ j => simpa using h4 j (by omega)

theorem findBytes_none {s search : Str} (h : findBytes s search = none) (j : Nat) (hj : j ≤ s.length) :
    ¬ search <+: s.drop j := by
  induction s generalizing j with
  | nil =>
    unfold findBytes at h
    split at h
    · simp at h
    next hp => simp at hj; subst hj; simpa using hp
  | cons c s ih =>
    unfold findBytes at h
    split at h
    · simp at h
    next hp =>
      cases j with
      | zero => simpa using hp
      | succ j =>
        simp only [Option.map_eq_none_iff] at h
        simpa using ih h j (by simpa using hj)

/-! ## LEFT, RIGHT, MID, LEN, SPACE -/

/-- **C31** LEFT returns the first `n` characters. -/
theorem C31_left (s : Str) (n : Int) :
    leftFn s n = if n < 0 then .error "n% cannot be negative" else .ok (s.take n.toNat) := by
  unfold leftFn
  split
  · rfl
  · rw [sliceByCharRange_eq s (Nat.zero_le _)]
    simp only [Outcome.ofOption, List.drop_zero]
    congr 1
    rw [← List.take_take, List.take_of_length_le (i := s.length)]
    simp; omega

/-- **C31** RIGHT returns the last `n` characters: a suffix of length `min n (LEN s)`. -/
theorem C31_right (s : Str) (n : Int) :
    (n < 0 → rightFn s n = .error "n% cannot be negative") ∧
    (0 ≤ n → ∃ pre r, rightFn s n = .ok r ∧ s = pre ++ r ∧ r.length = min s.length n.toNat) := by
  unfold rightFn
  constructor
  · intro h; rw [if_pos h]
  · intro h
    rw [if_neg (by omega)]
    simp only
    rw [sliceByCharRange_eq s (by omega)]
    refine ⟨s.take (s.length - min s.length n.toNat), _, rfl, ?_, ?_⟩
    · simp
    · simp; omega

/-- **C31** MID skips `start` characters and returns up to `length` of the rest. -/
theorem C31_mid_partial (s : Str) (start : Int) (length : Option Int) :
    midFn s start length =
      if start < 0 then .error "start% cannot be negative"
      else match length with
        | none => .ok (s.drop start.toNat)
        | some l => if l < 0 then .error "length% cannot be negative"
            else .ok ((s.drop start.toNat).take l.toNat) := by
  unfold midFn
  split
  · rfl
  · simp only
    cases length with
    | none =>
      simp only
      rw [sliceByCharRange_eq s (by omega)]
      simp only [Outcome.ofOption, List.take_length]
      congr 1
      rcases Nat.le_total s.length start.toNat with h | h
      · rw [Nat.min_eq_left h, List.drop_length, List.drop_of_length_le h]
      · rw [Nat.min_eq_right h]
    | some l =>
      simp only
      split
      · rfl
      · rw [sliceByCharRange_eq s (by omega)]
        simp only [Outcome.ofOption]
        congr 1
        rcases Nat.le_total s.length start.toNat with h | h
        · rw [Nat.min_eq_left h, Nat.min_eq_right (by omega), List.take_length, List.drop_length,
            List.drop_of_length_le h]; simp
        · rw [Nat.min_eq_right h, List.take_drop]
          rcases Nat.le_total s.length (start.toNat + l.toNat) with h' | h'
          · rw [Nat.min_eq_right h', List.take_length, List.take_of_length_le h']
          · rw [Nat.min_eq_left h']

/-- **C31** The documentation of MID says that positions start at 1, but the code counts from 0:
the documented meaning (skip `start - 1` characters) fails. -/
theorem C31_mid_not_as_documented :
    ¬ ∀ (s : Str) (start : Int), 1 ≤ start → midFn s start none = .ok (s.drop (start - 1).toNat) := by
  intro h
  have := h "abc".toList 1 (by omega)
  revert this
  rw [C31_mid_partial]
  decide

/-- **C31** LEN counts characters (not bytes). -/
theorem C31_len (s : Str) (h : s.length < 2 ^ 31) : lenFn s = .ok s.length := by
  unfold lenFn; rw [if_pos h]

/-- **C31** SPACE returns `n` spaces. -/
theorem C31_space (n : Int) :
    (n < 0 → spaceFn n = .error "n% cannot be negative") ∧
    (0 ≤ n → ∃ r, spaceFn n = .ok r ∧ (r.length : Int) = n ∧ ∀ c ∈ r, c = ' ') := by
  unfold spaceFn
  constructor
  · intro h; rw [if_pos h]
  · intro h
    rw [if_neg (by omega)]
    refine ⟨_, rfl, by simp; omega, ?_⟩
    intro c hc
    exact (List.mem_replicate.mp hc).2

example : leftFn "añb".toList 2 = .ok "añ".toList ∧ rightFn "añb".toList 2 = .ok "ñb".toList ∧
    midFn "añb".toList 1 (some 1) = .ok "ñ".toList ∧ lenFn "añb".toList = .ok 3 := by decide +kernel

/-! ## ASC, CHR -/

/-- **C31** ASC returns the code point of a one-character string and rejects all others. -/
theorem C31_asc (s : Str) :
    (∀ c, s = [c] → ascFn s = .ok c.toNat) ∧
    (s.length ≠ 1 → ascFn s = .error "Input string must be 1-character long") := by
  constructor
  · rintro c rfl; rfl
  · match s with
    | [] => intro _; rfl
    | [c] => intro h; simp at h
    | _ :: _ :: _ => intro _; rfl

/-- **C31** CHR returns the one-character string with the given code point, exactly for the codes
of Unicode characters. -/
theorem C31_chr (i : Int) (s : Str) : chrFn i = .ok s ↔ ∃ c : Char, (c.toNat : Int) = i ∧ s = [c] := by
  unfold chrFn charFromU32
  constructor
  · intro h
    split at h
    · simp at h
    · split at h
      next c hc =>
        split at hc
        next hv =>
          simp only [Option.some.injEq] at hc
          subst hc
          simp only [Outcome.ok.injEq] at h
          refine ⟨_, ?_, h.symm⟩
          have : (Char.ofNatAux i.toNat hv).toNat = i.toNat := by
            simp [Char.ofNatAux, Char.toNat]
          rw [this]; omega
        · simp at hc
      · simp at h
  · rintro ⟨c, rfl, rfl⟩
    rw [if_neg (by omega)]
    have hv : Nat.isValidChar c.toNat := c.valid
    simp only [Int.toNat_natCast, dif_pos hv]
    congr 2

/-- **C31** ASC and CHR are inverse to each other. -/
theorem C31_asc_chr (c : Char) : ascFn [c] = .ok c.toNat ∧ chrFn c.toNat = .ok [c] :=
  ⟨rfl, (C31_chr _ _).mpr ⟨c, rfl, rfl⟩⟩

example : chrFn 0xF1 = .ok "ñ".toList ∧ chrFn 0xD800 = .error "Invalid character code" := by
  constructor
  · exact (C31_chr _ _).mpr ⟨'ñ', rfl, rfl⟩
  · decide +kernel

/-! ## INSTR -/

theorem asI32_small {n : Nat} (h : n < 2 ^ 31) : asI32 n = n := by
  unfold asI32
  rw [BitVec.toInt_eq_toNat_of_lt] <;> simp <;> omega

theorem occursAt_iff {s search : Str} {p : Nat} :
    OccursAt s search p ↔ 1 ≤ p ∧ p - 1 ≤ s.length ∧ search <+: s.drop (p - 1) := by
  constructor
  · rintro ⟨pre, post, rfl, rfl⟩
    simp
  · rintro ⟨h1, h2, post, h3⟩
    refine ⟨s.take (p - 1), post, ?_, by simp; omega⟩
    rw [List.append_assoc, h3, List.take_append_drop]

/-- **C31** INSTR returns the first position, not before `start`, at which `search` occurs in `s`,
and 0 if there is none; `start` must be positive. -/
theorem C31_instr (start : Option Int) (s search : Str) (hs : s.length + 1 < 2 ^ 31) :
    (start.getD 1 ≤ 0 → instrFn start s search = .error "start% must be positive") ∧
    (0 < start.getD 1 → ∃ r : Nat, instrFn start s search = .ok r ∧
      ((r ≠ 0 ∧ start.getD 1 ≤ r ∧ OccursAt s search r ∧
          ∀ q : Nat, start.getD 1 ≤ q → q < r → ¬ OccursAt s search q) ∨
       (r = 0 ∧ ∀ q : Nat, start.getD 1 ≤ q → ¬ OccursAt s search q))) := by
  unfold instrFn
  generalize start.getD 1 = st
  constructor
  · intro h; simp only; rw [if_pos h]
  · intro h
    simp only
    rw [if_neg (by omega)]
    obtain ⟨k, hk⟩ : ∃ k : Nat, st = k + 1 := ⟨(st - 1).toNat, by omega⟩
    subst hk
    have e : ((k : Int) + 1 - 1).toNat = k := by omega
    rw [e]
    split
    next hlt =>
      refine ⟨0, rfl, .inr ⟨rfl, ?_⟩⟩
      intro q hq hocc
      have := (occursAt_iff.mp hocc).2.1
      omega
    next hle =>
      split
      next hempty =>
        refine ⟨k + 1, by rw [asI32_small (by omega)], .inl ⟨by omega, by omega, ?_, by intro q h1 h2; omega⟩⟩
        rw [occursAt_iff]
        have : search = [] := by simpa using hempty
        subst this
        exact ⟨by omega, by omega, List.nil_prefix⟩
      · rw [charIndexToByteIndex_eq, dropBytes_boundary]
        simp only
        split
        next off hoff =>
          obtain ⟨j, h1, h2, h3, h4⟩ := findBytes_some hoff
          have hb : byteLen (s.take k) + off = byteLen (s.take (k + j)) := by
            rw [h1, ← byteLen_append, List.take_add]
          rw [hb]
          unfold byteIndexToCharIndex
          rw [takeBytes_boundary]
          simp only [Option.map_some]
          rw [List.length_drop] at h2
          have hl : (s.take (k + j)).length = k + j := by simp; omega
          rw [hl]
          refine ⟨k + j + 1, by rw [asI32_small (by omega)], .inl ⟨by omega, by omega, ?_, ?_⟩⟩
          · rw [occursAt_iff]
            refine ⟨by omega, by omega, ?_⟩
            rw [List.drop_drop] at h3
            simpa using h3
          · intro q h5 h6 hocc
            obtain ⟨c1, c2, c3⟩ := occursAt_iff.mp hocc
            apply h4 (q - 1 - k) (by omega)
            rw [List.drop_drop]
            have : k + (q - 1 - k) = q - 1 := by omega
            rw [this]; exact c3
        next hnone =>
          refine ⟨0, rfl, .inr ⟨rfl, ?_⟩⟩
          intro q hq hocc
          obtain ⟨c1, c2, c3⟩ := occursAt_iff.mp hocc
          apply findBytes_none hnone (q - 1 - k) (by rw [List.length_drop]; omega)
          rw [List.drop_drop]
          have : k + (q - 1 - k) = q - 1 := by omega
          rw [this]; exact c3

example : instrFn none "ñandú ñ".toList "ñ".toList = .ok 1 ∧
    instrFn (some 2) "ñandú ñ".toList "ñ".toList = .ok 7 := by decide +kernel

/-! ## Trimming -/

theorem dropWhile_spec (w : Char → Bool) (s : Str) : IsTrimStart w s (s.dropWhile w) := by
  refine ⟨s.takeWhile w, by simp, ?_, ?_⟩
  · intro c hc; exact List.all_takeWhile (p := w) (l := s) |> List.all_eq_true.mp |> fun h => h c hc
  · intro c hc
    have := List.head?_dropWhile_not w s
    rw [hc] at this; simpa using this

/-- **C31** LTRIM removes exactly the leading whitespace. -/
theorem C31_ltrim (s : Str) : IsTrimStart isWhite s (ltrimFn s) := dropWhile_spec isWhite s

/-- **C31** RTRIM removes exactly the trailing whitespace. -/
theorem C31_rtrim (s : Str) : IsTrimEnd isWhite s (rtrimFn s) := by
  obtain ⟨pre, h1, h2, h3⟩ := dropWhile_spec isWhite s.reverse
  refine ⟨pre.reverse, ?_, ?_, ?_⟩
  · unfold rtrimFn
    rw [← List.reverse_append, ← h1, List.reverse_reverse]
  · intro c hc; exact h2 c (by simpa using hc)
  · intro c hc
    apply h3
    unfold rtrimFn at hc
    simpa using hc

/-- **C31** TRIM removes exactly the leading and trailing whitespace. -/
theorem C31_trim (s : Str) : ∃ r, IsTrimStart isWhite s r ∧ IsTrimEnd isWhite r (trimFn s) :=
  ⟨ltrimFn s, C31_ltrim s, C31_rtrim _⟩

example : trimFn " \t a b \n".toList = "a b".toList := by decide +kernel


/-! ## C53: VAL -/

/-- Length of the sign at the start of `t`. -/
def signLen (t : Str) : Nat := if t.head? = some '+' ∨ t.head? = some '-' then 1 else 0

/-- Length of the exponent at the start of `r`. -/
def expLen (r : Str) : Nat :=
  if r.head? = some 'e' ∨ r.head? = some 'E' then
    let k := 1 + signLen (r.drop 1)
    let d := ((r.drop k).takeWhile isAsciiDigit).length
    if d > 0 then k + d else 0
  else 0

/-- Length of the mantissa at the start of `t`, if there is one. -/
def mantLen (t : Str) : Option Nat :=
  let d1 := (t.takeWhile isAsciiDigit).length
  if t[d1]? = some '.' then
    let d2 := ((t.drop (d1 + 1)).takeWhile isAsciiDigit).length
    if d1 = 0 ∧ d2 = 0 then none else some (d1 + 1 + d2)
  else if d1 = 0 then none else some d1

/-- Length of the numeric prefix. -/
def floatLen (s : Str) : Option Nat :=
  let k := signLen s
  (mantLen (s.drop k)).map fun m => k + m + expLen (s.drop (k + m))

theorem getElem?_head_drop (s : Str) (i : Nat) : s[i]? = (s.drop i).head? := by simp

theorem numericPrefix_eq (s : Str) :
    numericPrefix s = (floatLen (s.dropWhile isWhite)).map fun n => (s.dropWhile isWhite).take n := by
  unfold numericPrefix floatLen
  generalize s.dropWhile isWhite = s
  simp only [signLen, ← List.head?_eq_getElem?]
  generalize (if s.head? = some '+' ∨ s.head? = some '-' then 1 else 0) = k
  have hexp : ∀ i, (if s[i]? = some 'e' ∨ s[i]? = some 'E' then
        if skipDigits s (if s[i + 1]? = some '+' ∨ s[i + 1]? = some '-' then i + 1 + 1 else i + 1) >
          (if s[i + 1]? = some '+' ∨ s[i + 1]? = some '-' then i + 1 + 1 else i + 1)
        then skipDigits s (if s[i + 1]? = some '+' ∨ s[i + 1]? = some '-' then i + 1 + 1 else i + 1) else i
      else i) = i + expLen (s.drop i) := by
    intro i
    simp only [getElem?_head_drop, expLen, signLen, List.drop_drop, skipDigits]
    by_cases he : (s.drop i).head? = some 'e' ∨ (s.drop i).head? = some 'E'
    · rw [if_pos he, if_pos he]
      by_cases hs : (s.drop (i + 1)).head? = some '+' ∨ (s.drop (i + 1)).head? = some '-'
      · simp only [if_pos hs]
        rw [show i + (1 + 1) = i + 1 + 1 by omega]
        split <;> split <;> omega
      · simp only [if_neg hs]
        have e1 : i + (1 + 0) = i + 1 := by omega
        rw [e1]
        split <;> split <;> omega
    · rw [if_neg he, if_neg he]; rfl
  simp only [mantLen, List.getElem?_drop, List.drop_drop]
  have e1 : skipDigits s k = k + ((s.drop k).takeWhile isAsciiDigit).length := rfl
  rw [e1]
  generalize ((s.drop k).takeWhile isAsciiDigit).length = d1
  simp only [hexp]
  by_cases hdot : s[k + d1]? = some '.'
  · simp only [if_pos hdot, skipDigits]
    rw [show k + (d1 + 1) = k + d1 + 1 by omega]
    obtain ⟨d2, hd2⟩ : ∃ d2, ((s.drop (k + d1 + 1)).takeWhile isAsciiDigit).length = d2 := ⟨_, rfl⟩
    simp only [hd2]
    by_cases hz : d1 = 0 ∧ d2 = 0
    · obtain ⟨rfl, rfl⟩ := hz
      simp
    · rw [if_neg hz]
      have : ¬ ((!decide (k + d1 > k) && (k + d1 + 1 + d2 == k + d1 + 1)) = true) := by
        simp; omega
      rw [if_neg this]
      simp only [Option.map_some]
      rw [show k + (d1 + 1 + d2) = k + d1 + 1 + d2 by omega]
  · simp only [if_neg hdot]
    by_cases hz : d1 = 0
    · subst hz; simp
    · rw [if_neg hz]
      have : ¬ ((!decide (k + d1 > k)) = true) := by simp; omega
      rw [if_neg this]
      simp

theorem digit_iff {c : Char} : isAsciiDigit c = true ↔ '0' ≤ c ∧ c ≤ '9' := by
  simp [isAsciiDigit]

theorem digits_prefix {a u t : Str} (ha : ∀ c ∈ a, isAsciiDigit c = true) (h : a ++ u <+: t) :
    a.length ≤ (t.takeWhile isAsciiDigit).length ∧
    (∀ c u', u = c :: u' → isAsciiDigit c = false →
      a.length = (t.takeWhile isAsciiDigit).length ∧ u <+: t.drop a.length) := by
  obtain ⟨v, rfl⟩ := h
  rw [List.append_assoc, List.takeWhile_append_of_pos ha]
  refine ⟨by simp, ?_⟩
  rintro c u' rfl hc
  refine ⟨by simp [hc], ?_⟩
  simp

theorem not_digit_e : isAsciiDigit 'e' = false ∧ isAsciiDigit 'E' = false ∧ isAsciiDigit '.' = false ∧
    isAsciiDigit '+' = false ∧ isAsciiDigit '-' = false := by decide

theorem digits_all {d : Str} (h : Digits d) : ∀ c ∈ d, isAsciiDigit c = true :=
  fun c hc => digit_iff.mpr (h.2 c hc)

theorem takeWhile_digits {t : Str} (h : t.takeWhile isAsciiDigit ≠ []) : Digits (t.takeWhile isAsciiDigit) :=
  ⟨h, fun c hc => digit_iff.mp (List.all_eq_true.mp List.all_takeWhile c hc)⟩

theorem take_takeWhile (t : Str) : t.take (t.takeWhile isAsciiDigit).length = t.takeWhile isAsciiDigit := by
  have : t.takeWhile isAsciiDigit <+: t := List.takeWhile_prefix _
  exact (List.prefix_iff_eq_take.mp this).symm

theorem signLen_prefix {sg u t : Str} (hsg : SignOpt sg) (h : sg ++ u <+: t)
    (hu : ∃ c u', u = c :: u' ∧ c ≠ '+' ∧ c ≠ '-') : sg.length = signLen t ∧ u <+: t.drop sg.length := by
  obtain ⟨c, u', rfl, h1, h2⟩ := hu
  obtain ⟨v, rfl⟩ := h
  rcases hsg with rfl | rfl | rfl <;> simp [signLen, h1, h2]

theorem sign_take (t : Str) : SignOpt (t.take (signLen t)) := by
  unfold signLen SignOpt
  split
  next h =>
    match t with
    | [] => simp at h
    | c :: t => simp at h; rcases h with rfl | rfl <;> simp
  · simp

theorem exponent_le {x r : Str} (hx : Exponent x) (h : x <+: r) : x.length ≤ expLen r := by
  obtain ⟨e, sg, d, he, hsg, hd, rfl⟩ := hx
  obtain ⟨v, rfl⟩ := h
  have hh : (e :: (sg ++ d) ++ v).head? = some 'e' ∨ (e :: (sg ++ d) ++ v).head? = some 'E' := by
    rcases he with rfl | rfl <;> simp
  unfold expLen
  rw [if_pos hh]
  simp only [List.cons_append, List.drop_succ_cons, List.drop_zero]
  have hd' := digits_all hd
  obtain ⟨c, d', rfl⟩ := List.exists_cons_of_ne_nil hd.1
  have hc := hd' c (by simp)
  have hcs : c ≠ '+' ∧ c ≠ '-' := by
    constructor <;> (rintro rfl; simp [not_digit_e] at hc)
  have hs := signLen_prefix (u := c :: d') hsg (List.prefix_append (sg ++ c :: d') v) ⟨c, d', rfl, hcs.1, hcs.2⟩
  rw [← hs.1]
  have e1 : (e :: (sg ++ c :: d' ++ v)).drop (1 + sg.length) = c :: d' ++ v := by
    rw [Nat.add_comm, List.drop_succ_cons, List.append_assoc, List.drop_left]
  rw [e1]
  have := (digits_prefix (u := []) hd' (t := c :: d' ++ v) (by simp)).1
  have hpos : ((c :: d' ++ v).takeWhile isAsciiDigit).length > 0 := by
    simp only [List.length_cons] at this; omega
  rw [if_pos hpos]
  simp only [List.length_cons, List.length_append] at this ⊢
  omega

theorem expLen_take (r : Str) : r.take (expLen r) = [] ∨ Exponent (r.take (expLen r)) := by
  unfold expLen
  split
  next h =>
    simp only
    split
    next hd =>
      right
      match r with
      | [] => simp at h
      | e :: r =>
        refine ⟨e, r.take (signLen r), ((r.drop (signLen r)).takeWhile isAsciiDigit), ?_, sign_take r, ?_, ?_⟩
        · simpa using h
        · apply takeWhile_digits
          intro h0
          rw [Nat.add_comm, List.drop_succ_cons, List.drop_succ_cons, List.drop_zero, h0] at hd
          simp at hd
        · simp only [List.drop_succ_cons, List.drop_zero]
          rw [Nat.add_comm 1 (signLen r), List.drop_succ_cons, Nat.add_right_comm, List.take_succ_cons, List.take_add,
            take_takeWhile]
    · left; simp
  · left; simp

theorem mant_take {t : Str} {n : Nat} (h : mantLen t = some n) : Mantissa (t.take n) ∧ 0 < n := by
  unfold mantLen at h
  simp only at h
  have hd : ∀ u : Str, u.takeWhile isAsciiDigit = [] ∨ Digits (u.takeWhile isAsciiDigit) := by
    intro u
    by_cases h0 : u.takeWhile isAsciiDigit = []
    · exact .inl h0
    · exact .inr (takeWhile_digits h0)
  split at h
  next hdot =>
    split at h
    · simp at h
    next hz =>
      simp only [Option.some.injEq] at h
      subst h
      refine ⟨.inr ⟨t.takeWhile isAsciiDigit, (t.drop ((t.takeWhile isAsciiDigit).length + 1)).takeWhile isAsciiDigit,
        hd _, hd _, ?_, ?_⟩, by omega⟩
      · rw [← List.length_pos_iff, ← List.length_pos_iff]; omega
      · rw [List.take_add, take_takeWhile, List.take_add_one, take_takeWhile, hdot]
        simp
  · split at h
    · simp at h
    next hz =>
      simp only [Option.some.injEq] at h
      subst h
      refine ⟨.inl ?_, by omega⟩
      rw [take_takeWhile]
      apply takeWhile_digits
      intro h0; rw [h0] at hz; simp at hz

theorem mant_head {m : Str} (h : Mantissa m) : ∃ c m', m = c :: m' ∧ c ≠ '+' ∧ c ≠ '-' := by
  rcases h with h | ⟨a, b, ha, hb, hab, rfl⟩
  · obtain ⟨c, m', rfl⟩ := List.exists_cons_of_ne_nil h.1
    have hc := digits_all h c (by simp)
    refine ⟨c, m', rfl, ?_, ?_⟩ <;> (rintro rfl; simp [not_digit_e] at hc)
  · match a, ha with
    | [], _ => exact ⟨'.', b, rfl, by decide, by decide⟩
    | c :: a', ha =>
      have hd : Digits (c :: a') := by simpa using ha
      have hc := digits_all hd c (by simp)
      refine ⟨c, _, rfl, ?_, ?_⟩ <;> (rintro rfl; simp [not_digit_e] at hc)

/-- Any literal that starts at the beginning of `t` is no longer than what is scanned. -/
theorem mant_exp_le {m x t : Str} (hm : Mantissa m) (hx : x = [] ∨ Exponent x) (h : m ++ x <+: t) :
    ∃ n, mantLen t = some n ∧ m.length + x.length ≤ n + expLen (t.drop n) := by
  have hxh : x = [] ∨ ∃ c x', x = c :: x' ∧ isAsciiDigit c = false ∧ c ≠ '.' := by
    rcases hx with rfl | ⟨e, sg, d, he, _, _, rfl⟩
    · exact .inl rfl
    · refine .inr ⟨e, _, rfl, ?_, ?_⟩ <;> rcases he with rfl | rfl <;> decide
  have hxle : ∀ r, x <+: r → x.length ≤ expLen r := by
    intro r hr
    rcases hx with rfl | hx
    · simp
    · exact exponent_le hx hr
  rcases hm with hd | ⟨a, b, ha, hb, hab, rfl⟩
  · have hda := digits_all hd
    obtain ⟨h1, h2⟩ := digits_prefix hda h
    have hpos : 0 < m.length := List.length_pos_iff.mpr hd.1
    rcases hxh with rfl | ⟨c, x', hc, hc1, hc2⟩
    · unfold mantLen
      simp only
      split
      · rw [if_neg (by omega)]
        exact ⟨_, rfl, by simp; omega⟩
      · rw [if_neg (by omega)]
        exact ⟨_, rfl, by simp; omega⟩
    · obtain ⟨h3, h4⟩ := h2 c x' hc hc1
      unfold mantLen
      simp only
      rw [← h3]
      have hnd : t[m.length]? ≠ some '.' := by
        rw [getElem?_head_drop]
        obtain ⟨v, hv⟩ := h4
        rw [← hv, hc]
        simpa using hc2
      rw [if_neg hnd, if_neg (by omega)]
      exact ⟨_, rfl, by have := hxle _ h4; omega⟩
  · have haa : ∀ c ∈ a, isAsciiDigit c = true := by
      rcases ha with rfl | ha
      · simp
      · exact digits_all ha
    have hbb : ∀ c ∈ b, isAsciiDigit c = true := by
      rcases hb with rfl | hb
      · simp
      · exact digits_all hb
    have h' : a ++ ('.' :: (b ++ x)) <+: t := by simpa using h
    obtain ⟨h1, h2⟩ := digits_prefix haa h'
    obtain ⟨h3, h4⟩ := h2 '.' (b ++ x) rfl (by decide)
    obtain ⟨v, hv⟩ := h4
    have hdot : t[a.length]? = some '.' := by rw [getElem?_head_drop, ← hv]; rfl
    have hbx : b ++ x <+: t.drop (a.length + 1) := by
      refine ⟨v, ?_⟩
      rw [← List.drop_drop, ← hv]; simp
    obtain ⟨h5, h6⟩ := digits_prefix hbb hbx
    unfold mantLen
    simp only
    rw [← h3, if_pos hdot]
    have hne : ¬ (a.length = 0 ∧ ((t.drop (a.length + 1)).takeWhile isAsciiDigit).length = 0) := by
      rintro ⟨z1, z2⟩
      rcases hab with hab | hab
      · exact hab (List.length_eq_zero_iff.mp z1)
      · exact hab (List.length_eq_zero_iff.mp (by omega))
    rw [if_neg hne]
    refine ⟨_, rfl, ?_⟩
    simp only [List.length_append, List.length_cons]
    rcases hxh with rfl | ⟨c, x', hc, hc1, hc2⟩
    · simp; omega
    · obtain ⟨h7, h8⟩ := h6 c x' hc hc1
      rw [List.drop_drop] at h8
      have := hxle _ h8
      rw [← h7]; omega

/-- **C53** VAL converts the longest prefix of its argument (after leading whitespace) that is a
floating-point literal, so the conversion cannot fail; it returns 0 without converting exactly when
no prefix is a literal. -/
theorem C53_val (s : Str) :
    (∀ p, numericPrefix s = some p →
      p <+: ltrimFn s ∧ FloatLit p ∧ ∀ q, q <+: ltrimFn s → FloatLit q → q.length ≤ p.length) ∧
    (numericPrefix s = none → ∀ q, q <+: ltrimFn s → ¬ FloatLit q) := by
  rw [numericPrefix_eq]
  unfold ltrimFn
  generalize s.dropWhile isWhite = t
  have key : ∀ q, q <+: t → FloatLit q → ∃ n, floatLen t = some n ∧ q.length ≤ n := by
    rintro q hq ⟨sg, m, x, hsg, hm, hx, rfl⟩
    obtain ⟨c, m', hmc, hc1, hc2⟩ := mant_head hm
    obtain ⟨g1, g2⟩ := signLen_prefix hsg hq ⟨c, m' ++ x, by rw [hmc]; rfl, hc1, hc2⟩
    rw [g1] at g2
    obtain ⟨n, h1, h2⟩ := mant_exp_le hm hx g2
    refine ⟨_, by unfold floatLen; simp only [h1]; rfl, ?_⟩
    simp only [List.length_append, List.drop_drop] at h2 ⊢
    omega
  constructor
  · intro p hp
    simp only [Option.map_eq_some_iff] at hp
    obtain ⟨n, hn, rfl⟩ := hp
    refine ⟨List.take_prefix _ _, ?_, ?_⟩
    · unfold floatLen at hn
      simp only [Option.map_eq_some_iff] at hn
      obtain ⟨m, hm, rfl⟩ := hn
      refine ⟨t.take (signLen t), (t.drop (signLen t)).take m, (t.drop (signLen t + m)).take (expLen (t.drop (signLen t + m))),
        sign_take t, (mant_take hm).1, expLen_take _, ?_⟩
      rw [List.take_add, List.take_add, List.append_assoc]
    · intro q hq hf
      obtain ⟨n', h1, h2⟩ := key q hq hf
      rw [hn] at h1
      simp only [Option.some.injEq] at h1
      subst h1
      have := hq.length_le
      simp; omega
  · intro hn q hq hf
    obtain ⟨n', h1, h2⟩ := key q hq hf
    simp [h1] at hn

example : numericPrefix "  -12.5e3x".toList = some "-12.5e3".toList ∧
    numericPrefix "+.5e+".toList = some "+.5".toList ∧ numericPrefix "-.e5".toList = none := by
  decide +kernel

end EB
