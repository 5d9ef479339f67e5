import Verif.Spec.Timing
/-!
# C81: `SLEEP` and `SOUND` take as long as they are told
-/

namespace EB

open Spec

set_option exponentiation.threshold 3000

theorem fields {b : BitVec 64} {s e f : Nat} (h : b.toNat = s * 2 ^ 63 + e * 2 ^ 52 + f) (hs : s < 2) (he : e < 2047) (hf : f < 2 ^ 52) :
    expBits b = e ∧ fracBits b = f ∧ (b.msb = true ↔ s = 1) := by
  unfold expBits fracBits
  rw [BitVec.msb_eq_decide, h]
  refine ⟨by omega, by omega, ?_⟩
  simp only [decide_eq_true_iff]
  omega

theorem below_iff {b : BitVec 64} {u : Nat} (h : HasSize b u) : below0 b = true ↔ HasMinus b ∧ u ≠ 0 := by
  obtain ⟨s, e, f, hb, hs, he, hf, hu⟩ := h
  obtain ⟨h1, h2, h3⟩ := fields hb hs he hf
  have hm : HasMinus b ↔ s = 1 := by unfold HasMinus; omega
  have hz : u = 0 ↔ e = 0 ∧ f = 0 := by
    rw [hu]
    split
    next h => simp [h]
    next h =>
      have : 0 < (2 ^ 52 + f) * 2 ^ (e - 1) := Nat.mul_pos (by omega) (Nat.two_pow_pos _)
      constructor
      · intro h'; omega
      · rintro ⟨h', _⟩; exact absurd h' h
  have he' : (e == 2047) = false := by simp; omega
  unfold below0
  rw [h1, h2, hm, ne_eq, hz, ← h3, he']
  simp
  intro _
  by_cases h : e = 0 <;> simp [h]

theorem round_near {num den : Nat} (hd : 0 < den) :
    let q := if 2 * (num % den) > den ∨ (2 * (num % den) = den ∧ num / den % 2 = 1) then num / den + 1 else num / den
    2 * (q * den) ≤ 2 * num + den ∧ 2 * num ≤ 2 * (q * den) + den := by
  intro q
  have h1 := Nat.div_add_mod num den
  have h2 := Nat.mod_lt num hd
  have h3 : num / den * den = den * (num / den) := Nat.mul_comm _ _
  show 2 * ((if _ then _ else _) * den) ≤ _ ∧ _ ≤ 2 * ((if _ then _ else _) * den) + _
  split
  next h =>
    rw [Nat.add_mul, h3, Nat.one_mul]
    generalize den * (num / den) = x at *
    omega
  next h =>
    rw [h3]
    generalize den * (num / den) = x at *
    omega

theorem scale_near {q x m y : Nat} (h : 2 * (q * x) ≤ 2 * (m * 1000000000) + x ∧ 2 * (m * 1000000000) ≤ 2 * (q * x) + x) :
    2 * (q * (x * y)) ≤ 2 * (m * y * 1000000000) + x * y ∧ 2 * (m * y * 1000000000) ≤ 2 * (q * (x * y)) + x * y := by
  have a1 : q * (x * y) = q * x * y := (Nat.mul_assoc ..).symm
  have a2 : m * y * 1000000000 = m * 1000000000 * y := Nat.mul_right_comm ..
  rw [a1, a2]
  constructor
  · have := Nat.mul_le_mul_right y h.1
    rw [Nat.add_mul, Nat.mul_assoc, Nat.mul_assoc 2 (m * 1000000000)] at this
    exact this
  · have := Nat.mul_le_mul_right y h.2
    rw [Nat.add_mul, Nat.mul_assoc, Nat.mul_assoc 2 (q * x)] at this
    exact this

/-- `m * 2 ^ k` is `m * 2 ^ (k + 1074)` units. -/
theorem roundNanos_near {m : Nat} {j : Nat} (h : m * 2 ^ j < 2 ^ 64 * 2 ^ 1074) :
    ∃ d, roundNanos m ((j : Int) - 1074) = some d ∧ Nearest (m * 2 ^ j) d := by
  unfold roundNanos
  by_cases hj : 1074 ≤ j
  · obtain ⟨i, rfl⟩ : ∃ i, j = 1074 + i := ⟨j - 1074, by omega⟩
    rw [if_pos (by omega)]
    have e : (((1074 + i : Nat) : Int) - 1074).toNat = i := by omega
    rw [e]
    have e2 : m * 2 ^ (1074 + i) = (m * 2 ^ i) * 2 ^ 1074 := by rw [Nat.pow_add, Nat.mul_assoc, Nat.mul_comm (2 ^ 1074)]
    rw [e2] at h ⊢
    rw [if_pos (Nat.lt_of_mul_lt_mul_right h)]
    refine ⟨_, rfl, ?_⟩
    unfold Nearest
    generalize m * 2 ^ i = x
    generalize 2 ^ 1074 = y
    have : x * y * 1000000000 = x * 1000000000 * y := Nat.mul_right_comm ..
    rw [this]
    omega
  · rw [if_neg (by omega)]
    obtain ⟨k, hk⟩ : ∃ k, 1074 = j + k := ⟨1074 - j, by omega⟩
    have e : (-((j : Int) - 1074)).toNat = k := by omega
    simp only [e]
    have hd : 0 < 2 ^ k := Nat.two_pow_pos k
    have hp : 0 < 2 ^ j := Nat.two_pow_pos j
    have e3 : 2 ^ 1074 = 2 ^ k * 2 ^ j := by rw [hk, Nat.pow_add, Nat.mul_comm]
    rw [e3, ← Nat.mul_assoc] at h
    have hlt : m / 2 ^ k < 2 ^ 64 := (Nat.div_lt_iff_lt_mul hd).2 (Nat.lt_of_mul_lt_mul_right h)
    rw [if_pos hlt]
    refine ⟨_, rfl, ?_⟩
    have := round_near (num := m * 1000000000) hd
    simp only at this
    unfold Nearest
    rw [e3]
    generalize (if 2 * (m * 1000000000 % 2 ^ k) > 2 ^ k ∨ (2 * (m * 1000000000 % 2 ^ k) = 2 ^ k ∧ m * 1000000000 / 2 ^ k % 2 = 1)
      then m * 1000000000 / 2 ^ k + 1 else m * 1000000000 / 2 ^ k) = q at this ⊢
    exact scale_near this

theorem fromSecs_near {b : BitVec 64} {u : Nat} (h : HasSize b u) (hn : ¬ (HasMinus b ∧ u ≠ 0)) (hl : u < 2 ^ 64 * 2 ^ 1074) :
    ∃ d, fromSecs b = some d ∧ Nearest u d := by
  have hb := h
  obtain ⟨s, e, f, hf, h1, h2, h3, rfl⟩ := h
  obtain ⟨he, hfr, -⟩ := fields hf h1 h2 h3
  unfold fromSecs
  rw [if_neg (by rw [below_iff hb]; exact hn), he, hfr, if_neg (by omega)]
  by_cases h0 : e = 0
  · rw [if_pos h0]
    rw [if_pos h0] at hl ⊢
    have := roundNanos_near (m := f) (j := 0) (by simpa using hl)
    simpa using this
  · rw [if_neg h0]
    rw [if_neg h0] at hl ⊢
    have := roundNanos_near (j := e - 1) hl
    have e' : (((e - 1 : Nat) : Int) - 1074) = (e : Int) - 1075 := by omega
    rw [e'] at this
    exact this

/-- C81: `SLEEP` refuses numbers below zero and does not wait for them. -/
theorem C81_sleep_refuses (host : Nat → Bool) {n : BitVec 64} {u : Nat} (h : HasSize n u) (hm : HasMinus n) (hu : u ≠ 0) :
    sleepExec host n = .badArg 0 := by
  unfold sleepExec
  rw [if_pos ((below_iff h).2 ⟨hm, hu⟩)]

/-- C81, in part: `SLEEP` waits for as many nanoseconds as are nearest to the number of seconds, and reports an error of the clock, if the number
is below `2 ^ 64`.  For other numbers it crashes (`C81_counterexample`). -/
theorem C81_sleep_partial (host : Nat → Bool) {n : BitVec 64} {u : Nat} (h : HasSize n u) (hn : HasMinus n → u = 0)
    (hl : u < 2 ^ 64 * 2 ^ 1074) : ∃ d, Nearest u d ∧ sleepExec host n = .slept d (host d) := by
  have hn' : ¬ (HasMinus n ∧ u ≠ 0) := fun h => h.2 (hn h.1)
  obtain ⟨d, hd, hnear⟩ := fromSecs_near h hn' hl
  refine ⟨d, hnear, ?_⟩
  unfold sleepExec
  rw [if_neg (by rw [below_iff h]; exact hn'), hd]

/-- C81, in part: `SOUND` refuses a pitch that is not positive, and then a duration below zero, and otherwise plays a tone with this pitch and the
nearest duration, if the duration is below `2 ^ 64` seconds. -/
theorem C81_sound_partial (host : Nat → Nat → Bool) (pitch : BitVec 32) {n : BitVec 64} {u : Nat} (h : HasSize n u) :
    (pitch.toInt ≤ 0 → soundExec host pitch n = .badArg 0) ∧
    (0 < pitch.toInt → HasMinus n → u ≠ 0 → soundExec host pitch n = .badArg 1) ∧
    (0 < pitch.toInt → (HasMinus n → u = 0) → u < 2 ^ 64 * 2 ^ 1074 →
      ∃ p d : Nat, (p : Int) = pitch.toInt ∧ Nearest u d ∧ soundExec host pitch n = .played p d (host p d)) := by
  refine ⟨fun hp => ?_, fun hp hm hu => ?_, fun hp hn hl => ?_⟩
  · unfold soundExec
    rw [if_pos hp]
  · unfold soundExec
    rw [if_neg (by omega), if_pos ((below_iff h).2 ⟨hm, hu⟩)]
  · have hn' : ¬ (HasMinus n ∧ u ≠ 0) := fun h => h.2 (hn h.1)
    obtain ⟨d, hd, hnear⟩ := fromSecs_near h hn' hl
    refine ⟨pitch.toNat, d, ?_, hnear, ?_⟩
    · rw [BitVec.toInt_eq_toNat_cond] at hp ⊢
      split at hp <;> split <;> omega
    · unfold soundExec
      rw [if_neg (by omega), if_neg (by rw [below_iff h]; exact hn'), hd]

theorem crash_key : ∀ n ∈ [0x43f0000000000000#64, 0x7ff0000000000000#64, 0x7ff8000000000000#64], below0 n = false ∧ fromSecs n = none := by
  have h1 : below0 0x43f0000000000000#64 = false ∧ expBits 0x43f0000000000000#64 = 1087 ∧ fracBits 0x43f0000000000000#64 = 0 := by
    decide +kernel
  have h2 : below0 0x7ff0000000000000#64 = false ∧ expBits 0x7ff0000000000000#64 = 2047 := by decide +kernel
  have h3 : below0 0x7ff8000000000000#64 = false ∧ expBits 0x7ff8000000000000#64 = 2047 := by decide +kernel
  intro n hn
  simp only [List.mem_cons, List.not_mem_nil, or_false] at hn
  rcases hn with rfl | rfl | rfl
  · refine ⟨h1.1, ?_⟩
    unfold fromSecs
    rw [h1.1, h1.2.1, h1.2.2]
    unfold roundNanos
    simp
  · refine ⟨h2.1, ?_⟩
    unfold fromSecs
    rw [h2.1, h2.2]
    simp
  · refine ⟨h3.1, ?_⟩
    unfold fromSecs
    rw [h3.1, h3.2]
    simp

theorem crash_size : HasSize 0x43f0000000000000#64 ((2 ^ 52 + 0) * 2 ^ (1087 - 1)) ∧ ¬ HasMinus 0x43f0000000000000#64 :=
  ⟨⟨0, 1087, 0, by decide, by decide, by decide, by decide, (if_neg (by decide)).symm⟩, by unfold HasMinus; decide⟩

theorem sleep_crash {n : BitVec 64} (h : below0 n = false ∧ fromSecs n = none) (host : Nat → Bool) : sleepExec host n = .crash := by
  simp [sleepExec, h.1, h.2]

theorem sound_crash {n : BitVec 64} (h : below0 n = false ∧ fromSecs n = none) (host : Nat → Nat → Bool) : soundExec host 440#32 n = .crash := by
  simp only [soundExec, h.1, h.2]
  rw [if_neg (by decide)]
  rfl

/-- C81 fails: `SLEEP` and `SOUND` crash for `2 ^ 64` seconds, for infinity and for what is not a number. -/
theorem C81_counterexample :
    (∃ n u, HasSize n u ∧ ¬ HasMinus n ∧ ∀ host, sleepExec host n = .crash) ∧
    ∀ n ∈ [0x43f0000000000000#64, 0x7ff0000000000000#64, 0x7ff8000000000000#64],
      (∀ host, sleepExec host n = .crash) ∧ ∀ host, soundExec host 440#32 n = .crash :=
  ⟨⟨_, _, crash_size.1, crash_size.2, sleep_crash (crash_key _ (List.mem_cons_self ..))⟩,
    fun n hn => ⟨sleep_crash (crash_key n hn), sound_crash (crash_key n hn)⟩⟩

set_option maxRecDepth 100000 in
/-- A quarter of a second. -/
example : HasSize 0x3fd0000000000000#64 ((2 ^ 52 + 0) * 2 ^ (1021 - 1)) ∧ ¬ HasMinus 0x3fd0000000000000#64 ∧
    (2 ^ 52 + 0) * 2 ^ (1021 - 1) < 2 ^ 64 * 2 ^ 1074 ∧ sleepExec (fun _ => false) 0x3fd0000000000000#64 = .slept 250000000 false ∧
    soundExec (fun _ _ => false) 440#32 0x3fd0000000000000#64 = .played 440 250000000 false :=
  ⟨⟨0, 1021, 0, by decide, by decide, by decide, by decide, (if_neg (by decide)).symm⟩, by unfold HasMinus; decide, by decide +kernel, by decide +kernel,
    by decide +kernel⟩

end EB
