import Verif.Model.Request
import Verif.Lemmas.Desk
/-!
# C87: different files have different addresses
-/

namespace EB

open Spec

/-- The value of a digit of base 16. -/
def hexValue (c : Char) : Nat := "0123456789ABCDEF".toList.idxOf c

/-- The bytes that an address stands for. -/
def unpercent : Str → List UInt8
  | '%' :: h :: l :: s => UInt8.ofNat (hexValue h * 16 + hexValue l) :: unpercent s
  | c :: s => String.utf8EncodeChar c ++ unpercent s
  | [] => []

theorem hex_digit : ∀ n < 16, hexValue (hexDigit n) = n := by decide

theorem unpercent_byte (b : UInt8) (s : Str) : unpercent (percentByte b ++ s) = b :: unpercent s := by
  have hb := b.toNat_lt
  have : hexValue (hexDigit (b.toNat / 16)) * 16 + hexValue (hexDigit (b.toNat % 16)) = b.toNat := by
    rw [hex_digit _ (by omega), hex_digit _ (by omega)]
    omega
  simp only [percentByte, List.cons_append, List.nil_append, unpercent]
  rw [this]
  simp

theorem unpercent_bytes (bs : List UInt8) (s : Str) : unpercent (bs.flatMap percentByte ++ s) = bs ++ unpercent s := by
  induction bs with
  | nil => rfl
  | cons b bs ih => rw [List.flatMap_cons, List.append_assoc, unpercent_byte, ih]; rfl

theorem unpercent_raw {c : Char} (h : c ≠ '%') (s : Str) : unpercent (c :: s) = String.utf8EncodeChar c ++ unpercent s := by
  rw [unpercent]
  intro h' l s' e
  exact fun _ => h e

theorem unpercent_path {encoded : Char → Bool} {s : Str} (h : ∀ c ∈ s, c ≠ '%' ∧ c ≠ '\t' ∧ c ≠ '\n' ∧ c ≠ '\r') :
    unpercent (s.flatMap (percentChar encoded)) = utf8 s := by
  induction s with
  | nil => rfl
  | cons c s ih =>
    obtain ⟨h1, h2, h3, h4⟩ := h c (by simp)
    have ih := ih fun d hd => h d (by simp [hd])
    rw [List.flatMap_cons, percentChar, if_neg (by simp [h2, h3, h4])]
    split
    · rw [unpercent_bytes, ih]
      rfl
    · rw [List.singleton_append, unpercent_raw h1, ih]
      rfl

/-- **C87**, in part: different files of a user have different addresses.  What is missing: names with `%`, tabs or ends of lines. -/
theorem C87_distinct_partial (encoded : Char → Bool) (user : Str) {f g : Str} (hf : ∀ c ∈ f, c ≠ '%' ∧ c ≠ '\t' ∧ c ≠ '\n' ∧ c ≠ '\r')
    (hg : ∀ c ∈ g, c ≠ '%' ∧ c ≠ '\t' ∧ c ≠ '\n' ∧ c ≠ '\r') (h : fileUrl encoded user f = fileUrl encoded user g) : f = g := by
  unfold fileUrl makeUrl at h
  simp only [List.flatMap_append, List.cons.injEq, true_and, List.append_cancel_left_eq] at h
  have := congrArg unpercent h
  rw [unpercent_path hf, unpercent_path hg] at this
  have hx := utf8Text_iff.mpr (rfl : utf8 f = utf8 f)
  have hy := utf8Text_iff.mpr this
  rw [hx] at hy
  exact Option.some.inj hy

/-- **C87**: the characters of a name that are not in the set are in the address as they are. -/
theorem C87_plain (encoded : Char → Bool) {user f : Str}
    (h : ∀ c ∈ "api/users/".toList ++ user ++ "/files/".toList ++ f, encoded c = false ∧ c ≠ '\t' ∧ c ≠ '\n' ∧ c ≠ '\r') :
    fileUrl encoded user f = "/api/users/".toList ++ user ++ "/files/".toList ++ f := by
  have key : ∀ s : Str, (∀ c ∈ s, encoded c = false ∧ c ≠ '\t' ∧ c ≠ '\n' ∧ c ≠ '\r') → s.flatMap (percentChar encoded) = s := by
    intro s hs
    induction s with
    | nil => rfl
    | cons c s ih =>
      obtain ⟨h1, h2, h3, h4⟩ := hs c (by simp)
      rw [List.flatMap_cons, percentChar, if_neg (by simp [h2, h3, h4]), h1, ih fun d hd => hs d (by simp [hd])]
      rfl
  unfold fileUrl makeUrl
  rw [key _ h]
  rfl

/-- **C87** is false: with a set like that of URLs, two files whose names can be typed have one address, so that saving one overwrites the
other. -/
theorem C87_counterexample (encoded : Char → Bool) (user : Str) (hs : encoded ' ' = true)
    (hp : ∀ c ∈ "a%20b.bas".toList, encoded c = false) :
    "a b.bas".toList ≠ "a%20b.bas".toList ∧ fileUrl encoded user "a b.bas".toList = fileUrl encoded user "a%20b.bas".toList := by
  have ha := hp 'a' (by decide)
  have h1 := hp '%' (by decide)
  have h2 := hp '2' (by decide)
  have h3 := hp '0' (by decide)
  have h4 := hp 'b' (by decide)
  have h5 := hp '.' (by decide)
  have h6 := hp 's' (by decide)
  have e : (String.utf8EncodeChar ' ').flatMap percentByte = "%20".toList := by decide +kernel
  refine ⟨by decide, ?_⟩
  unfold fileUrl makeUrl
  simp only [List.flatMap_append]
  congr 2
  have e1 : "a b.bas".toList = ['a', ' ', 'b', '.', 'b', 'a', 's'] := by decide
  have e2 : "a%20b.bas".toList = ['a', '%', '2', '0', 'b', '.', 'b', 'a', 's'] := by decide
  rw [e1, e2]
  simp [percentChar, ha, h1, h2, h3, h4, h5, h6, hs, e]

/-- The set of URLs: the characters that are not printable ASCII and some that are. -/
example : fileUrl (fun c => c.toNat ≤ 32 || c.toNat ≥ 127 || c ∈ "\"#<>?`{}".toList) "me".toList "a ?é.bas".toList =
    "/api/users/me/files/a%20%3F%C3%A9.bas".toList := by decide +kernel

example : ∀ c ∈ "a%20b.bas".toList, (fun c : Char => c.toNat ≤ 32 || c.toNat ≥ 127 || c ∈ "\"#<>?`{}".toList) c = false := by decide +kernel

example : ∀ c ∈ "a ?é.bas".toList, c ≠ '%' ∧ c ≠ '\t' ∧ c ≠ '\n' ∧ c ≠ '\r' := by decide

end EB
