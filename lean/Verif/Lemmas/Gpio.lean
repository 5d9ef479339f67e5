import Verif.Spec.Gpio
import Mathlib.Data.List.Induction
/-!
# GPIO: lemmas
-/

namespace EB.Wire

open Spec

theorem latest_snoc {α : Type} {P Q : α → Prop} {h : List α} {e : α} :
    Latest P Q (h ++ [e]) ↔ P e ∨ (¬ Q e ∧ Latest P Q h) := by
  constructor
  · rintro ⟨a, x, b, heq, hP, hQ⟩
    rcases List.eq_nil_or_concat b with rfl | ⟨b', y, rfl⟩
    · have := List.append_inj' heq rfl
      simp only [List.cons.injEq, and_true] at this
      exact .inl (this.2 ▸ hP)
    · rw [show a ++ x :: b'.concat y = (a ++ x :: b') ++ [y] by simp] at heq
      have := List.append_inj' heq rfl
      simp only [List.cons.injEq, and_true] at this
      obtain ⟨rfl, rfl⟩ := this
      exact .inr ⟨hQ e (by simp), a, x, b', rfl, hP, fun e' he => hQ e' (by simp [he])⟩
  · rintro (hP | ⟨hQ, a, x, b, rfl, hP, hb⟩)
    · exact ⟨h, e, [], rfl, hP, by simp⟩
    · refine ⟨a, x, b ++ [e], by simp, hP, ?_⟩
      intro e' he
      rcases List.mem_append.1 he with h1 | h1
      · exact hb e' h1
      · rw [List.mem_singleton] at h1; subst h1; exact hQ

theorem latest_nil {α : Type} {P Q : α → Prop} : ¬ Latest P Q ([] : List α) := by
  rintro ⟨a, x, b, heq, -⟩; simp at heq

theorem isPin_unique {i : I32} {p q : GpioPin} (h : IsPin i p) (h' : IsPin i q) : p = q := by
  unfold IsPin at h h'
  exact BitVec.eq_of_toNat_eq (by omega)

theorem gpioPin_ok {i : I32} {p : GpioPin} : gpioPin i = .ok p ↔ IsPin i p := by
  unfold gpioPin IsPin
  have hp := p.isLt
  have h32 := i.isLt
  have hd := BitVec.toInt_eq_toNat_cond i
  split
  · constructor
    · intro h; cases h
    · intro h; omega
  · split
    · constructor
      · intro h; cases h
      · intro h; omega
    · rename_i h1 h2
      have hle : i.toInt = i.toNat := by split at hd <;> omega
      constructor
      · intro h
        injection h with h
        subst h
        rw [BitVec.toNat_setWidth, hle, Nat.mod_eq_of_lt (by omega)]
      · intro h
        congr 1
        apply BitVec.eq_of_toNat_eq
        rw [BitVec.toNat_setWidth, Nat.mod_eq_of_lt (by omega)]
        omega

theorem upper_same (c : Char) : asciiUpper c = c.toUpper := by
  unfold asciiUpper Char.toUpper
  by_cases hc : 'a' ≤ c ∧ c ≤ 'z'
  · have hc' : 'a'.val ≤ c.val ∧ c.val ≤ 'z'.val := hc
    rw [if_pos hc, dif_pos hc']
    have h1 : 97 ≤ c.val.toNat := UInt32.le_iff_toNat_le.1 hc'.1
    have h2 : c.val.toNat ≤ 122 := UInt32.le_iff_toNat_le.1 hc'.2
    apply Char.ext
    apply UInt32.toNat_inj.1
    have hv : (c.toNat - 32).isValidChar := Or.inl (by show c.val.toNat - 32 < _; omega)
    rw [Char.ofNat, dif_pos hv]
    show c.val.toNat - 32 = (c.val + ('A'.val - 'a'.val)).toNat
    rw [UInt32.toNat_add, show ('A'.val - 'a'.val).toNat = 2 ^ 32 - 32 by decide]
    omega
  · have hc' : ¬ ('a'.val ≤ c.val ∧ c.val ≤ 'z'.val) := hc
    rw [if_neg hc, dif_neg hc']

theorem gpioMode_ok {t : Str} {m : GpioMode} : gpioMode t = .ok m ↔ IsMode t m := by
  have hu : t.map asciiUpper = t.map Char.toUpper := List.map_congr_left fun c _ => upper_same c
  unfold gpioMode IsMode
  rw [hu]
  simp only
  cases m <;> simp only [modeName] <;> (repeat' split) <;> simp_all

theorem gpioPin_error {i : I32} {e : Str} (h : gpioPin i = .error e) (p : GpioPin) : ¬ IsPin i p := by
  intro hp; rw [gpioPin_ok.2 hp] at h; cases h

theorem gpioMode_error {t : Str} {e : Str} (h : gpioMode t = .error e) (m : GpioMode) : ¬ IsMode t m := by
  intro hp; rw [gpioMode_ok.2 hp] at h; cases h

theorem isMode_unique {t : Str} {m n : GpioMode} (h : IsMode t m) (h' : IsMode t n) : m = n := by
  have h1 := gpioMode_ok.2 h
  have h2 := gpioMode_ok.2 h'
  rw [h1] at h2; injection h2

variable {h : List (GpioCmd × GpioAnswer)} {p : GpioPin} {e : GpioCmd × GpioAnswer}

theorem forgets_of_configures {m : GpioMode} (hc : Configures p m e) : Forgets p e := by
  obtain ⟨i, t, rfl, hi, ht⟩ := hc
  exact .inr (.inr (.inr ⟨i, t, m, rfl, hi, ht⟩))

theorem configured_unique {m n : GpioMode} (hm : Configured h p m) (hn : Configured h p n) : m = n := by
  induction h using List.reverseRecOn with
  | nil => exact (latest_nil hm).elim
  | append_singleton h e ih =>
    rcases latest_snoc.1 hm with h1 | ⟨h1, h2⟩ <;> rcases latest_snoc.1 hn with h3 | ⟨h3, h4⟩
    · obtain ⟨i, t, rfl, -, ht⟩ := h1
      obtain ⟨i', t', heq, -, ht'⟩ := h3
      simp only [Prod.mk.injEq, GpioCmd.setup.injEq, and_true] at heq
      obtain ⟨rfl, rfl⟩ := heq
      exact isMode_unique ht ht'
    · exact (h3 (forgets_of_configures h1)).elim
    · exact (h1 (forgets_of_configures h3)).elim
    · exact ih h2 h4

theorem configured_keep {m : GpioMode} (hf : ¬ Forgets p e) : Configured (h ++ [e]) p m ↔ Configured h p m := by
  unfold Configured
  rw [latest_snoc]
  constructor
  · rintro (h1 | h1)
    · exact (hf (forgets_of_configures h1)).elim
    · exact h1.2
  · exact fun h1 => .inr ⟨hf, h1⟩

theorem line_keep {l : GpioLine} (hf : ¬ Forgets p e) (hw : ∀ v, ¬ WritesPin p v e) (hl : LineIs h p l) : LineIs (h ++ [e]) p l := by
  have hwr : ∀ v, Written (h ++ [e]) p v ↔ Written h p v := by
    intro v
    unfold Written
    rw [latest_snoc]
    constructor
    · rintro (h1 | h1)
      · exact (hw v h1).elim
      · exact h1.2
    · intro h1
      refine .inr ⟨?_, h1⟩
      rintro (h2 | ⟨w, h2⟩)
      · exact hf h2
      · exact hw w h2
  cases hl with
  | free h1 => exact .free fun m hm => h1 m ((configured_keep hf).1 hm)
  | floating h1 => exact .floating ((configured_keep hf).2 h1)
  | pullDown h1 => exact .pullDown ((configured_keep hf).2 h1)
  | pullUp h1 => exact .pullUp ((configured_keep hf).2 h1)
  | silent h1 h2 => exact .silent ((configured_keep hf).2 h1) fun v hv => h2 v ((hwr v).1 hv)
  | driven v h1 h2 => exact .driven v ((configured_keep hf).2 h1) ((hwr v).2 h2)

theorem line_forget (hf : Forgets p e) (hc : ∀ m, ¬ Configures p m e) : LineIs (h ++ [e]) p .free := by
  refine .free fun m hm => ?_
  rcases latest_snoc.1 hm with h1 | h1
  · exact hc m h1
  · exact h1.1 hf

/-- What a pin is used for when it was just configured. -/
def lineOf : GpioMode → GpioLine
  | .input => .input false false
  | .inputPullDown => .input true false
  | .inputPullUp => .input false true
  | .output => .output none

theorem line_configure {m : GpioMode} (hc : Configures p m e) : LineIs (h ++ [e]) p (lineOf m) := by
  have h1 : Configured (h ++ [e]) p m := latest_snoc.2 (.inl hc)
  cases m with
  | input => exact .floating h1
  | inputPullDown => exact .pullDown h1
  | inputPullUp => exact .pullUp h1
  | output =>
    refine .silent h1 fun v hv => ?_
    rcases latest_snoc.1 hv with h2 | h2
    · obtain ⟨i, rfl, -⟩ := h2
      obtain ⟨i', t, heq, -⟩ := hc
      simp at heq
    · exact h2.1 (.inl (forgets_of_configures hc))

theorem line_output {l : Option Bool} (hl : LineIs h p (.output l)) : Configured h p .output := by
  cases hl <;> assumption

theorem line_input {d u : Bool} (hl : LineIs h p (.input d u)) : ∃ m, m ≠ .output ∧ Configured h p m := by
  cases hl
  · exact ⟨.input, by simp, by assumption⟩
  · exact ⟨.inputPullDown, by simp, by assumption⟩
  · exact ⟨.inputPullUp, by simp, by assumption⟩

theorem writes_not_forgets {v : Bool} (hw : WritesPin p v e) : ∀ q, ¬ Forgets q e := by
  obtain ⟨i, rfl, -⟩ := hw
  intro q hf
  rcases hf with h1 | h1 | ⟨_, h1, -⟩ | ⟨_, _, _, h1, -⟩ <;> simp at h1

theorem line_write {l : Option Bool} {v : Bool} (hw : WritesPin p v e) (hl : LineIs h p (.output l)) :
    LineIs (h ++ [e]) p (.output (some v)) :=
  .driven v ((configured_keep (writes_not_forgets hw p)).2 (line_output hl)) (latest_snoc.2 (.inl hw))

/-- What holds of the pins of a Raspberry Pi after a history. -/
def Wired (h : List (GpioCmd × GpioAnswer)) (s : PiPins) : Prop :=
  ∀ p, LineIs h p (s.lines p) ∧ (s.inputs p = true ↔ ∃ d u, s.lines p = .input d u) ∧
    (s.outputs p = true ↔ ∃ l, s.lines p = .output l)

theorem wired_new : Wired [] .new := fun p => ⟨.free fun _ hm => latest_nil hm, by simp [PiPins.new], by simp [PiPins.new]⟩

/-- A step that is neither a write nor changes the configuration. -/
theorem wired_keep {s : PiPins} (hs : Wired h s) (hf : ∀ p, ¬ Forgets p e) (hw : ∀ p v, ¬ WritesPin p v e) : Wired (h ++ [e]) s :=
  fun p => ⟨line_keep (hf p) (hw p) (hs p).1, (hs p).2⟩

theorem clear_lines {s : PiPins} (hs : Wired h s) (p : GpioPin) : (s.clear p).lines p = .free := by
  obtain ⟨hl, h1, h2⟩ := hs p
  simp only [PiPins.clear, true_and, Bool.or_eq_true]
  split
  · rfl
  · rename_i hn
    cases hc : s.lines p with
    | free => rfl
    | input d u => exact (hn (.inl (h1.2 ⟨d, u, hc⟩))).elim
    | output l => exact (hn (.inr (h2.2 ⟨l, hc⟩))).elim

theorem answers_of {B : Board} {s : PiPins} (hs : Wired h s) (c : GpioCmd) :
    Answers B h c (gpioExec (piPins B h.length) c s).2 ∧
    Wired (h ++ [(c, (gpioExec (piPins B h.length) c s).2)]) (gpioExec (piPins B h.length) c s).1 := by
  cases c with
  | reset =>
    refine ⟨rfl, fun p => ?_⟩
    have hfree : (gpioExec (piPins B h.length) .reset s).1.lines p = .free := by
      have := clear_lines hs p
      simpa [gpioExec, piPins, PiPins.clearAll, PiPins.clear] using this
    rw [hfree]
    refine ⟨line_forget (.inl rfl) (by rintro m ⟨_, _, heq, -⟩; simp at heq), ?_, ?_⟩ <;>
      simp [gpioExec, piPins, PiPins.clearAll]
  | clearAll =>
    refine ⟨rfl, fun p => ?_⟩
    have hfree : (gpioExec (piPins B h.length) .clearAll s).1.lines p = .free := by
      have := clear_lines hs p
      simpa [gpioExec, gpioDone, piPins, PiPins.clearAll, PiPins.clear] using this
    rw [hfree]
    refine ⟨line_forget (.inr (.inl rfl)) (by rintro m ⟨_, _, heq, -⟩; simp at heq), ?_, ?_⟩ <;>
      simp [gpioExec, gpioDone, piPins, PiPins.clearAll]
  | clear i =>
    cases hp : gpioPin i with
    | error e =>
      simp only [gpioExec, hp]
      refine ⟨⟨⟨by simp, fun ⟨p, h1⟩ => (gpioPin_error hp p h1).elim⟩, fun _ => .inl ⟨_, _, rfl⟩⟩, wired_keep hs ?_ ?_⟩
      · rintro p (h1 | h1 | ⟨j, h1, h2⟩ | ⟨_, _, _, h1, -⟩) <;> simp at h1
        subst h1; exact gpioPin_error hp p h2
      · rintro p v ⟨_, h1, -⟩; simp at h1
    | ok p =>
      have hip := gpioPin_ok.1 hp
      simp only [gpioExec, hp, gpioDone, piPins]
      refine ⟨⟨⟨fun _ => ⟨p, hip⟩, fun _ => rfl⟩, fun h1 => (h1 rfl).elim⟩, fun q => ?_⟩
      by_cases hq : q = p
      · subst hq
        rw [clear_lines hs q]
        refine ⟨line_forget (.inr (.inr (.inl ⟨i, rfl, hip⟩))) (by rintro m ⟨_, _, heq, -⟩; simp at heq), ?_, ?_⟩ <;>
          simp [PiPins.clear]
      · have e1 : (s.clear p).lines q = s.lines q := by simp [PiPins.clear, hq]
        have e2 : (s.clear p).inputs q = s.inputs q := by simp [PiPins.clear, hq]
        have e3 : (s.clear p).outputs q = s.outputs q := by simp [PiPins.clear, hq]
        rw [e1, e2, e3]
        refine ⟨line_keep ?_ ?_ (hs q).1, (hs q).2⟩
        · rintro (h1 | h1 | ⟨j, h1, h2⟩ | ⟨_, _, _, h1, -⟩) <;> simp at h1
          subst h1; exact hq (isPin_unique h2 hip)
        · rintro v ⟨_, h1, -⟩; simp at h1
  | read i =>
    have hf : ∀ p a, ¬ Forgets p (.read i, a) := by
      rintro p a (h1 | h1 | ⟨_, h1, -⟩ | ⟨_, _, _, h1, -⟩) <;> simp at h1
    have hw : ∀ p a v, ¬ WritesPin p v (.read i, a) := by
      rintro p a v ⟨_, h1, -⟩; simp at h1
    cases hp : gpioPin i with
    | error e =>
      simp only [gpioExec, hp]
      refine ⟨⟨fun b => ⟨by simp, fun ⟨p, _, h1, _⟩ => (gpioPin_error hp p h1).elim⟩, fun _ => .inl ⟨_, _, rfl⟩⟩, wired_keep hs (fun p => hf p _) (fun p => hw p _)⟩
    | ok p =>
      have hip := gpioPin_ok.1 hp
      obtain ⟨hl, h1, h2⟩ := hs p
      simp only [gpioExec, hp, piPins, PiPins.read]
      cases hline : s.lines p with
      | free =>
        have hi : s.inputs p = false := by
          rw [Bool.eq_false_iff]; intro hh; obtain ⟨d, u, hh⟩ := h1.1 hh; rw [hline] at hh; cases hh
        simp only [hi, Bool.not_false, Bool.true_or, if_true]
        refine ⟨⟨fun b => ⟨by simp, ?_⟩, fun _ => .inr ⟨_, rfl⟩⟩, wired_keep hs (fun p => hf p _) (fun p => hw p _)⟩
        rintro ⟨q, m, hq, hm, -⟩
        obtain rfl := isPin_unique hq hip
        rw [hline] at hl
        cases hl with
        | free hn => exact (hn m hm).elim
      | output l =>
        have hi : s.inputs p = false := by
          rw [Bool.eq_false_iff]; intro hh; obtain ⟨d, u, hh⟩ := h1.1 hh; rw [hline] at hh; cases hh
        simp only [hi, Bool.not_false, Bool.true_or, if_true]
        refine ⟨⟨fun b => ⟨by simp, ?_⟩, fun _ => .inr ⟨_, rfl⟩⟩, wired_keep hs (fun p => hf p _) (fun p => hw p _)⟩
        rintro ⟨q, m, hq, hm, hne, -⟩
        obtain rfl := isPin_unique hq hip
        rw [hline] at hl
        exact (hne (configured_unique hm (line_output hl))).elim
      | input d u =>
        have hi : s.inputs p = true := h1.2 ⟨d, u, hline⟩
        have ho : s.outputs p = false := by
          rw [Bool.eq_false_iff]; intro hh; obtain ⟨l, hh⟩ := h2.1 hh; rw [hline] at hh; cases hh
        simp only [hi, ho, Bool.not_true, Bool.or_self, Bool.false_eq_true, if_false]
        refine ⟨⟨fun b => ⟨?_, ?_⟩, fun hn => (hn _ rfl).elim⟩, wired_keep hs (fun p => hf p _) (fun p => hw p _)⟩
        · intro hb
          injection hb with hb
          rw [hline] at hl
          obtain ⟨m, hm, hm'⟩ := line_input hl
          exact ⟨p, m, hip, hm', hm, hb.symm⟩
        · rintro ⟨q, m, hq, -, -, rfl⟩
          rw [isPin_unique hq hip]
  | write i v =>
    have hf : ∀ p a, ¬ Forgets p (.write i v, a) := by
      rintro p a (h1 | h1 | ⟨_, h1, -⟩ | ⟨_, _, _, h1, -⟩) <;> simp at h1
    cases hp : gpioPin i with
    | error e =>
      simp only [gpioExec, hp]
      refine ⟨⟨⟨by simp, fun ⟨p, h1, _⟩ => (gpioPin_error hp p h1).elim⟩, fun _ => .inl ⟨_, _, rfl⟩⟩, wired_keep hs (fun p => hf p _) ?_⟩
      rintro p v ⟨_, h1, -⟩; simp at h1
    | ok p =>
      have hip := gpioPin_ok.1 hp
      obtain ⟨hl, h1, h2⟩ := hs p
      simp only [gpioExec, hp, piPins, PiPins.write]
      by_cases hout : ∃ l, s.lines p = .output l
      · have ho : s.outputs p = true := h2.2 hout
        obtain ⟨l, hline⟩ := hout
        have hi : s.inputs p = false := by
          rw [Bool.eq_false_iff]; intro hh; obtain ⟨d, u, hh⟩ := h1.1 hh; rw [hline] at hh; cases hh
        simp only [hi, ho, Bool.not_true, Bool.or_self, Bool.false_eq_true, if_false, gpioDone]
        rw [hline] at hl
        refine ⟨⟨⟨fun _ => ⟨p, hip, line_output hl⟩, fun _ => rfl⟩, fun hn => (hn rfl).elim⟩, fun q => ?_⟩
        by_cases hq : q = p
        · subst hq
          simp only [if_true]
          exact ⟨line_write ⟨i, rfl, hip⟩ hl, by simp [hi], by simp [ho]⟩
        · simp only [if_neg hq]
          refine ⟨line_keep (hf q _) ?_ (hs q).1, (hs q).2⟩
          rintro w ⟨j, h3, h4⟩
          simp at h3
          obtain ⟨rfl, -⟩ := h3
          exact hq (isPin_unique h4 hip)
      · have ho : s.outputs p = false := by
          rw [Bool.eq_false_iff]; intro hh; exact hout (h2.1 hh)
        simp only [ho, Bool.not_false, Bool.or_true, if_true, gpioDone]
        refine ⟨⟨⟨by simp, ?_⟩, fun _ => .inr ⟨_, rfl⟩⟩, wired_keep hs (fun p => hf p _) ?_⟩
        · rintro ⟨q, hq, hm⟩
          obtain rfl := isPin_unique hq hip
          exfalso
          cases hc : s.lines q with
          | free => rw [hc] at hl; cases hl with | free hn => exact hn _ hm
          | input d u =>
            rw [hc] at hl
            obtain ⟨m, hm1, hm2⟩ := line_input hl
            exact hm1 (configured_unique hm2 hm)
          | output l => exact hout ⟨l, hc⟩
        · rintro p v ⟨_, h1, -⟩; simp at h1
  | setup i t =>
    have hw : ∀ p a v, ¬ WritesPin p v (.setup i t, a) := by
      rintro p a v ⟨_, h1, -⟩; simp at h1
    cases hp : gpioPin i with
    | error e =>
      simp only [gpioExec, hp]
      refine ⟨⟨by simp, fun p _ h1 => (gpioPin_error hp p h1).elim, fun _ => .inl ⟨_, _, rfl⟩⟩, wired_keep hs ?_ (fun p => hw p _)⟩
      rintro p (h1 | h1 | ⟨_, h1, -⟩ | ⟨_, _, _, h1, h2, -⟩) <;> simp at h1
      rw [← h1.1] at h2
      exact gpioPin_error hp p h2
    | ok p =>
      cases hm : gpioMode t with
      | error e =>
        simp only [gpioExec, hp, hm]
        refine ⟨⟨by simp, fun p m _ h1 => (gpioMode_error hm m h1).elim, fun _ => .inl ⟨_, _, rfl⟩⟩, wired_keep hs ?_ (fun p => hw p _)⟩
        rintro p (h1 | h1 | ⟨_, h1, -⟩ | ⟨_, _, m, h1, -, h2⟩) <;> simp at h1
        rw [← h1.2] at h2
        exact gpioMode_error hm m h2
      | ok m =>
        have hip := gpioPin_ok.1 hp
        have him := gpioMode_ok.1 hm
        simp only [gpioExec, hp, hm, piPins]
        have hforget : ∀ a, Forgets p (.setup i t, a) := fun a => .inr (.inr (.inr ⟨i, t, m, rfl, hip, him⟩))
        have hother : ∀ q, q ≠ p → ∀ a, ¬ Forgets q (.setup i t, a) := by
          rintro q hq a (h1 | h1 | ⟨_, h1, -⟩ | ⟨_, _, _, h1, h2, -⟩) <;> simp at h1
          rw [← h1.1] at h2
          exact hq (isPin_unique h2 hip)
        have hcl := clear_lines hs p
        have hci : (s.clear p).inputs p = false := by simp [PiPins.clear]
        have hco : (s.clear p).outputs p = false := by simp [PiPins.clear]
        have hrest : ∀ q, q ≠ p → (s.clear p).lines q = s.lines q ∧ (s.clear p).inputs q = s.inputs q ∧
            (s.clear p).outputs q = s.outputs q := by
          intro q hq; simp [PiPins.clear, hq]
        generalize hs₁ : s.clear p = s₁ at *
        -- a state with the same pins as the cleared one, after an error
        have hfail : ∀ s₂ : PiPins, s₂.lines = s₁.lines → s₂.inputs = s₁.inputs → s₂.outputs = s₁.outputs → ∀ a, a ≠ .done →
            Wired (h ++ [(.setup i t, a)]) s₂ := by
          intro s₂ e1 e2 e3 a ha q
          rw [e1, e2, e3]
          by_cases hq : q = p
          · subst hq
            rw [hcl]
            exact ⟨line_forget (hforget a) (by rintro m ⟨_, _, heq, -⟩; simp at heq; exact ha heq.2), by simp [hci], by simp [hco]⟩
          · obtain ⟨r1, r2, r3⟩ := hrest q hq
            rw [r1, r2, r3]
            exact ⟨line_keep (hother q hq a) (hw q a) (hs q).1, (hs q).2⟩
        unfold PiPins.setup
        simp only [hs₁]
        have hchip : ∀ e, ((s₁.getChip B h.length).2 = .error e → B.opens h.length ≠ none) := by
          intro e
          unfold PiPins.getChip
          split
          · simp
          · split <;> simp_all
        have hsame : (s₁.getChip B h.length).1.lines = s₁.lines ∧ (s₁.getChip B h.length).1.inputs = s₁.inputs ∧
            (s₁.getChip B h.length).1.outputs = s₁.outputs := by
          unfold PiPins.getChip
          split
          · simp
          · split <;> simp
        revert hchip hsame
        generalize s₁.getChip B h.length = r
        obtain ⟨s₂, r⟩ := r
        rintro hchip ⟨e1, e2, e3⟩
        simp only at e1 e2 e3 hchip
        cases r with
        | error e =>
          simp only [gpioDone]
          exact ⟨⟨by simp, fun _ _ _ _ ho => (hchip e rfl ho).elim, fun _ => .inr ⟨_, rfl⟩⟩, hfail s₂ e1 e2 e3 _ (by simp)⟩
        | ok x =>
          simp only [PiPins.get, e2, e3, hci, hco, Bool.or_self, Bool.false_eq_true, if_false]
          cases hg : B.gets h.length p with
          | some e =>
            simp only [gpioDone]
            refine ⟨⟨by simp, fun q _ hq _ _ ho => ?_, fun _ => .inr ⟨_, rfl⟩⟩, hfail s₂ e1 e2 e3 _ (by simp)⟩
            rw [isPin_unique hq hip, hg] at ho
            cases ho
          | none =>
            simp only
            have hother' : ∀ q, q ≠ p → LineIs (h ++ [(.setup i t, .done)]) q (s₂.lines q) ∧
                (s₁.inputs q = true ↔ ∃ d u, s₂.lines q = .input d u) ∧ (s₁.outputs q = true ↔ ∃ l, s₂.lines q = .output l) := by
              intro q hq
              rw [e1]
              obtain ⟨r1, r2, r3⟩ := hrest q hq
              rw [r1, r2, r3]
              exact ⟨line_keep (hother q hq _) (hw q _) (hs q).1, (hs q).2⟩
            have hconf := line_configure (h := h) (p := p) (m := m) (e := (.setup i t, .done)) ⟨i, t, rfl, hip, him⟩
            have ha : Answers B h (.setup i t) .done := ⟨fun _ => ⟨p, m, hip, him⟩, fun _ _ _ _ _ _ => rfl, fun hn => (hn rfl).elim⟩
            cases m <;> simp only [gpioDone] <;> refine ⟨ha, fun q => ?_⟩ <;> by_cases hq : q = p
            all_goals first
              | (subst hq; simp only [if_true]; exact ⟨hconf, by simp [hci], by simp [hco]⟩)
              | (simp only [if_neg hq]; exact hother' q hq)

/-! ## The mock -/

theorem encode_toInt (p : GpioPin) (op : MockOp) : (MockOp.encode p op).toInt = 100 * p.toNat + op.code := by
  have hp := p.isLt
  have hc : op.code ≤ 21 := by cases op <;> decide
  have hn : (MockOp.encode p op).toNat = 100 * p.toNat + op.code := by
    unfold MockOp.encode
    rw [BitVec.toNat_add, BitVec.toNat_mul, BitVec.toNat_setWidth, BitVec.toNat_ofNat, BitVec.toNat_ofNat]
    omega
  rw [BitVec.toInt_eq_toNat_cond, hn]
  split <;> omega

theorem isPin_iff {i : I32} {p q : GpioPin} (h : IsPin i p) : IsPin i q ↔ q = p :=
  ⟨fun h' => isPin_unique h' h, fun h' => h' ▸ h⟩

/-- What holds of the mock after a history. -/
def Mocked (h : List (MockCmd × GpioAnswer)) (s : MockPins) : Prop :=
  ∃ d, AllPerformed h d ∧ s.trace.map BitVec.toInt = d.map traceCode

/-- A step in which something was done. -/
theorem mocked_yes {h : List (MockCmd × GpioAnswer)} {s s' : MockPins} {e : MockCmd × GpioAnswer} {o : Performed} {n : I32}
    (hs : Mocked h s) (hp : Performs e o) (ht : s'.trace = s.trace ++ [n]) (hn : n.toInt = traceCode o) : Mocked (h ++ [e]) s' := by
  obtain ⟨d, h1, h2⟩ := hs
  exact ⟨d ++ [o], .yes h1 hp, by rw [ht]; simp [h2, hn]⟩

theorem mocked_no {h : List (MockCmd × GpioAnswer)} {s s' : MockPins} {e : MockCmd × GpioAnswer}
    (hs : Mocked h s) (hp : ∀ o, ¬ Performs e o) (ht : s'.trace = s.trace) : Mocked (h ++ [e]) s' := by
  obtain ⟨d, h1, h2⟩ := hs
  exact ⟨d, .no h1 hp, by rw [ht, h2]⟩

theorem mocked_step {h : List (MockCmd × GpioAnswer)} {s : MockPins} (hs : Mocked h s) (c : MockCmd) :
    Mocked (h ++ [(c, (mockExec c s).2)]) (mockExec c s).1 := by
  cases c with
  | inject i b =>
    cases hp : gpioPin i <;> simp only [mockExec, hp] <;> exact mocked_no hs (by rintro o ⟨⟩) rfl
  | gpio c =>
    cases c with
    | reset => exact mocked_yes hs .reset rfl (by decide)
    | clearAll => exact mocked_yes hs .clearAll rfl (by decide)
    | clear i =>
      cases hp : gpioPin i with
      | error e => simp only [mockExec, gpioExec, hp]; exact mocked_no hs (by rintro o ⟨⟩) rfl
      | ok p =>
        simp only [mockExec, gpioExec, hp]
        exact mocked_yes hs (.clear (gpioPin_ok.1 hp)) rfl (encode_toInt p .clear)
    | write i b =>
      cases hp : gpioPin i with
      | error e => simp only [mockExec, gpioExec, hp]; exact mocked_no hs (by rintro o ⟨⟩) rfl
      | ok p =>
        simp only [mockExec, gpioExec, hp]
        exact mocked_yes hs (.write (gpioPin_ok.1 hp)) rfl (by rw [encode_toInt]; cases b <;> rfl)
    | setup i t =>
      cases hp : gpioPin i with
      | error e => simp only [mockExec, gpioExec, hp]; exact mocked_no hs (by rintro o ⟨⟩) rfl
      | ok p =>
        cases hm : gpioMode t with
        | error e => simp only [mockExec, gpioExec, hp, hm]; exact mocked_no hs (by rintro o ⟨⟩) rfl
        | ok m =>
          simp only [mockExec, gpioExec, hp, hm]
          refine mocked_yes hs (.setup (gpioPin_ok.1 hp) (gpioMode_ok.1 hm)) rfl ?_
          cases m <;> simp only <;> rw [encode_toInt] <;> rfl
    | read i =>
      cases hp : gpioPin i with
      | error e => simp only [mockExec, gpioExec, hp]; exact mocked_no hs (by rintro o ⟨⟩) rfl
      | ok p =>
        cases hr : s.reads with
        | nil => simp only [mockExec, gpioExec, hp, mockPins, hr]; exact mocked_no hs (by rintro o ⟨⟩) rfl
        | cons x rest =>
          obtain ⟨q, b⟩ := x
          by_cases hq : q = p
          · simp only [mockExec, gpioExec, hp, mockPins, hr, if_pos hq]
            exact mocked_yes hs (.read (gpioPin_ok.1 hp)) rfl (by rw [encode_toInt]; cases b <;> rfl)
          · simp only [mockExec, gpioExec, hp, mockPins, hr, if_neg hq]; exact mocked_no hs (by rintro o ⟨⟩) rfl

theorem performs_unique {e : MockCmd × GpioAnswer} {o o' : Performed} (h : Performs e o) (h' : Performs e o') : o = o' := by
  cases h <;> cases h'
  · rename_i h1 h2 _ _ h3 h4; rw [isPin_unique h1 h3, isMode_unique h2 h4]
  · rename_i h1 _ h2; rw [isPin_unique h1 h2]
  · rfl
  · rfl
  · rename_i h1 _ h2; rw [isPin_unique h1 h2]
  · rename_i h1 _ h2; rw [isPin_unique h1 h2]

theorem allPerformed_unique {h : List (MockCmd × GpioAnswer)} {d d' : List Performed} (h1 : AllPerformed h d) (h2 : AllPerformed h d') :
    d = d' := by
  induction h1 generalizing d' with
  | nil => 
    generalize hh : ([] : List (MockCmd × GpioAnswer)) = h at h2
    cases h2 <;> simp_all
  | @yes h d e o _ hp ih =>
    generalize hh : h ++ [e] = h' at h2
    cases h2 with
    | nil => simp at hh
    | yes h3 hp' =>
      have := List.append_inj' hh rfl
      simp only [List.cons.injEq, and_true] at this
      obtain ⟨rfl, rfl⟩ := this
      rw [ih h3, performs_unique hp hp']
    | no h3 hn =>
      have := List.append_inj' hh rfl
      simp only [List.cons.injEq, and_true] at this
      obtain ⟨rfl, rfl⟩ := this
      exact (hn _ hp).elim
  | @no h d e _ hn ih =>
    generalize hh : h ++ [e] = h' at h2
    cases h2 with
    | nil => simp at hh
    | yes h3 hp' =>
      have := List.append_inj' hh rfl
      simp only [List.cons.injEq, and_true] at this
      obtain ⟨rfl, rfl⟩ := this
      exact (hn _ hp').elim
    | no h3 _ =>
      have := List.append_inj' hh rfl
      simp only [List.cons.injEq, and_true] at this
      obtain ⟨rfl, rfl⟩ := this
      exact ih h3

/-- What a number in the trace stands for, given the pin. -/
def decoded (p : GpioPin) : Nat → Performed
  | 1 => .setup p .input
  | 2 => .setup p .inputPullDown
  | 3 => .setup p .inputPullUp
  | 4 => .setup p .output
  | 5 => .clear p
  | 10 => .read p false
  | 11 => .read p true
  | 20 => .write p false
  | 21 => .write p true
  | _ => .clearAll

theorem traceCode_inj {o o' : Performed} (h : traceCode o = traceCode o') : o = o' := by
  have form : ∀ o : Performed, traceCode o = -1 ∧ o = .clearAll ∨
      ∃ (p : GpioPin) (a : Nat), a < 100 ∧ traceCode o = 100 * p.toNat + a ∧ o = decoded p a := by
    intro o
    cases o with
    | clearAll => exact .inl ⟨rfl, rfl⟩
    | setup p m =>
      cases m
      · exact .inr ⟨p, 1, by decide, rfl, rfl⟩
      · exact .inr ⟨p, 2, by decide, rfl, rfl⟩
      · exact .inr ⟨p, 3, by decide, rfl, rfl⟩
      · exact .inr ⟨p, 4, by decide, rfl, rfl⟩
    | clear p => exact .inr ⟨p, 5, by decide, rfl, rfl⟩
    | read p b =>
      cases b
      · exact .inr ⟨p, 10, by decide, rfl, rfl⟩
      · exact .inr ⟨p, 11, by decide, rfl, rfl⟩
    | write p b =>
      cases b
      · exact .inr ⟨p, 20, by decide, rfl, rfl⟩
      · exact .inr ⟨p, 21, by decide, rfl, rfl⟩
  rcases form o with ⟨h1, rfl⟩ | ⟨p, a, ha, h1, rfl⟩ <;> rcases form o' with ⟨h3, rfl⟩ | ⟨q, b, hb, h3, rfl⟩
  · rfl
  · exfalso; rw [h1, h3] at h; omega
  · exfalso; rw [h1, h3] at h; omega
  · rw [h1, h3] at h
    obtain rfl : p = q := BitVec.eq_of_toNat_eq (by omega)
    obtain rfl : a = b := by omega
    rfl

theorem showInt_nat (n : Nat) : (toString (n : Int)).toList = Nat.toDigits 10 n := by
  show (Int.repr (Int.ofNat n)).toList = _
  simp [Int.repr, Nat.repr]

theorem showInt_neg (n : Nat) : (toString (Int.negSucc n)).toList = '-' :: Nat.toDigits 10 (n + 1) := by
  show (Int.repr (Int.negSucc n)).toList = _
  simp [Int.repr, Nat.repr]

theorem digits_isDigit {n : Nat} {c : Char} (h : c ∈ Nat.toDigits 10 n) : c.isDigit = true :=
  Nat.isDigit_of_mem_toDigits (by decide) (by decide) h

theorem digits_inj {n m : Nat} (h : Nat.toDigits 10 n = Nat.toDigits 10 m) : n = m := by
  have h1 := Nat.ofDigitChars_toDigits (b := 10) (n := n) (by decide) (by decide)
  have h2 := Nat.ofDigitChars_toDigits (b := 10) (n := m) (by decide) (by decide)
  rw [h] at h1
  omega

theorem showInt_word (i : Int) : (toString i).toList ≠ [] ∧ ' ' ∉ (toString i).toList := by
  cases i with
  | ofNat n =>
    show (toString (n : Int)).toList ≠ [] ∧ ' ' ∉ (toString (n : Int)).toList
    rw [showInt_nat]
    exact ⟨Nat.toDigits_ne_nil, fun h => by simpa using digits_isDigit h⟩
  | negSucc n =>
    rw [showInt_neg]
    refine ⟨by simp, fun h => ?_⟩
    rcases List.mem_cons.1 h with h | h
    · simp at h
    · simpa using digits_isDigit h

theorem showInt_inj {i j : Int} (h : (toString i).toList = (toString j).toList) : i = j := by
  have mixed : ∀ n m : Nat, (toString (n : Int)).toList ≠ (toString (Int.negSucc m)).toList := by
    intro n m h
    rw [showInt_nat, showInt_neg] at h
    have : '-' ∈ Nat.toDigits 10 n := by rw [h]; simp
    simpa using digits_isDigit this
  cases i with
  | ofNat n =>
    cases j with
    | ofNat m =>
      have h' : (toString (n : Int)).toList = (toString (m : Int)).toList := h
      rw [showInt_nat, showInt_nat] at h'
      rw [digits_inj h']
    | negSucc m => exact (mixed n m h).elim
  | negSucc n =>
    cases j with
    | ofNat m => exact (mixed m n h.symm).elim
    | negSucc m =>
      rw [showInt_neg, showInt_neg] at h
      injection h with _ h
      rw [show n = m by have := digits_inj h; omega]

theorem words_cons (w : Str) (ws : List Str) :
    List.intercalate " ".toList (w :: ws) = w ++ (if ws = [] then [] else ' ' :: List.intercalate " ".toList ws) := by
  cases ws with
  | nil => simp [List.intercalate]
  | cons v vs => simp [List.intercalate]

theorem word_split {w v a b : Str} (hw : ' ' ∉ w) (hv : ' ' ∉ v) (ha : a = [] ∨ ∃ r, a = ' ' :: r) (hb : b = [] ∨ ∃ r, b = ' ' :: r)
    (h : w ++ a = v ++ b) : w = v ∧ a = b := by
  induction w generalizing v with
  | nil =>
    cases v with
    | nil => exact ⟨rfl, h⟩
    | cons c v =>
      exfalso
      rcases ha with rfl | ⟨r, rfl⟩
      · simp at h
      · simp only [List.nil_append, List.cons_append, List.cons.injEq] at h
        exact hv (by simp [← h.1])
  | cons d w ih =>
    cases v with
    | nil =>
      exfalso
      rcases hb with rfl | ⟨r, rfl⟩
      · simp at h
      · simp only [List.nil_append, List.cons_append, List.cons.injEq] at h
        exact hw (by simp [h.1])
    | cons c v =>
      simp only [List.cons_append, List.cons.injEq] at h
      obtain ⟨rfl, h⟩ := h
      obtain ⟨rfl, rfl⟩ := ih (fun h' => hw (List.mem_cons_of_mem _ h')) (fun h' => hv (List.mem_cons_of_mem _ h')) h
      exact ⟨rfl, rfl⟩

theorem words_inj {ws vs : List Str} (hw : ∀ w ∈ ws, w ≠ [] ∧ ' ' ∉ w) (hv : ∀ w ∈ vs, w ≠ [] ∧ ' ' ∉ w)
    (h : List.intercalate " ".toList ws = List.intercalate " ".toList vs) : ws = vs := by
  induction ws generalizing vs with
  | nil =>
    cases vs with
    | nil => rfl
    | cons v vs =>
      rw [words_cons] at h
      have := (hv v (by simp)).1
      simp [List.intercalate] at h
      exact (this h.1).elim
  | cons w ws ih =>
    cases vs with
    | nil =>
      rw [words_cons] at h
      have := (hw w (by simp)).1
      simp [List.intercalate] at h
      exact (this h.1).elim
    | cons v vs =>
      rw [words_cons, words_cons] at h
      obtain ⟨rfl, h'⟩ := word_split (hw w (by simp)).2 (hv v (by simp)).2 (by split <;> simp) (by split <;> simp) h
      by_cases h1 : ws = [] <;> by_cases h2 : vs = []
      · rw [h1, h2]
      · simp [h1, h2] at h'
      · simp [h1, h2] at h'
      · rw [if_neg h1, if_neg h2] at h'
        injection h' with _ h
        rw [ih (fun w hw' => hw w (by simp [hw'])) (fun w hw' => hv w (by simp [hw'])) h]

theorem pin_range {i : I32} : (∃ p, IsPin i p) ↔ 0 ≤ i.toInt ∧ i.toInt ≤ 255 := by
  constructor
  · rintro ⟨p, h⟩
    have := p.isLt
    unfold IsPin at h
    omega
  · intro h
    exact ⟨BitVec.ofNat 8 i.toInt.toNat, by unfold IsPin; rw [BitVec.toNat_ofNat, Nat.mod_eq_of_lt (by omega)]; omega⟩

theorem ofInt_pin {i : I32} {p : GpioPin} (h : IsPin i p) : BitVec.ofInt 8 i.toInt = p := by
  unfold IsPin at h
  rw [h, BitVec.ofInt_natCast, BitVec.ofNat_toNat, BitVec.setWidth_eq]

/-- Until some time there was always a level to be read. -/
def Fed (h : List (MockCmd × GpioAnswer)) : Prop := ∀ g, g <+: h → readCount g ≤ (injected g).length

theorem fed_before {h g : List (MockCmd × GpioAnswer)} (hf : Fed (h ++ g)) : Fed h :=
  fun k hk => hf k (hk.trans (List.prefix_append _ _))

theorem queue_step {h : List (MockCmd × GpioAnswer)} {s : MockPins} (hs : s.reads = (injected h).drop (readCount h))
    (hf : readCount h ≤ (injected h).length) (c : MockCmd) (hn : readCount (h ++ [(c, (mockExec c s).2)]) ≤ (injected (h ++ [(c, (mockExec c s).2)])).length) :
    (mockExec c s).1.reads = (injected (h ++ [(c, (mockExec c s).2)])).drop (readCount (h ++ [(c, (mockExec c s).2)])) := by
  cases c with
  | inject i b =>
    cases hp : gpioPin i with
    | error e =>
      simp only [mockExec, hp]
      simpa [injected, readCount] using hs
    | ok p =>
      simp only [mockExec, hp]
      have e1 : injected (h ++ [(MockCmd.inject i b, GpioAnswer.done)]) = injected h ++ [(p, b)] := by
        simp [injected, ofInt_pin (gpioPin_ok.1 hp)]
      have e2 : readCount (h ++ [(MockCmd.inject i b, GpioAnswer.done)]) = readCount h := by simp [readCount]
      rw [e1, e2, hs, List.drop_append_of_le_length hf]
  | gpio c =>
    have e1 : ∀ a, injected (h ++ [(MockCmd.gpio c, a)]) = injected h := by intro a; simp [injected]
    cases c with
    | read i =>
      cases hp : gpioPin i with
      | error e =>
        have : ¬ (0 ≤ i.toInt ∧ i.toInt ≤ 255) := fun hh => by
          obtain ⟨p, hh⟩ := pin_range.2 hh
          exact gpioPin_error hp p hh
        have e2 : ∀ a, readCount (h ++ [(MockCmd.gpio (.read i), a)]) = readCount h := by intro a; simpa [readCount] using this
        rw [e1, e2]
        simp only [mockExec, gpioExec, hp]
        exact hs
      | ok p =>
        have hr := pin_range.1 ⟨p, gpioPin_ok.1 hp⟩
        have e2 : ∀ a, readCount (h ++ [(MockCmd.gpio (.read i), a)]) = readCount h + 1 := by intro a; simp [readCount, hr]
        rw [e1, e2] at hn ⊢
        rw [← List.drop_drop, ← hs]
        cases hq : s.reads with
        | nil =>
          exfalso
          rw [hs] at hq
          have := List.drop_eq_nil_iff.1 hq
          omega
        | cons x rest =>
          obtain ⟨q, b⟩ := x
          by_cases hqp : q = p
          · simp [mockExec, gpioExec, hp, mockPins, hq, hqp]
          · simp [mockExec, gpioExec, hp, mockPins, hq, hqp]
    | setup i t =>
      have e2 : ∀ a, readCount (h ++ [(MockCmd.gpio (.setup i t), a)]) = readCount h := by intro a; simp [readCount]
      rw [e1, e2, ← hs]
      simp only [mockExec, gpioExec]
      split
      · rfl
      · split <;> rfl
    | clear i =>
      have e2 : ∀ a, readCount (h ++ [(MockCmd.gpio (.clear i), a)]) = readCount h := by intro a; simp [readCount]
      rw [e1, e2, ← hs]
      simp only [mockExec, gpioExec]
      split <;> rfl
    | write i b =>
      have e2 : ∀ a, readCount (h ++ [(MockCmd.gpio (.write i b), a)]) = readCount h := by intro a; simp [readCount]
      rw [e1, e2, ← hs]
      simp only [mockExec, gpioExec]
      split <;> rfl
    | clearAll =>
      have e2 : ∀ a, readCount (h ++ [(MockCmd.gpio .clearAll, a)]) = readCount h := by intro a; simp [readCount]
      rw [e1, e2, ← hs]
      rfl
    | reset =>
      have e2 : ∀ a, readCount (h ++ [(MockCmd.gpio .reset, a)]) = readCount h := by intro a; simp [readCount]
      rw [e1, e2, ← hs]
      rfl

end EB.Wire
