import Verif.Spec.St7735s
/-!
# The driver and the controller of the ST7735S
-/

namespace EB

open Spec

namespace St7735s

variable {σ : Type} {D : SpiDevice σ} {bus : SpiBus}

/-- The device after some bytes. -/
def fed (D : SpiDevice σ) (dc : Bool) (d : σ) (data : List Byte) : σ := data.foldl (fun d b => D.byte dc b d) d

theorem fed_append (dc : Bool) (d : σ) (u v : List Byte) : fed D dc d (u ++ v) = fed D dc (fed D dc d u) v := by
  simp [fed]

theorem writeChunk_spec (hb : Works bus) : ∀ (m : Nat) (s : St7735s σ) (rest : List Byte), rest.length = m → rest ≠ [] →
    ∃ k, writeChunk D bus s rest = (⟨s.dc, k, fed D s.dc s.device rest⟩, .ok ()) := by
  intro m
  induction m using Nat.strongRecOn with
  | ind m ih =>
    intro s rest hm hne
    have hpos := List.length_pos_iff.2 hne
    obtain ⟨n, hn, h0, hle⟩ := hb.2 s.writes rest.length hpos
    rw [writeChunk]
    simp only [hn]
    by_cases he : n = rest.length
    · rw [if_pos he]
      exact ⟨s.writes + 1, by simp [arrive, fed, he]⟩
    · rw [if_neg he, dif_neg (by omega), dif_neg (by omega)]
      obtain ⟨k, hk⟩ := ih (rest.length - n) (by omega) (arrive D s (rest.take n)) (rest.drop n) (by simp)
        (by intro h; have := congrArg List.length h; simp at this; omega)
      refine ⟨k, hk.trans ?_⟩
      have : fed D s.dc s.device rest = fed D s.dc (fed D s.dc s.device (rest.take n)) (rest.drop n) := by
        rw [← fed_append, List.take_append_drop]
      rw [this]
      rfl

theorem write_spec (hb : Works bus) : ∀ (m : Nat) (s : St7735s σ) (data : List Byte), data.length = m →
    ∃ k, write D bus s data = (⟨s.dc, k, fed D s.dc s.device data⟩, .ok ()) := by
  intro m
  induction m using Nat.strongRecOn with
  | ind m ih =>
    intro s data hm
    have h0 := hb.1
    rw [write, dif_neg (by omega)]
    by_cases he : data = []
    · rw [dif_pos he]
      subst he
      exact ⟨s.writes, rfl⟩
    · have hpos := List.length_pos_iff.2 he
      rw [dif_neg he]
      obtain ⟨k, hk⟩ := writeChunk_spec (D := D) hb _ s (data.take bus.maxSize) rfl
        (by intro h; have := congrArg List.length h; rw [List.length_take] at this; simp only [List.length_nil] at this; omega)
      rw [hk]
      obtain ⟨k', hk'⟩ := ih (data.length - bus.maxSize) (by omega) ⟨s.dc, k, fed D s.dc s.device (data.take bus.maxSize)⟩
        (data.drop bus.maxSize) (by simp)
      refine ⟨k', hk'.trans ?_⟩
      simp only
      rw [← fed_append, List.take_append_drop]

theorem writeReg_spec (hb : Works bus) (s : St7735s σ) (data : List Byte) :
    ∃ k, writeReg D bus s data = (⟨false, k, fed D false s.device data⟩, .ok ()) :=
  write_spec hb _ _ data rfl

theorem writeData_spec (hb : Works bus) (s : St7735s σ) (data : List Byte) :
    ∃ k, writeData D bus s data = (⟨true, k, fed D true s.device data⟩, .ok ()) :=
  write_spec hb _ _ data rfl

theorem andThen_ok {r : St7735s σ × Except SpiStop Unit} {s : St7735s σ} (h : r = (s, .ok ())) (f : St7735s σ → St7735s σ × Except SpiStop Unit) :
    andThen r f = f s := by
  rw [h]
  rfl

/-- What the device gets when a window is set. -/
def windowed (D : SpiDevice σ) (d : σ) (x1 x2 y1 y2 : Byte) : σ :=
  fed D false (fed D true (fed D false (fed D true (fed D false d [0x2a]) [0, x1, 0, x2]) [0x2b]) [0, y1, 0, y2]) [0x2c]

theorem setWindow_spec (hb : Works bus) (s : St7735s σ) (xy : LXY) (w h : Nat) :
    ∃ k, setWindow D bus s xy w h = (⟨false, k, windowed D s.device (BitVec.ofNat 8 (xy.x % 256 + 1)) (BitVec.ofNat 8 ((xy.x + w + 1 - 1) % 256))
      (BitVec.ofNat 8 (xy.y % 256 + 2)) (BitVec.ofNat 8 ((xy.y + h + 2 - 1) % 256))⟩, .ok ()) := by
  unfold setWindow
  obtain ⟨k1, h1⟩ := writeReg_spec (D := D) hb s [0x2a]
  obtain ⟨k2, h2⟩ := writeData_spec (D := D) hb ⟨false, k1, fed D false s.device [0x2a]⟩ [0, BitVec.ofNat 8 (xy.x % 256 + 1), 0, BitVec.ofNat 8 ((xy.x + w + 1 - 1) % 256)]
  obtain ⟨k3, h3⟩ := writeReg_spec (D := D) hb ⟨true, k2, _⟩ [0x2b]
  obtain ⟨k4, h4⟩ := writeData_spec (D := D) hb ⟨false, k3, _⟩ [0, BitVec.ofNat 8 (xy.y % 256 + 2), 0, BitVec.ofNat 8 ((xy.y + h + 2 - 1) % 256)]
  obtain ⟨k5, h5⟩ := writeReg_spec (D := D) hb ⟨true, k4, _⟩ [0x2c]
  refine ⟨k5, ?_⟩
  refine (andThen_ok h1 _).trans ?_
  refine (andThen_ok h2 _).trans ?_
  refine (andThen_ok h3 _).trans ?_
  refine (andThen_ok h4 _).trans ?_
  exact h5

theorem recorder_fed (dc : Bool) (l : List (Bool × Byte)) (data : List Byte) :
    data.foldl (fun d b => recorder.byte dc b d) l = l ++ data.map (fun b => (dc, b)) := by
  induction data generalizing l with
  | nil => simp
  | cons b data ih => rw [List.foldl_cons, ih]; simp [recorder]

/-- With any bus, a chunk is sent up to some byte. -/
theorem writeChunk_prefix (bus : SpiBus) : ∀ (m : Nat) (s : St7735s (List (Bool × Byte))) (rest : List Byte), rest.length = m →
    (writeChunk recorder bus s rest).1.dc = s.dc ∧
    ∃ n, n ≤ rest.length ∧ (writeChunk recorder bus s rest).1.device = s.device ++ (rest.take n).map (fun b => (s.dc, b)) ∧
      ((writeChunk recorder bus s rest).2 = .ok () → n = rest.length) := by
  intro m
  induction m using Nat.strongRecOn with
  | ind m ih =>
    intro s rest hm
    rw [writeChunk]
    cases ht : bus.takes s.writes rest.length with
    | error e => exact ⟨rfl, 0, by simp, by simp, by simp⟩
    | ok n =>
      simp only
      have ha : (arrive recorder s (rest.take n)).device = s.device ++ (rest.take n).map (fun b => (s.dc, b)) := recorder_fed _ _ _
      by_cases he : n = rest.length
      · rw [if_pos he]
        exact ⟨rfl, n, by omega, ha, fun _ => he⟩
      · rw [if_neg he]
        by_cases h0 : n = 0
        · rw [dif_pos h0]
          exact ⟨rfl, 0, by simp, by simpa [h0] using ha, by simp⟩
        · rw [dif_neg h0]
          by_cases hlt : rest.length < n
          · rw [dif_pos hlt]
            refine ⟨rfl, rest.length, by simp, ?_, by simp⟩
            rw [ha, List.take_of_length_le (Nat.le_of_lt hlt), List.take_of_length_le (Nat.le_refl _)]
          · rw [dif_neg hlt]
            obtain ⟨h1, n', h2, h3, h4⟩ := ih (rest.length - n) (by omega) (arrive recorder s (rest.take n)) (rest.drop n) (by simp)
            refine ⟨h1, n + n', by simp at h2; omega, ?_, fun h => ?_⟩
            · rw [h3, ha, List.take_add, List.map_append, List.append_assoc]
              rfl
            · have := h4 h
              simp at this
              omega

/-- With any bus, the data is sent up to some byte. -/
theorem write_prefix (bus : SpiBus) : ∀ (m : Nat) (s : St7735s (List (Bool × Byte))) (data : List Byte), data.length = m →
    (write recorder bus s data).1.dc = s.dc ∧
    ∃ n, n ≤ data.length ∧ (write recorder bus s data).1.device = s.device ++ (data.take n).map (fun b => (s.dc, b)) ∧
      ((write recorder bus s data).2 = .ok () → n = data.length) := by
  intro m
  induction m using Nat.strongRecOn with
  | ind m ih =>
    intro s data hm
    rw [write]
    by_cases h0 : bus.maxSize = 0
    · rw [dif_pos h0]
      exact ⟨rfl, 0, by simp, by simp, by simp⟩
    · rw [dif_neg h0]
      by_cases he : data = []
      · rw [dif_pos he]
        exact ⟨rfl, 0, by simp, by simp, by simp [he]⟩
      · rw [dif_neg he]
        have hpos := List.length_pos_iff.2 he
        obtain ⟨h1, n, h2, h3, h4⟩ := writeChunk_prefix bus _ s (data.take bus.maxSize) rfl
        rw [List.length_take] at h2 h4
        rw [List.take_take] at h3
        rcases hr : writeChunk recorder bus s (data.take bus.maxSize) with ⟨s', r⟩
        rw [hr] at h1 h3 h4
        cases r with
        | error e =>
          refine ⟨h1, n, by omega, ?_, by simp⟩
          simpa [Nat.min_eq_left (show n ≤ bus.maxSize by omega)] using h3
        | ok u =>
          have h4 := h4 rfl
          simp only
          obtain ⟨i1, n', i2, i3, i4⟩ := ih (data.length - bus.maxSize) (by omega) s' (data.drop bus.maxSize) (by simp)
          simp only at h1 h3
          refine ⟨i1.trans h1, n + n', by simp at i2; omega, ?_, fun h => ?_⟩
          · rw [i3, h3, h1, List.append_assoc, ← List.map_append, h4]
            congr 2
            by_cases hle : bus.maxSize ≤ data.length
            · rw [Nat.min_eq_left hle, Nat.min_self, List.take_add]
            · have z1 : data.drop bus.maxSize = [] := List.drop_of_length_le (by omega)
              have z2 : data.take (min (min bus.maxSize data.length) bus.maxSize) = data := List.take_of_length_le (by omega)
              have z3 : data.take (min bus.maxSize data.length + n') = data := List.take_of_length_le (by omega)
              rw [z1, z2, z3]
              simp
          · have := i4 h
            simp at this
            omega

end St7735s

namespace Spec.Panel

open St7735s

/-- A window is set, and the next pixel goes into its corner. -/
theorem window (p : Panel) (x1 x2 y1 y2 : Byte) :
    windowed device p x1 x2 y1 y2 =
      { p with reg := 0x2c, args := [], x1 := x1.toNat, x2 := x2.toNat, y1 := y1.toNat, y2 := y2.toNat, x := x1.toNat, y := y1.toNat } := by
  simp [windowed, fed, device, select, data]

/-- Two bytes are a pixel. -/
theorem pixel (p : Panel) (h : p.reg = 0x2c) (h' : p.args = []) (a b : Byte) :
    fed device true p [a, b] =
      { p with
        memory := fun x y => if x = p.x ∧ y = p.y then [a, b] else p.memory x y
        x := if p.x = p.x2 then p.x1 else p.x + 1
        y := if p.x = p.x2 then (if p.y = p.y2 then p.y1 else p.y + 1) else p.y } := by
  simp [fed, device, data, h, h']

/-- The pixels of a window, from number `k` on. -/
theorem pixels (W H : Nat) (hW : 0 < W) (hH : 0 < H) : ∀ (n k : Nat) (p : Panel) (l : List Byte), l.length = 2 * n → k + n = W * H →
    p.reg = 0x2c → p.args = [] → p.x2 = p.x1 + W - 1 → p.y2 = p.y1 + H - 1 → (k < W * H → p.x = p.x1 + k % W ∧ p.y = p.y1 + k / W) →
    ∀ X Y, (fed device true p l).memory X Y =
      if p.x1 ≤ X ∧ X ≤ p.x2 ∧ p.y1 ≤ Y ∧ Y ≤ p.y2 ∧ k ≤ (Y - p.y1) * W + (X - p.x1) then
        (l.drop (((Y - p.y1) * W + (X - p.x1) - k) * 2)).take 2
      else p.memory X Y := by
  intro n
  induction n with
  | zero =>
    intro k p l hl hk hr ha hx hy hc X Y
    have : l = [] := List.eq_nil_of_length_eq_zero (by omega)
    subst this
    simp only [fed, List.foldl_nil]
    rw [if_neg]
    rintro ⟨h1, h2, h3, h4, h5⟩
    have e1 : Y - p.y1 + 1 ≤ H := by omega
    have e2 := Nat.mul_le_mul_right W e1
    rw [Nat.add_mul, Nat.one_mul, Nat.mul_comm H W] at e2
    omega
  | succ n ih =>
    intro k p l hl hk hr ha hx hy hc X Y
    obtain ⟨a, b, l', rfl⟩ : ∃ a b l', l = a :: b :: l' := by
      match l, hl with
      | a :: b :: l', _ => exact ⟨a, b, l', rfl⟩
    obtain ⟨cx, cy⟩ := hc (by omega)
    have hkW : k / W < H := (Nat.div_lt_iff_lt_mul hW).2 (by rw [Nat.mul_comm]; omega)
    have hmod := Nat.mod_lt k hW
    have hdm := Nat.div_add_mod k W
    have e : a :: b :: l' = [a, b] ++ l' := rfl
    rw [e, fed_append, pixel p hr ha a b]
    have hnext : k + 1 < W * H → (if p.x = p.x2 then p.x1 else p.x + 1) = p.x1 + (k + 1) % W ∧
        (if p.x = p.x2 then (if p.y = p.y2 then p.y1 else p.y + 1) else p.y) = p.y1 + (k + 1) / W := by
      intro hlt
      by_cases he : k % W = W - 1
      · have q1 : k + 1 = W * (k / W + 1) := by rw [Nat.mul_add, Nat.mul_one]; omega
        have q2 : (k + 1) % W = 0 := by rw [q1]; simp
        have q3 : (k + 1) / W = k / W + 1 := by rw [q1]; simp [hW]
        have q4 : k / W + 1 < H := by rw [← q3]; exact (Nat.div_lt_iff_lt_mul hW).2 (by rw [Nat.mul_comm]; omega)
        have q5 : p.x = p.x2 := by omega
        have q6 : ¬ p.y = p.y2 := by omega
        rw [q2, q3, if_pos q5, if_pos q5, if_neg q6]
        omega
      · have q2 : (k + 1) % W = k % W + 1 := by
          have q1 : k + 1 = W * (k / W) + (k % W + 1) := by omega
          have q0 : k % W + 1 < W := by omega
          rw [q1, Nat.mul_add_mod, Nat.mod_eq_of_lt q0]
        have q3 : (k + 1) / W = k / W := by
          have q1 : k + 1 = W * (k / W) + (k % W + 1) := by omega
          have q0 : k % W + 1 < W := by omega
          rw [q1, Nat.mul_add_div hW, Nat.div_eq_of_lt q0, Nat.add_zero]
        have q4 : ¬ p.x = p.x2 := by omega
        rw [q2, q3, if_neg q4, if_neg q4]
        omega
    refine (ih (k + 1) { p with
        memory := fun x y => if x = p.x ∧ y = p.y then [a, b] else p.memory x y
        x := if p.x = p.x2 then p.x1 else p.x + 1
        y := if p.x = p.x2 then (if p.y = p.y2 then p.y1 else p.y + 1) else p.y } l'
      (by simp at hl; omega) (by omega) hr ha hx hy hnext X Y).trans ?_
    simp only
    by_cases hin : p.x1 ≤ X ∧ X ≤ p.x2 ∧ p.y1 ≤ Y ∧ Y ≤ p.y2
    · obtain ⟨i1, i2, i3, i4⟩ := hin
      by_cases hidx : (Y - p.y1) * W + (X - p.x1) = k
      · have q1 : k / W = Y - p.y1 := by
          rw [← hidx, Nat.mul_comm, Nat.mul_add_div hW, Nat.div_eq_of_lt (by omega), Nat.add_zero]
        have q2 : k % W = X - p.x1 := by
          rw [← hidx, Nat.mul_comm, Nat.mul_add_mod, Nat.mod_eq_of_lt (by omega)]
        rw [if_neg (by omega), if_pos (by omega), if_pos (by omega), hidx]
        simp
      · have hne : ¬ (X = p.x ∧ Y = p.y) := by
          rintro ⟨r1, r2⟩
          apply hidx
          have : Y - p.y1 = k / W := by omega
          rw [this, Nat.mul_comm]
          omega
        by_cases hlt : k ≤ (Y - p.y1) * W + (X - p.x1)
        · rw [if_pos (by omega), if_pos (by omega)]
          obtain ⟨j, hj⟩ := Nat.exists_eq_add_of_lt (Nat.lt_of_le_of_ne hlt (Ne.symm hidx))
          have t1 : (Y - p.y1) * W + (X - p.x1) - (k + 1) = j := by omega
          have t2 : ((Y - p.y1) * W + (X - p.x1) - k) * 2 = j * 2 + 1 + 1 := by omega
          rw [t1, t2]
          rfl
        · rw [if_neg (by omega), if_neg hne, if_neg (by omega)]
    · have hne : ¬ (X = p.x ∧ Y = p.y) := by
        rintro ⟨r1, r2⟩
        apply hin
        rw [r1, r2, cx, cy]
        generalize k / W = q at *
        generalize k % W = r at *
        omega
      rw [if_neg (fun h => hin ⟨h.1, h.2.1, h.2.2.1, h.2.2.2.1⟩), if_neg hne, if_neg (fun h => hin ⟨h.1, h.2.1, h.2.2.1, h.2.2.2.1⟩)]

end Spec.Panel

end EB
