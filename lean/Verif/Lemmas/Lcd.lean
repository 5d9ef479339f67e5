import Verif.Spec.Lcd
import Mathlib.Tactic.Ring
import Mathlib.Tactic.SplitIfs
/-!
# Lemmas on the buffered LCD
-/

namespace EB
open Spec

theorem sliceOf_some {l : List Byte} {a n : Nat} (h : a + n ≤ l.length) : sliceOf l a n = some ((l.drop a).take n) := if_pos h

theorem take_drop_ext {l l' : List Byte} {a a' n : Nat} (h : ∀ i, i < n → l[a + i]? = l'[a' + i]?) : (l.drop a).take n = (l'.drop a').take n := by
  apply List.ext_getElem?
  intro i
  simp only [List.getElem?_take, List.getElem?_drop]
  split
  next hi => exact h i hi
  next => rfl

theorem copyInto_some {l data : List Byte} {a : Nat} (h : a + data.length ≤ l.length) :
    ∃ l', copyInto l a data = some l' ∧ l'.length = l.length ∧
      ∀ i, l'[i]? = if i < a then l[i]? else if i < a + data.length then data[i - a]? else l[i]? := by
  refine ⟨_, if_pos h, ?_, fun i => ?_⟩
  · simp only [List.length_append, List.length_take, List.length_drop]; omega
  · simp only [List.append_assoc, List.getElem?_append, List.length_take, List.getElem?_take, List.getElem?_drop]
    have e : min a l.length = a := by omega
    rw [e]
    split_ifs <;> first | rfl | (exfalso; omega) | (congr 1; omega)

/-- Writing does not matter for what is before or after. -/
theorem copyInto_other {l data l' : List Byte} {a b n : Nat} (h : a + data.length ≤ l.length) (hc : copyInto l a data = some l')
    (ho : b + n ≤ a ∨ a + data.length ≤ b) : sliceOf l' b n = sliceOf l b n := by
  obtain ⟨m, h1, h2, h3⟩ := copyInto_some h
  cases hc.symm.trans h1
  unfold sliceOf
  rw [h2]
  split
  · congr 1
    apply take_drop_ext
    intro i hi
    rw [h3]
    split_ifs <;> first | rfl | (exfalso; omega)
  · rfl

/-- What is within what was written. -/
theorem copyInto_same {l data l' : List Byte} {a b n : Nat} (h : a + data.length ≤ l.length) (hc : copyInto l a data = some l')
    (h1 : a ≤ b) (h2 : b + n ≤ a + data.length) : sliceOf l' b n = sliceOf data (b - a) n := by
  obtain ⟨m, e1, e2, e3⟩ := copyInto_some h
  cases hc.symm.trans e1
  rw [sliceOf_some (by omega), sliceOf_some (by omega)]
  congr 1
  apply take_drop_ext
  intro i hi
  rw [e3, if_neg (by omega), if_pos (by omega)]
  congr 1
  omega

theorem flatten_length {L : List (List Byte)} {n : Nat} (h : ∀ p ∈ L, p.length = n) : L.flatten.length = L.length * n := by
  induction L with
  | nil => simp
  | cons p L ih =>
    rw [List.flatten_cons, List.length_append, ih (fun q hq => h q (List.mem_cons_of_mem _ hq)), h p (by simp), List.length_cons, Nat.succ_mul, Nat.add_comm]

/-- The pixels of a list of pixels put together. -/
theorem flatten_slice {L : List (List Byte)} {n : Nat} (h : ∀ p ∈ L, p.length = n) {k : Nat} {p : List Byte} (hk : L[k]? = some p) :
    (L.flatten.drop (k * n)).take n = p := by
  induction L generalizing k with
  | nil => simp at hk
  | cons q L ih =>
    have hq := h q (by simp)
    cases k with
    | zero =>
      simp only [List.getElem?_cons_zero, Option.some.injEq] at hk
      subst hk
      rw [List.flatten_cons, Nat.zero_mul, List.drop_zero, ← hq, List.take_left]
    | succ k =>
      rw [List.flatten_cons, Nat.succ_mul, Nat.add_comm, ← List.drop_drop, show List.drop n (q ++ L.flatten) = L.flatten by rw [← hq, List.drop_left]]
      exact ih (fun r hr => h r (List.mem_cons_of_mem _ hr)) hk

theorem grid_eq {α : Type} (f : Nat → Nat → α) (n h : Nat) :
    ((List.range h).flatMap fun j => (List.range n).map fun i => f i j) = (List.range (h * n)).map fun k => f (k % n) (k / n) := by
  induction h with
  | zero => simp
  | succ h ih =>
    rw [List.range_succ, List.flatMap_append, ih, Nat.succ_mul, List.range_add, List.map_append, List.map_map]
    congr 1
    simp only [List.flatMap_cons, List.flatMap_nil, List.append_nil]
    apply List.map_congr_left
    intro i hi
    have hi := List.mem_range.1 hi
    show f i h = f ((h * n + i) % n) ((h * n + i) / n)
    rw [Nat.mul_comm h n, Nat.mul_add_mod, Nat.mod_eq_of_lt hi, Nat.mul_add_div (by omega), Nat.div_eq_of_lt hi, Nat.add_zero]

theorem cells_eq (a b : LXY) : Lcd.cells a b = (List.range ((b.y + 1 - a.y) * (b.x + 1 - a.x))).map fun k =>
    (⟨a.x + k % (b.x + 1 - a.x), a.y + k / (b.x + 1 - a.x)⟩ : LXY) :=
  grid_eq (fun i j => (⟨a.x + i, a.y + j⟩ : LXY)) _ _

/-- The box of a window. -/
def InWindow (a b q : LXY) : Prop := a.x ≤ q.x ∧ q.x ≤ b.x ∧ a.y ≤ q.y ∧ q.y ≤ b.y

instance (a b q : LXY) : Decidable (InWindow a b q) := inferInstanceAs (Decidable (_ ∧ _))

theorem mul_lt_grid {x y w h : Nat} (hx : x < w) (hy : y < h) : y * w + x < h * w := by
  have : (y + 1) * w ≤ h * w := Nat.mul_le_mul_right w hy
  rw [Nat.succ_mul] at this
  omega

theorem mul_le_of_lt {x y y' w : Nat} (hx : x < w) (hy : y < y') : y * w + x < y' * w := mul_lt_grid hx hy

theorem grid_inj {x y x' y' w : Nat} (hx : x < w) (hx' : x' < w) (h : y * w + x = y' * w + x') : x = x' ∧ y = y' := by
  rcases Nat.lt_trichotomy y y' with hy | hy | hy
  · have := mul_le_of_lt hx hy; omega
  · subst hy; omega
  · have := mul_le_of_lt hx' hy; omega

/-- A window contains the pixels of its box, at the places given by its rows. -/
theorem cells_get {a b q : LXY} (h : InWindow a b q) : (Lcd.cells a b)[(q.y - a.y) * (b.x - a.x + 1) + (q.x - a.x)]? = some q := by
  obtain ⟨h1, h2, h3, h4⟩ := h
  rw [cells_eq]
  obtain ⟨n, hn⟩ : ∃ n, b.x + 1 - a.x = n := ⟨_, rfl⟩
  have hn' : b.x - a.x + 1 = n := by omega
  rw [hn, hn', List.getElem?_map, List.getElem?_range (mul_lt_grid (by omega) (by omega))]
  have e1 : ((q.y - a.y) * n + (q.x - a.x)) % n = q.x - a.x := by
    rw [Nat.mul_comm, Nat.mul_add_mod, Nat.mod_eq_of_lt (by omega)]
  have e2 : ((q.y - a.y) * n + (q.x - a.x)) / n = q.y - a.y := by
    rw [Nat.mul_comm, Nat.mul_add_div (by omega), Nat.div_eq_of_lt (by omega), Nat.add_zero]
  rw [Option.map_some, e1, e2]
  congr 1
  cases q
  simp only [LXY.mk.injEq] at *
  omega

theorem cells_mem {a b q : LXY} {k : Nat} (hab : a.x ≤ b.x) (h : (Lcd.cells a b)[k]? = some q) :
    InWindow a b q ∧ k = (q.y - a.y) * (b.x - a.x + 1) + (q.x - a.x) := by
  rw [cells_eq] at h
  obtain ⟨n, hn⟩ : ∃ n, b.x + 1 - a.x = n := ⟨_, rfl⟩
  have hn' : b.x - a.x + 1 = n := by omega
  rw [hn] at h
  rw [hn']
  by_cases hk : k < (b.y + 1 - a.y) * n
  · rw [List.getElem?_map, List.getElem?_range hk] at h
    cases h
    have hpos : 0 < n := by omega
    have hm := Nat.mod_lt k hpos
    have hd : k / n < b.y + 1 - a.y := Nat.div_lt_of_lt_mul (by rw [Nat.mul_comm]; exact hk)
    have hdm := Nat.div_add_mod k n
    simp only [InWindow]
    generalize k / n = d at hd hdm ⊢
    generalize k % n = m at hm hdm ⊢
    refine ⟨⟨?_, ?_, ?_, ?_⟩, ?_⟩
    · omega
    · omega
    · omega
    · omega
    · rw [show a.y + d - a.y = d by omega, show a.x + m - a.x = m by omega, Nat.mul_comm]
      exact hdm.symm
  · rw [List.getElem?_eq_none (by simpa using hk)] at h
    cases h

/-- The memory holds a picture. -/
structure HoldsPic (w h n : Nat) (fb : List Byte) (pic : LXY → List Byte) : Prop where
  len : fb.length = w * h * n
  at_ : ∀ q : LXY, q.x < w → q.y < h → sliceOf fb ((q.y * w + q.x) * n) n = some (pic q)

theorem addr_le {w h n x y : Nat} (hx : x < w) (hy : y < h) : (y * w + x) * n + n ≤ w * h * n := by
  have h1 := mul_lt_grid hx hy
  have : (y * w + x + 1) * n ≤ (h * w) * n := Nat.mul_le_mul_right n h1
  rw [Nat.succ_mul] at this
  rw [Nat.mul_comm w h]
  exact this

theorem HoldsPic.length {w h n : Nat} {fb : List Byte} {pic : LXY → List Byte} (hh : HoldsPic w h n fb pic) {q : LXY} (hx : q.x < w) (hy : q.y < h) :
    (pic q).length = n := by
  have := hh.at_ q hx hy
  have hle : (q.y * w + q.x) * n + n ≤ fb.length := by rw [hh.len]; exact addr_le hx hy
  rw [sliceOf_some hle] at this
  rw [← Option.some.inj this, List.length_take, List.length_drop]
  omega

/-- Writing a row of pixels. -/
theorem HoldsPic.row {w h n : Nat} {fb : List Byte} {pic : LXY → List Byte} (hh : HoldsPic w h n fb pic) {x y : Nat} {L : List (List Byte)}
    (hx : x + L.length ≤ w) (hy : y < h) (hL : ∀ p ∈ L, p.length = n) :
    ∃ fb', copyInto fb ((y * w + x) * n) L.flatten = some fb' ∧
      HoldsPic w h n fb' fun q => if q.y = y ∧ x ≤ q.x ∧ q.x < x + L.length then (L[q.x - x]?).getD [] else pic q := by
  have hlen := flatten_length hL
  have hle : (y * w + x) * n + L.flatten.length ≤ fb.length := by
    rw [hlen, hh.len, ← Nat.add_mul]
    refine Nat.mul_le_mul_right n ?_
    have := Nat.mul_le_mul_right w hy
    rw [Nat.succ_mul] at this
    rw [Nat.mul_comm w h]
    omega
  obtain ⟨fb', h1, h2, _⟩ := copyInto_some hle
  refine ⟨fb', h1, h2.trans hh.len, fun q hqx hqy => ?_⟩
  by_cases hq : q.y = y ∧ x ≤ q.x ∧ q.x < x + L.length
  · rw [if_pos hq]
    obtain ⟨e1, e2, e3⟩ := hq
    have hlt : q.x - x < L.length := by omega
    have eidx : (q.y * w + q.x) * n = (y * w + x) * n + (q.x - x) * n := by
      rw [← Nat.add_mul]; congr 1; rw [e1]; omega
    have hin : (q.x - x) * n + n ≤ L.length * n := by
      have := Nat.mul_le_mul_right n hlt
      rw [Nat.succ_mul] at this
      exact this
    rw [copyInto_same hle h1 (by omega) (by omega), eidx, Nat.add_sub_cancel_left, sliceOf_some (by omega), List.getElem?_eq_getElem hlt]
    exact congrArg some (flatten_slice hL (List.getElem?_eq_getElem hlt))
  · rw [if_neg hq]
    rw [copyInto_other hle h1 ?_]
    · exact hh.at_ q hqx hqy
    · rw [hlen, ← Nat.add_mul]
      rcases Nat.lt_or_ge (q.y * w + q.x) (y * w + x) with hlt | hge
      · left
        have := Nat.mul_le_mul_right n hlt
        rw [Nat.succ_mul] at this
        exact this
      · right
        refine Nat.mul_le_mul_right n ?_
        by_cases hyy : q.y = y
        · rw [hyy] at hge ⊢
          omega
        · have : y < q.y := by
            rcases Nat.lt_trichotomy q.y y with hy' | hy' | hy'
            · have := mul_le_of_lt hqx hy'; omega
            · exact absurd hy' hyy
            · exact hy'
          have := Nat.mul_le_mul_right w this
          rw [Nat.succ_mul] at this
          omega

theorem replicate_get {n k : Nat} {c : List Byte} (h : k < n) : (List.replicate n c)[k]? = some c := by
  rw [List.getElem?_replicate, if_pos h]

/-- Filling rows of pixels. -/
theorem rows_ok {w h n : Nat} {color : List Byte} (hc : color.length = n) {x len : Nat} (hx : x + len ≤ w) (ys : List Nat) :
    ∀ {fb : List Byte} {pic : LXY → List Byte}, HoldsPic w h n fb pic → (∀ y ∈ ys, y < h) →
    ∃ fb', ys.foldlM (fun fb y => copyInto fb ((y * w + x) * n) (List.replicate len color).flatten) fb = some fb' ∧
      HoldsPic w h n fb' fun q => if q.y ∈ ys ∧ x ≤ q.x ∧ q.x < x + len then color else pic q := by
  induction ys with
  | nil => intro fb pic hh _; exact ⟨fb, rfl, by simpa using hh⟩
  | cons y ys ih =>
    intro fb pic hh hys
    obtain ⟨fb1, h1, h2⟩ := hh.row (L := List.replicate len color) (by simpa using hx) (hys y (by simp)) (fun p hp => by rw [List.eq_of_mem_replicate hp]; exact hc)
    obtain ⟨fb2, h3, h4⟩ := ih h2 (fun y' hy' => hys y' (List.mem_cons_of_mem _ hy'))
    refine ⟨fb2, by rw [List.foldlM_cons, h1]; exact h3, h4.len, fun q hqx hqy => ?_⟩
    rw [h4.at_ q hqx hqy]
    congr 1
    simp only [List.mem_cons, List.length_replicate]
    by_cases hq : x ≤ q.x ∧ q.x < x + len
    · rw [replicate_get (by omega)]
      by_cases e1 : q.y ∈ ys <;> by_cases e2 : q.y = y <;> simp [e1, e2, hq]
    · simp [hq]

/-- Collecting the pixels of a window. -/
theorem collect_ok {s : Lcd} {pic : LXY → List Byte} (hh : HoldsPic s.width s.height s.stride s.fb pic) {a b : LXY} (hab : a.x ≤ b.x)
    (hb : b.x < s.width ∧ b.y < s.height) : s.collect a b = some ((Lcd.cells a b).map pic).flatten := by
  unfold Lcd.collect
  have : ∀ l : List LXY, (∀ q ∈ l, q.x < s.width ∧ q.y < s.height) →
      (l.mapM fun q => sliceOf s.fb (s.addr q.x q.y) s.stride) = some (l.map pic) := by
    intro l
    induction l with
    | nil => intro _; rfl
    | cons q l ih =>
      intro hl
      obtain ⟨h1, h2⟩ := hl q (by simp)
      have e : sliceOf s.fb (s.addr q.x q.y) s.stride = some (pic q) := hh.at_ q h1 h2
      rw [List.mapM_cons, e, ih (fun r hr => hl r (List.mem_cons_of_mem _ hr))]
      rfl
  rw [this _ (fun q hq => ?_)]
  · rfl
  · obtain ⟨k, hk⟩ := List.mem_iff_getElem?.1 hq
    obtain ⟨⟨h1, h2, h3, h4⟩, _⟩ := cells_mem hab hk
    omega

/-- What the device shows after it was given a window of pixels. -/
theorem setData_ok {s : Lcd} {a b : LXY} {data : List Byte} {pic : LXY → List Byte}
    (hd : ∀ q, InWindow a b q → (data.drop (((q.y - a.y) * (b.x - a.x + 1) + (q.x - a.x)) * s.stride)).take s.stride = pic q) (q : LXY) :
    (s.setData a b data).screen q = if InWindow a b q then pic q else s.screen q := by
  unfold Lcd.setData
  simp only
  by_cases hq : InWindow a b q
  · rw [if_pos hq]
    exact (if_pos hq).trans (hd q hq)
  · rw [if_neg hq]
    exact if_neg hq

theorem window_data {a b : LXY} {n : Nat} {pic : LXY → List Byte} (hlen : ∀ q, InWindow a b q → (pic q).length = n) (hab : a.x ≤ b.x) (q : LXY) (hq : InWindow a b q) :
    ((((Lcd.cells a b).map pic).flatten).drop (((q.y - a.y) * (b.x - a.x + 1) + (q.x - a.x)) * n)).take n = pic q := by
  refine flatten_slice (fun p hp => ?_) ?_
  · obtain ⟨r, hr, rfl⟩ := List.mem_map.1 hp
    obtain ⟨k, hk⟩ := List.mem_iff_getElem?.1 hr
    exact hlen r (cells_mem hab hk).1
  · rw [List.getElem?_map, cells_get hq]; rfl

/-- The state of the LCD, with what is still to be shown. -/
structure LcdOk (s : Lcd) (c : Canvas) : Prop where
  wide : 0 < s.width
  high : 0 < s.height
  mem : HoldsPic s.width s.height s.stride s.fb c.drawn
  shown : ∀ q, OnScreen s q → s.screen q = c.shown q
  sync : s.sync = c.sync
  color : s.color = c.color
  len : s.color.length = s.stride
  fresh : ∀ q, OnScreen s q → c.drawn q = c.shown q ∨ ∃ a b, s.damage = some (a, b) ∧ InWindow a b q
  bounds : ∀ a b, s.damage = some (a, b) → a.x ≤ b.x ∧ a.y ≤ b.y ∧ OnScreen s b
  calm : s.sync = true → s.damage = none

/-- The sizes do not change. -/
def SameSize (s s' : Lcd) : Prop := s'.width = s.width ∧ s'.height = s.height ∧ s'.stride = s.stride

theorem LcdOk.shows {s : Lcd} {c : Canvas} (h : LcdOk s c) (hs : s.sync = true) {q : LXY} (hq : OnScreen s q) : c.drawn q = c.shown q := by
  rcases h.fresh q hq with e | ⟨a, b, e, _⟩
  · exact e
  · rw [h.calm hs] at e; cases e

/-- Pictures that are the same on the screen. -/
theorem LcdOk.congr {s : Lcd} {c c' : Canvas} (h : LcdOk s c) (h1 : ∀ q, OnScreen s q → c'.drawn q = c.drawn q)
    (h2 : ∀ q, OnScreen s q → c'.shown q = c.shown q) (h3 : c'.sync = c.sync) (h4 : c'.color = c.color) : LcdOk s c' := by
  refine ⟨h.wide, h.high, ⟨h.mem.len, fun q a b => ?_⟩, fun q hq => ?_, h.sync.trans h3.symm, h.color.trans h4.symm, h.len, fun q hq => ?_, h.bounds, h.calm⟩
  · rw [h1 q ⟨a, b⟩]; exact h.mem.at_ q a b
  · rw [h2 q hq]; exact h.shown q hq
  · rw [h1 q hq, h2 q hq]; exact h.fresh q hq

/-- Writing to the memory, and to the screen or to the damaged area. -/
theorem write_ok {s : Lcd} {c : Canvas} (h : LcdOk s c) {a b : LXY} (hab : a.x ≤ b.x ∧ a.y ≤ b.y) (hb : OnScreen s b) {fb : List Byte}
    {pic : LXY → List Byte} (hfb : HoldsPic s.width s.height s.stride fb pic) (hout : ∀ q, OnScreen s q → ¬ InWindow a b q → pic q = c.drawn q)
    {data : List Byte} (hd : ∀ q, InWindow a b q → (data.drop (((q.y - a.y) * (b.x - a.x + 1) + (q.x - a.x)) * s.stride)).take s.stride = pic q) :
    ∃ s', (if s.sync then some (({ s with fb := fb } : Lcd).setData a b data) else some (({ s with fb := fb } : Lcd).addDamage a b)) = some s' ∧
      SameSize s s' ∧ LcdOk s' (c.draw pic) := by
  by_cases hs : s.sync = true
  · refine ⟨_, if_pos hs, ⟨rfl, rfl, rfl⟩, h.wide, h.high, hfb, fun q hq => ?_, h.sync, h.color, h.len, fun q hq => ?_, h.bounds, h.calm⟩
    · have hcs : c.sync = true := by rw [← h.sync]; exact hs
      rw [setData_ok (s := ({ s with fb := fb } : Lcd)) hd q]
      unfold Canvas.draw
      simp only [hcs, if_true]
      split
      next => rfl
      next hn =>
        show s.screen q = _
        rw [h.shown q hq, hout q hq hn, h.shows hs hq]
    · left
      have hcs : c.sync = true := by rw [← h.sync]; exact hs
      unfold Canvas.draw
      simp only [hcs, if_true]
  · have hs : s.sync = false := by cases e : s.sync <;> simp_all
    have hcs : c.sync = false := by rw [← h.sync]; exact hs
    refine ⟨_, if_neg (by rw [hs]; decide), ?_, ?_⟩
    · unfold Lcd.addDamage
      cases s.damage <;> exact ⟨rfl, rfl, rfl⟩
    · unfold Lcd.addDamage Canvas.draw
      simp only [hcs]
      cases hdm : s.damage with
      | none =>
        refine ⟨h.wide, h.high, hfb, h.shown, h.sync.trans hcs, h.color, h.len, fun q hq => ?_, fun a' b' e => ?_, fun e => by cases hs.symm.trans e⟩
        · by_cases hw : InWindow a b q
          · exact .inr ⟨a, b, rfl, hw⟩
          · left
            show pic q = c.shown q
            rw [hout q hq hw]
            rcases h.fresh q hq with e | ⟨_, _, e, _⟩
            · exact e
            · rw [hdm] at e; cases e
        · cases e; exact ⟨hab.1, hab.2, hb⟩
      | some d =>
        obtain ⟨a0, b0⟩ := d
        obtain ⟨g1, g2, g3⟩ := h.bounds a0 b0 hdm
        refine ⟨h.wide, h.high, hfb, h.shown, h.sync.trans hcs, h.color, h.len, fun q hq => ?_, fun a' b' e => ?_, fun e => by cases hs.symm.trans e⟩
        · by_cases hw : InWindow a b q
          · refine .inr ⟨_, _, rfl, ?_⟩
            unfold InWindow at hw ⊢
            simp only
            split_ifs <;> omega
          · rcases h.fresh q hq with e | ⟨a', b', e, e'⟩
            · left
              show pic q = c.shown q
              rw [hout q hq hw]; exact e
            · rw [hdm] at e
              cases e
              refine .inr ⟨_, _, rfl, ?_⟩
              unfold InWindow at e' ⊢
              simp only
              split_ifs <;> omega
        · cases e
          unfold OnScreen at hb g3 ⊢
          simp only
          split_ifs <;> omega

/-- Filling a window. -/
theorem fill_ok {s : Lcd} {c : Canvas} (h : LcdOk s c) {a b : LXY} (hab : a.x ≤ b.x ∧ a.y ≤ b.y) (hb : OnScreen s b) :
    ∃ s', s.fill a b = some s' ∧ SameSize s s' ∧ LcdOk s' (c.paint (InWindow a b)) := by
  obtain ⟨fb, h1, h2⟩ := rows_ok (h := s.height) (w := s.width) (n := s.stride) h.len (x := a.x) (len := b.x - a.x + 1) (by have := hb.1; omega)
    ((List.range (b.y + 1 - a.y)).map (a.y + ·)) h.mem (fun y hy => by
      obtain ⟨k, hk, rfl⟩ := List.mem_map.1 hy
      have := List.mem_range.1 hk
      have := hb.2
      omega)
  have hpic : ∀ q : LXY, (q.y ∈ (List.range (b.y + 1 - a.y)).map (a.y + ·) ∧ a.x ≤ q.x ∧ q.x < a.x + (b.x - a.x + 1)) ↔ InWindow a b q := by
    intro q
    unfold InWindow
    rw [List.mem_map]
    constructor
    · rintro ⟨⟨k, hk, e⟩, h3, h4⟩
      have := List.mem_range.1 hk
      omega
    · rintro ⟨h3, h4, h5, h6⟩
      exact ⟨⟨q.y - a.y, List.mem_range.2 (by omega), by omega⟩, h3, by omega⟩
  have h2' : HoldsPic s.width s.height s.stride fb fun q => if InWindow a b q then c.color else c.drawn q := by
    refine ⟨h2.len, fun q x y => ?_⟩
    rw [h2.at_ q x y]
    simp only [hpic, h.color]
  have hdata : (((List.range (b.y + 1 - a.y)).map (a.y + ·)).flatMap fun _ => (List.replicate (b.x - a.x + 1) s.color).flatten) =
      ((Lcd.cells a b).map fun _ => s.color).flatten := by
    unfold Lcd.cells
    rw [List.map_flatMap, List.flatMap_map]
    simp only [List.flatMap_def, List.flatten_flatten, List.map_map]
    congr 1
    apply List.map_congr_left
    intro j _
    show _ = (List.map (fun _ => s.color) (List.range (b.x + 1 - a.x))).flatten
    rw [List.map_const', List.length_range, show b.x - a.x + 1 = b.x + 1 - a.x by omega]
  obtain ⟨s', h3, h4, h5⟩ := write_ok h hab hb h2' (fun q _ hq => if_neg hq)
    (data := ((List.range (b.y + 1 - a.y)).map (a.y + ·)).flatMap fun _ => (List.replicate (b.x - a.x + 1) s.color).flatten) (fun q hq => by
      rw [hdata, window_data (fun _ _ => h.len) hab.1 q hq, if_pos hq]
      exact h.color)
  refine ⟨s', ?_, h4, h5⟩
  unfold Lcd.fill Lcd.fillRows
  simp only
  show (List.foldlM (fun fb y => copyInto fb ((y * s.width + a.x) * s.stride) _) s.fb _ >>= _) = _
  rw [h1]
  exact h3

theorem clip_some {v : Int} {m : Nat} (h : 0 ≤ v) (h' : v ≤ m) : Lcd.clip v m = some v.toNat := by
  unfold Lcd.clip
  rw [if_neg (by omega), if_neg (by omega)]

theorem clip_none {v : Int} {m : Nat} (h : v < 0 ∨ m < v) : Lcd.clip v m = none := by
  unfold Lcd.clip
  split_ifs <;> first | rfl | (exfalso; omega)

theorem clipXY_some {s : Lcd} {p : Pt} (h : 0 ≤ p.x ∧ 0 ≤ p.y) (hx : p.x < s.width) (hy : p.y < s.height) : s.clipXY p = some ⟨p.x.toNat, p.y.toNat⟩ := by
  unfold Lcd.clipXY
  rw [clip_some h.1 (by omega), clip_some h.2 (by omega)]
  rfl

/-- A pixel anywhere. -/
theorem drawPixel_ok {s : Lcd} {c : Canvas} (h : LcdOk s c) (p : Pt) :
    ∃ s', s.drawPixel p = some s' ∧ SameSize s s' ∧ LcdOk s' (c.paint (At p)) := by
  by_cases hp : (0 ≤ p.x ∧ 0 ≤ p.y) ∧ p.x < s.width ∧ p.y < s.height
  · obtain ⟨s', h1, h2, h3⟩ := fill_ok h (a := ⟨p.x.toNat, p.y.toNat⟩) (b := ⟨p.x.toNat, p.y.toNat⟩) ⟨le_refl _, le_refl _⟩
      (by unfold OnScreen; simp only; omega)
    refine ⟨s', by unfold Lcd.drawPixel; rw [clipXY_some hp.1 hp.2.1 hp.2.2]; exact h1, h2, ?_⟩
    have : ∀ q : LXY, InWindow ⟨p.x.toNat, p.y.toNat⟩ ⟨p.x.toNat, p.y.toNat⟩ q ↔ At p q := by
      intro q; unfold InWindow At; simp only; omega
    refine h3.congr (fun q _ => ?_) (fun q _ => ?_) rfl rfl <;> unfold Canvas.paint Canvas.draw <;> simp only [this]
  · have hc : s.clipXY p = none := by
      have hw := h.wide
      have hh := h.high
      unfold Lcd.clipXY
      by_cases hx : p.x < 0 ∨ ((s.width - 1 : Nat) : Int) < p.x
      · rw [clip_none hx]; rfl
      · rw [clip_none (v := p.y) (by omega)]
        cases Lcd.clip p.x (s.width - 1) <;> rfl
    refine ⟨s, by unfold Lcd.drawPixel; rw [hc], ⟨rfl, rfl, rfl⟩, ?_⟩
    have hno : ∀ q, OnScreen s q → ¬ At p q := by
      intro q hq; unfold OnScreen at hq; unfold At; omega
    refine h.congr (fun q hq => ?_) (fun q hq => ?_) rfl rfl
    · exact if_neg (hno q hq)
    · show (if c.sync then fun q => _ else c.shown) q = c.shown q
      cases hs : c.sync with
      | true =>
        show (if At p q then c.color else c.drawn q) = c.shown q
        rw [if_neg (hno q hq)]
        exact h.shows (h.sync.trans hs) hq
      | false => rfl

theorem SameSize.trans {a b c : Lcd} (h : SameSize a b) (h' : SameSize b c) : SameSize a c :=
  ⟨h'.1.trans h.1, h'.2.1.trans h.2.1, h'.2.2.trans h.2.2⟩

theorem SameSize.onScreen {a b : Lcd} (h : SameSize a b) {q : LXY} : OnScreen b q ↔ OnScreen a q := by
  unfold OnScreen; rw [h.1, h.2.1]

/-- Flushing the damaged area. -/
theorem forcePresent_ok {s : Lcd} {c : Canvas} (h : LcdOk s c) :
    ∃ s', s.forcePresent = some s' ∧ SameSize s s' ∧ LcdOk s' { c with shown := c.drawn } ∧ s'.damage = none := by
  unfold Lcd.forcePresent
  cases hd : s.damage with
  | none =>
    refine ⟨s, rfl, ⟨rfl, rfl, rfl⟩, h.congr (fun _ _ => rfl) (fun q hq => ?_) rfl rfl, hd⟩
    show c.drawn q = c.shown q
    rcases h.fresh q hq with e | ⟨_, _, e, _⟩
    · exact e
    · rw [hd] at e; cases e
  | some d =>
    obtain ⟨a, b⟩ := d
    obtain ⟨g1, g2, g3⟩ := h.bounds a b hd
    have hcol := collect_ok h.mem g1 g3
    simp only [hcol]
    refine ⟨_, rfl, ⟨rfl, rfl, rfl⟩, ⟨h.wide, h.high, h.mem, fun q hq => ?_, h.sync, h.color, h.len, fun q _ => .inl rfl, fun _ _ e => (by simp at e), fun _ => rfl⟩, rfl⟩
    show (s.setData a b _).screen q = c.drawn q
    rw [setData_ok (pic := c.drawn) (fun q hq => window_data (fun r hr => ?_) g1 q hq) q]
    · split
      next => rfl
      next hn =>
        rw [h.shown q hq]
        rcases h.fresh q hq with e | ⟨_, _, e, e'⟩
        · exact e.symm
        · rw [hd] at e; cases e; exact absurd e' hn
    · obtain ⟨r1, r2, r3, r4⟩ := hr
      exact h.mem.length (by have := g3.1; omega) (by have := g3.2; omega)

/-- Drawing without syncing, and showing the result if syncing is on. -/
theorem withoutSync_ok {s : Lcd} {c : Canvas} (h : LcdOk s c) {f : Lcd → Option Lcd} {pic : LXY → List Byte}
    (hf : ∀ s0, SameSize s s0 → LcdOk s0 { c with sync := false } →
      ∃ s1, f s0 = some s1 ∧ SameSize s0 s1 ∧ LcdOk s1 { c with drawn := pic, sync := false }) :
    ∃ s', s.withoutSync f = some s' ∧ SameSize s s' ∧ LcdOk s' (c.draw pic) := by
  unfold Lcd.withoutSync
  cases hs : s.sync with
  | true =>
    have hcs : c.sync = true := by rw [← h.sync]; exact hs
    obtain ⟨s1, h1, h2, h3⟩ := hf { s with sync := false } ⟨rfl, rfl, rfl⟩
      ⟨h.wide, h.high, h.mem, h.shown, rfl, h.color, h.len, h.fresh, h.bounds, fun e => by cases e⟩
    rw [if_pos rfl]
    simp only [h1]
    -- the state with syncing on again, and possibly damage
    show ∃ s', ({ s1 with sync := true } : Lcd).forcePresent = some s' ∧ _
    have hsz : SameSize s s1 := ⟨h2.1, h2.2.1, h2.2.2⟩
    obtain ⟨s2, e1, e2, e3, e4⟩ := forcePresent_ok h3
    -- `forcePresent` does not look at `sync`
    have hfp : ({ s1 with sync := true } : Lcd).forcePresent = some { s2 with sync := true } := by
      have : ∀ s : Lcd, ({ s with sync := true } : Lcd).forcePresent = s.forcePresent.map fun s => ({ s with sync := true } : Lcd) := by
        intro s
        unfold Lcd.forcePresent
        cases hd : s.damage with
        | none =>
          simp only [Option.map_some]
          rw [hd]
        | some d =>
          simp only
          show ((s.collect d.1 d.2).bind _) = Option.map _ ((s.collect d.1 d.2).bind _)
          cases s.collect d.1 d.2 <;> rfl
      rw [this, e1]; rfl
    refine ⟨_, hfp, ⟨e2.1.trans hsz.1, e2.2.1.trans hsz.2.1, e2.2.2.trans hsz.2.2⟩, ?_⟩
    refine ⟨e3.wide, e3.high, e3.mem, fun q hq => ?_, ?_, e3.color, e3.len, fun q hq => .inl ?_, e3.bounds, fun _ => e4⟩
    · refine (e3.shown q hq).trans ?_
      show pic q = _
      unfold Canvas.draw
      simp only [hcs, if_true]
    · exact hcs.symm
    · unfold Canvas.draw
      simp only [hcs, if_true]
  | false =>
    have hcs : c.sync = false := by rw [← h.sync]; exact hs
    rw [if_neg (by decide)]
    have hc0 : ({ c with sync := false } : Canvas) = c := by cases c; cases hcs; rfl
    obtain ⟨s1, h1, h2, h3⟩ := hf s ⟨rfl, rfl, rfl⟩ (by rw [hc0]; exact h)
    refine ⟨s1, h1, h2, ?_⟩
    unfold Canvas.draw
    rw [hcs] at *
    simpa using h3

/-- Many pixels. -/
theorem drawPixels_ok (l : List Pt) : ∀ {s : Lcd} {c : Canvas}, LcdOk s c → c.sync = false →
    ∃ s', l.foldlM Lcd.drawPixel s = some s' ∧ SameSize s s' ∧
      LcdOk s' { c with drawn := fun q => if (⟨q.x, q.y⟩ : Pt) ∈ l then c.color else c.drawn q } := by
  induction l with
  | nil => intro s c h _; exact ⟨s, rfl, ⟨rfl, rfl, rfl⟩, by simpa using h⟩
  | cons p l ih =>
    intro s c h hs
    obtain ⟨s1, h1, h2, h3⟩ := drawPixel_ok h p
    have hs1 : (c.paint (At p)).sync = false := hs
    obtain ⟨s2, h4, h5, h6⟩ := ih h3 hs1
    refine ⟨s2, by rw [List.foldlM_cons, h1]; exact h4, h2.trans h5, h6.congr (fun q _ => ?_) (fun q _ => ?_) rfl rfl⟩
    · show (if _ then c.color else c.drawn q) = if _ then c.color else if At p q then c.color else c.drawn q
      have : At p q ↔ (⟨q.x, q.y⟩ : Pt) = p := by
        unfold At; cases p; simp only [Pt.mk.injEq]
        constructor <;> rintro ⟨rfl, rfl⟩ <;> exact ⟨rfl, rfl⟩
      by_cases e1 : (⟨q.x, q.y⟩ : Pt) ∈ l <;> by_cases e2 : At p q <;> simp [e1, e2, ← this]
    · show c.shown q = (if c.sync then _ else c.shown) q
      rw [hs]; rfl

/-- A line. -/
theorem drawLine_ok {s : Lcd} {c : Canvas} (h : LcdOk s c) {p q : Pt} {l : List Pt} (hl : Draw.line p q = some l) :
    ∃ s', s.drawLine p q = some s' ∧ SameSize s s' ∧ LcdOk s' (c.paint fun r => (⟨r.x, r.y⟩ : Pt) ∈ l) := by
  refine withoutSync_ok h fun s0 _ h0 => ?_
  obtain ⟨s1, h1, h2, h3⟩ := drawPixels_ok l h0 rfl
  exact ⟨s1, by rw [hl]; exact h1, h2, h3⟩

/-- Operations in turn. -/
theorem drawOps_ok (ops : List RasOp) : ∀ {s : Lcd} {c : Canvas}, LcdOk s c → c.sync = false → (∀ o ∈ ops, (pixels o).isSome) →
    ∃ s', ops.foldlM Lcd.drawOp s = some s' ∧ SameSize s s' ∧
      LcdOk s' { c with drawn := fun q => if (⟨q.x, q.y⟩ : Pt) ∈ pixelsOf ops then c.color else c.drawn q } := by
  induction ops with
  | nil => intro s c h _ _; exact ⟨s, rfl, ⟨rfl, rfl, rfl⟩, by simpa [pixelsOf] using h⟩
  | cons o ops ih =>
    intro s c h hs ho
    obtain ⟨l, hl⟩ := Option.isSome_iff_exists.1 (ho o (by simp))
    have hstep : ∃ s1, Lcd.drawOp s o = some s1 ∧ SameSize s s1 ∧ LcdOk s1 { c with drawn := fun q => if (⟨q.x, q.y⟩ : Pt) ∈ l then c.color else c.drawn q } := by
      cases o with
      | pixel p =>
        cases hl
        obtain ⟨s1, h1, h2, h3⟩ := drawPixels_ok [p] h hs
        refine ⟨s1, ?_, h2, h3⟩
        rw [List.foldlM_cons] at h1
        show s.drawPixel p = some s1
        cases e : s.drawPixel p with
        | none => rw [e] at h1; cases h1
        | some s' => rw [e] at h1; exact h1
      | line p q =>
        obtain ⟨s1, h1, h2, h3⟩ := drawLine_ok h hl
        refine ⟨s1, h1, h2, h3.congr (fun _ _ => rfl) (fun q _ => ?_) rfl rfl⟩
        show c.shown q = (if c.sync then _ else c.shown) q
        rw [hs]; rfl
    obtain ⟨s1, h1, h2, h3⟩ := hstep
    obtain ⟨s2, h4, h5, h6⟩ := ih h3 hs (fun o' ho' => ho o' (List.mem_cons_of_mem _ ho'))
    refine ⟨s2, by rw [List.foldlM_cons, h1]; exact h4, h2.trans h5, h6.congr (fun q _ => ?_) (fun _ _ => rfl) rfl rfl⟩
    show (if _ then c.color else c.drawn q) = if _ then c.color else if _ then c.color else c.drawn q
    have : (⟨q.x, q.y⟩ : Pt) ∈ pixelsOf (o :: ops) ↔ (⟨q.x, q.y⟩ : Pt) ∈ l ∨ (⟨q.x, q.y⟩ : Pt) ∈ pixelsOf ops := by
      unfold pixelsOf
      rw [List.flatMap_cons, List.mem_append, hl]; rfl
    by_cases e1 : (⟨q.x, q.y⟩ : Pt) ∈ l <;> by_cases e2 : (⟨q.x, q.y⟩ : Pt) ∈ pixelsOf ops <;> simp [this, e1, e2]

theorem drawShape_ok {s : Lcd} {c : Canvas} (h : LcdOk s c) {ops : List RasOp} (ho : ∀ o ∈ ops, (pixels o).isSome) :
    ∃ s', s.drawShape ops = some s' ∧ SameSize s s' ∧ LcdOk s' (c.paint fun q => (⟨q.x, q.y⟩ : Pt) ∈ pixelsOf ops) :=
  withoutSync_ok h fun _ _ h0 => drawOps_ok ops h0 rfl ho

theorem getD_slice {l : List Byte} {a n i : Nat} (h : i < n) : ((l.drop a).take n).getD i 0 = l.getD (a + i) 0 := by
  simp only [List.getD_eq_getElem?_getD]
  rw [List.getElem?_take_of_lt h, List.getElem?_drop]

theorem mapMSome {α β : Type} {f : α → Option β} {g : α → β} {l : List α} (h : ∀ a ∈ l, f a = some (g a)) : l.mapM f = some (l.map g) := by
  induction l with
  | nil => rfl
  | cons a l ih =>
    rw [List.mapM_cons, h a List.mem_cons_self, ih fun b hb => h b (List.mem_cons_of_mem _ hb)]
    rfl

/-- The pixels of a character. -/
theorem charPixels_ok {font : Font} (hf : GoodFont font) {p : Pt} (hx : -32768 ≤ p.x) (hy : -32768 ≤ p.y) (hx' : p.x + font.width ≤ 32767)
    (hy' : p.y + font.height ≤ 32767) (ch : Char) :
    ∃ l, Draw.charPixels font p ch = some l ∧ ∀ x y : Int, (⟨x, y⟩ : Pt) ∈ l ↔ ∃ i j : Nat, dot font ch i j = true ∧ x = p.x + i ∧ y = p.y + j := by
  obtain ⟨code, hcode⟩ : ∃ code, code = if 32 ≤ ch.toNat ∧ ch.toNat ≤ 126 then ch.toNat else 63 := ⟨_, rfl⟩
  have hc1 : (if ' ' ≤ ch ∧ ch ≤ '~' then ch else '?').toNat = code := by
    have e : (' ' ≤ ch ∧ ch ≤ '~') ↔ (32 ≤ ch.toNat ∧ ch.toNat ≤ 126) := Iff.rfl
    rw [hcode]
    by_cases h : 32 ≤ ch.toNat ∧ ch.toNat ≤ 126
    · rw [if_pos h, if_pos (e.2 h)]
    · rw [if_neg h, if_neg (fun h' => h (e.1 h'))]; rfl
  have hc2 : code - 32 + 1 ≤ 95 := by rw [hcode]; split <;> omega
  have hlen : (code - 32) * (font.height * font.stride) + font.height * font.stride ≤ font.data.length := by
    refine Nat.le_trans ?_ hf.data
    rw [← Nat.succ_mul]
    exact Nat.mul_le_mul_right _ hc2
  have hg : Draw.glyph font ch = some ((font.data.drop ((code - 32) * (font.height * font.stride))).take (font.height * font.stride)) := by
    unfold Draw.glyph
    simp only [hc1]
    exact sliceOf_some hlen
  obtain ⟨g, eg⟩ : ∃ g, g = (font.data.drop ((code - 32) * (font.height * font.stride))).take (font.height * font.stride) := ⟨_, rfl⟩
  rw [← eg] at hg
  have hbyte : ∀ j k, j < font.height → k < font.stride → g.getD (j * font.stride + k) 0 = font.data.getD (((code - 32) * font.height + j) * font.stride + k) 0 := by
    intro j k hj hk
    have : j * font.stride + k < font.height * font.stride := by
      calc j * font.stride + k < j * font.stride + font.stride := by omega
        _ = (j + 1) * font.stride := by rw [Nat.succ_mul]
        _ ≤ _ := Nat.mul_le_mul_right _ hj
    rw [eg, getD_slice this]
    congr 1
    rw [Nat.add_mul, Nat.mul_assoc]; omega
  have hwide : ∀ k i, k < font.stride → i < font.width → i < 8 → i + k * 8 < font.width := by
    intro k i hk hi h8
    rcases hf.shape with ⟨h1, _⟩ | h1
    · have : k = 0 := by omega
      subst this; omega
    · rw [h1]
      have : k + 1 ≤ font.stride := hk
      omega
  have hrows : ((List.range font.height).mapM fun j =>
      (List.range font.stride).mapM fun k =>
        (List.range font.width).mapM fun i =>
          if i < 8 ∧ (g.getD (j * font.stride + k) 0).getLsbD (7 - i) then do
            let x ← i16? (p.x + i)
            let x ← i16? (x + k * 8)
            let y ← i16? (p.y + j)
            some [(⟨x, y⟩ : Pt)]
          else some []) = some ((List.range font.height).map fun j => (List.range font.stride).map fun k => (List.range font.width).map fun i =>
        if i < 8 ∧ (g.getD (j * font.stride + k) 0).getLsbD (7 - i) then [(⟨p.x + i + k * 8, p.y + j⟩ : Pt)] else []) := by
    refine mapMSome fun j hj => mapMSome fun k hk => mapMSome fun i hi => ?_
    rw [List.mem_range] at hj hk hi
    split
    next h =>
      have := hwide k i hk hi h.1
      have e1 : i16? (p.x + i) = some (p.x + i) := if_pos (by omega)
      have e2 : i16? (p.x + i + k * 8) = some (p.x + i + k * 8) := if_pos (by omega)
      have e3 : i16? (p.y + j) = some (p.y + j) := if_pos (by omega)
      simp only [e1, e2, e3, Option.bind_eq_bind, Option.bind_some]
    · rfl
  refine ⟨_, by unfold Draw.charPixels; rw [hg]; simp only [Option.bind_eq_bind, Option.bind_some]; simp only [Option.bind_eq_bind] at hrows; rw [hrows]; rfl, ?_⟩
  intro x y
  simp only [List.mem_flatten, List.mem_map, List.mem_range, dot, ← hcode, Bool.and_eq_true, decide_eq_true_eq]
  constructor
  · rintro ⟨_, ⟨_, ⟨_, ⟨j, hj, rfl⟩, hm1⟩, hm2⟩, hm3⟩
    rw [List.mem_map] at hm1
    obtain ⟨k, hk, rfl⟩ := hm1
    rw [List.mem_map] at hm2
    obtain ⟨i, hi, rfl⟩ := hm2
    rw [List.mem_range] at hk hi
    split at hm3
    next h =>
      rw [List.mem_singleton] at hm3
      injection hm3 with e1 e2
      have := hwide k i hk hi h.1
      refine ⟨i + k * 8, j, ⟨⟨this, hj⟩, ?_⟩, by rw [e1]; push_cast; omega, e2⟩
      rw [show (i + k * 8) / 8 = k by omega, show (i + k * 8) % 8 = i by omega, ← hbyte j k hj hk]
      exact h.2
    · cases hm3
  · rintro ⟨i, j, ⟨⟨hi, hj⟩, hb⟩, rfl, rfl⟩
    have hk : i / 8 < font.stride := by
      rcases hf.shape with ⟨h1, h2⟩ | h1
      · omega
      · omega
    have hi8 : i % 8 < font.width := by omega
    refine ⟨_, ⟨_, ⟨_, ⟨j, hj, rfl⟩, List.mem_map.2 ⟨i / 8, List.mem_range.2 hk, rfl⟩⟩, List.mem_map.2 ⟨i % 8, List.mem_range.2 hi8, rfl⟩⟩, ?_⟩
    rw [if_pos ⟨by omega, by rw [hbyte j _ hj hk]; exact hb⟩, List.mem_singleton]
    congr 1
    push_cast
    omega

/-- The pixels of a text. -/
theorem textPixels_ok {font : Font} (hf : GoodFont font) {y0 : Int} (hy : -32768 ≤ y0) (hy' : y0 + font.height ≤ 32767) :
    ∀ (text : List Char) (x0 : Int), -32768 ≤ x0 → x0 + font.width * text.length ≤ 32767 →
    ∃ l, Draw.textPixels font ⟨x0, y0⟩ text = some l ∧ ∀ q : LXY, (⟨q.x, q.y⟩ : Pt) ∈ l ↔ lit font ⟨x0, y0⟩ text q = true := by
  intro text
  induction text with
  | nil =>
    intro x0 _ _
    exact ⟨[], rfl, fun q => by simp [lit]⟩
  | cons ch text ih =>
    intro x0 hx hx'
    have hw : (font.width : Int) * ((ch :: text).length : Nat) = font.width * text.length + font.width := by
      rw [List.length_cons]; push_cast; rw [Int.mul_add]; omega
    rw [hw] at hx'
    have hnn : (0 : Int) ≤ font.width * text.length := Int.mul_nonneg (Int.natCast_nonneg _) (Int.natCast_nonneg _)
    obtain ⟨l1, h1, m1⟩ := charPixels_ok hf (p := ⟨x0, y0⟩) hx hy (by simp only; omega) hy' ch
    obtain ⟨l2, h2, m2⟩ := ih (x0 + font.width) (by omega) (by omega)
    have e1 : i16? (x0 + font.width) = some (x0 + font.width) := if_pos (by omega)
    refine ⟨l1 ++ l2, ?_, fun q => ?_⟩
    · unfold Draw.textPixels
      rw [h1]
      simp only [Option.bind_eq_bind, Option.bind_some, e1, h2]
    · rw [List.mem_append, m1, m2]
      unfold lit
      simp only [Bool.and_eq_true, decide_eq_true_eq]
      by_cases hlow : x0 ≤ q.x
      · by_cases hyl : y0 ≤ q.y
        · by_cases hin : (q.x - x0 : Int) < font.width
          · -- in the first character
            have hd : ((q.x : Int) - x0).toNat / font.width = 0 := Nat.div_eq_of_lt (by omega)
            have hmd : ((q.x : Int) - x0).toNat % font.width = ((q.x : Int) - x0).toNat := Nat.mod_eq_of_lt (by omega)
            rw [hd, hmd]
            simp only [List.getElem?_cons_zero]
            constructor
            · rintro (⟨i, j, hdot, hi, hj⟩ | ⟨⟨h, _⟩, _⟩)
              · refine ⟨⟨hlow, hyl⟩, ?_⟩
                rw [show ((q.x : Int) - x0).toNat = i by omega, show ((q.y : Int) - y0).toNat = j by omega]
                exact hdot
              · omega
            · rintro ⟨_, hdot⟩
              exact .inl ⟨_, _, hdot, by omega, by omega⟩
          · have hwpos : ∀ i j, dot font ch i j = true → i < font.width := by
              intro i j h
              simp only [dot, Bool.and_eq_true, decide_eq_true_eq] at h
              exact h.1.1
            by_cases hw0 : font.width = 0
            · have : ∀ c i j, dot font c i j = false := by
                intro c i j; simp [dot, hw0]
              simp only [this]
              constructor
              · rintro (⟨i, j, h, _⟩ | ⟨_, h⟩)
                · cases h
                · split at h <;> cases h
              · rintro ⟨_, h⟩
                split at h <;> cases h
            · have hd : ((q.x : Int) - x0).toNat / font.width = ((q.x : Int) - (x0 + font.width)).toNat / font.width + 1 := by
                rw [show ((q.x : Int) - x0).toNat = ((q.x : Int) - (x0 + font.width)).toNat + font.width by omega, Nat.add_div_right _ (by omega)]
              have hmd : ((q.x : Int) - x0).toNat % font.width = ((q.x : Int) - (x0 + font.width)).toNat % font.width := by
                rw [show ((q.x : Int) - x0).toNat = ((q.x : Int) - (x0 + font.width)).toNat + font.width by omega, Nat.add_mod_right]
              rw [hd, hmd]
              simp only [List.getElem?_cons_succ]
              constructor
              · rintro (⟨i, j, h, hi, _⟩ | ⟨_, h⟩)
                · have := hwpos i j h
                  omega
                · exact ⟨⟨hlow, hyl⟩, h⟩
              · rintro ⟨_, h⟩
                exact .inr ⟨⟨by omega, hyl⟩, h⟩
        · constructor
          · rintro (⟨i, j, _, _, hj⟩ | ⟨⟨_, h⟩, _⟩)
            · omega
            · exact absurd h hyl
          · rintro ⟨⟨_, h⟩, _⟩; exact absurd h hyl
      · constructor
        · rintro (⟨i, j, _, hi, _⟩ | ⟨⟨h, _⟩, _⟩)
          · omega
          · omega
        · rintro ⟨⟨h, _⟩, _⟩; exact absurd h hlow

theorem writeText_ok {s : Lcd} {c : Canvas} (h : LcdOk s c) {font : Font} {p : Pt} {text : List Char} {l : List Pt} (hl : Draw.textPixels font p text = some l) :
    ∃ s', s.writeText font p text = some s' ∧ SameSize s s' ∧ LcdOk s' (c.paint fun r => (⟨r.x, r.y⟩ : Pt) ∈ l) := by
  refine withoutSync_ok h fun s0 _ h0 => ?_
  obtain ⟨s1, h1, h2, h3⟩ := drawPixels_ok l h0 rfl
  exact ⟨s1, by rw [hl]; exact h1, h2, h3⟩

theorem clipEnd_ok {v : Int} {d m : Nat} (h : 0 ≤ v + d) : Lcd.clipEnd v d m = some (min (v + d).toNat m) := by
  unfold Lcd.clipEnd
  rw [if_neg (by omega)]
  split_ifs <;> congr 1 <;> omega

theorem clipEnd_none {v : Int} {d m : Nat} (h : v + d < 0) : Lcd.clipEnd v d m = none := if_pos h

theorem rectFilled_ok {s : Lcd} {c : Canvas} (h : LcdOk s c) {p : Pt} {w k : Nat} (hw : 0 < w) (hk : 0 < k) (hx : p.x < s.width) (hy : p.y < s.height) :
    ∃ s', s.drawRectFilled p w k = some s' ∧ SameSize s s' ∧ LcdOk s' (c.paint (InRect p w k)) := by
  have h1 := h.wide
  have h2 := h.high
  unfold Lcd.drawRectFilled Lcd.clipX2Y2
  rw [if_neg (by omega)]
  by_cases hb : 0 ≤ p.x + ((w - 1 : Nat) : Int) ∧ 0 ≤ p.y + ((k - 1 : Nat) : Int)
  · rw [clipEnd_ok hb.1, clipEnd_ok hb.2]
    have hcx : ∀ v : Int, ∀ m : Nat, Lcd.clamp v m = min v.toNat m := by
      intro v m; unfold Lcd.clamp; split_ifs <;> omega
    obtain ⟨s', e1, e2, e3⟩ := fill_ok h (a := s.clampXY p) (b := ⟨min (p.x + ((w - 1 : Nat) : Int)).toNat (s.width - 1), min (p.y + ((k - 1 : Nat) : Int)).toNat (s.height - 1)⟩)
      (by unfold Lcd.clampXY; simp only [hcx]; omega) (by unfold OnScreen; simp only; omega)
    refine ⟨s', e1, e2, ?_⟩
    have hiff : ∀ q, OnScreen s q → (InWindow (s.clampXY p) ⟨min (p.x + ((w - 1 : Nat) : Int)).toNat (s.width - 1), min (p.y + ((k - 1 : Nat) : Int)).toNat (s.height - 1)⟩ q ↔ InRect p w k q) := by
      intro q hq
      unfold OnScreen at hq
      unfold InWindow InRect Lcd.clampXY
      simp only [hcx]
      omega
    refine e3.congr (fun q hq => ?_) (fun q hq => ?_) rfl rfl <;> unfold Canvas.paint Canvas.draw
    · simp only [hiff q (e2.onScreen.1 hq)]
    · cases c.sync
      · rfl
      · simp only [if_true, hiff q (e2.onScreen.1 hq)]
  · refine ⟨s, ?_, ⟨rfl, rfl, rfl⟩, ?_⟩
    · by_cases hbx : 0 ≤ p.x + ((w - 1 : Nat) : Int)
      · rw [clipEnd_ok hbx, clipEnd_none (v := p.y) (by omega)]; rfl
      · rw [clipEnd_none (v := p.x) (by omega)]; rfl
    · have hno : ∀ q, OnScreen s q → ¬ InRect p w k q := by
        intro q hq; unfold InRect; omega
      refine h.congr (fun q hq => if_neg (hno q hq)) (fun q hq => ?_) rfl rfl
      show (if c.sync then fun q => _ else c.shown) q = c.shown q
      cases hs : c.sync with
      | true =>
        show (if InRect p w k q then c.color else c.drawn q) = c.shown q
        rw [if_neg (hno q hq)]
        exact h.shows (h.sync.trans hs) hq
      | false => rfl

theorem within_window {s : Lcd} {p : Pt} {w k : Nat} (hp : Within s.width s.height p w k) :
    s.clipXY p = some ⟨p.x.toNat, p.y.toNat⟩ ∧ s.clipX2Y2 p w k = some (some ⟨p.x.toNat + (w - 1), p.y.toNat + (k - 1)⟩) := by
  obtain ⟨h1, h2, h3, h4, h5, h6⟩ := hp
  refine ⟨clipXY_some ⟨h1, h2⟩ (by omega) (by omega), ?_⟩
  unfold Lcd.clipX2Y2
  rw [if_neg (by omega), clipEnd_ok (by omega), clipEnd_ok (by omega)]
  show some (some (⟨_, _⟩ : LXY)) = _
  congr 3 <;> omega

/-- Writing pixels one by one. -/
theorem put_loop {w h n : Nat} {pixels : List Byte} (get : LXY → List Byte) (l : List (LXY × Nat)) :
    ∀ {fb : List Byte} {pic : LXY → List Byte}, HoldsPic w h n fb pic →
    (∀ e ∈ l, e.1.x < w ∧ e.1.y < h ∧ (e.2 + 1) * n ≤ pixels.length ∧ (pixels.drop (e.2 * n)).take n = get e.1) →
    ∃ fb', l.foldlM (fun fb e => do
      let data ← sliceOf pixels (e.2 * n) n
      copyInto fb ((e.1.y * w + e.1.x) * n) data) fb = some fb' ∧
      HoldsPic w h n fb' fun q => if q ∈ l.map Prod.fst then get q else pic q := by
  induction l with
  | nil => intro fb pic hh _; exact ⟨fb, rfl, by simpa using hh⟩
  | cons e l ih =>
    intro fb pic hh hl
    obtain ⟨e1, e2, e3, e4⟩ := hl e (by simp)
    have hlen : (get e.1).length = n := by
      rw [← e4, List.length_take, List.length_drop]
      rw [Nat.succ_mul] at e3
      omega
    obtain ⟨fb1, h1, h2⟩ := hh.row (x := e.1.x) (y := e.1.y) (L := [get e.1]) (by simp only [List.length_cons, List.length_nil]; omega) e2 (by simpa using hlen)
    obtain ⟨fb2, h3, h4⟩ := ih h2 (fun e' he' => hl e' (List.mem_cons_of_mem _ he'))
    refine ⟨fb2, ?_, h4.len, fun q hx hy => ?_⟩
    · rw [List.foldlM_cons, sliceOf_some (by rw [Nat.succ_mul] at e3; omega), e4]
      simp only [List.flatten_cons, List.flatten_nil, List.append_nil] at h1
      show (copyInto fb ((e.1.y * w + e.1.x) * n) (get e.1) >>= _) = some fb2
      rw [h1]
      exact h3
    · rw [h4.at_ q hx hy]
      congr 1
      simp only [List.map_cons, List.mem_cons, List.length_cons, List.length_nil, Nat.zero_add]
      by_cases hq : q ∈ l.map Prod.fst
      · simp [hq]
      · by_cases hqe : q = e.1
        · subst hqe
          simp [hq]
        · have : ¬ (q.y = e.1.y ∧ e.1.x ≤ q.x ∧ q.x < e.1.x + 1) := by
            rintro ⟨a1, a2, a3⟩
            apply hqe
            obtain ⟨qx, qy⟩ := q
            obtain ⟨⟨ex, ey⟩, k⟩ := e
            simp only at *
            congr 1
            omega
          simp [hq, hqe, this]

theorem putPixels_ok {s : Lcd} {c : Canvas} (h : LcdOk s c) {p : Pt} {w k : Nat} (hp : Within s.width s.height p w k) {data : List Byte} (hd : data.length = w * k * s.stride) :
    ∃ s', s.putPixels p data w k = some s' ∧ SameSize s s' ∧
      LcdOk s' (c.draw fun q => if InRect p w k q then pixelAt s.stride w p data q else c.drawn q) := by
  obtain ⟨hc1, hc2⟩ := within_window hp
  obtain ⟨h1, h2, h3, h4, h5, h6⟩ := hp
  obtain ⟨a, ha⟩ : ∃ a : LXY, a = ⟨p.x.toNat, p.y.toNat⟩ := ⟨_, rfl⟩
  obtain ⟨b, hb⟩ : ∃ b : LXY, b = ⟨p.x.toNat + (w - 1), p.y.toNat + (k - 1)⟩ := ⟨_, rfl⟩
  have hab : a.x ≤ b.x ∧ a.y ≤ b.y := by rw [ha, hb]; simp only; omega
  have hbs : OnScreen s b := by rw [hb]; unfold OnScreen; simp only; omega
  have hw : b.x - a.x + 1 = w := by rw [ha, hb]; simp only; omega
  have hwin : ∀ q, InWindow a b q ↔ InRect p w k q := by
    intro q; rw [ha, hb]; unfold InWindow InRect; simp only; omega
  have hget : ∀ q, InWindow a b q → (data.drop (((q.y - a.y) * (b.x - a.x + 1) + (q.x - a.x)) * s.stride)).take s.stride = pixelAt s.stride w p data q := by
    intro q hq
    rw [hw]
    unfold pixelAt
    have e1 : q.y - a.y = ((q.y : Int) - p.y).toNat := by rw [ha]; simp only; omega
    have e2 : q.x - a.x = ((q.x : Int) - p.x).toNat := by rw [ha]; simp only; omega
    rw [e1, e2]
  have hidx : ∀ q j, (Lcd.cells a b)[j]? = some q → (j + 1) * s.stride ≤ data.length := by
    intro q j hj
    obtain ⟨⟨c1, c2, c3, c4⟩, hjq⟩ := cells_mem hab.1 hj
    rw [hd]
    refine Nat.mul_le_mul_right _ ?_
    rw [hjq, hw, Nat.mul_comm w k]
    refine mul_lt_grid ?_ ?_
    · omega
    · rw [ha] at c3 ⊢; rw [hb] at c4; simp only at *; omega
  obtain ⟨fb, g1, g2⟩ := put_loop (pixels := data) (pixelAt s.stride w p data) (Lcd.cells a b).zipIdx h.mem (fun e he => by
    obtain ⟨q, j⟩ := e
    have hj := List.mk_mem_zipIdx_iff_getElem?.1 he
    obtain ⟨hwq, hjq⟩ := cells_mem hab.1 hj
    have hwq' := hwq
    obtain ⟨c1, c2, c3, c4⟩ := hwq
    refine ⟨by have := hbs.1; simp only; omega, by have := hbs.2; simp only; omega, hidx q j hj, ?_⟩
    simp only
    rw [hjq]
    exact hget q hwq')
  have g2' : HoldsPic s.width s.height s.stride fb fun q => if InRect p w k q then pixelAt s.stride w p data q else c.drawn q := by
    refine ⟨g2.len, fun q x y => ?_⟩
    rw [g2.at_ q x y]
    congr 1
    have : q ∈ (Lcd.cells a b).zipIdx.map Prod.fst ↔ InRect p w k q := by
      rw [← hwin, List.zipIdx_map_fst]
      constructor
      · intro hq
        obtain ⟨j, hj⟩ := List.mem_iff_getElem?.1 hq
        exact (cells_mem hab.1 hj).1
      · intro hq
        exact List.mem_iff_getElem?.2 ⟨_, cells_get hq⟩
    simp only [this]
  obtain ⟨s', e1, e2, e3⟩ := write_ok h hab hbs g2' (fun q _ hq => if_neg (fun e => hq ((hwin q).2 e))) (data := data) (fun q hq => by
    rw [if_pos ((hwin q).1 hq)]; exact hget q hq)
  refine ⟨s', ?_, e2, e3⟩
  unfold Lcd.putPixels
  rw [hc1, hc2, ← ha, ← hb]
  show (List.foldlM (fun fb e => do
      let data ← sliceOf data (e.2 * s.stride) s.stride
      copyInto fb ((e.1.y * s.width + e.1.x) * s.stride) data) s.fb (Lcd.cells a b).zipIdx >>= _) = some s'
  rw [g1]
  exact e1

theorem movePixels_ok {s : Lcd} {c : Canvas} (h : LcdOk s c) {p p' : Pt} {w k : Nat} (hp : Within s.width s.height p w k) (hp' : Within s.width s.height p' w k) :
    ∃ s', s.movePixels p p' w k = some s' ∧ SameSize s s' ∧
      LcdOk s' (c.draw fun q =>
        if InRect p' w k q then c.drawn ⟨(q.x - p'.x + p.x).toNat, (q.y - p'.y + p.y).toNat⟩
        else if InRect p w k q then c.color else c.drawn q) := by
  obtain ⟨hc1, hc2⟩ := within_window hp
  have hp1 := hp
  have hp2 := hp'
  obtain ⟨h1, h2, h3, h4, h5, h6⟩ := hp
  obtain ⟨d1, d2, d3, d4, d5, d6⟩ := hp'
  obtain ⟨a, ha⟩ : ∃ a : LXY, a = ⟨p.x.toNat, p.y.toNat⟩ := ⟨_, rfl⟩
  obtain ⟨b, hb⟩ : ∃ b : LXY, b = ⟨p.x.toNat + (w - 1), p.y.toNat + (k - 1)⟩ := ⟨_, rfl⟩
  have hab : a.x ≤ b.x ∧ a.y ≤ b.y := by rw [ha, hb]; simp only; omega
  have hbs : OnScreen s b := by rw [hb]; unfold OnScreen; simp only; omega
  have hcol := collect_ok h.mem hab.1 hbs
  have hlenOf : ∀ q, InWindow a b q → (c.drawn q).length = s.stride := by
    rintro q ⟨q1, q2, q3, q4⟩
    exact h.mem.length (by have := hbs.1; omega) (by have := hbs.2; omega)
  obtain ⟨data, hdata⟩ : ∃ data, data = ((Lcd.cells a b).map c.drawn).flatten := ⟨_, rfl⟩
  have hread : s.readPixels p w k = some data := by
    unfold Lcd.readPixels
    rw [hc1, hc2, ← ha, ← hb, hdata]
    exact hcol
  have hlen : data.length = w * k * s.stride := by
    rw [hdata, flatten_length (n := s.stride) (fun r hr => ?_), List.length_map, cells_eq, List.length_map, List.length_range]
    · have e1 : b.x + 1 - a.x = w := by rw [ha, hb]; simp only; omega
      have e2 : b.y + 1 - a.y = k := by rw [ha, hb]; simp only; omega
      rw [e1, e2, Nat.mul_comm k w]
    · obtain ⟨q, hq, rfl⟩ := List.mem_map.1 hr
      obtain ⟨j, hj⟩ := List.mem_iff_getElem?.1 hq
      exact hlenOf q (cells_mem hab.1 hj).1
  unfold Lcd.movePixels
  rw [hread]
  show ∃ s', s.withoutSync (fun s => (s.drawRectFilled p w k).bind fun s => s.putPixels p' data w k) = some s' ∧ _
  refine withoutSync_ok h fun s0 hs0 h0 => ?_
  obtain ⟨s1, e1, e2, e3⟩ := rectFilled_ok h0 (p := p) h3 h4 (by rw [hs0.1]; omega) (by rw [hs0.2.1]; omega)
  have hsz := hs0.trans e2
  obtain ⟨s2, f1, f2, f3⟩ := putPixels_ok e3 (p := p') (w := w) (k := k) (by rw [hsz.1, hsz.2.1]; exact hp2) (data := data) (by rw [hsz.2.2]; exact hlen)
  refine ⟨s2, by rw [e1]; exact f1, e2.trans f2, f3.congr (fun q hq => ?_) (fun q _ => rfl) rfl rfl⟩
  show (if InRect p' w k q then _ else _) = if InRect p' w k q then _ else _
  split
  next hq' =>
    rw [hsz.2.2]
    unfold pixelAt
    -- the pixel of the data is the one at the corresponding place
    obtain ⟨r, hr⟩ : ∃ r : LXY, r = ⟨(q.x - p'.x + p.x).toNat, (q.y - p'.y + p.y).toNat⟩ := ⟨_, rfl⟩
    have hrw : InWindow a b r := by
      unfold InRect at hq'
      rw [ha, hb, hr]; unfold InWindow; simp only; omega
    rw [← hr, hdata, ← window_data hlenOf hab.1 r hrw]
    have i1 : r.y - a.y = ((q.y : Int) - p'.y).toNat := by unfold InRect at hq'; rw [hr, ha]; simp only; omega
    have i2 : r.x - a.x = ((q.x : Int) - p'.x).toNat := by unfold InRect at hq'; rw [hr, ha]; simp only; omega
    have i3 : b.x - a.x + 1 = w := by rw [ha, hb]; simp only; omega
    rw [i1, i2, i3]
  next => rfl

end EB
