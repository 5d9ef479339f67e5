import Verif.Lemmas.Drawing
import Mathlib.Tactic.Tauto
/-!
# Filling a region
-/

namespace EB
open Spec
namespace Draw

theorem countP_lt {α : Type} {l : List α} {f g : α → Bool} {a : α} (ha : a ∈ l) (hf : f a = true) (hg : g a = false)
    (h : ∀ x, g x = true → f x = true) : l.countP g < l.countP f := by
  induction l with
  | nil => cases ha
  | cons x l ih =>
    have hle : l.countP g ≤ l.countP f := List.countP_mono_left fun x _ => h x
    rw [List.countP_cons, List.countP_cons]
    rcases List.mem_cons.1 ha with rfl | ha
    · simp [hf, hg]; omega
    · have := ih ha
      by_cases hx : g x = true
      · simp [hx, h x hx]; omega
      · simp [hx]; omega

/-- All points of the grid. -/
def gridPts : List Pt := (List.range 65536).flatMap fun (i : Nat) => (List.range 65536).map fun (j : Nat) => ⟨i - 32768, j - 32768⟩

theorem mem_gridPts {p : Pt} (h : OnGrid p) : p ∈ gridPts := by
  obtain ⟨h1, h2, h3, h4⟩ := h
  refine List.mem_flatMap.2 ⟨(p.x + 32768).toNat, List.mem_range.2 (by omega), List.mem_map.2 ⟨(p.y + 32768).toNat, List.mem_range.2 (by omega), ?_⟩⟩
  cases p
  simp only [Pt.mk.injEq] at h1 h2 h3 h4 ⊢
  omega

/-- The rounds that are left at most. -/
def work (pic : Picture) (seed : Nat) (pending : List Pt) : Nat := 5 * gridPts.countP (fun q => pic q == some seed) + pending.length

theorem neighbours_length (p : Pt) : (neighbours p).length ≤ 4 := by
  unfold neighbours
  simp only [List.length_append]
  split_ifs <;> simp

theorem mem_neighbours {p q : Pt} (hp : OnGrid p) : q ∈ neighbours p ↔ Beside p q ∧ OnGrid q := by
  obtain ⟨h1, h2, h3, h4⟩ := hp
  obtain ⟨a, b⟩ := p
  obtain ⟨c, d⟩ := q
  simp only at h1 h2 h3 h4
  have e : Beside ⟨a, b⟩ ⟨c, d⟩ ↔ (c = a ∧ d = b + 1) ∨ (c = a ∧ d = b - 1) ∨ (c = a + 1 ∧ d = b) ∨ (c = a - 1 ∧ d = b) := by
    unfold Beside
    simp only
    rcases abs_cases (c - a) with ⟨e1, e2⟩ | ⟨e1, e2⟩ <;> rcases abs_cases (d - b) with ⟨e3, e4⟩ | ⟨e3, e4⟩ <;> rw [e1, e3] <;> omega
  rw [e]
  unfold neighbours OnGrid
  simp only [List.mem_append]
  split_ifs <;> simp only [List.mem_singleton, List.not_mem_nil, Pt.mk.injEq, or_false, false_or, false_iff] <;> omega

/-- What holds in every round. -/
structure Filling (pic0 : Picture) (seed color : Nat) (p : Pt) (pic : Picture) (pending : List Pt) : Prop where
  same : ∀ q, pic q = pic0 q ∨ (pic q = some color ∧ Region pic0 seed p q)
  todo : ∀ q ∈ pending, pic0 q = some seed → Region pic0 seed p q
  grid : ∀ q ∈ pending, OnGrid q
  start : pic p = some color ∨ p ∈ pending
  closed : ∀ q r, pic0 q = some seed → pic q = some color → Beside q r → pic0 r = some seed → pic r = some color ∨ r ∈ pending

theorem fillLoop_ok {pic0 : Picture} {seed color : Nat} {p : Pt} (hne : seed ≠ color) (hgrid : ∀ q, pic0 q ≠ none → OnGrid q)
    (hp : pic0 p = some seed) (n : Nat) (pic : Picture) (pending : List Pt) (h : Filling pic0 seed color p pic pending)
    (hn : work pic seed pending ≤ n) :
    ∃ pic', fillLoop seed color n pic pending = some pic' ∧ Filling pic0 seed color p pic' [] := by
  induction n generalizing pic pending with
  | zero =>
    have : pending = [] := List.length_eq_zero_iff.1 (by unfold work at hn; omega)
    subst this
    exact ⟨pic, rfl, h⟩
  | succ n ih =>
    cases pending with
    | nil => exact ⟨pic, rfl, h⟩
    | cons q pending =>
      show ∃ pic', (if pic q ≠ some seed then _ else _) = some pic' ∧ _
      unfold work at hn
      rw [List.length_cons] at hn
      split
      next hq =>
        refine ih pic pending ⟨h.same, fun r hr => h.todo r (List.mem_cons_of_mem _ hr), fun r hr => h.grid r (List.mem_cons_of_mem _ hr), ?_, ?_⟩ (by unfold work; omega)
        · rcases h.start with hs | hs
          · exact .inl hs
          · rcases List.mem_cons.1 hs with rfl | hs
            · rcases h.same p with e | e
              · exact absurd (e.trans hp) hq
              · exact .inl e.1
            · exact .inr hs
        · intro a r ha1 ha2 hb hr
          rcases h.closed a r ha1 ha2 hb hr with e | e
          · exact .inl e
          · rcases List.mem_cons.1 e with rfl | e
            · rcases h.same r with e' | e'
              · exact absurd (e'.trans hr) hq
              · exact .inl e'.1
            · exact .inr e
      next hq =>
        have hq : pic q = some seed := Classical.not_not.1 hq
        have hq0 : pic0 q = some seed := by
          rcases h.same q with e | e
          · rw [← e]; exact hq
          · exact absurd (Option.some.inj (hq.symm.trans e.1)) hne
        have hqg : OnGrid q := h.grid q List.mem_cons_self
        have hqr : Region pic0 seed p q := h.todo q List.mem_cons_self hq0
        have keep : ∀ r, pic r = some color → (pic.set q color) r = some color := by
          intro r hr; unfold Picture.set; split
          · rfl
          · exact hr
        have hset : (pic.set q color) q = some color := if_pos rfl
        refine ih (pic.set q color) (neighbours q ++ pending) ⟨?_, ?_, ?_, ?_, ?_⟩ ?_
        · intro r
          by_cases hr : r = q
          · subst hr; exact .inr ⟨hset, hqr⟩
          · rw [show (pic.set q color) r = pic r from if_neg hr]; exact h.same r
        · intro r hr h0
          rcases List.mem_append.1 hr with hr | hr
          · exact hqr.step ((mem_neighbours hqg).1 hr).1 h0
          · exact h.todo r (List.mem_cons_of_mem _ hr) h0
        · intro r hr
          rcases List.mem_append.1 hr with hr | hr
          · exact ((mem_neighbours hqg).1 hr).2
          · exact h.grid r (List.mem_cons_of_mem _ hr)
        · rcases h.start with hs | hs
          · exact .inl (keep p hs)
          · rcases List.mem_cons.1 hs with rfl | hs
            · exact .inl hset
            · exact .inr (List.mem_append_right _ hs)
        · intro a r ha1 ha2 hb hr
          by_cases ha : a = q
          · subst ha
            exact .inr (List.mem_append_left _ ((mem_neighbours hqg).2 ⟨hb, hgrid r (by rw [hr]; simp)⟩))
          · rw [show (pic.set q color) a = pic a from if_neg ha] at ha2
            rcases h.closed a r ha1 ha2 hb hr with e | e
            · exact .inl (keep r e)
            · rcases List.mem_cons.1 e with rfl | e
              · exact .inl hset
              · exact .inr (List.mem_append_right _ e)
        · have hc : gridPts.countP (fun r => (pic.set q color) r == some seed) < gridPts.countP (fun r => pic r == some seed) := by
            refine countP_lt (mem_gridPts hqg) (by simp [hq]) ?_ fun x hx => ?_
            · rw [hset]; simpa using fun h => hne h.symm
            · by_cases hxq : x = q
              · subst hxq; rw [hset] at hx; exact absurd (by simpa using hx) fun h : color = seed => hne h.symm
              · rwa [show (pic.set q color) x = pic x from if_neg hxq] at hx
          have := neighbours_length q
          unfold work
          rw [List.length_append]
          omega

theorem Filling.done {pic0 : Picture} {seed color : Nat} {p : Pt} {pic : Picture} (h : Filling pic0 seed color p pic [])
    {q : Pt} (hq : Region pic0 seed p q) : pic q = some color := by
  have all : ∀ q, Region pic0 seed p q → pic0 q = some seed := by
    intro q hq; cases hq <;> assumption
  induction hq with
  | start _ => exact h.start.resolve_right (by simp)
  | step h1 h2 h3 ih => exact (h.closed _ _ (all _ h1) ih h2 h3).resolve_right (by simp)

end Draw
end EB
