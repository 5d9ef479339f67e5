import Verif.Spec.Settled
import Verif.Spec.Stdlib
import Verif.Model.StdTable
import Mathlib.Data.List.Forall2
/-!
# The built-in callables of the model answer
-/

namespace EB.Spec

/-- The calls of the callables of `stdTable` that have an answer in any case: not those of `INSTR`, which is specified for
strings of less than 2^31 - 1 characters only, and not those of `LBOUND` and `UBOUND` with a dimension, which crash if that is
0 (finding F12). -/
def stdSure (shared : List Place) : Sure where
  calls k n := decide (k ≠ "INSTR".toList) && decide (¬ ((k = "LBOUND".toList ∨ k = "UBOUND".toList) ∧ n = 2))
  shared := shared

end EB.Spec

namespace EB.Settle
open Spec

section
variable {O : StdOps} {data : List (Option ConstantDatum)}

/-- The meaning has an answer for all requests that are as declared. -/
def Answers (k : Str) (md : Md) (m : Meaning) : Prop :=
  ∀ st room q n, (stdSure []).calls k n = true → Request.Proper q md n → ∃ r, m st room q = some r ∧ r.fits q.args q.ret room = true

theorem gives_fits {room : Nat} {v : Val} {args : List (Arg × LineCol)} {t : ExprType} (h : v.ty = t) : (gives room v).fits args (some t) room = true := by
  unfold gives
  split
  · split
    · rfl
    · simp only [Reply.fits, List.all_nil, List.isEmpty_nil, Option.map_some, h, decide_true, Bool.and_true, Bool.or_true, decide_eq_true_eq]
      omega
  · simp [Reply.fits, h]

theorem fails_fits {room : Nat} {pos : Option LineCol} {msg : Str} {args : List (Arg × LineCol)} {t : ExprType} : (fails pos msg).fits args (some t) room = true := by
  simp [Reply.fits, fails]

theorem sent_values : ∀ (ts : List (String × ExprType)) {b : Bool} {args : List (Arg × LineCol)}, Sent none b (valuesSyn ts) args →
    ∃ vs, values args = some vs ∧ vs.map (·.1.ty) = ts.map (·.2)
  | [], b, args, h => by
    cases h with
    | done => exact ⟨[], rfl, rfl⟩
    | nothing h => cases h
    | more h => cases h
    | moreRef h => cases h
    | moreOmitted h => cases h
    | moreValue h => cases h
  | [(name, t)], b, args, h => by
    cases h with
    | value hv hrest =>
      obtain ⟨vs, h1, h2⟩ := sent_values [] hrest
      exact ⟨(_, _) :: vs, by simp only [values, h1]; rfl, by simp only [List.map_cons, hv, h2]⟩
  | (name, t) :: x :: ts, b, args, h => by
    cases h with
    | value hv hrest =>
      obtain ⟨vs, h1, h2⟩ := sent_values (x :: ts) hrest
      exact ⟨(_, _) :: vs, by simp only [values, h1]; rfl, by simp only [List.map_cons, hv, h2]⟩

theorem answers_function {name : String} {ret : ExprType} {syns : List (List (String × ExprType))} {f : Nat → List (Val × LineCol) → Option Reply} {k : Str}
    (hne : ∀ ts ∈ syns, ts ≠ []) (hsome : syns ≠ [])
    (hf : ∀ room vs args, (stdSure []).calls k vs.length = true → (∃ ts ∈ syns, vs.map (fun x => x.1.ty) = ts.map (·.2)) →
      ∃ r, f room vs = some r ∧ r.fits args (some ret) room = true) :
    Answers k (functionMd name ret (syns.map fun ts => ⟨valuesSyn ts, none⟩)).2 (function ret f) := by
  intro st room q n hc hq
  have hret : q.ret = some ret := hq.ret
  unfold function
  rw [if_pos hret, hret]
  rcases hq.args with ⟨_, h, _⟩ | ⟨syn, hs, hsent⟩
  · exfalso
    rcases h with h | h
    · simp only [functionMd, List.map_eq_nil_iff] at h
      exact hsome h
    · simp only [functionMd] at h
      obtain ⟨ts, h1, h2⟩ := List.map_eq_singleton_iff.1 h
      subst h1
      simp only [Syntax.mk.injEq, and_true] at h2
      match ts, h2, hne with
      | [], _, hne => exact hne [] (by simp) rfl
      | [_], h, _ => simp [valuesSyn] at h
      | _ :: _ :: _, h, _ => simp [valuesSyn] at h
  · have key : ∀ (l : List (List (String × ExprType))), SyntaxFor (l.map fun ts => (⟨valuesSyn ts, none⟩ : Syntax)) n syn →
        ∃ ts ∈ l, syn = ⟨valuesSyn ts, none⟩ ∧ n = (valuesSyn ts).length := by
      intro l
      induction l with
      | nil => intro h; cases h
      | cons ts l ih =>
        intro h
        cases h with
        | here h => exact ⟨ts, by simp, rfl, h⟩
        | later _ h =>
          obtain ⟨ts', h1, h2⟩ := ih h
          exact ⟨ts', by simp [h1], h2⟩
    obtain ⟨ts, hts, rfl, hn⟩ := key syns hs
    obtain ⟨vs, h1, h2⟩ := sent_values ts hsent
    have hlen : ∀ ts : List (String × ExprType), (valuesSyn ts).length = ts.length := by
      intro ts
      induction ts with
      | nil => rfl
      | cons x ts ih =>
        cases ts with
        | nil => rfl
        | cons y ts => simp only [valuesSyn, List.length_cons] at ih ⊢; omega
    rw [h1]
    simp only [Option.bind_some]
    refine hf room vs q.args ?_ ⟨ts, hts, h2⟩
    have := congrArg List.length h2
    simp only [List.length_map] at this
    rw [this, ← hlen, ← hn]
    exact hc

/-- One value. -/
theorem one_value {vs : List (Val × LineCol)} {t : ExprType} (h : vs.map (fun x => x.1.ty) = [t]) : ∃ v pos, vs = [(v, pos)] ∧ v.ty = t := by
  match vs, h with
  | [(v, pos)], h => exact ⟨v, pos, rfl, by simpa using h⟩
theorem two_values {vs : List (Val × LineCol)} {t u : ExprType} (h : vs.map (fun x => x.1.ty) = [t, u]) :
    ∃ v pos v' pos', vs = [(v, pos), (v', pos')] ∧ v.ty = t ∧ v'.ty = u := by
  match vs, h with
  | [(v, pos), (v', pos')], h => exact ⟨v, pos, v', pos', rfl, by simpa using h⟩
theorem three_values {vs : List (Val × LineCol)} {t u s : ExprType} (h : vs.map (fun x => x.1.ty) = [t, u, s]) :
    ∃ v pos v' pos' v'' pos'', vs = [(v, pos), (v', pos'), (v'', pos'')] ∧ v.ty = t ∧ v'.ty = u ∧ v''.ty = s := by
  match vs, h with
  | [(v, pos), (v', pos'), (v'', pos'')], h => exact ⟨v, pos, v', pos', v'', pos'', rfl, by simpa using h⟩

theorem is_text {v : Val} (h : v.ty = .text) : ∃ s, v = .text s := by cases v <;> first | exact ⟨_, rfl⟩ | cases h
theorem is_int {v : Val} (h : v.ty = .integer) : ∃ s, v = .int s := by cases v <;> first | exact ⟨_, rfl⟩ | cases h
theorem is_dbl {v : Val} (h : v.ty = .double) : ∃ s, v = .dbl s := by cases v <;> first | exact ⟨_, rfl⟩ | cases h

open Builtin

theorem answers_ofText {k : Str} {name : String} {f : Str → Str} {x : String} : Answers k (functionMd name .text [⟨valuesSyn [(x, .text)], none⟩]).2 (function .text (ofText f)) :=
  answers_function (syns := [[(x, .text)]]) (by simp) (by simp) fun room vs args _ h => by
    obtain ⟨ts, hts, h⟩ := h
    cases List.mem_singleton.1 hts
    obtain ⟨v, pos, rfl, hv⟩ := one_value h
    obtain ⟨s, rfl⟩ := is_text hv
    exact ⟨_, rfl, gives_fits rfl⟩

theorem answers_abs {k : Str} {name : String} {x : String} : Answers k (functionMd name .double [⟨valuesSyn [(x, .double)], none⟩]).2 (function .double abs) :=
  answers_function (syns := [[(x, .double)]]) (by simp) (by simp) fun room vs args _ h => by
    obtain ⟨ts, hts, h⟩ := h
    cases List.mem_singleton.1 hts
    obtain ⟨v, pos, rfl, hv⟩ := one_value h
    obtain ⟨s, rfl⟩ := is_dbl hv
    exact ⟨_, rfl, gives_fits rfl⟩

theorem answers_in {k : Str} {md : Md} {ret : ExprType} {f : StdState → Nat → List (Val × LineCol) → Option Reply}
    (h : ∀ st, Answers k md (function ret (f st))) : Answers k md (functionIn ret f) :=
  fun st room q n hc hq => h st st room q n hc hq

theorem answers_ofDouble {k : Str} {name : String} {x : String} {t : ExprType} {f : BitVec 64 → Except Str Val}
    (hf : ∀ d v, f d = .ok v → v.ty = t) : Answers k (functionMd name t [⟨valuesSyn [(x, .double)], none⟩]).2 (function t (ofDouble f)) :=
  answers_function (syns := [[(x, .double)]]) (by simp) (by simp) fun room vs args _ h => by
    obtain ⟨ts, hts, h⟩ := h
    cases List.mem_singleton.1 hts
    obtain ⟨v, pos, rfl, hv⟩ := one_value h
    obtain ⟨s, rfl⟩ := is_dbl hv
    simp only [ofDouble]
    split
    next h => exact ⟨_, rfl, gives_fits (hf _ _ h)⟩
    next h => exact ⟨_, rfl, fails_fits⟩

theorem answers_cast {k : Str} {name : String} {x : String} {f : BitVec 64 → BitVec 64} :
    Answers k (functionMd name .integer [⟨valuesSyn [(x, .double)], none⟩]).2 (function .integer (ofDouble fun d => (O.toInt (f d)).map .int)) :=
  answers_ofDouble fun d v h => by
    cases ho : O.toInt (f d) with
    | error e => rw [ho] at h; cases h
    | ok i => rw [ho] at h; cases h; rfl

theorem arc_ty {f : BitVec 64 → BitVec 64} {what : String} {st : StdState} (d : BitVec 64) (v : Val) (h : arc O f what st d = .ok v) : v.ty = .double := by
  unfold arc at h
  split at h <;> cases h
  rfl

theorem exp_ty (d : BitVec 64) (v : Val) (h : exp O d = .ok v) : v.ty = .double := by
  unfold exp at h
  split at h <;> cases h
  rfl

theorem log_ty (d : BitVec 64) (v : Val) (h : log O d = .ok v) : v.ty = .double := by
  unfold log at h
  split at h <;> cases h
  rfl

theorem sqr_ty (d : BitVec 64) (v : Val) (h : sqr O d = .ok v) : v.ty = .double := by
  unfold sqr at h
  split at h <;> cases h
  rfl

theorem sgn_ty (d : BitVec 64) (v : Val) (h : sgn O d = .ok v) : v.ty = .integer := by
  cases h
  rfl

theorem answers_round {k : Str} {name : String} {x y z : String} :
    Answers k (functionMd name .double [⟨valuesSyn [(x, .double)], none⟩, ⟨valuesSyn [(y, .double), (z, .integer)], none⟩]).2
      (function .double (rounded O)) :=
  answers_function (syns := [[(x, .double)], [(y, .double), (z, .integer)]]) (by simp) (by simp) fun room vs args _ h => by
    obtain ⟨ts, hts, h⟩ := h
    rcases List.mem_cons.1 hts with rfl | hts
    · obtain ⟨v, pos, rfl, hv⟩ := one_value h
      obtain ⟨s, rfl⟩ := is_dbl hv
      exact ⟨_, rfl, gives_fits rfl⟩
    · cases List.mem_singleton.1 hts
      obtain ⟨v, pos, v', pos', rfl, hv, hv'⟩ := two_values h
      obtain ⟨s, rfl⟩ := is_dbl hv
      obtain ⟨n, rfl⟩ := is_int hv'
      exact ⟨_, rfl, gives_fits rfl⟩

/-- Nothing is sent for nothing. -/
theorem sent_nothing {args : List (Arg × LineCol)} (h : Sent none true [] args) : args = [] := by
  cases h with
  | done => rfl
  | nothing h => cases h
  | more h => cases h
  | moreRef h => cases h
  | moreOmitted h => cases h
  | moreValue h => cases h

theorem answers_pi {k : Str} {name : String} : Answers k (functionMd name .double [⟨[], none⟩]).2 (function .double pi) := by
  intro st room q n _ hq
  have hret : q.ret = some .double := hq.ret
  have hargs : q.args = [] := by
    rcases hq.args with ⟨_, _, h⟩ | ⟨syn, hs, hsent⟩
    · exact h
    · cases hs with
      | later _ h => cases h
      | here => exact sent_nothing hsent
  unfold function
  rw [if_pos hret, hret, hargs]
  exact ⟨_, rfl, gives_fits rfl⟩

theorem answers_command {k : Str} {name : String} : Answers k (commandMd name ⟨[], none⟩).2 (command (·.length = 0)) := by
  intro st room q n _ hq
  have hret : q.ret = none := hq.ret
  have hargs : q.args = [] := by
    rcases hq.args with ⟨_, _, h⟩ | ⟨syn, hs, hsent⟩
    · exact h
    · cases hs with
      | later _ h => cases h
      | here => exact sent_nothing hsent
  unfold command
  rw [if_pos ⟨hret, by rw [hargs]; rfl⟩]
  exact ⟨_, rfl, by simp [Reply.fits, hret]⟩

theorem seed_args {q : Request} {md : Md} {n : Nat} {x : String} (hq : Request.Proper q md n) (hm : md.syntaxes = seedSyn x) : NoneOrInteger q.args := by
  rcases hq.args with ⟨_, _, h⟩ | ⟨syn, hs, hsent⟩
  · exact .inl (by rw [h]; rfl)
  · rw [hm] at hs
    cases hs with
    | here => exact .inl (by rw [sent_nothing hsent]; rfl)
    | later _ hs =>
      cases hs with
      | later _ h => cases h
      | here =>
        obtain ⟨vs, h1, h2⟩ := sent_values [(x, .integer)] hsent
        exact .inr (by rw [h1]; simp only [Option.map_some, h2]; rfl)

theorem answers_randomize {k : Str} {name : Str} {x : String} : Answers k ⟨name, none, false, seedSyn x, false⟩ (command NoneOrInteger) := by
  intro st room q n _ hq
  have hret : q.ret = none := hq.ret
  unfold command
  rw [if_pos ⟨hret, seed_args hq rfl⟩]
  exact ⟨_, rfl, by simp [Reply.fits, hret]⟩

theorem answers_rnd {k : Str} {name : String} {x : String} : Answers k (functionMd name .double (seedSyn x)).2 (rnd O) := by
  intro st room q n _ hq
  have hret : q.ret = some .double := hq.ret
  unfold rnd
  rw [if_pos ⟨hret, seed_args hq rfl⟩, hret]
  exact ⟨_, rfl, gives_fits rfl⟩

theorem answers_asc {k : Str} {name : String} {x : String} : Answers k (functionMd name .integer [⟨valuesSyn [(x, .text)], none⟩]).2 (function .integer asc) :=
  answers_function (syns := [[(x, .text)]]) (by simp) (by simp) fun room vs args _ h => by
    obtain ⟨ts, hts, h⟩ := h
    cases List.mem_singleton.1 hts
    obtain ⟨v, pos, rfl, hv⟩ := one_value h
    obtain ⟨s, rfl⟩ := is_text hv
    match s with
    | [c] => exact ⟨_, rfl, gives_fits rfl⟩
    | [] => exact ⟨_, rfl, fails_fits⟩
    | _ :: _ :: _ => exact ⟨_, rfl, fails_fits⟩

theorem answers_chr {k : Str} {name : String} {x : String} : Answers k (functionMd name .text [⟨valuesSyn [(x, .integer)], none⟩]).2 (function .text chr) :=
  answers_function (syns := [[(x, .integer)]]) (by simp) (by simp) fun room vs args _ h => by
    obtain ⟨ts, hts, h⟩ := h
    cases List.mem_singleton.1 hts
    obtain ⟨v, pos, rfl, hv⟩ := one_value h
    obtain ⟨s, rfl⟩ := is_int hv
    simp only [chr]
    split
    · exact ⟨_, rfl, fails_fits⟩
    · split
      · exact ⟨_, rfl, gives_fits rfl⟩
      · exact ⟨_, rfl, fails_fits⟩

theorem answers_space {k : Str} {name : String} {x : String} : Answers k (functionMd name .text [⟨valuesSyn [(x, .integer)], none⟩]).2 (function .text space) :=
  answers_function (syns := [[(x, .integer)]]) (by simp) (by simp) fun room vs args _ h => by
    obtain ⟨ts, hts, h⟩ := h
    cases List.mem_singleton.1 hts
    obtain ⟨v, pos, rfl, hv⟩ := one_value h
    obtain ⟨s, rfl⟩ := is_int hv
    simp only [space]
    split
    · exact ⟨_, rfl, fails_fits⟩
    · exact ⟨_, rfl, gives_fits rfl⟩

theorem answers_len {k : Str} {name : String} {x : String} : Answers k (functionMd name .integer [⟨valuesSyn [(x, .text)], none⟩]).2 (function .integer len) :=
  answers_function (syns := [[(x, .text)]]) (by simp) (by simp) fun room vs args _ h => by
    obtain ⟨ts, hts, h⟩ := h
    cases List.mem_singleton.1 hts
    obtain ⟨v, pos, rfl, hv⟩ := one_value h
    obtain ⟨s, rfl⟩ := is_text hv
    simp only [len]
    split
    · exact ⟨_, rfl, gives_fits rfl⟩
    · exact ⟨_, rfl, fails_fits⟩

theorem answers_val {k : Str} {name : String} {x : String} : Answers k (functionMd name .double [⟨valuesSyn [(x, .text)], none⟩]).2 (function .double (val O)) :=
  answers_function (syns := [[(x, .text)]]) (by simp) (by simp) fun room vs args _ h => by
    obtain ⟨ts, hts, h⟩ := h
    cases List.mem_singleton.1 hts
    obtain ⟨v, pos, rfl, hv⟩ := one_value h
    obtain ⟨s, rfl⟩ := is_text hv
    exact ⟨_, rfl, gives_fits rfl⟩

theorem answers_left {k : Str} {name : String} {x y : String} :
    Answers k (functionMd name .text [⟨valuesSyn [(x, .text), (y, .integer)], none⟩]).2 (function .text left) :=
  answers_function (syns := [[(x, .text), (y, .integer)]]) (by simp) (by simp) fun room vs args _ h => by
    obtain ⟨ts, hts, h⟩ := h
    cases List.mem_singleton.1 hts
    obtain ⟨v, pos, v', pos', rfl, hv, hv'⟩ := two_values h
    obtain ⟨s, rfl⟩ := is_text hv
    obtain ⟨i, rfl⟩ := is_int hv'
    simp only [left]
    split
    · exact ⟨_, rfl, fails_fits⟩
    · exact ⟨_, rfl, gives_fits rfl⟩

theorem answers_right {k : Str} {name : String} {x y : String} :
    Answers k (functionMd name .text [⟨valuesSyn [(x, .text), (y, .integer)], none⟩]).2 (function .text right) :=
  answers_function (syns := [[(x, .text), (y, .integer)]]) (by simp) (by simp) fun room vs args _ h => by
    obtain ⟨ts, hts, h⟩ := h
    cases List.mem_singleton.1 hts
    obtain ⟨v, pos, v', pos', rfl, hv, hv'⟩ := two_values h
    obtain ⟨s, rfl⟩ := is_text hv
    obtain ⟨i, rfl⟩ := is_int hv'
    simp only [right]
    split
    · exact ⟨_, rfl, fails_fits⟩
    · exact ⟨_, rfl, gives_fits rfl⟩

theorem answers_mid {k : Str} {name : String} {x y z u v : String} :
    Answers k (functionMd name .text [⟨valuesSyn [(x, .text), (y, .integer)], none⟩, ⟨valuesSyn [(z, .text), (u, .integer), (v, .integer)], none⟩]).2
      (function .text mid) :=
  answers_function (syns := [[(x, .text), (y, .integer)], [(z, .text), (u, .integer), (v, .integer)]]) (by simp) (by simp) fun room vs args _ h => by
    obtain ⟨ts, hts, h⟩ := h
    rcases List.mem_cons.1 hts with rfl | hts
    · obtain ⟨v, pos, v', pos', rfl, hv, hv'⟩ := two_values h
      obtain ⟨s, rfl⟩ := is_text hv
      obtain ⟨i, rfl⟩ := is_int hv'
      simp only [mid]
      split
      · exact ⟨_, rfl, fails_fits⟩
      · exact ⟨_, rfl, gives_fits rfl⟩
    · cases List.mem_singleton.1 hts
      obtain ⟨v, pos, v', pos', v'', pos'', rfl, hv, hv', hv''⟩ := three_values h
      obtain ⟨s, rfl⟩ := is_text hv
      obtain ⟨i, rfl⟩ := is_int hv'
      obtain ⟨j, rfl⟩ := is_int hv''
      simp only [mid]
      split
      · exact ⟨_, rfl, fails_fits⟩
      · split
        · exact ⟨_, rfl, fails_fits⟩
        · exact ⟨_, rfl, gives_fits rfl⟩

theorem answers_instr {md : Md} {m : Meaning} : Answers "INSTR".toList md m := by
  intro st room q n hc
  simp [stdSure] at hc

theorem answers_str {k : Str} {name : String} {x : Str} :
    Answers k (functionMd name .text [⟨[.anyValue x false .end], none⟩]).2 (str O) := by
  intro st room q n _ hq
  have hret : q.ret = some .text := hq.ret
  rcases hq.args with ⟨_, h, _⟩ | ⟨syn, hs, hsent⟩
  · rcases h with h | h <;> simp [functionMd] at h
  · cases hs with
    | later _ h => cases h
    | here =>
      unfold str
      generalize q.args = args at hsent ⊢
      cases hsent with
      | any h =>
        cases h with
        | done =>
          rw [hret]
          exact ⟨_, rfl, gives_fits rfl⟩
        | nothing h => cases h
        | more h => cases h
        | moreRef h => cases h
        | moreOmitted h => cases h
        | moreValue h => cases h

theorem answers_extreme {k : Str} {name : String} {better : BitVec 64 → BitVec 64 → Bool} {start : BitVec 64} :
    Answers k (functionMd name .double extremeSyn).2 (function .double (extreme better start)) := by
  intro st room q n _ hq
  have hret : q.ret = some .double := hq.ret
  unfold function
  rw [if_pos hret, hret]
  rcases hq.args with ⟨_, h, _⟩ | ⟨syn, hs, hsent⟩
  · rcases h with h | h <;> simp [functionMd, extremeSyn] at h
  · cases hs with
    | later _ h => cases h
    | here =>
      have key : ∀ (b : Bool) (args : List (Arg × LineCol)), Sent (some ⟨"expr".toList, .typed .double, .exactly .long, true, false⟩) b [] args →
          ∃ vs, values args = some vs ∧ ∀ m, ∃ d, best better m vs = some d := by
        intro b args
        generalize hr : (some (⟨"expr".toList, .typed .double, .exactly .long, true, false⟩ : RepSyn)) = rep
        generalize hsy : ([] : List SingSyn) = syns
        intro h
        induction h with
        | done => exact ⟨[], rfl, fun m => ⟨m, rfl⟩⟩
        | nothing h hp =>
          rw [← hr] at h; cases h; cases hp
        | moreValue h hty hv _ _ _ ih =>
          rw [← hr] at h; cases h; cases hty
          obtain ⟨d, rfl⟩ := is_dbl hv
          obtain ⟨vs, h1, h2⟩ := ih rfl
          refine ⟨(.dbl d, _) :: vs, by
            show values ((.val (.dbl d), _) :: _) = _
            simp only [values, h1]; rfl, fun m => h2 _⟩
        | more h hty => rw [← hr] at h; cases h; cases hty
        | moreRef h hty => rw [← hr] at h; cases h; cases hty
        | moreOmitted h hty => rw [← hr] at h; cases h; cases hty
        | _ => cases hsy
      obtain ⟨vs, h1, h2⟩ := key true q.args hsent
      rw [h1]
      obtain ⟨d, hd⟩ := h2 start
      simp only [Option.bind_some, extreme, hd, Option.map_some]
      exact ⟨_, rfl, gives_fits rfl⟩

theorem answers_bound {k : Str} {name : String} (hk : k = "LBOUND".toList ∨ k = "UBOUND".toList) {f : Nat → Nat} :
    Answers k (functionMd name .integer boundSyn).2 (bound f) := by
  intro st room q n hc hq
  have hret : q.ret = some .integer := hq.ret
  have hn : n ≠ 2 := fun hn => by
    simp only [stdSure, Bool.and_eq_true, decide_eq_true_eq] at hc
    exact hc.2 ⟨hk, hn⟩
  rcases hq.args with ⟨_, h, _⟩ | ⟨syn, hs, hsent⟩
  · rcases h with h | h <;> simp [functionMd, boundSyn] at h
  · cases hs with
    | later _ h =>
      cases h with
      | here h => exact absurd h hn
      | later _ h => cases h
    | here =>
      have hv := hq.vars
      have hkn := hq.known
      unfold bound
      rw [hret]
      generalize hargs : q.args = args at hsent hv hkn
      cases hsent with
      | ref ha h =>
        rename_i pr p pos rest
        cases h with
        | nothing h => cases h
        | more h => cases h
        | moreRef h => cases h
        | moreOmitted h => cases h
        | moreValue h => cases h
        | done =>
          obtain ⟨c, pr', h1, h2, h3⟩ := hkn 0 _ _ rfl rfl
          have h2 := (Option.some.inj h2).symm
          subst h2
          generalize hvars : q.vars = vars at hv h1
          match vars, hv, h1 with
          | [x], _, h1 =>
            simp only [List.getElem?_cons_zero, Option.some.injEq] at h1
            subst h1
            cases pr' with
            | scalar => cases ha
            | array t m =>
              cases c with
              | scalar => exact absurd h3.1 (by simp [Cell.Of])
              | arr ty dims elem =>
                obtain ⟨g1, g2⟩ := h3.2 _ _ _ rfl
                match dims, g1, g2 with
                | [d], _, g2 =>
                  have := g2 d (by simp)
                  simp only [if_pos this]
                  exact ⟨_, rfl, gives_fits rfl⟩
                | _ :: _ :: _, _, _ => exact ⟨_, rfl, fails_fits⟩

theorem answers_restore {k : Str} {name : String} :
    Answers k (commandMd name ⟨[], none⟩).2 (fun _ _ q => if q.ret = none ∧ q.args.length = 0 then some ⟨.ok none, [], 0⟩ else none) := by
  intro st room q n _ hq
  have hret : q.ret = none := hq.ret
  have hargs : q.args = [] := by
    rcases hq.args with ⟨_, _, h⟩ | ⟨syn, hs, hsent⟩
    · exact h
    · cases hs with
      | later _ h => cases h
      | here =>
        generalize q.args = args at hsent
        cases hsent with
        | done => rfl
        | nothing h => cases h
        | more h => cases h
        | moreRef h => cases h
        | moreOmitted h => cases h
        | moreValue h => cases h
  beta_reduce
  rw [if_pos ⟨hret, by rw [hargs]; rfl⟩]
  exact ⟨_, rfl, by simp [Reply.fits, hret]⟩

theorem printed_length : ∀ {args : List (Arg × LineCol)} {items : List (ArgSep × Option Val)}, printed args = some items → items.length = args.length
  | [], items, h => by cases h; rfl
  | (.opt sep v, _) :: rest, items, h => by
    simp only [printed, Option.map_eq_some_iff] at h
    obtain ⟨is, h1, rfl⟩ := h
    simp [printed_length h1]
  | (.missing sep, _) :: rest, items, h => by
    simp only [printed, Option.map_eq_some_iff] at h
    obtain ⟨is, h1, rfl⟩ := h
    simp [printed_length h1]
  | (.val _, _) :: _, _, h => by cases h
  | (.ref .., _) :: _, _, h => by cases h
  | (.optRef .., _) :: _, _, h => by cases h

theorem answers_print {k : Str} {name : String} {x : Str} :
    Answers k (commandMd name ⟨[], some ⟨x, .anyValue, .oneOf [.long, .short], false, true⟩⟩).2
      (fun _ _ q => if q.ret = none then (printed q.args).bind fun items => if Separated items then some ⟨.ok none, [], 0⟩ else none else none) := by
  intro st room q n _ hq
  have hret : q.ret = none := hq.ret
  beta_reduce
  rw [if_pos hret]
  rcases hq.args with ⟨_, h, _⟩ | ⟨syn, hs, hsent⟩
  · rcases h with h | h <;> simp [commandMd] at h
  · cases hs with
    | later _ h => cases h
    | here =>
      have sepd : ∀ {sep : ArgSep} {rest : List (Arg × LineCol)} {items : List (ArgSep × Option Val)} {v : Option Val},
          printed rest = some items → SepFits (.oneOf [.long, .short]) True sep → Last sep rest →
          ((items = []) ∨ Separated items) → Separated ((sep, v) :: items) := by
        intro sep rest items v hp hsep hl hi
        have hlen := printed_length hp
        match items, hi with
        | [], _ =>
          have : rest = [] := List.length_eq_zero_iff.1 hlen.symm
          exact hl.2 this
        | y :: ys, hi =>
          rcases hi with hi | hi
          · cases hi
          refine ⟨?_, hi⟩
          rcases hsep with ⟨h1, _⟩ | ⟨_, h2⟩
          · have := hl.1 h1
            subst this
            simp at hlen
          · simp at h2
            tauto
      have key : ∀ (b : Bool) (args : List (Arg × LineCol)), Sent (some ⟨x, .anyValue, .oneOf [.long, .short], false, true⟩) b [] args →
          ∃ items, printed args = some items ∧ ((items = [] ∧ b = false) ∨ Separated items) := by
        intro b args
        generalize hr : (some (⟨x, .anyValue, .oneOf [.long, .short], false, true⟩ : RepSyn)) = rep
        generalize hsy : ([] : List SingSyn) = syns
        intro h
        induction h with
        | done h =>
          rcases h _ hr.symm with ⟨h, _⟩ | h
          · cases h
          · exact ⟨[], rfl, .inl ⟨rfl, h⟩⟩
        | nothing h hp => exact ⟨[(.end, none)], rfl, .inr rfl⟩
        | more h hty hsep hl _ ih =>
          rw [← hr] at h; cases h
          obtain ⟨items, h1, h2⟩ := ih rfl
          exact ⟨(_, _) :: items, by simp only [printed, h1]; rfl, .inr (sepd h1 hsep hl (h2.imp (fun h => h.1) id))⟩
        | moreOmitted h hty hsep hl _ ih =>
          rw [← hr] at h; cases h
          obtain ⟨items, h1, h2⟩ := ih rfl
          exact ⟨(_, _) :: items, by simp only [printed, h1]; rfl, .inr (sepd h1 hsep hl (h2.imp (fun h => h.1) id))⟩
        | moreValue h hty => rw [← hr] at h; cases h; cases hty
        | moreRef h hty => rw [← hr] at h; cases h; cases hty
        | _ => cases hsy
      obtain ⟨items, h1, h2⟩ := key true q.args hsent
      rw [h1]
      simp only [Option.bind_some]
      rcases h2 with ⟨_, h⟩ | h
      · cases h
      rw [if_pos h]
      exact ⟨_, rfl, by simp [Reply.fits, hret]⟩

theorem suited_ty {t : ExprType} {v v' : Val} (h : suited O t v = .ok v') : v'.ty = t := by
  unfold suited at h
  split at h
  · cases h; rfl
  next d =>
    cases hd : O.toInt d with
    | error e => rw [hd] at h; cases h
    | ok i => rw [hd] at h; cases h; rfl
  · split at h
    next he => cases h; exact he
    · cases h

theorem readInto_fits : ∀ (ts : List (ExprType × Place × LineCol)) (room : Nat) (items : List (Option ConstantDatum)),
    (readInto O room items ts).used ≤ room ∧ (∀ v, (readInto O room items ts).result = .ok v → v = none) ∧
    ∀ x ∈ (readInto O room items ts).writes, ∃ pos, (x.2.ty, x.1, pos) ∈ ts
  | [], room, items => by
    unfold readInto
    exact ⟨Nat.zero_le _, fun v h => by cases h; rfl, fun x h => by cases h⟩
  | (t, p, pos) :: rest, room, [] => ⟨Nat.zero_le _, ⟨fun v h => (by cases h), fun x h => (by cases h)⟩⟩
  | (t, p, pos) :: rest, room, d :: items => by
    unfold readInto
    cases hs : suited O t ((d.map literal).getD (omitted t)) with
    | error e => exact ⟨Nat.zero_le _, ⟨fun v h => (by cases h), fun x h => (by cases h)⟩⟩
    | ok v =>
      have hty := suited_ty hs
      have front : ∀ (x : Place × Val) (room : Nat), x ∈ (p, v) :: (readInto O room items rest).writes →
          ∃ pos', (x.2.ty, x.1, pos') ∈ (t, p, pos) :: rest := by
        intro x room hx
        rcases List.mem_cons.1 hx with rfl | hx
        · exact ⟨pos, by simp [hty]⟩
        · obtain ⟨pos', h⟩ := (readInto_fits rest room items).2.2 x hx
          exact ⟨pos', List.mem_cons_of_mem _ h⟩
      simp only
      split
      · cases room with
        | zero => exact ⟨Nat.zero_le _, ⟨fun v h => (by cases h), fun x h => (by cases h)⟩⟩
        | succ room =>
          have ih := readInto_fits rest room items
          exact ⟨Nat.succ_le_succ ih.1, ih.2.1, fun x hx => front x room hx⟩
      · have ih := readInto_fits rest room items
        exact ⟨ih.1, ih.2.1, fun x hx => front x room hx⟩

theorem answers_read {k : Str} {name : String} {x : Str} :
    Answers k (commandMd name ⟨[], some ⟨x, .varRef, .exactly .long, true, false⟩⟩).2
      (fun st room q => if q.ret = none then (targets q.args).map (readInto O room (data.drop st.index)) else none) := by
  intro st room q n _ hq
  have hret : q.ret = none := hq.ret
  beta_reduce
  rw [if_pos hret]
  rcases hq.args with ⟨_, h, _⟩ | ⟨syn, hs, hsent⟩
  · rcases h with h | h <;> simp [commandMd] at h
  · cases hs with
    | later _ h => cases h
    | here =>
      have key : ∀ (b : Bool) (args : List (Arg × LineCol)), Sent (some ⟨x, .varRef, .exactly .long, true, false⟩) b [] args →
          (args = [] ∧ b = false) ∨ ∃ ts, targets args = some ts ∧ ∀ t p pos, (t, p, pos) ∈ ts → ∃ a ∈ args, a.1.target = some (p, t) := by
        intro b args
        generalize hr : (some (⟨x, .varRef, .exactly .long, true, false⟩ : RepSyn)) = rep
        generalize hsy : ([] : List SingSyn) = syns
        intro h
        induction h with
        | done h =>
          rcases h _ hr.symm with ⟨h, _⟩ | h
          · cases h
          · exact .inl ⟨rfl, h⟩
        | nothing h hp h1 => rw [← hr] at h; cases h; cases h1
        | moreRef h hty hsep hl _ ih =>
          rename_i rest _ _
          rw [← hr] at h; cases h
          right
          simp only [targets]
          split
          next he =>
            have := hl.1 he
            subst this
            refine ⟨_, if_pos rfl, fun t p pos hm => ?_⟩
            cases List.mem_singleton.1 hm
            exact ⟨_, List.mem_cons_self, rfl⟩
          next hne =>
            rcases ih rfl with ⟨h, _⟩ | ⟨ts, h1, h2⟩
            · exact absurd (hl.2 h) hne
            · rw [h1]
              refine ⟨_, rfl, fun t p pos hm => ?_⟩
              rcases List.mem_cons.1 hm with hm | hm
              · cases hm
                exact ⟨_, List.mem_cons_self, rfl⟩
              · obtain ⟨a, ha, h3⟩ := h2 t p pos hm
                exact ⟨a, List.mem_cons_of_mem _ ha, h3⟩
        | more h hty => rw [← hr] at h; cases h; cases hty
        | moreOmitted h hty => rw [← hr] at h; cases h; cases hty
        | moreValue h hty => rw [← hr] at h; cases h; cases hty
        | _ => cases hsy
      rcases key true q.args hsent with ⟨_, h⟩ | ⟨ts, h1, h2⟩
      · cases h
      rw [h1]
      refine ⟨_, rfl, ?_⟩
      obtain ⟨g1, g2, g3⟩ := readInto_fits (O := O) ts room (data.drop st.index)
      unfold Reply.fits
      simp only [Bool.and_eq_true, decide_eq_true_eq, List.all_eq_true, List.any_eq_true, hret, Option.isNone_none, Bool.true_or, and_true]
      refine ⟨⟨g1, ?_⟩, fun x hx => ?_⟩
      · split
        next v hv => rw [g2 v hv]; simp
        · rfl
      · obtain ⟨pos, hp⟩ := g3 x hx
        exact h2 _ _ _ hp

/-! ## The console -/

/-- Commands that give something to the console. -/
theorem answers_ordered {k : Str} {md : Md} {order : Order} (hret : md.returnType = none)
    (h : ∀ q n, Request.Proper q md n → ∃ c, order q.args = some c) : Answers k md (ordered order) := by
  intro st room q n _ hq
  have hr : q.ret = none := hq.ret.trans hret
  obtain ⟨c, hc⟩ := h q n hq
  unfold ordered
  rw [if_pos hr, hc]
  refine ⟨_, rfl, ?_⟩
  cases c <;> simp [Reply.fits, hr, fails]

/-- A syntax of values. -/
theorem proper_values {q : Request} {md : Md} {n : Nat} {x : String × ExprType} {ts : List (String × ExprType)}
    (hm : md.syntaxes = [⟨valuesSyn (x :: ts), none⟩]) (hq : Request.Proper q md n) :
    ∃ vs, values q.args = some vs ∧ vs.map (·.1.ty) = (x :: ts).map (·.2) := by
  rcases hq.args with ⟨_, h, _⟩ | ⟨syn, hs, hsent⟩
  · exfalso
    rcases h with h | h
    · rw [hm] at h; cases h
    · rw [hm] at h
      cases ts <;> simp [valuesSyn] at h
  · rw [hm] at hs
    cases hs with
    | later _ h => cases h
    | here => exact sent_values _ hsent

/-- No arguments. -/
theorem proper_none {q : Request} {md : Md} {n : Nat} (hm : md.syntaxes = [⟨[], none⟩]) (hq : Request.Proper q md n) : q.args = [] := by
  rcases hq.args with ⟨_, _, h⟩ | ⟨syn, hs, hsent⟩
  · exact h
  · rw [hm] at hs
    cases hs with
    | later _ h => cases h
    | here => exact sent_nothing hsent

theorem answers_cls {k : Str} {name : String} : Answers k (commandMd name ⟨[], none⟩).2 (ordered Orders.cls) :=
  answers_ordered rfl fun q n hq => by rw [proper_none rfl hq]; exact ⟨_, rfl⟩

theorem args_of_values : ∀ {args : List (Arg × LineCol)} {vs : List (Val × LineCol)}, values args = some vs →
    args = vs.map fun v => (.val v.1, v.2)
  | [], vs, h => by cases h; rfl
  | (.val v, pos) :: rest, vs, h => by
    simp only [values, Option.map_eq_some_iff] at h
    obtain ⟨us, h, rfl⟩ := h
    rw [args_of_values h]; rfl
  | (.opt _ _, _) :: _, _, h => by cases h
  | (.missing _, _) :: _, _, h => by cases h
  | (.ref _ _, _) :: _, _, h => by cases h
  | (.optRef _ _ _, _) :: _, _, h => by cases h

theorem answers_locate {k : Str} {name : String} {x y : String} : Answers k (commandMd name (intsSyn [x, y])).2 (ordered (Orders.locate O)) :=
  answers_ordered rfl fun q n hq => by
    obtain ⟨vs, h1, h2⟩ := proper_values (x := (x, .integer)) (ts := [(y, .integer)]) rfl hq
    obtain ⟨v, pos, v', pos', rfl, hv, hv'⟩ := two_values h2
    obtain ⟨i, rfl⟩ := is_int hv
    obtain ⟨j, rfl⟩ := is_int hv'
    rw [args_of_values h1]
    exact ⟨_, rfl⟩

theorem is_bool {v : Val} (h : v.ty = .boolean) : ∃ s, v = .bool s := by cases v <;> first | exact ⟨_, rfl⟩ | cases h

theorem answers_sync {k : Str} {name : String} {x : String} :
    Answers k (commandsMd name false [⟨[], none⟩, ⟨valuesSyn [(x, .boolean)], none⟩]).2 (ordered Orders.sync) :=
  answers_ordered rfl fun q n hq => by
    rcases hq.args with ⟨_, _, h⟩ | ⟨syn, hs, hsent⟩
    · rw [h]; exact ⟨_, rfl⟩
    · cases hs with
      | here => rw [sent_nothing hsent]; exact ⟨_, rfl⟩
      | later _ hs =>
        cases hs with
        | later _ h => cases h
        | here =>
          obtain ⟨vs, h1, h2⟩ := sent_values [(x, .boolean)] hsent
          obtain ⟨v, pos, rfl, hv⟩ := one_value h2
          obtain ⟨b, rfl⟩ := is_bool hv
          rw [args_of_values h1]
          exact ⟨_, rfl⟩

theorem allMeasured_some : ∀ (ms : List Measure) (vs : List (Val × LineCol)), vs.map (·.1.ty) = ms.map (fun _ => ExprType.integer) →
    ∃ c, Orders.allMeasured ms (vs.map fun v => (.val v.1, v.2)) = some c
  | [], [], _ => ⟨_, rfl⟩
  | [], _ :: _, h => by simp at h
  | _ :: _, [], h => by simp at h
  | m :: ms, (v, pos) :: vs, h => by
    simp only [List.map_cons, List.cons.injEq] at h
    obtain ⟨i, rfl⟩ := is_int h.1
    obtain ⟨c, hc⟩ := allMeasured_some ms vs h.2
    refine ⟨(Orders.measured m i pos).bind fun n => c.map (n :: ·), ?_⟩
    simp only [List.map_cons, Orders.allMeasured, hc, Option.map_some]

theorem answers_draw {k : Str} {name : String} {shape : Shape} {x : String} {xs : List String}
    (hl : xs.length + 1 = (Orders.parts shape).length) : Answers k (commandMd name (intsSyn (x :: xs))).2 (ordered (Orders.draw shape)) :=
  answers_ordered rfl fun q n hq => by
    obtain ⟨vs, h1, h2⟩ := proper_values (x := (x, .integer)) (ts := xs.map fun n => (n, .integer)) rfl hq
    rw [args_of_values h1]
    unfold Orders.draw
    obtain ⟨c, hc⟩ := allMeasured_some (Orders.parts shape) vs (by
      rw [h2]
      rw [show ((x, ExprType.integer) :: xs.map fun n => (n, ExprType.integer)).map (·.2) = (x :: xs).map (fun _ => ExprType.integer) by
        simp only [List.map_cons, List.map_map]; rfl]
      rw [List.map_const', List.map_const', List.length_cons, hl])
    rw [hc]
    exact ⟨_, rfl⟩

theorem colors_pair {a b : Arg × LineCol} {c d : Except (LineCol × Str) (Option (BitVec 8))} (ha : Orders.mayColor a = some c)
    (hb : Orders.mayColor b = some d) : ∃ r, Orders.colors [a, b] = some r := by
  refine ⟨c.bind fun fg => d.map fun bg => [.colored fg bg], ?_⟩
  simp only [Orders.colors, ha, hb, Option.bind_some, Option.map_some]

theorem sent_colors {a b : Str} {args : List (Arg × LineCol)}
    (h : Sent none true [.optValue a .integer (.exactly .long), .optValue b .integer .end] args) : ∃ c, Orders.colors args = some c := by
  have last : ∀ {rest : List (Arg × LineCol)}, Sent none true [.optValue b .integer .end] rest → ∃ y c, rest = [y] ∧ Orders.mayColor y = some c := by
    intro rest h
    cases h with
    | optional hv _ h =>
      cases sent_nothing h
      obtain ⟨i, rfl⟩ := is_int hv
      exact ⟨_, _, rfl, rfl⟩
    | omitted _ h =>
      cases sent_nothing h
      exact ⟨_, _, rfl, rfl⟩
  cases h with
  | optional hv _ h =>
    obtain ⟨i, rfl⟩ := is_int hv
    obtain ⟨y, c, rfl, hc⟩ := last h
    exact colors_pair rfl hc
  | omitted _ h =>
    obtain ⟨y, c, rfl, hc⟩ := last h
    exact colors_pair rfl hc

theorem answers_color {k : Str} {name : String} : Answers k (commandsMd name false colorSyn).2 (ordered Orders.colors) :=
  answers_ordered rfl fun q n hq => by
    rcases hq.args with ⟨_, _, h⟩ | ⟨syn, hs, hsent⟩
    · rw [h]; exact ⟨_, rfl⟩
    · cases hs with
      | here => rw [sent_nothing hsent]; exact ⟨_, rfl⟩
      | later _ hs =>
        cases hs with
        | here =>
          obtain ⟨vs, h1, h2⟩ := sent_values [("fg", .integer)] hsent
          obtain ⟨v, pos, rfl, hv⟩ := one_value h2
          obtain ⟨b, rfl⟩ := is_int hv
          rw [args_of_values h1]
          exact ⟨_, rfl⟩
        | later _ hs =>
          cases hs with
          | later _ h => cases h
          | here => exact sent_colors hsent

theorem answers_constantly {k : Str} {name : String} {n : Nat} :
    Answers k (functionMd name .integer [⟨[], none⟩]).2 (function .integer (constantly n)) := by
  intro st room q n _ hq
  have hret : q.ret = some .integer := hq.ret
  unfold function
  rw [if_pos hret, hret, proper_none rfl hq]
  exact ⟨_, rfl, gives_fits rfl⟩

theorem answers_inkey {k name : Str} : Answers k ⟨name, some .text, true, [⟨[], none⟩], false⟩ (inkey O) := by
  intro st room q n _ hq
  have hret : q.ret = some .text := hq.ret
  unfold inkey
  rw [if_pos ⟨hret, by rw [proper_none rfl hq]; rfl⟩, hret]
  exact ⟨_, rfl, gives_fits rfl⟩

theorem answers_peek {k : Str} {name : String} {x y : String} :
    Answers k (functionMd name .integer [intsSyn [x, y]]).2 (functionIn .integer (peek O)) :=
  answers_in fun st => answers_function (syns := [[(x, .integer), (y, .integer)]]) (by simp) (by simp) fun room vs args _ h => by
    obtain ⟨ts, hts, h⟩ := h
    cases List.mem_singleton.1 hts
    obtain ⟨v, pos, v', pos', rfl, hv, hv'⟩ := two_values h
    obtain ⟨i, rfl⟩ := is_int hv
    obtain ⟨j, rfl⟩ := is_int hv'
    simp only [peek]
    split
    · exact ⟨_, rfl, fails_fits⟩
    · exact ⟨_, rfl, fails_fits⟩
    · exact ⟨_, rfl, gives_fits rfl⟩

/-- What is sent to `INPUT`. -/
theorem sent_input {a b : Str} {define : Bool} {s : SepSyn} {args : List (Arg × LineCol)}
    (h : Sent none true [.reqRef b false define s] args ∨
      Sent none true [.optValue a .text (.oneOf [.long, .short]), .reqRef b false define s] args) :
    ∃ prompt t p, asking args = some (prompt, t, p) ∧ ∃ x ∈ args, x.1.target = some (p, t) := by
  have last : ∀ {rest : List (Arg × LineCol)}, Sent none true [.reqRef b false define s] rest → ∃ t p pos, rest = [(.ref (.scalar t) p, pos)] := by
    intro rest h
    cases h with
    | ref hq h =>
      cases sent_nothing h
      rename_i q p pos
      cases q with
      | scalar t => exact ⟨t, p, pos, rfl⟩
      | array => cases hq
  have seps : ∀ {sep : ArgSep} {l : List SingSyn} {prompt : Str}, l ≠ [] → SepFits (.oneOf [.long, .short]) (l = []) sep → ∃ pr, questionMark prompt sep = some pr := by
    intro sep l prompt hne h
    rcases h with ⟨_, h⟩ | ⟨_, h⟩
    · exact absurd h hne
    · simp only [List.mem_cons, List.not_mem_nil, or_false] at h
      rcases h with rfl | rfl
      · exact ⟨_, rfl⟩
      · exact ⟨_, rfl⟩
  rcases h with h | h
  · obtain ⟨t, p, pos, rfl⟩ := last h
    exact ⟨[], t, p, rfl, _, .head _, rfl⟩
  · cases h with
    | optional hv hsep h =>
      rename_i sep v pos0 rest
      obtain ⟨u, rfl⟩ := is_text hv
      obtain ⟨t, p, pos, rfl⟩ := last h
      obtain ⟨pr, hpr⟩ := seps (prompt := u) (by simp) hsep
      exact ⟨pr, t, p, by simp only [asking, hpr, Option.map_some], _, .tail _ (.head _), rfl⟩
    | omitted hsep h =>
      obtain ⟨t, p, pos, rfl⟩ := last h
      obtain ⟨pr, hpr⟩ := seps (prompt := []) (by simp) hsep
      exact ⟨pr, t, p, by simp only [asking, hpr, Option.map_some], _, .tail _ (.head _), rfl⟩

theorem valueOfText_ty {t : ExprType} {s : Str} {v : Val} (h : valueOfText O s t = .ok v) : v.ty = t := by
  unfold valueOfText at h
  split at h
  · cases h; rfl
  · split at h
    · cases h; rfl
    · split at h <;> cases h
      rfl
  · split at h
    · split at h <;> cases h
      rfl
    · cases h
  · split at h <;> cases h
    rfl

theorem firstTaken_ty {t : ExprType} {v : Val} {l : List Answer} (h : firstTaken O t l = some v) : v.ty = t := by
  obtain ⟨a, _, ha⟩ := List.exists_of_findSome?_eq_some h
  cases hx : taking O t a with
  | error e => rw [hx] at ha; cases ha
  | ok u =>
    rw [hx] at ha
    cases ha
    cases a with
    | line s => exact valueOfText_ty hx
    | garbled => cases hx

theorem answers_input {k : Str} {name : String} : Answers k (commandsMd name true inputSyn).2 (input O) := by
  intro st room q n _ hq
  have hret : q.ret = none := hq.ret
  obtain ⟨prompt, t, p, ha, x, hx, hxt⟩ : ∃ prompt t p, asking q.args = some (prompt, t, p) ∧ ∃ x ∈ q.args, x.1.target = some (p, t) := by
    rcases hq.args with ⟨_, h, _⟩ | ⟨syn, hs, hsent⟩
    · rcases h with h | h <;> simp [commandsMd, inputSyn] at h
    · cases hs with
      | here => exact sent_input (a := []) (.inl hsent)
      | later _ hs =>
        cases hs with
        | later _ h => cases h
        | here => exact sent_input (.inr hsent)
  unfold input
  rw [if_pos hret, ha]
  refine ⟨_, rfl, ?_⟩
  simp only
  cases hf : firstTaken O t (O.answers.drop st.answered) with
  | none => simp [Reply.fits, fails]
  | some v =>
    have hty := firstTaken_ty hf
    have hany : (q.args.any fun a => decide (a.1.target = some (p, v.ty))) = true := by
      simp only [List.any_eq_true, decide_eq_true_eq]
      exact ⟨x, hx, by rw [hxt, hty]⟩
    simp only [stores]
    split
    · split
      · simp [Reply.fits, fails]
      · simp only [Reply.fits, hret, List.all_cons, List.all_nil, hany]
        simp
        omega
    · simp only [Reply.fits, hret, List.all_cons, List.all_nil, hany]
      simp

/-! ## All of them -/

theorem answers_console : List.Forall₂ (fun (a : Str × Md) (b : Str × Meaning) => a.1 = b.1 ∧ Answers a.1 a.2 b.2) (stdTable.drop 42)
    ((stdMeanings O data).drop 42) :=
  .cons ⟨rfl, answers_cls⟩ (.cons ⟨rfl, answers_color⟩ (.cons ⟨rfl, answers_inkey⟩ (.cons ⟨rfl, answers_input⟩ (.cons ⟨rfl, answers_locate⟩
    (.cons ⟨rfl, answers_constantly⟩ (.cons ⟨rfl, answers_constantly⟩ (.cons ⟨rfl, answers_draw rfl⟩ (.cons ⟨rfl, answers_draw rfl⟩
    (.cons ⟨rfl, answers_draw rfl⟩ (.cons ⟨rfl, answers_constantly⟩ (.cons ⟨rfl, answers_draw rfl⟩ (.cons ⟨rfl, answers_peek⟩
    (.cons ⟨rfl, answers_draw rfl⟩ (.cons ⟨rfl, answers_draw rfl⟩ (.cons ⟨rfl, answers_draw rfl⟩ (.cons ⟨rfl, answers_sync⟩
    (.cons ⟨rfl, answers_draw rfl⟩ (.cons ⟨rfl, answers_draw rfl⟩ (.cons ⟨rfl, answers_constantly⟩ .nil)))))))))))))))))))

theorem answers_numbers : List.Forall₂ (fun (a : Str × Md) (b : Str × Meaning) => a.1 = b.1 ∧ Answers a.1 a.2 b.2) (stdTable.drop 23)
    ((stdMeanings O data).drop 23) := by
  refine .cons ⟨rfl, answers_in fun st => answers_ofDouble arc_ty⟩ (.cons ⟨rfl, answers_in fun st => answers_ofDouble arc_ty⟩
    (.cons ⟨rfl, answers_in fun st => answers_ofDouble fun d v h => ?_⟩ (.cons ⟨rfl, answers_cast⟩
    (.cons ⟨rfl, answers_in fun st => answers_ofDouble fun d v h => ?_⟩ (.cons ⟨rfl, answers_command⟩ (.cons ⟨rfl, answers_ofDouble exp_ty⟩
    (.cons ⟨rfl, answers_cast⟩ (.cons ⟨rfl, answers_cast⟩ (.cons ⟨rfl, answers_ofDouble log_ty⟩ (.cons ⟨rfl, answers_pi⟩ (.cons ⟨rfl, answers_command⟩
    (.cons ⟨rfl, answers_randomize⟩ (.cons ⟨rfl, answers_rnd⟩ (.cons ⟨rfl, answers_round⟩ (.cons ⟨rfl, answers_ofDouble sgn_ty⟩
    (.cons ⟨rfl, answers_in fun st => answers_ofDouble fun d v h => ?_⟩ (.cons ⟨rfl, answers_ofDouble sqr_ty⟩
    (.cons ⟨rfl, answers_in fun st => answers_ofDouble fun d v h => ?_⟩ (answers_console (data := data))))))))))))))))))))
  all_goals (cases h; rfl)

theorem answers_all : List.Forall₂ (fun (a : Str × Md) (b : Str × Meaning) => a.1 = b.1 ∧ Answers a.1 a.2 b.2) stdTable (stdMeanings O data) := by
  refine .cons ⟨rfl, answers_print⟩ (.cons ⟨rfl, answers_read⟩ (.cons ⟨rfl, answers_restore⟩ (.cons ⟨rfl, answers_abs⟩
    (.cons ⟨rfl, answers_asc⟩ (.cons ⟨rfl, answers_chr⟩ (.cons ⟨rfl, answers_instr⟩ (.cons ⟨rfl, answers_bound (.inl rfl)⟩ (.cons ⟨rfl, answers_ofText⟩
    (.cons ⟨rfl, answers_left⟩ (.cons ⟨rfl, answers_len⟩ (.cons ⟨rfl, answers_ofText⟩ (.cons ⟨rfl, answers_extreme⟩ (.cons ⟨rfl, answers_mid⟩
    (.cons ⟨rfl, answers_extreme⟩ (.cons ⟨rfl, answers_right⟩ (.cons ⟨rfl, answers_ofText⟩ (.cons ⟨rfl, answers_space⟩ (.cons ⟨rfl, answers_str⟩
    (.cons ⟨rfl, answers_ofText⟩ (.cons ⟨rfl, answers_bound (.inr rfl)⟩ (.cons ⟨rfl, answers_ofText⟩ (.cons ⟨rfl, answers_val⟩ (answers_numbers (data := data))))))))))))))))))))))))

theorem answers_find {k : Str} {md : Md} : ∀ {as : FMap Str Md} {bs : List (Str × Meaning)},
    List.Forall₂ (fun (a : Str × Md) (b : Str × Meaning) => a.1 = b.1 ∧ Answers a.1 a.2 b.2) as bs →
    as.get? k = some md → ∃ m, bs.find? (·.1 = k) = some m ∧ Answers k md m.2 := by
  intro as bs h
  induction h with
  | nil => intro h; cases h
  | cons hab hrest ih =>
    rename_i a b as bs
    intro h
    obtain ⟨h1, h2⟩ := hab
    obtain ⟨ak, am⟩ := a
    simp only [FMap.get?] at h
    simp only at h1
    simp only [List.find?_cons]
    by_cases hk : b.1 = k
    · simp only [hk, decide_true]
      rw [if_pos (by rw [h1, hk])] at h
      cases h
      simp only [h1, hk] at h2
      exact ⟨b, rfl, h2⟩
    · simp only [hk, decide_false]
      rw [if_neg (by rw [h1]; exact hk)] at h
      exact ih h

/-- The callables of the model answer. -/
theorem std_replies (O : StdOps) (width : Str → Nat) (data : List (Option ConstantDatum)) (shared : List Place) :
    Replies stdTable (stdSure shared) (stdLib O width data) := by
  intro k md n l room q hk hc hname hq
  obtain ⟨m, h1, h2⟩ := answers_find (answers_all (O := O) (data := data)) hk
  obtain ⟨r, h3, h4⟩ := h2 (stdState O width data l.events) room q n hc hq
  unfold stdLib
  rw [hname, h1]
  simp only [Option.bind_some, h3, Option.getD_some]
  exact h4

end

end EB.Settle
