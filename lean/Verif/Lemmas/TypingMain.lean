import Verif.Lemmas.Typing
/-!
# Variables of accepted programs always have contents of their types: statements and programs
-/

namespace EB.Typing
open Spec Settle

section
variable {F : FloatOps} {n : Nat} {cl : Calls} {fin : Env} {L : Decls} {up : FMap Str Md}

theorem Seat.users {Γ : Env} (h : Seat fin L Γ) : Users fin Γ := h.below.user

theorem Seat.stmt {Γ : Env} {A : Around} {s : Stmt} (h : Seat fin L (afterStmt Γ s)) (hw : Wf up Γ) (ho : StmtOk Γ A s) : Seat fin L Γ :=
  ⟨h.below.stmt hw ho, (afterStmt_prefix s Γ).trans h.locals⟩

theorem Seat.stmts {Γ : Env} {A : Around} {ss : Stmts} (h : Seat fin L (afterStmts Γ ss)) (hw : Wf up Γ) (ho : StmtsOk Γ A ss) : Seat fin L Γ :=
  ⟨h.below.stmts hw ho, (afterStmts_prefix ss Γ).trans h.locals⟩

theorem Seat.branches {Γ : Env} {A : Around} {bs : Branches} (h : Seat fin L (afterBranches Γ bs)) (hw : Wf up Γ) (ho : BranchesOk Γ A bs) : Seat fin L Γ :=
  ⟨h.below.branches hw ho, (afterBranches_prefix bs Γ).trans h.locals⟩

theorem Seat.cases {Γ : Env} {A : Around} {cs : Cases} (h : Seat fin L (afterCases Γ cs)) (hw : Wf up Γ) (ho : CasesOk Γ A cs) : Seat fin L Γ :=
  ⟨h.below.cases hw ho, (afterCases_prefix cs Γ).trans h.locals⟩

theorem Seat.assign {Γ : Env} {v : VarRef} {e : Expr} (h : Seat fin L (afterAssign Γ v e)) : Seat fin L Γ :=
  ⟨h.below.assign, (afterAssign_prefix Γ v e).trans h.locals⟩

theorem Seat.forVar {Γ : Env} {v : VarRef} {d : Bool} (h : Seat fin L (forVar Γ v d)) : Seat fin L Γ :=
  ⟨h.below.forVar, (forVar_prefix Γ v d).trans h.locals⟩

theorem assign_inv (hcl : CallsRight fin L cl) {Γ : Env} {v : VarRef} {e : Expr} (hs : Seat fin L (afterAssign Γ v e)) {w : World} (hr : Right fin.shared L w) :
    RRight fin.shared L (assign F cl Γ v e w) := by
  have hs0 := hs.assign
  unfold assign
  cases hn : nameRef Γ.locals Γ.shared v with
  | var p pr =>
    have hp := hs0.proto (nameRef_var hn)
    cases pr with
    | array => trivial
    | scalar t =>
      have key : ∀ (x : Val) (w : World), x.ty = t → Right fin.shared L w → RRight fin.shared L (.done (w.set p (some (.scalar x)))) := by
        intro x w hx hr
        refine hr.set fun c' q hc hq => ?_
        cases hc
        rw [hp] at hq
        cases hq
        exact hx
      simp only
      split
      · exact (evalAs_inv hcl hs0.users e t hr).then key
      · split
        · exact (evalAs_inv hcl hs0.users e t hr.unset).then key
        · trivial
  | wrongType => trivial
  | undefined =>
    simp only
    have hp : Env.proto ⟨L, fin.shared, fun _ => none, fun _ _ => [], fun _ _ => none, fun _ => none⟩ (.local Γ.locals.length) = some (.scalar (newType Γ v e)) := by
      refine hs.proto ?_
      simp [afterAssign, hn, Env.proto, Env.addLocal]
    split
    · refine (evalAs_inv hcl (Γ := Γ.addLocal (symKey v.name) (.scalar (v.ty.getD .integer))) hs0.users e _ hr.unset).then fun x w hx hr => ?_
      refine hr.set fun c' q hc hq => ?_
      cases hc
      rw [hp] at hq
      cases hq
      exact hx
    · trivial

theorem test_inv {x : Out Val} {P : Val → Prop} {f : Bool → World → Res} (hx : ORight fin.shared L P x)
    (hf : ∀ b w, Right fin.shared L w → RRight fin.shared L (f b w)) : RRight fin.shared L (test x f) := by
  refine hx.then fun v w _ hr => ?_
  cases v <;> first | trivial | exact hf _ _ hr

theorem before_inv {stop : Bool} {g : World → Out Val} {b : World → Res} {P : Val → Prop} (hg : ∀ w, Right fin.shared L w → ORight fin.shared L P (g w))
    (hb : ∀ w, Right fin.shared L w → RRight fin.shared L (b w)) : ∀ n w, Right fin.shared L w → RRight fin.shared L (before stop g b n w) := by
  intro n
  induction n with
  | zero => intro w _; trivial
  | succ n ih =>
    intro w hr
    refine test_inv (hg w hr) fun c w' hr => ?_
    split
    · exact hr
    · exact (hb w' hr).bind ih

theorem behind_inv {stop : Bool} {g : World → Out Val} {b : World → Res} {P : Val → Prop} (hg : ∀ w, Right fin.shared L w → ORight fin.shared L P (g w))
    (hb : ∀ w, Right fin.shared L w → RRight fin.shared L (b w)) : ∀ n w, Right fin.shared L w → RRight fin.shared L (behind stop g b n w) := by
  intro n
  induction n with
  | zero => intro w _; trivial
  | succ n ih =>
    intro w hr
    refine (hb w hr).bind fun w' hr => test_inv (hg w' hr) fun c w'' hr => ?_
    split
    · exact hr
    · exact ih w'' hr

theorem forever_inv {b : World → Res} (hb : ∀ w, Right fin.shared L w → RRight fin.shared L (b w)) :
    ∀ n w, Right fin.shared L w → RRight fin.shared L (forever b n w) := by
  intro n
  induction n with
  | zero => intro w _; trivial
  | succ n ih => intro w hr; exact (hb w hr).bind ih

theorem catchDo_inv {r : Res} (h : RRight fin.shared L r) : RRight fin.shared L (catchDo r) := by cases r <;> exact h
theorem catchFor_inv {r : Res} (h : RRight fin.shared L r) : RRight fin.shared L (catchFor r) := by cases r <;> exact h

theorem guardHolds_inv (hcl : CallsRight fin L cl) {Γ : Env} (hu : Users fin Γ) (x : Val) (g : CaseGuard) {w : World} (hr : Right fin.shared L w) :
    ORight fin.shared L (fun _ => True) (guardHolds F cl Γ x g w) := by
  cases g with
  | is op e => exact (eval_inv hcl hu e w hr).bind fun y w' _ hr => .of hr (binVal_keeps _ F _ _ _ _ _)
  | «to» lo hi =>
    refine (eval_inv hcl hu lo w hr).bind fun y w1 _ hr => (ORight.of hr (binVal_keeps _ F _ _ _ _ _)).bind fun a w2 _ hr =>
      (eval_inv hcl hu hi w2 hr).bind fun z w3 _ hr => (ORight.of hr (binVal_keeps _ F _ _ _ _ _)).bind fun b w4 _ hr => ?_
    split
    · exact ⟨trivial, hr⟩
    · trivial

theorem anyHolds_inv (hcl : CallsRight fin L cl) {Γ : Env} (hu : Users fin Γ) (x : Val) : ∀ (gs : List CaseGuard) (w : World), Right fin.shared L w →
    ORight fin.shared L (fun _ => True) (anyHolds F cl Γ x gs w) := by
  intro gs
  induction gs with
  | nil => intro w hr; exact ⟨trivial, hr⟩
  | cons g gs ih =>
    intro w hr
    refine (guardHolds_inv hcl hu x g hr).bind fun b w' _ hr => ?_
    split
    · exact ⟨trivial, hr⟩
    · exact ih w' hr
    · trivial

theorem choose_inv (hcl : CallsRight fin L cl) {Γ : Env} (hu : Users fin Γ) (x : Val) : ∀ (cs : Cases) (w : World), Right fin.shared L w →
    ORight fin.shared L (fun _ => True) (choose F cl Γ x cs w)
  | .nil, w, hr => by simp only [choose]; exact ⟨trivial, hr⟩
  | .cons [] _ _, w, hr => by simp only [choose]; exact ⟨trivial, hr⟩
  | .cons (g :: gs) _ rest, w, hr => by
    simp only [choose]
    refine (anyHolds_inv hcl hu x (g :: gs) w hr).bind fun b w' _ hr => ?_
    split
    · exact ⟨trivial, hr⟩
    · exact (choose_inv hcl hu x rest w' hr).bind fun _ _ _ hr => ⟨trivial, hr⟩

theorem recover_inv {s : Stmt} {rest : Stmts} {f : World → Res} {r : Res} (h : RRight fin.shared L r)
    (hf : ∀ w, Right fin.shared L w → RRight fin.shared L (f w)) : RRight fin.shared L (recover s rest f r) := by
  cases r with
  | done w' => exact hf w' h
  | err pos e w' =>
    simp only [recover]
    split
    · exact h
    · split
      · exact hf _ h
      · trivial
    · split
      · exact h
      · exact h
  | _ => exact h

theorem initOuts_inv : ∀ (vs : List VarRef) (Γ : Env), Seat fin L (vs.foldl defineOut Γ) → ∀ w, Right fin.shared L w → Right fin.shared L (initOuts Γ vs w)
  | [], _, _, w, hr => hr
  | v :: vs, Γ, hs, w, hr => by
    rw [initOuts]
    have hs : Seat fin L (vs.foldl defineOut (defineOut Γ v)) := hs
    refine initOuts_inv vs _ hs _ ?_
    split
    next hc =>
      have hs1 : (defineOut Γ v).locals <+: L := (foldl_defineOut_prefix vs _).trans hs.locals
      simp only [defineOut, if_pos hc] at hs1
      refine hr.set fun c' q he hq => ?_
      cases he
      obtain ⟨rest, hrest⟩ := hs1
      simp only [Env.proto, ← hrest, Env.addLocal, List.append_assoc, List.singleton_append] at hq
      simp only [List.getElem?_append_right (Nat.le_refl _), Nat.sub_self, List.getElem?_cons_zero, Option.map_some, Option.some.injEq] at hq
      subst hq
      exact defaultVal_ty _
    · exact hr

theorem new_inv {Γ : Env} {shared : Bool} {k : Str} {pr : Proto} (hs : Seat fin L (Γ.add shared k pr)) {w : World} (hr : Right fin.shared L w) {c : Cell}
    (hc : c.Of pr) : Right fin.shared L (w.set (Γ.next shared) (some c)) := by
  refine hr.set fun c' q he hq => ?_
  cases he
  have : Env.proto (Γ.add shared k pr) (Γ.next shared) = some pr := by
    cases shared <;> simp [Env.proto, Env.add, Env.next, Env.addLocal]
  rw [hs.proto this] at hq
  cases hq
  exact hc

mutual
/-- A statement leaves the variables right. -/
theorem execStmt_inv (hcl : CallsRight fin L cl) {A : Around} {Γ : Env} (s : Stmt) (hw : Wf up Γ) (hs : Seat fin L (afterStmt Γ s)) (ho : StmtOk Γ A s)
    {w : World} (hr : Right fin.shared L w) : RRight fin.shared L (execStmt F n cl Γ s w) := by
  have hs0 := hs.stmt hw ho
  have hu := hs0.users
  match s with
  | .assign v pos e =>
    simp only [execStmt]
    exact assign_inv hcl hs hr
  | .arrayAssign v pos subs e =>
    simp only [execStmt]
    cases hn : nameRef Γ.locals Γ.shared v with
    | var p pr =>
      have hp := hs0.proto (nameRef_var hn)
      cases pr with
      | scalar t => trivial
      | array t d =>
        refine (evalAs_inv hcl hu _ _ hr).then fun x w' hx hr => (evalSubs_inv hcl hu _ _ hr).then fun is w'' _ hr => ?_
        unfold store
        split
        next ty dims elem hm =>
          split
          · exact hr
          · refine hr.set fun c' q he hq => ?_
            cases he
            have hold := hr p q _ hq hm
            rw [hp] at hq
            cases hq
            refine ⟨hold.1, hold.2.1, fun s => ?_⟩
            show (if s = is then x else elem s).ty = t
            split
            · exact hx
            · exact hold.2.2 s
        · trivial
    | wrongType => trivial
    | undefined => trivial
  | .call v pos args =>
    simp only [execStmt]
    split
    next h =>
      exact (evalArgs_inv hcl hu _ _ _ hr).then fun vs w' hvs hr => (hcl.sub _ _ _ _ _ _ (hu _ _ _ h) hvs _ hr).then fun _ _ _ hr => hr
    · split
      · simp only [afterStmt] at hs
        have hr1 := initOuts_inv _ _ hs w hr
        have hi := evalBuiltin_inv (F := F) (L' := L) hcl hs.users args
        refine ORight.then (P := fun as => Targets (List.foldl defineOut Γ (Γ.outs (symKey v.name) args)) as) ?_
          fun as w' has hr => (command_right hs hr has).then fun _ _ _ hr => hr
        next syn _ =>
        have h1 := hi syn.repeated true syn.singular pos _ hr1
        cases he : evalBuiltin F cl (List.foldl defineOut Γ (Γ.outs (symKey v.name) args)) syn.repeated true syn.singular args pos
            (initOuts Γ (Γ.outs (symKey v.name) args) w) with
        | ok as w' => rw [he] at h1; exact ⟨evalBuiltin_targets _ _ _ _ _ _ _ _ he, h1.2⟩
        | err | ended | going | stuck => rw [he] at h1; exact h1
      · trivial
    · trivial
  | .dim name pos shared ty =>
    simp only [execStmt]
    simp only [afterStmt] at hs
    exact new_inv hs hr (defaultVal_ty ty)
  | .dimArray name pos shared dims ty =>
    simp only [execStmt]
    simp only [afterStmt] at hs
    refine (evalSubs_inv hcl hs.users _ _ hr).then fun is w' hl hr => ?_
    unfold allocate
    split
    · exact hr
    · split
      · trivial
      · split
        · exact hr
        · refine new_inv hs (w := { w' with room := w'.room - 1 }) hr ⟨rfl, ?_, fun _ => defaultVal_ty ty⟩
          rw [List.length_map, hl, length_ofList]
  | .end none _ => simp only [execStmt]; exact hr
  | .end (some e) pos =>
    simp only [execStmt]
    refine (evalAs_inv hcl hu _ _ hr).then fun x w' _ hr => ?_
    unfold finish
    split
    · split <;> exact hr
    · trivial
  | .exitDo _ | .exitFor _ | .exitFunction _ | .exitSub _ => simp only [execStmt]; exact hr
  | .ifs branches =>
    simp only [execStmt]
    simp only [afterStmt] at hs
    simp only [StmtOk] at ho
    exact execBranches_inv hcl branches hw hs ho hr
  | .select e cases pos =>
    simp only [execStmt]
    simp only [afterStmt] at hs
    simp only [StmtOk] at ho
    refine (eval_inv hcl hu _ _ hr).then fun x w' _ hr => (choose_inv hcl hu x cases w' hr).then fun j w'' _ hr => ?_
    split
    · exact execCases_inv hcl cases hw hs ho.2 _ hr
    · exact hr
  | .whileLoop e body =>
    simp only [execStmt]
    simp only [afterStmt] at hs
    simp only [StmtOk] at ho
    exact before_inv (fun w hr => evalAs_inv hcl hu _ _ (hr.forget _)) (fun w hr => execStmts_inv hcl body hw hs ho.2 hr) n w hr
  | .doLoop guard body =>
    simp only [afterStmt] at hs
    simp only [StmtOk] at ho
    have hbody : ∀ w, Right fin.shared L w → RRight fin.shared L (execStmts F n cl Γ body w) := fun w hr => execStmts_inv hcl body hw hs ho.2 hr
    cases guard with
    | infinite => simp only [execStmt]; exact catchDo_inv (forever_inv (fun w hr => hbody _ (hr.forget _)) n w hr)
    | preWhile e | preUntil e =>
      simp only [execStmt]
      exact catchDo_inv (before_inv (fun w hr => evalAs_inv hcl hu _ _ (hr.forget _)) hbody n w hr)
    | postWhile e | postUntil e =>
      simp only [execStmt]
      exact catchDo_inv (behind_inv (fun w hr => evalAs_inv hcl hs.users _ _ hr) (fun w hr => hbody _ (hr.forget _)) n w hr)
  | .forLoop iter pos double start stop next body =>
    simp only [execStmt]
    simp only [afterStmt] at hs
    simp only [StmtOk] at ho
    have hw2 := (hw.forVar iter double).assign iter start
    have hs3 := hs.assign
    have hs2 := hs3.stmts hw2 ho.2.2.2.1
    refine (assign_inv hcl hs2 hr).bind fun w hr => catchFor_inv (before_inv (fun w hr => evalAs_inv hcl hs2.users _ _ (hr.forget _)) (fun w hr => ?_) n w hr)
    exact (execStmts_inv hcl body hw2 hs3 ho.2.2.2.1 hr).bind fun w hr => assign_inv hcl hs hr
  | .data _ | .declare .. | .callable .. | .label .. | .onError _ => simp only [execStmt]; exact hr
  | .gosub label pos =>
    simp only [execStmt]
    refine ORight.then (P := fun _ => True) ?_ fun _ _ _ hr => hr
    have h := hcl.gosub (symKey label) pos w hr
    revert h
    cases cl.gosub (symKey label) pos w with
    | ok a w' => exact fun h => ⟨trivial, h.2.forget Γ⟩
    | err pos e w' => exact fun h => Right.forget h Γ
    | ended code w' => exact fun h => Right.forget h Γ
    | going | stuck => exact fun _ => trivial
  | .goto .. => simp only [execStmt]; exact hr
  | .ret .. => simp only [execStmt]; split <;> exact hr
termination_by structural s

theorem execStmts_inv (hcl : CallsRight fin L cl) {A : Around} {Γ : Env} (ss : Stmts) (hw : Wf up Γ) (hs : Seat fin L (afterStmts Γ ss)) (ho : StmtsOk Γ A ss)
    {w : World} (hr : Right fin.shared L w) : RRight fin.shared L (execStmts F n cl Γ ss w) := by
  match ss with
  | .nil => simp only [execStmts]; exact hr
  | .cons s rest =>
    simp only [execStmts]
    simp only [afterStmts] at hs
    simp only [StmtsOk] at ho
    have hw1 := wf_stmt hw s
    exact recover_inv (execStmt_inv hcl s hw (hs.stmts hw1 ho.2) ho.1 hr) fun w hr => execStmts_inv hcl rest hw1 hs ho.2 hr
termination_by structural ss

theorem execBranches_inv (hcl : CallsRight fin L cl) {A : Around} {Γ : Env} (bs : Branches) (hw : Wf up Γ) (hs : Seat fin L (afterBranches Γ bs)) (ho : BranchesOk Γ A bs)
    {w : World} (hr : Right fin.shared L w) : RRight fin.shared L (execBranches F n cl Γ bs w) := by
  have hs0 := hs.branches hw ho
  match bs with
  | .nil => simp only [execBranches]; exact hr
  | .cons guard body rest =>
    simp only [execBranches]
    simp only [afterBranches] at hs
    simp only [BranchesOk] at ho
    have hw1 := wf_stmts hw body
    refine test_inv (evalAs_inv hcl hs0.users _ _ hr) fun b w hr => ?_
    split
    · exact execStmts_inv hcl body hw (hs.branches hw1 ho.2.2) ho.2.1 hr
    · exact execBranches_inv hcl rest hw1 hs ho.2.2 hr
termination_by structural bs

theorem execCases_inv (hcl : CallsRight fin L cl) {A : Around} {Γ : Env} (cs : Cases) (hw : Wf up Γ) (hs : Seat fin L (afterCases Γ cs)) (ho : CasesOk Γ A cs)
    (j : Nat) {w : World} (hr : Right fin.shared L w) : RRight fin.shared L (execCases F n cl Γ cs j w) := by
  match cs with
  | .nil => simp only [execCases]; trivial
  | .cons guards body rest =>
    simp only [afterCases] at hs
    simp only [CasesOk] at ho
    have hw1 := wf_stmts hw body
    cases j with
    | zero => simp only [execCases]; exact execStmts_inv hcl body hw (hs.cases hw1 ho.2) ho.1 hr
    | succ j => simp only [execCases]; exact execCases_inv hcl rest hw1 hs ho.2 j hr
termination_by structural cs
end

mutual
/-- … from a label on. -/
theorem fromStmt_inv (hcl : CallsRight fin L cl) {A : Around} {Γ : Env} {l : Str} (s : Stmt) (hw : Wf up Γ) (hs : Seat fin L (afterStmt Γ s)) (ho : StmtOk Γ A s)
    {w : World} (hr : Right fin.shared L w) : RRight fin.shared L (fromStmt F n cl Γ l s w) := by
  have hs0 := hs.stmt hw ho
  have hu := hs0.users
  match s with
  | .label .. => simp only [fromStmt]; exact hr.forget _
  | .ifs branches =>
    simp only [fromStmt]
    simp only [afterStmt] at hs
    simp only [StmtOk] at ho
    exact fromBranches_inv hcl branches hw hs ho hr
  | .select e cases pos =>
    simp only [fromStmt]
    simp only [afterStmt] at hs
    simp only [StmtOk] at ho
    exact fromCases_inv hcl cases hw hs ho.2 hr
  | .whileLoop e body =>
    simp only [fromStmt]
    simp only [afterStmt] at hs
    simp only [StmtOk] at ho
    exact (fromStmts_inv hcl body hw hs ho.2 hr).bind
      (before_inv (fun w hr => evalAs_inv hcl hu _ _ (hr.forget _)) (fun w hr => execStmts_inv hcl body hw hs ho.2 hr) n)
  | .doLoop guard body =>
    simp only [afterStmt] at hs
    simp only [StmtOk] at ho
    have hbody : ∀ w, Right fin.shared L w → RRight fin.shared L (execStmts F n cl Γ body w) := fun w hr => execStmts_inv hcl body hw hs ho.2 hr
    have hfrom := fromStmts_inv hcl (l := l) body hw hs ho.2 hr
    cases guard with
    | infinite => simp only [fromStmt]; exact catchDo_inv (hfrom.bind (forever_inv (fun w hr => hbody _ (hr.forget _)) n))
    | preWhile e | preUntil e =>
      simp only [fromStmt]
      exact catchDo_inv (hfrom.bind (before_inv (fun w hr => evalAs_inv hcl hu _ _ (hr.forget _)) hbody n))
    | postWhile e | postUntil e =>
      simp only [fromStmt]
      refine catchDo_inv (hfrom.bind fun w hr => test_inv (evalAs_inv hcl hs.users _ _ hr) fun b w hr => ?_)
      split
      · exact hr
      · exact behind_inv (fun w hr => evalAs_inv hcl hs.users _ _ hr) (fun w hr => hbody _ (hr.forget _)) n w hr
  | .forLoop iter pos double start stop next body =>
    simp only [fromStmt]
    simp only [afterStmt] at hs
    simp only [StmtOk] at ho
    have hw2 := (hw.forVar iter double).assign iter start
    have hs3 := hs.assign
    have hs2 := hs3.stmts hw2 ho.2.2.2.1
    refine catchFor_inv (((fromStmts_inv hcl body hw2 hs3 ho.2.2.2.1 hr).bind fun w hr => assign_inv hcl hs hr).bind
      (before_inv (fun w hr => evalAs_inv hcl hs2.users _ _ (hr.forget _)) (fun w hr => ?_) n))
    exact (execStmts_inv hcl body hw2 hs3 ho.2.2.2.1 hr).bind fun w hr => assign_inv hcl hs hr
  | .assign .. | .call .. | .declare .. | .dim .. | .dimArray .. | .arrayAssign .. | .data .. | .end .. | .exitDo .. | .exitFor ..
  | .exitFunction .. | .exitSub .. | .gosub .. | .goto .. | .onError .. | .ret .. | .callable .. => simp only [fromStmt]; trivial
termination_by structural s

theorem fromStmts_inv (hcl : CallsRight fin L cl) {A : Around} {Γ : Env} {l : Str} (ss : Stmts) (hw : Wf up Γ) (hs : Seat fin L (afterStmts Γ ss)) (ho : StmtsOk Γ A ss)
    {w : World} (hr : Right fin.shared L w) : RRight fin.shared L (fromStmts F n cl Γ l ss w) := by
  match ss with
  | .nil => simp only [fromStmts]; trivial
  | .cons s rest =>
    simp only [fromStmts]
    simp only [afterStmts] at hs
    simp only [StmtsOk] at ho
    have hw1 := wf_stmt hw s
    split
    · exact recover_inv (fromStmt_inv hcl s hw (hs.stmts hw1 ho.2) ho.1 hr) fun w hr => execStmts_inv hcl rest hw1 hs ho.2 hr
    · exact fromStmts_inv hcl rest hw1 hs ho.2 hr
termination_by structural ss

theorem fromBranches_inv (hcl : CallsRight fin L cl) {A : Around} {Γ : Env} {l : Str} (bs : Branches) (hw : Wf up Γ) (hs : Seat fin L (afterBranches Γ bs))
    (ho : BranchesOk Γ A bs) {w : World} (hr : Right fin.shared L w) : RRight fin.shared L (fromBranches F n cl Γ l bs w) := by
  match bs with
  | .nil => simp only [fromBranches]; trivial
  | .cons guard body rest =>
    simp only [fromBranches]
    simp only [afterBranches] at hs
    simp only [BranchesOk] at ho
    have hw1 := wf_stmts hw body
    split
    · exact fromStmts_inv hcl body hw (hs.branches hw1 ho.2.2) ho.2.1 hr
    · exact fromBranches_inv hcl rest hw1 hs ho.2.2 hr
termination_by structural bs

theorem fromCases_inv (hcl : CallsRight fin L cl) {A : Around} {Γ : Env} {l : Str} (cs : Cases) (hw : Wf up Γ) (hs : Seat fin L (afterCases Γ cs))
    (ho : CasesOk Γ A cs) {w : World} (hr : Right fin.shared L w) : RRight fin.shared L (fromCases F n cl Γ l cs w) := by
  match cs with
  | .nil => simp only [fromCases]; trivial
  | .cons guards body rest =>
    simp only [fromCases]
    simp only [afterCases] at hs
    simp only [CasesOk] at ho
    have hw1 := wf_stmts hw body
    split
    · exact fromStmts_inv hcl body hw (hs.cases hw1 ho.2) ho.1 hr
    · exact fromCases_inv hcl rest hw1 hs ho.2 hr
termination_by structural cs
end

theorem follow_inv (hcl : CallsRight fin L cl) {A : Around} {Γ : Env} {ss : Stmts} (hw : Wf up Γ) (hs : Seat fin L (afterStmts Γ ss)) (ho : StmtsOk Γ A ss) :
    ∀ (m : Nat) (r : Res), RRight fin.shared L r → RRight fin.shared L (follow F n cl Γ ss m r)
  | 0, r, h => by cases r <;> first | exact h | trivial
  | m + 1, r, h => by
    cases r with
    | jump k w => exact follow_inv hcl hw hs ho m _ (fromStmts_inv hcl ss hw hs ho h)
    | _ => exact h

theorem unit_inv (hcl : CallsRight fin L cl) {A : Around} {Γ : Env} {ss : Stmts} (hw : Wf up Γ) (hs : Seat fin L (afterStmts Γ ss)) (ho : StmtsOk Γ A ss)
    (start : Option Str) {w : World} (hr : Right fin.shared L w) : RRight fin.shared L (unit F n cl Γ ss start w) := by
  unfold unit
  refine follow_inv hcl hw hs ho n _ ?_
  split
  · exact execStmts_inv hcl ss hw hs ho hr
  · exact fromStmts_inv hcl ss hw hs ho hr

/-! ## Callables -/

/-- A definition of the program. -/
structure DefRight (up : FMap Str Md) (fin : Env) (k : Str) (f : Def) (name : VarRef) (params : List VarRef) (A : Around) : Prop where
  ret : f.ret = name.ty
  locals : f.env.locals = (match name.ty with
        | some t => [(symKey name.name, .scalar t)]
        | none => []) ++ params.map fun p => (symKey p.name, .scalar (p.ty.getD .integer))
  wf : Wf up f.env
  below : Settle.Below fin (afterStmts f.env f.body)
  ok : StmtsOk f.env A f.body
  sig : fin.callable k = some (.user (params.map fun p => p.ty.getD .integer) name.ty)

mutual
theorem defsStmt_right {A : Around} {Γ : Env} (s : Stmt) (hwf : Wf up Γ) (hb : Settle.Below fin (afterStmt Γ s)) (ho : StmtOk Γ A s) :
    ∀ k f, (k, f) ∈ defsStmt Γ s → ∃ name params A, DefRight up fin k f name params A := by
  intro k f hm
  match s with
  | .callable name pos params body epos =>
    simp only [defsStmt, List.mem_singleton, Prod.mk.injEq] at hm
    obtain ⟨rfl, rfl⟩ := hm
    simp only [StmtOk] at ho
    simp only [afterStmt] at hb
    have hw : Wf up ((Γ.declare name params).body name params) := (hwf.declare name params).body name params
    have hb' : Settle.Below fin (afterStmts ((Γ.declare name params).body name params) body) := ⟨hb.shared, hb.user⟩
    have hb0 := hb'.stmts hw ho.2.2.2
    refine ⟨name, params, _, rfl, rfl, hw, hb', ho.2.2.2, hb0.user _ _ _ ?_⟩
    simp [Env.body, Env.declare]
  | .doLoop guard body =>
    simp only [defsStmt] at hm
    simp only [afterStmt] at hb
    simp only [StmtOk] at ho
    exact defsStmts_right body hwf hb ho.2 k f hm
  | .forLoop iter pos double start stop next body =>
    simp only [defsStmt] at hm
    simp only [afterStmt] at hb
    simp only [StmtOk] at ho
    exact defsStmts_right body ((hwf.forVar iter double).assign iter start) hb.assign ho.2.2.2.1 k f hm
  | .ifs branches =>
    simp only [defsStmt] at hm
    simp only [afterStmt] at hb
    simp only [StmtOk] at ho
    exact defsBranches_right branches hwf hb ho k f hm
  | .select e cases pos =>
    simp only [defsStmt] at hm
    simp only [afterStmt] at hb
    simp only [StmtOk] at ho
    exact defsCases_right cases hwf hb ho.2 k f hm
  | .whileLoop e body =>
    simp only [defsStmt] at hm
    simp only [afterStmt] at hb
    simp only [StmtOk] at ho
    exact defsStmts_right body hwf hb ho.2 k f hm
  | .assign .. | .call .. | .declare .. | .dim .. | .dimArray .. | .arrayAssign .. | .data .. | .end .. | .exitDo ..
  | .exitFor .. | .exitFunction .. | .exitSub .. | .gosub .. | .goto .. | .label .. | .onError .. | .ret .. =>
    simp [defsStmt] at hm
termination_by structural s

theorem defsStmts_right {A : Around} {Γ : Env} (ss : Stmts) (hwf : Wf up Γ) (hb : Settle.Below fin (afterStmts Γ ss)) (ho : StmtsOk Γ A ss) :
    ∀ k f, (k, f) ∈ defsStmts Γ ss → ∃ name params A, DefRight up fin k f name params A := by
  intro k f hm
  match ss with
  | .nil => simp [defsStmts] at hm
  | .cons s rest =>
    simp only [defsStmts, List.mem_append] at hm
    simp only [afterStmts] at hb
    simp only [StmtsOk] at ho
    have hw1 := wf_stmt hwf s
    rcases hm with hm | hm
    · exact defsStmt_right s hwf (hb.stmts hw1 ho.2) ho.1 k f hm
    · exact defsStmts_right rest hw1 hb ho.2 k f hm
termination_by structural ss

theorem defsBranches_right {A : Around} {Γ : Env} (bs : Branches) (hwf : Wf up Γ) (hb : Settle.Below fin (afterBranches Γ bs)) (ho : BranchesOk Γ A bs) :
    ∀ k f, (k, f) ∈ defsBranches Γ bs → ∃ name params A, DefRight up fin k f name params A := by
  intro k f hm
  match bs with
  | .nil => simp [defsBranches] at hm
  | .cons guard body rest =>
    simp only [defsBranches, List.mem_append] at hm
    simp only [afterBranches] at hb
    simp only [BranchesOk] at ho
    have hw1 := wf_stmts hwf body
    rcases hm with hm | hm
    · exact defsStmts_right body hwf (hb.branches hw1 ho.2.2) ho.2.1 k f hm
    · exact defsBranches_right rest hw1 hb ho.2.2 k f hm
termination_by structural bs

theorem defsCases_right {A : Around} {Γ : Env} (cs : Cases) (hwf : Wf up Γ) (hb : Settle.Below fin (afterCases Γ cs)) (ho : CasesOk Γ A cs) :
    ∀ k f, (k, f) ∈ defsCases Γ cs → ∃ name params A, DefRight up fin k f name params A := by
  intro k f hm
  match cs with
  | .nil => simp [defsCases] at hm
  | .cons gs body rest =>
    simp only [defsCases, List.mem_append] at hm
    simp only [afterCases] at hb
    simp only [CasesOk] at ho
    have hw1 := wf_stmts hwf body
    rcases hm with hm | hm
    · exact defsStmts_right body hwf (hb.cases hw1 ho.2) ho.1 k f hm
    · exact defsCases_right rest hw1 hb ho.2 k f hm
termination_by structural cs
end

theorem enter_inv {f : Def} {k : Str} {name : VarRef} {params : List VarRef} {A : Around} (hf : DefRight up fin k f name params A)
    {vs : List Val} {w : World} (hvs : vs.map Val.ty = params.map fun p => p.ty.getD .integer) {L' : Decls} (hr : Right fin.shared L' w) :
    Right fin.shared (afterStmts f.env f.body).locals (enter f.ret vs w) := by
  intro p q c hp hc
  cases p with
  | shared j => exact hr (.shared j) q c hp hc
  | «local» j =>
    have hl : vs.length = params.length := by simpa using congrArg List.length hvs
    have hent : ∃ x, ((match name.ty with | some t => [defaultResult t] | none => []) ++ vs.map some)[j]? = some (some x) ∧ c = .scalar x := by
      simp only [enter, hf.ret, Option.map_eq_some_iff, Option.join_eq_some_iff] at hc
      obtain ⟨x, h1, h2⟩ := hc
      exact ⟨x, h1, h2.symm⟩
    obtain ⟨x, hx, rfl⟩ := hent
    have hty : f.env.locals[j]?.map (·.2) = some (.scalar x.ty) := by
      rw [hf.locals]
      have harg : ∀ i : Nat, (vs.map some)[i]? = some (some x) →
          ((params.map fun p => (symKey p.name, Proto.scalar (p.ty.getD .integer)))[i]?).map Prod.snd = some (Proto.scalar x.ty) := by
        intro i hi
        simp only [List.getElem?_map, Option.map_eq_some_iff, Option.some.injEq] at hi
        obtain ⟨y, hi, rfl⟩ := hi
        have := congrArg (fun l => l[i]?) hvs
        simp only [List.getElem?_map, hi, Option.map_some] at this
        simp only [List.getElem?_map, Option.map_map]
        cases hq : params[i]? with
        | none => rw [hq] at this; cases this
        | some q =>
          rw [hq] at this
          simp only [Option.map_some, Option.some.injEq] at this
          simp [this]
      cases hty : name.ty with
      | none => rw [hty] at hx; exact harg j hx
      | some t =>
        rw [hty] at hx
        cases j with
        | zero =>
          simp only [List.cons_append, List.getElem?_cons_zero, Option.some.injEq] at hx
          have : x.ty = t := by cases t <;> simp [defaultResult] at hx <;> subst hx <;> rfl
          simp [this]
        | succ i => exact harg i hx
    have hq : Env.proto f.env (.local j) = some (.scalar x.ty) := hty
    have : q = .scalar x.ty := by
      simp only [Env.proto] at hp
      obtain ⟨rest, hrest⟩ := afterStmts_prefix f.body f.env
      simp only [Option.map_eq_some_iff] at hty
      obtain ⟨d, h1, h2⟩ := hty
      rw [← hrest, List.getElem?_append_left (List.getElem?_eq_some_iff.1 h1).1, h1] at hp
      simp only [Option.map_some, Option.some.injEq] at hp
      rw [← hp, h2]
    subst this
    rfl

theorem goBack_inv {L' L1 : Decls} {w w1 : World} (hr : Right fin.shared L' w) (h1 : Right fin.shared L1 w1) : Right fin.shared L' (goBack w w1) := by
  intro p q c hp hc
  cases p with
  | «local» j => exact hr (.local j) q c hp hc
  | shared j => exact h1 (.shared j) q c hp hc

theorem limit_inv {L' : Decls} {w w1 : World} (h : Right fin.shared L' w1) : Right fin.shared L' (limit w w1) := by
  refine h.fewer fun p c hc => ?_
  simp only [limit] at hc
  split at hc
  · exact hc
  · cases hc

theorem fnResult_inv {f : Def} {k : Str} {name : VarRef} {params : List VarRef} {A : Around} (hf : DefRight up fin k f name params A)
    {w : World} {L' : Decls} (hr : Right fin.shared L' w) {r : Res} (h : RRight fin.shared (afterStmts f.env f.body).locals r) :
    ORight fin.shared L' (fun v => ∀ t, name.ty = some t → v.ty = t) (fnResult w r) := by
  have key : ∀ w1, Right fin.shared (afterStmts f.env f.body).locals w1 →
      ORight fin.shared L' (fun v => ∀ t, name.ty = some t → v.ty = t)
        (match w1.mem (.local 0) with
        | some (.scalar x) => .ok x (limit w (goBack w w1))
        | _ => .stuck) := by
    intro w1 h1
    cases hm : w1.mem (.local 0) with
    | none => trivial
    | some c =>
      cases c with
      | arr => trivial
      | scalar x =>
        refine ⟨fun t ht => ?_, limit_inv (goBack_inv hr h1)⟩
        have hl : Env.proto f.env (.local 0) = some (.scalar t) := by simp [Env.proto, hf.locals, ht]
        refine h1 (.local 0) (.scalar t) _ ?_ hm
        simp only [Env.proto, Option.map_eq_some_iff] at hl ⊢
        obtain ⟨d, g1, g2⟩ := hl
        obtain ⟨rest, hrest⟩ := afterStmts_prefix f.body f.env
        exact ⟨d, by rw [← hrest, List.getElem?_append_left (List.getElem?_eq_some_iff.1 g1).1]; exact g1, g2⟩
  cases r with
  | done w1 | leave w1 | back w1 => exact key w1 h
  | err pos e w1 => exact limit_inv (goBack_inv hr h)
  | ended code w1 => exact limit_inv (goBack_inv hr h)
  | going | exitDo | exitFor | jump | stuck => trivial

theorem subResult_inv {w : World} {L' L1 : Decls} (hr : Right fin.shared L' w) {r : Res} (h : RRight fin.shared L1 r) :
    ORight fin.shared L' (fun _ => True) (subResult w r) := by
  cases r with
  | done w1 | leave w1 | back w1 => exact ⟨trivial, goBack_inv hr h⟩
  | err pos e w1 => exact goBack_inv hr h
  | ended code w1 => exact goBack_inv hr h
  | going | exitDo | exitFor | jump | stuck => trivial

theorem gosubResult_inv {r : Res} (h : RRight fin.shared L r) : ORight fin.shared L (fun _ => True) (gosubResult r) := by
  cases r with
  | back w1 => exact ⟨trivial, h⟩
  | err | ended => exact h
  | done | leave | going | exitDo | exitFor | jump | stuck => trivial

theorem calls_inv {lib : Lib} {defs : Str → Option Def} (hdef : ∀ k f, defs k = some f → ∃ name params A, DefRight up fin k f name params A) :
    ∀ (d : Nat) (b : Bool) {A : Around} {Γ : Env} {ss : Stmts}, Wf up Γ → Settle.Below fin (afterStmts Γ ss) → StmtsOk Γ A ss →
      CallsRight fin (afterStmts Γ ss).locals (callsAt F n lib defs d b Γ ss)
  | 0, _, _, _, _, _, _, _ => ⟨fun _ _ _ _ _ _ _ _ _ hr => hr, fun _ _ _ _ _ _ _ _ _ hr => hr, fun _ _ _ hr => hr⟩
  | d + 1, b, A, Γ, ss, hw, hb, ho => by
    refine ⟨?_, ?_, ?_⟩
    · intro k ps r vs pos w hsig hvs L' hr
      simp only [callsAt]
      cases hk : defs k with
      | none => trivial
      | some f =>
        obtain ⟨name, params, A', hf⟩ := hdef k f hk
        have hs := hf.sig
        rw [hsig] at hs
        simp only [Option.some.injEq, Sig.user.injEq] at hs
        rw [hs.2]
        exact fnResult_inv hf hr (unit_inv (calls_inv hdef d true hf.wf hf.below hf.ok) hf.wf ⟨hf.below, List.prefix_refl _⟩ hf.ok none
          (enter_inv hf (hvs.trans hs.1) hr))
    · intro k ps r vs pos w hsig hvs L' hr
      simp only [callsAt]
      cases hk : defs k with
      | none => trivial
      | some f =>
        obtain ⟨name, params, A', hf⟩ := hdef k f hk
        have hs := hf.sig
        rw [hsig] at hs
        simp only [Option.some.injEq, Sig.user.injEq] at hs
        exact subResult_inv hr (unit_inv (calls_inv hdef d true hf.wf hf.below hf.ok) hf.wf ⟨hf.below, List.prefix_refl _⟩ hf.ok none
          (enter_inv hf (hvs.trans hs.1) hr))
    · intro k pos w hr
      simp only [callsAt]
      exact gosubResult_inv (unit_inv (calls_inv hdef d true hw hb ho) hw ⟨hb, List.prefix_refl _⟩ ho (some k) hr)

end

end EB.Typing
