import Verif.Lemmas.Exits
import Verif.Lemmas.Blocks
import Verif.Lemmas.SimMem
import Verif.Lemmas.Progress
/-!
# The code of statements in the image

Placeholders are filled in at various later moments.  Here the result is described without that history:
which instructions the image has for a statement, from where to where.
-/

namespace EB

open Spec (Opened)

/-- The image, with the tables of the compiler at the end. -/
structure Link where
  img : Image
  gf : Codegen
  syf : Syms

/-- A symbol table that was used on the way. -/
structure Link.Within (L : Link) (sy : Syms) : Prop where
  user : ∀ k md, sy.user.get? k = some md → L.syf.user.get? k = some md
  globals : sy.globals.Ext L.syf.globals

/-- Where the exits of the enclosing loops and of the enclosing callable go. -/
structure Targets where
  dos : List Nat
  fors : List Nat
  ret : Option Nat

/-- A jump. -/
def Jumps (L : Link) (a t : Nat) : Prop := ∃ u : U16, L.img.code[a]? = some (.jump u) ∧ u.toNat = t

/-- A conditional jump. -/
def Skips (L : Link) (a : Nat) (r : Reg) (t : Nat) : Prop :=
  ∃ u : U16, L.img.code[a]? = some (.jumpIfFalse r u) ∧ u.toNat = t

/-- The code that a code generation function emitted. -/
def Piece {α : Type} (L : Link) (sy : Syms) (x : CG α) (a b : Nat) (r : α) : Prop :=
  ∃ g g', x g = .ok (r, g') ∧ GOk g ∧ g.code.length = a ∧ g'.code.length = b ∧ Linked L.img L.gf a g' ∧ L.Within sy

/-- The code that a compilation function emitted which can also change the symbol table. -/
def Part (L : Link) (x : CS Unit) (sy : Syms) (a b : Nat) (sy' : Syms) : Prop :=
  ∃ c c', x c = .ok ((), c') ∧ Inv c ∧ c.sy = sy ∧ c'.sy = sy' ∧ c.cg.code.length = a ∧ c'.cg.code.length = b ∧
    GOk c.cg ∧ Linked L.img L.gf a c'.cg ∧ L.Within sy'

/-- The code of a guard, on its own. -/
def condCode (sy : Syms) (e : Expr) : CG Reg := do
  let reg ← CM.lift (allocTemp sy 0 e.startPos)
  compileExprAs sy e 1 reg .boolean
  pure reg

/-- Statements whose code has neither parts nor jumps. -/
def Stmt.simple : Stmt → Bool
  | .arrayAssign .. | .assign .. | .call .. | .data .. | .declare .. | .dim .. | .dimArray .. | .end .. | .label ..
  | .onError .. => true
  | _ => false

/-- Statements that jump to labels or return. -/
def Stmt.wild : Stmt → Bool
  | .gosub .. | .goto .. | .ret .. => true
  | _ => false

/-- The guards of a `CASE`. -/
inductive GuardCode (L : Link) (sy : Syms) (test : Reg) (tt : ExprType) (body : Nat) : Nat → List CaseGuard → Nat → Prop
  | nil {a} : GuardCode L sy test tt body a [] a
  | cons {a m b g gs r pos} : Piece L sy (compileGuard sy 1 test tt g) a m (r, pos) → Skips L m r (m + 2) → Jumps L (m + 1) body →
      GuardCode L sy test tt body (m + 2) gs b → GuardCode L sy test tt body a (g :: gs) b

/-- The part of a `SELECT` that finds the case. -/
inductive DispatchCode (L : Link) (sy : Syms) (test : Reg) (tt : ExprType) : Nat → Cases → List Nat → Nat → Prop
  | nil {a} : DispatchCode L sy test tt a .nil [] a
  | other {a b t ts body rest} : Jumps L a t → DispatchCode L sy test tt (a + 1) rest ts b →
      DispatchCode L sy test tt a (.cons [] body rest) (t :: ts) b
  | cons {a m b t ts g gs body rest} : GuardCode L sy test tt t a (g :: gs) m → Jumps L m (m + 1) →
      DispatchCode L sy test tt (m + 1) rest ts b → DispatchCode L sy test tt a (.cons (g :: gs) body rest) (t :: ts) b

mutual
/-- The code of a statement goes from `a` to `b`. -/
inductive StmtCode (L : Link) : Targets → Syms → Nat → Stmt → Nat → Syms → Prop
  | simple {T s sy a b sy'} : s.simple = true → Part L (compileStmtBody s) sy a b sy' → StmtCode L T sy a s b sy'
  | wild {T s sy a b} : s.wild = true → a < b → Part L (compileStmtBody s) sy a b sy → StmtCode L T sy a s b sy
  | exitDo {T t ts sy a pos} : T.dos = t :: ts → Jumps L a t → StmtCode L T sy a (.exitDo pos) (a + 1) sy
  | exitFor {T t ts sy a pos} : T.fors = t :: ts → Jumps L a t → StmtCode L T sy a (.exitFor pos) (a + 1) sy
  | exitFunction {T t sy a pos} : T.ret = some t → Jumps L a t → StmtCode L T sy a (.exitFunction pos) (a + 1) sy
  | exitSub {T t sy a pos} : T.ret = some t → Jumps L a t → StmtCode L T sy a (.exitSub pos) (a + 1) sy
  | callable {T name pos params body endPos sy sy1 sy2 sy3 a m r} :
      sy.declareCallable name (userMd name params) = .ok sy1 → Jumps L a (r + 1) →
      Part L (prologBody name pos params) { sy1 with locals := .empty } (a + 1) m sy2 →
      StmtsCode L { T with ret := some r } sy2 m body r sy3 → L.img.code[r]? = some .ret →
      L.gf.callables.get? (symKey name.name) = some (a + 1, r + 1) → L.Within sy3 →
      StmtCode L T sy a (.callable name pos params body endPos) (r + 1) { sy3 with locals := sy.locals }
  | infinite {T body sy sy' a j} :
      StmtsCode L { T with dos := (j + 1) :: T.dos } sy a body j sy' → Jumps L j a →
      StmtCode L T sy a (.doLoop .infinite body) (j + 1) sy'
  | preUntil {T e body sy sy' a m j r} :
      Piece L sy (condCode sy e) a m r → Skips L m r (m + 2) → Jumps L (m + 1) (j + 1) →
      StmtsCode L { T with dos := (j + 1) :: T.dos } sy (m + 2) body j sy' → Jumps L j a →
      StmtCode L T sy a (.doLoop (.preUntil e) body) (j + 1) sy'
  | preWhile {T e body sy sy' a m j r} :
      Piece L sy (condCode sy e) a m r → Skips L m r (j + 1) →
      StmtsCode L { T with dos := (j + 1) :: T.dos } sy (m + 1) body j sy' → Jumps L j a →
      StmtCode L T sy a (.doLoop (.preWhile e) body) (j + 1) sy'
  | postUntil {T e body sy sy' a m j r} :
      StmtsCode L { T with dos := (j + 1) :: T.dos } sy a body m sy' → Piece L sy' (condCode sy' e) m j r → Skips L j r a →
      StmtCode L T sy a (.doLoop (.postUntil e) body) (j + 1) sy'
  | postWhile {T e body sy sy' a m j r} :
      StmtsCode L { T with dos := (j + 2) :: T.dos } sy a body m sy' → Piece L sy' (condCode sy' e) m j r →
      Skips L j r (j + 2) → Jumps L (j + 1) a →
      StmtCode L T sy a (.doLoop (.postWhile e) body) (j + 2) sy'
  | forLoop {T iter iterPos double start stop next body sy sy1 sy2 sy3 a m k n j r} :
      Part L (do forIter iter iterPos double; compileAssign iter iterPos start) sy a m sy1 →
      Piece L sy1 (condCode sy1 stop) m k r → Skips L k r (j + 1) →
      StmtsCode L { T with fors := (j + 1) :: T.fors } sy1 (k + 1) body n sy2 →
      Part L (compileAssign iter iterPos next) sy2 n j sy3 → Jumps L j m →
      StmtCode L T sy a (.forLoop iter iterPos double start stop next body) (j + 1) sy3
  | ifs {T branches sy sy' a b} : BranchesCode L T sy a branches b sy' → StmtCode L T sy a (.ifs branches) b sy'
  | select {T e cases endPos sy sy' a m d b test tt ts} :
      allocTemp sy 0 e.startPos = .ok test → Piece L sy (compileExpr sy e 1 test) a m tt →
      DispatchCode L sy test tt m cases ts d → Jumps L d b → BodiesCode L T sy (d + 1) cases ts b sy' →
      StmtCode L T sy a (.select e cases endPos) b sy'
  | whileLoop {T e body sy sy' a m j r} :
      Piece L sy (condCode sy e) a m r → Skips L m r (j + 1) → StmtsCode L T sy (m + 1) body j sy' → Jumps L j a →
      StmtCode L T sy a (.whileLoop e body) (j + 1) sy'

/-- The code of statements. -/
inductive StmtsCode (L : Link) : Targets → Syms → Nat → Stmts → Nat → Syms → Prop
  | nil {T sy a} : StmtsCode L T sy a .nil a sy
  | cons {T s rest sy sy1 sy2 a m b} : StmtCode L T sy a s m sy1 →
      (s.marks = true → a < m → StmtStart L.img a) → StmtsCode L T sy1 m rest b sy2 →
      StmtsCode L T sy a (.cons s rest) b sy2

/-- The branches of an `IF`; `b` is the end of the last one. -/
inductive BranchesCode (L : Link) : Targets → Syms → Nat → Branches → Nat → Syms → Prop
  | nil {T sy b} : BranchesCode L T sy b .nil b sy
  | last {T guard body sy sy' a m b r} :
      Piece L sy (condCode sy guard) a m r → Skips L m r b → StmtsCode L T sy (m + 1) body b sy' →
      BranchesCode L T sy a (.cons guard body .nil) b sy'
  | cons {T guard body rest sy sy1 sy' a m n b r} :
      Piece L sy (condCode sy guard) a m r → Skips L m r (n + 1) → StmtsCode L T sy (m + 1) body n sy1 → Jumps L n b →
      BranchesCode L T sy1 (n + 1) rest b sy' → BranchesCode L T sy a (.cons guard body rest) b sy'

/-- The bodies of a `SELECT`; `ts` are their addresses. -/
inductive BodiesCode (L : Link) : Targets → Syms → Nat → Cases → List Nat → Nat → Syms → Prop
  | nil {T sy b} : BodiesCode L T sy b .nil [] b sy
  | last {T guards body sy sy' a b} : StmtsCode L T sy a body b sy' →
      BodiesCode L T sy a (.cons guards body .nil) [a] b sy'
  | cons {T guards body rest sy sy1 sy' a n b ts} : StmtsCode L T sy a body n sy1 → Jumps L n b →
      BodiesCode L T sy1 (n + 1) rest ts b sy' → BodiesCode L T sy a (.cons guards body rest) (a :: ts) b sy'
end

/-! ## What the compiler leaves behind, once everything is filled in -/

/-- From `lo` on and except for `X`, the code of `c` is in the image, and its pending exits go to `T`. -/
structure Wired (L : Link) (X : Nat → Prop) (lo : Nat) (c : Ctx) (T : Targets) : Prop where
  metas : ∀ i, lo ≤ i → i < c.cg.code.length →
    (L.img.instrs[i]?).map (fun m => (m.linecol, m.argLinecols)) = (c.cg.instrs[i]?).map (fun m => (m.linecol, m.argLinecols))
  marked : ∀ i m, lo ≤ i → i < c.cg.code.length → c.cg.instrs[i]? = some m → m.isStmtStart = true → StmtStart L.img i
  unmarked : ∀ i m, lo < i → i < c.cg.code.length → c.cg.instrs[i]? = some m → m.isStmtStart = false → ¬ StmtStart L.img i
  code : ∀ i, lo ≤ i → i < c.cg.code.length → ¬ X i → i ∉ c.exits → c.cg.fixups.get? i = none → L.img.code[i]? = c.cg.code[i]?
  calls : ∀ i f, lo ≤ i → i < c.cg.code.length → c.cg.fixups.get? i = some f →
    ∃ pos ins, L.gf.fixupInstr pos f = .ok ins ∧ L.img.code[i]? = some ins
  consts : ∀ d t id, c.cg.constants.get? d = some (t, id) → L.img.constants[id]? = some d
  dos : List.Forall₂ (fun l t => ∀ p ∈ l, lo ≤ p.1 → Jumps L p.1 t) c.doExit T.dos
  fors : List.Forall₂ (fun l t => ∀ p ∈ l, lo ≤ p.1 → Jumps L p.1 t) c.forExit T.fors
  ret : ∀ p ∈ c.calExits, lo ≤ p.1 → ∃ t, T.ret = some t ∧ Jumps L p.1 t
  callables : ∀ k v, c.cg.callables.get? k = some v → L.gf.callables.get? k = some v
  within : L.Within c.sy
  upcalls : ∀ k t id, c.cg.upcalls.get? k = some (t, id) → L.img.upcalls[id]? = some k
  labels : ∀ k v, c.cg.labels.get? k = some v → L.gf.labels.get? k = some v

/-- No exceptions. -/
def Nowhere : Nat → Prop := fun _ => False

theorem opened_iff (c : Ctx) (i : Nat) : Opened c i ↔ i ∈ c.exits := by
  simp only [Opened, Ctx.exits, List.mem_map, List.mem_append, List.mem_flatten]
  constructor
  · rintro (⟨l, hl, p, hp, rfl⟩ | ⟨l, hl, p, hp, rfl⟩ | ⟨p, hp, rfl⟩)
    · exact ⟨p, .inl (.inl ⟨l, hl, hp⟩), rfl⟩
    · exact ⟨p, .inl (.inr ⟨l, hl, hp⟩), rfl⟩
    · exact ⟨p, .inr hp, rfl⟩
  · rintro ⟨p, (⟨l, hl, hp⟩ | ⟨l, hl, hp⟩) | hp, rfl⟩
    · exact .inl ⟨l, hl, p, hp, rfl⟩
    · exact .inr (.inl ⟨l, hl, p, hp, rfl⟩)
    · exact .inr (.inr ⟨p, hp, rfl⟩)

/-- Both invariants. -/
structure Good (c : Ctx) : Prop where
  inv : Inv c
  ex : ExitsOk c

theorem Inv.gok {c : Ctx} (h : Inv c) : GOk c.cg := by
  refine ⟨h.lens, ⟨h.constants, h.upcalls, h.constLimit, h.upcallLimit⟩, fun i hi => ?_⟩
  cases hx : c.cg.fixups.get? i with
  | none => rfl
  | some f => have := h.fixups i f hx; omega

theorem Good.step {α : Type} {x : CS α} {c c' : Ctx} {a : α} (h : Good c) (hs : SStep x) (hx : XStep x)
    (he : x c = .ok (a, c')) : Good c' ∧ Ext c.cg.code.length c c' :=
  have e := hs _ _ _ _ h.inv (Nat.le_refl _) he
  ⟨⟨e.inv, hx _ _ _ h.ex he⟩, e⟩

theorem Good.next {c : Ctx} (h : Good c) : c.cg.code.length ∉ c.exits ∧ c.cg.fixups.get? c.cg.code.length = none :=
  ⟨fun hx => Nat.lt_irrefl _ (h.ex.lt _ hx), h.inv.gok.nofix _ (Nat.le_refl _)⟩

/-- A placeholder that nothing else knows about. -/
structure Hole (c : Ctx) (a : Nat) : Prop where
  lt : a < c.cg.code.length
  closed : a ∉ c.exits
  nofix : c.cg.fixups.get? a = none

theorem Hole.ext {c c' : Ctx} {a : Nat} (h : Hole c a) (e : Ext c.cg.code.length c c') : Hole c' a := by
  have k := Keep.of_ext (n := 0) e
  refine ⟨Nat.lt_of_lt_of_le h.lt e.len, fun hx => ?_, ?_⟩
  · rcases k.opened a ((opened_iff _ _).2 hx) with h1 | h1
    · exact h.closed ((opened_iff _ _).1 h1)
    · have := h.lt; omega
  · by_contra hn
    have := e.fixups a (by rw [h.nofix]; exact hn)
    have := h.lt
    omega

theorem Good.emit {c c' : Ctx} {i : Instr} {pos : LineCol} {a : Nat} (h : Good c) (ht : ∀ t ∈ i.targets, t ≤ c.cg.code.length)
    (he : onCg (emit i pos) c = .ok (a, c')) (hr : i.constRefs = [] ∧ i.upcallRefs = [] := by exact ⟨rfl, rfl⟩) (hne : i ≠ .eof := by simp) :
    Good c' ∧ Ext c.cg.code.length c c' ∧ a = c.cg.code.length ∧ c'.cg.code.length = c.cg.code.length + 1 ∧
      Hole c' c.cg.code.length := by
  obtain ⟨E, h1, h2⟩ := (Ext.refl (n := c.cg.code.length) h.inv).emit (Nat.le_refl _) ht he hr hne
  refine ⟨⟨E.inv, XStep.emitAny _ _ _ _ _ h.ex he⟩, E, h1, h2, by omega, ?_, ?_⟩
  · have := emit_ok.1 he
    cases this
    exact h.next.1
  · have := emit_ok.1 he
    cases this
    exact h.next.2

theorem Good.jump {c c' : Ctx} {t : Nat} {pos : LineCol} {a : Unit} (h : Good c) (ht : t ≤ c.cg.code.length)
    (he : emitJump t pos c = .ok (a, c')) :
    Good c' ∧ Ext c.cg.code.length c c' ∧ c'.cg.code.length = c.cg.code.length + 1 := by
  obtain ⟨E, h2⟩ := (Ext.refl (n := c.cg.code.length) h.inv).jump (Nat.le_refl _) ht he
  exact ⟨⟨E.inv, XStep.emitJump _ _ _ _ _ h.ex he⟩, E, h2⟩

theorem Hole.patch {c : Ctx} {a addr : Nat} {i : Instr} (h : Hole c a) : Hole { c with cg := c.cg.patch addr i } a :=
  ⟨by show a < (c.cg.code.set addr i).length; rw [List.length_set]; exact h.lt, h.closed, h.nofix⟩

theorem Hole.pJump {c c' : Ctx} {a addr t : Nat} {pos : LineCol} {u : Unit} (h : Hole c a)
    (he : patchJump addr t pos c = .ok (u, c')) : Hole c' a := by
  obtain ⟨t, _, h3⟩ := patchJump_ok.1 he
  cases h3
  exact h.patch

theorem Hole.pSkip {c c' : Ctx} {a addr t : Nat} {r : Reg} {pos : LineCol} {u : Unit} (h : Hole c a)
    (he : patchJumpIfFalse addr r t pos c = .ok (u, c')) : Hole c' a := by
  obtain ⟨t, _, h3⟩ := patchJumpIfFalse_ok.1 he
  cases h3
  exact h.patch

theorem Good.pJump {c c' : Ctx} {addr t : Nat} {pos : LineCol} {u : Unit} (h : Good c) (ht : t ≤ c.cg.code.length)
    (he : patchJump addr t pos c = .ok (u, c')) : Good c' ∧ c'.cg.code.length = c.cg.code.length ∧ c'.sy = c.sy := by
  obtain ⟨E, l⟩ := ext_patchJump (n := 0) h.inv (Nat.zero_le _) ht he
  refine ⟨⟨E.inv, XStep.patchJump _ _ _ _ _ _ h.ex he⟩, l, ?_⟩
  obtain ⟨t, _, h3⟩ := patchJump_ok.1 he
  cases h3; rfl

theorem Good.pSkip {c c' : Ctx} {addr t : Nat} {r : Reg} {pos : LineCol} {u : Unit} (h : Good c) (ht : t ≤ c.cg.code.length)
    (he : patchJumpIfFalse addr r t pos c = .ok (u, c')) : Good c' ∧ c'.cg.code.length = c.cg.code.length ∧ c'.sy = c.sy := by
  obtain ⟨E, l⟩ := ext_patchJumpIfFalse (n := 0) h.inv (Nat.zero_le _) ht he
  refine ⟨⟨E.inv, XStep.patchJumpIfFalse _ _ _ _ _ _ _ h.ex he⟩, l, ?_⟩
  obtain ⟨t, _, h3⟩ := patchJumpIfFalse_ok.1 he
  cases h3; rfl

theorem patchJumps_sy {t : Nat} : ∀ {l : List (Nat × LineCol)} {c c' : Ctx} {u : Unit}, patchJumps t l c = .ok (u, c') →
    c'.sy = c.sy ∧ c'.cg.code.length = c.cg.code.length ∧ c'.cg.fixups = c.cg.fixups ∧ c'.doExit = c.doExit ∧ c'.forExit = c.forExit ∧
      c'.calExits = c.calExits ∧ c'.cg.instrs = c.cg.instrs ∧ c'.cg.constants = c.cg.constants ∧ c'.cg.callables = c.cg.callables ∧
      (∀ i, c'.cg.code[i]? ≠ c.cg.code[i]? → i ∈ l.map (·.1)) ∧ c'.cg.upcalls = c.cg.upcalls ∧ c'.cg.labels = c.cg.labels
  | [], c, c', u, h => by
    have := CM.pure_ok.1 h
    cases this
    exact ⟨rfl, rfl, rfl, rfl, rfl, rfl, rfl, rfl, rfl, fun i h => absurd rfl h, rfl, rfl⟩
  | (addr, pos) :: rest, c, c', u, h => by
    obtain ⟨_, c1, h1, h2⟩ := CM.bind_ok.1 h
    obtain ⟨t', _, h3⟩ := patchJump_ok.1 h1
    cases h3
    obtain ⟨p1, p2, p3, p4, p5, p6, p7, p8, p9, p10, p11, p12⟩ := patchJumps_sy h2
    refine ⟨p1, p2.trans (by simp [Codegen.patch]), p3, p4, p5, p6, p7, p8, p9, fun i hi => ?_, p11, p12⟩
    by_cases hx : c'.cg.code[i]? = (c.cg.code.set addr (.jump t'))[i]?
    · rw [hx] at hi
      by_cases ha : addr = i
      · subst ha; simp
      · exact absurd (List.getElem?_set_ne ha) hi
    · exact List.mem_cons_of_mem _ (p10 i hx)

theorem patchJumps_code {t : Nat} : ∀ {l : List (Nat × LineCol)} {c c' : Ctx} {u : Unit}, patchJumps t l c = .ok (u, c') →
    ∀ p ∈ l, p.1 < c.cg.code.length → ∃ v : U16, c'.cg.code[p.1]? = some (.jump v) ∧ v.toNat = t
  | [], _, _, _, _, _, hp, _ => by simp at hp
  | (addr, pos) :: rest, c, c', u, h, p, hp, hlt => by
    obtain ⟨_, c1, h1, h2⟩ := CM.bind_ok.1 h
    obtain ⟨t', ht, h3⟩ := patchJump_ok.1 h1
    cases h3
    by_cases hin : p ∈ rest
    · exact patchJumps_code h2 p hin (by simpa [Codegen.patch] using hlt)
    · rcases List.mem_cons.1 hp with rfl | hp
      · by_cases hx : c'.cg.code[addr]? = (c.cg.code.set addr (.jump t'))[addr]?
        · refine ⟨t', ?_, mkTarget_ok ht⟩
          rw [hx, List.getElem?_set_self hlt]
        · obtain ⟨q, hq, he⟩ := List.mem_map.1 ((patchJumps_sy h2).2.2.2.2.2.2.2.2.2.1 _ hx)
          have := patchJumps_code h2 q hq (by rw [he]; simpa [Codegen.patch] using hlt)
          rw [he] at this
          exact this
      · exact absurd hp hin

theorem Good.pJumps {c c' : Ctx} {t : Nat} {l : List (Nat × LineCol)} {u : Unit} (h : Good c) (ht : t ≤ c.cg.code.length)
    (he : patchJumps t l c = .ok (u, c')) : Good c' := by
  obtain ⟨E, l⟩ := ext_patchJumps (n := 0) l h.inv (fun _ _ => Nat.zero_le _) ht he
  exact ⟨E.inv, XStep.patchJumps _ _ _ _ _ h.ex he⟩

theorem Hole.pJumps {c c' : Ctx} {a t : Nat} {l : List (Nat × LineCol)} {u : Unit} (h : Hole c a)
    (he : patchJumps t l c = .ok (u, c')) : Hole c' a := by
  obtain ⟨_, p2, p3, p4, p5, p6, _⟩ := patchJumps_sy he
  refine ⟨by rw [p2]; exact h.lt, ?_, by rw [p3]; exact h.nofix⟩
  unfold Ctx.exits
  rw [p4, p5, p6]
  exact h.closed

theorem nextStmtStart_succ {img : Image} {i : Nat} (h : ¬ StmtStart img (i + 1)) : nextStmtStart img (i + 1) = nextStmtStart img i := by
  unfold nextStmtStart
  by_cases hl : i + 1 < img.instrs.length
  · have hd : img.instrs.drop (i + 1) = img.instrs[i + 1] :: img.instrs.drop (i + 1 + 1) := List.drop_eq_getElem_cons hl
    rw [hd, List.findIdx?_cons]
    have hf : img.instrs[i + 1].isStmtStart = false := by
      cases hb : img.instrs[i + 1].isStmtStart with
      | false => rfl
      | true => exact absurd ⟨_, List.getElem?_eq_getElem hl, hb⟩ h
    rw [hf]
    simp only [Bool.false_eq_true, if_false]
    cases (img.instrs.drop (i + 1 + 1)).findIdx? (·.isStmtStart) with
    | none => rfl
    | some k => simp only [Option.map_some]; omega
  · rw [List.drop_eq_nil_of_le (by omega), List.drop_eq_nil_of_le (by omega)]
    rfl

theorem inside_of {img : Image} {a i : Nat} (h : ∀ j, a < j → j ≤ i → ¬ StmtStart img j) : a ≤ i → Inside img a i := by
  intro hi
  obtain ⟨k, rfl⟩ := Nat.exists_eq_add_of_le hi
  clear hi
  unfold Inside
  induction k with
  | zero => rfl
  | succ k ih =>
    rw [← ih fun j h1 h2 => h j h1 (by omega)]
    exact nextStmtStart_succ (i := a + k) (h _ (by omega) (by omega))

theorem nextStmtStart_marked {img : Image} {i : Nat} (h : StmtStart img (i + 1)) : nextStmtStart img i = i + 1 := by
  obtain ⟨m, h1, h2⟩ := h
  obtain ⟨hl, rfl⟩ := List.getElem?_eq_some_iff.1 h1
  unfold nextStmtStart
  rw [List.drop_eq_getElem_cons hl, List.findIdx?_cons, h2]
  rfl

namespace Wired
variable {L : Link} {X : Nat → Prop} {lo : Nat} {c c' : Ctx} {T : Targets}

theorem ext (hw : Wired L X lo c' T) (e : Ext c.cg.code.length c c') : Wired L X lo c T := by
  have k := Keep.of_ext (n := 0) e
  have hl := e.len
  have fx : ∀ i, i < c.cg.code.length → c'.cg.fixups.get? i = c.cg.fixups.get? i := by
    intro i hi
    by_contra h
    have := e.fixups i h
    omega
  have forall2 : ∀ {a b : List (List (Nat × LineCol))} {ts : List Nat}, List.Forall₂ (More c.cg.code.length) a b →
      List.Forall₂ (fun l t => ∀ p ∈ l, lo ≤ p.1 → Jumps L p.1 t) b ts → List.Forall₂ (fun l t => ∀ p ∈ l, lo ≤ p.1 → Jumps L p.1 t) a ts := by
    intro a b ts h1
    induction h1 generalizing ts with
    | nil => exact fun h => h
    | cons h1 _ ih =>
      intro h2
      cases h2 with
      | cons h2 h3 =>
        obtain ⟨ex, rfl, _⟩ := h1
        exact .cons (fun p hp => h2 p (List.mem_append_left _ hp)) (ih h3)
  refine ⟨?_, ?_, ?_, ?_, ?_, ?_, forall2 e.doExit hw.dos, forall2 e.forExit hw.fors, ?_, fun k v h => hw.callables k v (e.callables k v h), ?_,
    fun k t id h => hw.upcalls k t id (e.upcalls.ids _ _ _ h),
    fun k v h => hw.labels k v (e.labels k v h)⟩
  · intro i h1 h2
    rw [hw.metas i h1 (by omega), e.instrs i h2]
  · intro i m h1 h2 h3
    exact hw.marked i m h1 (by omega) (by rw [e.instrs i h2]; exact h3)
  · intro i m h1 h2 h3
    exact hw.unmarked i m h1 (by omega) (by rw [e.instrs i h2]; exact h3)
  · intro i h1 h2 h3 h4 h5
    rw [hw.code i h1 (by omega) h3 ?_ (by rw [fx i h2]; exact h5), e.code i h2]
    intro hx
    rcases k.opened i ((opened_iff _ _).2 hx) with h | h
    · exact h4 ((opened_iff _ _).1 h)
    · omega
  · intro i f h1 h2 h3
    exact hw.calls i f h1 (by omega) (by rw [fx i h2]; exact h3)
  · intro d t id h
    exact hw.consts d t id (e.constants.ids _ _ _ h)
  · obtain ⟨ex, hex, _⟩ := e.calExits
    intro p hp
    exact hw.ret p (by rw [hex]; exact List.mem_append_left _ hp)
  · exact ⟨fun k md h => hw.within.user k md (e.user k md h), e.globals.trans hw.within.globals⟩

theorem raise {lo' : Nat} (hw : Wired L X lo c T) (h : lo ≤ lo') : Wired L X lo' c T := by
  refine ⟨fun i h1 => hw.metas i (by omega), fun i m h1 => hw.marked i m (by omega), fun i m h1 => hw.unmarked i m (by omega),
    fun i h1 => hw.code i (by omega), fun i f h1 => hw.calls i f (by omega), hw.consts,
    hw.dos.imp fun _ _ hh p hp h1 => hh p hp (by omega), hw.fors.imp fun _ _ hh p hp h1 => hh p hp (by omega),
    fun p hp h1 => hw.ret p hp (by omega), hw.callables, hw.within, hw.upcalls, hw.labels⟩

theorem clear (hw : Wired L X lo c T) (h : ∀ i, lo ≤ i → i < c.cg.code.length → ¬ X i) : Wired L Nowhere lo c T :=
  { hw with code := fun i h1 h2 _ => hw.code i h1 h2 (h i h1 h2) }

theorem patch {addr : Nat} {i : Instr} (hw : Wired L X lo { c with cg := c.cg.patch addr i } T) :
    Wired L (fun j => X j ∨ j = addr) lo c T := by
  have hl : (c.cg.patch addr i).code.length = c.cg.code.length := by simp [Codegen.patch]
  refine ⟨fun j h1 h2 => hw.metas j h1 (by rw [hl]; exact h2), fun j m h1 h2 => hw.marked j m h1 (by rw [hl]; exact h2), fun j m h1 h2 => hw.unmarked j m h1 (by rw [hl]; exact h2),
    ?_, fun j f h1 h2 => hw.calls j f h1 (by rw [hl]; exact h2),
    hw.consts, hw.dos, hw.fors, hw.ret, hw.callables, hw.within, hw.upcalls, hw.labels⟩
  intro j h1 h2 h3 h4 h5
  rw [hw.code j h1 (by rw [hl]; exact h2) (fun h => h3 (.inl h)) h4 h5]
  exact List.getElem?_set_ne fun h => h3 (.inr h.symm)

theorem pJump {addr t : Nat} {pos : LineCol} {u : Unit} (hw : Wired L X lo c' T) (he : patchJump addr t pos c = .ok (u, c'))
    (hh : Hole c addr) (hlo : lo ≤ addr) (hx : ¬ X addr) : Jumps L addr t ∧ Wired L (fun j => X j ∨ j = addr) lo c T := by
  obtain ⟨v, hv, h3⟩ := patchJump_ok.1 he
  cases h3
  refine ⟨⟨v, ?_, mkTarget_ok hv⟩, hw.patch⟩
  have hl := hh.lt
  rw [hw.code addr hlo (by simpa [Codegen.patch] using hl) hx hh.closed hh.nofix]
  exact List.getElem?_set_self hl

theorem pSkip {addr t : Nat} {r : Reg} {pos : LineCol} {u : Unit} (hw : Wired L X lo c' T)
    (he : patchJumpIfFalse addr r t pos c = .ok (u, c'))
    (hh : Hole c addr) (hlo : lo ≤ addr) (hx : ¬ X addr) : Skips L addr r t ∧ Wired L (fun j => X j ∨ j = addr) lo c T := by
  obtain ⟨v, hv, h3⟩ := patchJumpIfFalse_ok.1 he
  cases h3
  refine ⟨⟨v, ?_, mkTarget_ok hv⟩, hw.patch⟩
  have hl := hh.lt
  rw [hw.code addr hlo (by simpa [Codegen.patch] using hl) hx hh.closed hh.nofix]
  exact List.getElem?_set_self hl

theorem pJumps {t : Nat} {l : List (Nat × LineCol)} {u : Unit} (hw : Wired L X lo c' T) (he : patchJumps t l c = .ok (u, c')) :
    (∀ p ∈ l, Hole c p.1 → lo ≤ p.1 → ¬ X p.1 → Jumps L p.1 t) ∧ Wired L (fun j => X j ∨ j ∈ l.map (·.1)) lo c T := by
  obtain ⟨p1, p2, p3, p4, p5, p6, p7, p8, p9, p10, p11, p12⟩ := patchJumps_sy he
  have hex : c'.exits = c.exits := by unfold Ctx.exits; rw [p4, p5, p6]
  constructor
  · intro p hp hh hlo hx
    obtain ⟨v, hv, ht⟩ := patchJumps_code he p hp hh.lt
    refine ⟨v, ?_, ht⟩
    rw [hw.code p.1 hlo (by rw [p2]; exact hh.lt) hx (by rw [hex]; exact hh.closed) (by rw [p3]; exact hh.nofix)]
    exact hv
  · refine ⟨fun i h1 h2 => ?_, fun i m h1 h2 => ?_, fun i m h1 h2 => ?_, ?_, fun i f h1 h2 h3 => hw.calls i f h1 (by omega) (by rw [p3]; exact h3), fun d t id h => hw.consts d t id (by rw [p8]; exact h),
      p4 ▸ hw.dos, p5 ▸ hw.fors, p6 ▸ hw.ret, p9 ▸ hw.callables, p1 ▸ hw.within, p11 ▸ hw.upcalls, p12 ▸ hw.labels⟩
    · rw [hw.metas i h1 (by omega), p7]
    · rw [← p7]; exact hw.marked i m h1 (by omega)
    · rw [← p7]; exact hw.unmarked i m h1 (by omega)
    · intro i h1 h2 h3 h4 h5
      rw [hw.code i h1 (by omega) (fun h => h3 (.inl h)) (by rw [hex]; exact h4) (by rw [p3]; exact h5)]
      by_contra hn
      exact h3 (.inr (p10 i hn))

theorem emit {i : Instr} {pos : LineCol} {a : Nat} (hw : Wired L X lo c' T) (hg : Good c) (he : onCg (EB.emit i pos) c = .ok (a, c'))
    (hlo : lo ≤ c.cg.code.length) (hx : ¬ X c.cg.code.length) : L.img.code[c.cg.code.length]? = some i := by
  have := emit_ok.1 he
  cases this
  rw [hw.code _ hlo (by simp [Codegen.push]) hx hg.next.1 hg.next.2]
  simp [Codegen.push]

theorem jump {t : Nat} {pos : LineCol} {a : Unit} (hw : Wired L X lo c' T) (hg : Good c) (he : emitJump t pos c = .ok (a, c'))
    (hlo : lo ≤ c.cg.code.length) (hx : ¬ X c.cg.code.length) : Jumps L c.cg.code.length t := by
  obtain ⟨v, hv, h3⟩ := emitJump_ok.1 he
  cases h3
  refine ⟨v, ?_, mkTarget_ok hv⟩
  rw [hw.code _ hlo (by simp [Codegen.push]) hx hg.next.1 hg.next.2]
  simp [Codegen.push]

theorem linked {a : Nat} (hw : Wired L X lo c T) (hlo : lo ≤ a) (hx : ∀ i, a ≤ i → i < c.cg.code.length → ¬ X i ∧ i ∉ c.exits)
    (hl : c.cg.instrs.length = c.cg.code.length)
    (hm : ∀ i m, a ≤ i → c.cg.instrs[i]? = some m → m.isStmtStart = false) :
    Linked L.img L.gf a c.cg := by
  have key : ∀ (β : Type) (f : LineCol × List LineCol → β) i, a ≤ i → i < c.cg.code.length →
      (L.img.instrs[i]?).map (fun m => f (m.linecol, m.argLinecols)) = (c.cg.instrs[i]?).map (fun m => f (m.linecol, m.argLinecols)) := by
    intro β f i h1 h2
    have := congrArg (Option.map f) (hw.metas i (by omega) h2)
    simpa only [Option.map_map, Function.comp_def] using this
  refine ⟨key _ (·.1), fun i h1 h2 => hw.code i (by omega) h2 (hx i h1 h2).1 (hx i h1 h2).2,
    fun i f h1 => hw.calls i f (by omega), hw.consts, key _ (·.2), hw.upcalls, fun i h1 h2 => ?_, hw.labels⟩
  refine inside_of (fun j h3 h4 => ?_) h1
  have hj : j < c.cg.instrs.length := by omega
  exact hw.unmarked j _ (by omega) (by omega) (List.getElem?_eq_getElem hj) (hm j _ (by omega) (List.getElem?_eq_getElem hj))

theorem piece {α : Type} {f : Syms → CG α} {r : α} (hw : Wired L X lo c' T) (hg : Good c) (he : withSyms f c = .ok (r, c'))
    (hf : ∀ sy, GStep (f sy))
    (hlo : lo ≤ c.cg.code.length) (hx : ∀ i, c.cg.code.length ≤ i → i < c'.cg.code.length → ¬ X i) :
    Piece L c.sy (f c.sy) c.cg.code.length c'.cg.code.length r := by
  obtain ⟨g, h1, rfl⟩ := withSyms_ok.1 he
  have e := hf _ _ _ _ hg.inv.lens h1
  refine ⟨c.cg, g, h1, hg.inv.gok, rfl, rfl, hw.linked hlo (fun i h1 h2 => ⟨hx i h1 h2, fun hi => ?_⟩) (e.lens_eq hg.inv.lens)
    (fun i m h2 h3 => e.unmarked i m (by rw [hg.inv.lens]; exact h2) h3), hw.within⟩
  have := hg.ex.lt i hi
  omega

theorem mark {start : Nat} (hw : Wired L X lo { c with cg := c.cg.markStmt start } T) (hs : start ≤ lo) : Wired L X lo c T := by
  have key : ∀ (i : Nat), (c.cg.markStmt start).instrs[i]? =
      if start = i then (c.cg.instrs[i]?).map (fun m => { m with isStmtStart := true }) else c.cg.instrs[i]? := by
    intro i
    show (c.cg.instrs.modify start _)[i]? = _
    rw [List.getElem?_modify]
    split <;> simp
  refine ⟨fun i h1 h2 => ?_, fun i m h1 h2 h3 h4 => ?_, fun i m h1 h2 h3 => ?_, hw.code, hw.calls, hw.consts, hw.dos, hw.fors, hw.ret, hw.callables,
    hw.within, hw.upcalls, hw.labels⟩
  · rw [hw.metas i h1 h2]
    show ((c.cg.markStmt start).instrs[i]?).map _ = _
    rw [key]
    split <;> simp [Option.map_map, Function.comp_def]
  · by_cases hi : start = i
    · exact hw.marked i { m with isStmtStart := true } h1 h2 (by show (c.cg.markStmt start).instrs[i]? = _; rw [key, if_pos hi, h3]; rfl) rfl
    · exact hw.marked i m h1 h2 (by show (c.cg.markStmt start).instrs[i]? = _; rw [key, if_neg hi, h3]) h4
  · exact hw.unmarked i m h1 h2 (by show (c.cg.markStmt start).instrs[i]? = _; rw [key, if_neg (by omega), h3])

theorem markIf {b : Bool} {start : Nat} {a : Unit} (hw : Wired L X lo c' T) (h : markIf b start c = .ok (a, c')) (hs : start ≤ lo) :
    Wired L X lo c T := by
  unfold EB.markIf at h
  split at h
  · cases h; exact hw.mark hs
  · cases h; exact hw

/-- Before the exits of a list are filled in. -/
theorem patched {t : Nat} {l : List (Nat × LineCol)} {u : Unit} {c0 : Ctx} (hw : Wired L X lo c' T) (he : patchJumps t l c0 = .ok (u, c'))
    (hcg : c0.cg = c.cg) (hex : ExitsOk c) (hmem : ∀ i, i ∈ c.exits ↔ i ∈ c0.exits ∨ i ∈ l.map (·.1))
    (hdis : ∀ p ∈ l, p.1 ∉ c0.exits) (hx : ∀ p ∈ l, ¬ X p.1) :
    (∀ p ∈ l, lo ≤ p.1 → Jumps L p.1 t) ∧
    ∀ i, lo ≤ i → i < c.cg.code.length → ¬ X i → i ∉ c.exits → c.cg.fixups.get? i = none → L.img.code[i]? = c.cg.code[i]? := by
  obtain ⟨w1, w2⟩ := hw.pJumps he
  constructor
  · intro p hp hlo
    have hin : p.1 ∈ c.exits := (hmem p.1).2 (.inr (List.mem_map.2 ⟨p, hp, rfl⟩))
    refine w1 p hp ⟨by rw [hcg]; exact hex.lt _ hin, hdis p hp, by rw [hcg]; exact hex.nofix _ hin⟩ hlo (hx p hp)
  · intro i h1 h2 h3 h4 h5
    rw [← hcg] at h2 h5 ⊢
    exact w2.code i h1 h2 (fun h => h.elim h3 fun h => h4 ((hmem i).2 (.inr h))) (fun h => h4 ((hmem i).2 (.inl h))) h5

theorem closeDo {stop : Nat} {a : Unit} (hw : Wired L X lo c' T) (hex : ExitsOk c) (h : closeDo stop c = .ok (a, c'))
    (hx : ∀ i ∈ c.exits, ¬ X i) : Wired L X lo c { T with dos := stop :: T.dos } := by
  unfold EB.closeDo at h
  split at h
  · simp at h
  next top rest hd =>
    have hmem : ∀ i, i ∈ c.exits ↔ i ∈ ({ c with doExit := rest } : Ctx).exits ∨ i ∈ top.map (·.1) := by
      intro i
      simp only [Ctx.exits, hd, List.flatten_cons, List.map_append, List.mem_append]
      tauto
    have hdis : ∀ p ∈ top, p.1 ∉ ({ c with doExit := rest } : Ctx).exits := by
      intro p hp hin
      have hn := hex.once
      simp only [Ctx.exits, hd, List.flatten_cons, List.append_assoc, List.map_append] at hn
      refine (List.nodup_append.1 hn).2.2 _ (List.mem_map.2 ⟨p, hp, rfl⟩) _ ?_ rfl
      simpa only [Ctx.exits, List.append_assoc, List.map_append] using hin
    obtain ⟨q1, q2⟩ := hw.patched (c := c) h rfl hex hmem hdis fun p hp => hx _ ((hmem _).2 (.inr (List.mem_map.2 ⟨p, hp, rfl⟩)))
    obtain ⟨p1, p2, p3, p4, p5, p6, p7, p8, p9, p10, p11, p12⟩ := patchJumps_sy h
    refine ⟨fun i h1 h2 => ?_, fun i m h1 h2 => ?_, fun i m h1 h2 => ?_, q2, fun i f h1 h2 h3 => hw.calls i f h1 (by rw [p2]; exact h2) (by rw [p3]; exact h3), p8 ▸ hw.consts, ?_, p5 ▸ hw.fors, p6 ▸ hw.ret, p9 ▸ hw.callables, p1 ▸ hw.within, p11 ▸ hw.upcalls, p12 ▸ hw.labels⟩
    · rw [hw.metas i h1 (by rw [p2]; exact h2), p7]
    · have := hw.marked i m h1 (by rw [p2]; exact h2); rwa [p7] at this
    · have := hw.unmarked i m h1 (by rw [p2]; exact h2); rwa [p7] at this
    · rw [hd]
      exact .cons q1 ((show c'.doExit = rest from p4) ▸ hw.dos)

theorem closeFor {stop : Nat} {a : Unit} (hw : Wired L X lo c' T) (hex : ExitsOk c) (h : closeFor stop c = .ok (a, c'))
    (hx : ∀ i ∈ c.exits, ¬ X i) : Wired L X lo c { T with fors := stop :: T.fors } := by
  unfold EB.closeFor at h
  split at h
  · simp at h
  next top rest hd =>
    have hmem : ∀ i, i ∈ c.exits ↔ i ∈ ({ c with forExit := rest } : Ctx).exits ∨ i ∈ top.map (·.1) := by
      intro i
      simp only [Ctx.exits, hd, List.flatten_cons, List.map_append, List.mem_append]
      tauto
    have hdis : ∀ p ∈ top, p.1 ∉ ({ c with forExit := rest } : Ctx).exits := by
      intro p hp hin
      have hn := hex.once
      have hn' : (top.map (·.1) ++ ({ c with forExit := rest } : Ctx).exits).Nodup := by
        refine (List.Perm.nodup_iff ?_).1 hn
        simp only [Ctx.exits, hd, List.flatten_cons, List.append_assoc, List.map_append]
        rw [← List.append_assoc, ← List.append_assoc (List.map _ top)]
        exact List.Perm.append_right _ List.perm_append_comm
      exact (List.nodup_append.1 hn').2.2 _ (List.mem_map.2 ⟨p, hp, rfl⟩) _ hin rfl
    obtain ⟨q1, q2⟩ := hw.patched (c := c) h rfl hex hmem hdis fun p hp => hx _ ((hmem _).2 (.inr (List.mem_map.2 ⟨p, hp, rfl⟩)))
    obtain ⟨p1, p2, p3, p4, p5, p6, p7, p8, p9, p10, p11, p12⟩ := patchJumps_sy h
    refine ⟨fun i h1 h2 => ?_, fun i m h1 h2 => ?_, fun i m h1 h2 => ?_, q2, fun i f h1 h2 h3 => hw.calls i f h1 (by rw [p2]; exact h2) (by rw [p3]; exact h3), p8 ▸ hw.consts, p4 ▸ hw.dos, ?_, p6 ▸ hw.ret, p9 ▸ hw.callables, p1 ▸ hw.within, p11 ▸ hw.upcalls, p12 ▸ hw.labels⟩
    · rw [hw.metas i h1 (by rw [p2]; exact h2), p7]
    · have := hw.marked i m h1 (by rw [p2]; exact h2); rwa [p7] at this
    · have := hw.unmarked i m h1 (by rw [p2]; exact h2); rwa [p7] at this
    · rw [hd]
      exact .cons q1 ((show c'.forExit = rest from p5) ▸ hw.fors)

end Wired

end EB
