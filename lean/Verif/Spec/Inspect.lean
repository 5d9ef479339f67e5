import Verif.Spec.Program
import Verif.Model.Inspect
/-!
# What a program that embeds the interpreter reads from outside
-/

namespace EB.Spec

/-- A value as the embedding program sees it. -/
def Val.datum : Val → ConstantDatum
  | .bool b => .boolean b
  | .int i => .integer i
  | .dbl d => .double d
  | .text s => .text s

/-- The functions that read variables tell what is known.  `ds` are the declarations that they are about, the `n`-th of
which is at `place n`; `get` reads scalars and `getArray` elements of arrays.  A variable that is declared but that no
statement has defined yet is not covered. -/
structure Tells (ds : Decls) (place : Nat → Place) (w : World) (get : Str → Option (Except GetError (Option ConstantDatum)))
    (getArray : Str → List I32 → Option (Except GetError (Option ConstantDatum))) : Prop where
  /-- A scalar variable has the value that the program computed. -/
  scalar : ∀ k t n v, position k ds = some (.scalar t, n) → w.mem (place n) = some (.scalar v) →
    v.ty = t ∧ get k = some (.ok (some v.datum))
  /-- So has every element of an array. -/
  element : ∀ k t r n ty dims elem (subs : List I32), position k ds = some (.array t r, n) → 0 < r → w.mem (place n) = some (.arr ty dims elem) →
    InBounds dims (subs.map BitVec.toInt) → getArray k subs = some (.ok (some (elem (subs.map BitVec.toInt)).datum))
  /-- There are no other elements. -/
  outside : ∀ k t r n ty dims elem (subs : List I32), position k ds = some (.array t r, n) → 0 < r → w.mem (place n) = some (.arr ty dims elem) →
    subs.length = r → ¬ InBounds dims (subs.map BitVec.toInt) → ∃ e, getArray k subs = some (.error (.bounds e))
  isArray : ∀ k t r n, position k ds = some (.array t r, n) → 0 < r → get k = some (.error (.isArray k))
  isScalar : ∀ k t n subs, position k ds = some (.scalar t, n) → getArray k subs = some (.error (.isScalar k))
  unknown : ∀ k subs, position k ds = none → get k = some (.ok none) ∧ getArray k subs = some (.ok none)

/-- All that a program reads from outside after a run is what the interpreter knows. -/
def TellsAll {H : Type} (Γ : Env) (w : World) (img : Image) (vm : Vm H) : Prop :=
  Tells Γ.locals .local w (vm.getProgram img) (vm.getProgramArray img) ∧
  Tells Γ.shared .shared w (vm.getGlobal img) (vm.getGlobalArray img)

/-- The interpreter runs one part of a program after the other, each of which comes to its end without leaving a
`ON ERROR GOTO` behind; a part sees the variables of the parts before it (but this interpreter does not call their
`SUB`s and `FUNCTION`s). -/
inductive RunParts (F : FloatOps) (n d : Nat) (lib : Lib) : Env → World → List Source → Env → World → Prop
  | nil {Γ : Env} {w : World} : RunParts F n d lib Γ w [] Γ w
  | cons {Γ Δ : Env} {w w1 w2 : World} {src : Source} {rest : List Source} : (∀ k b, w.trap ≠ .jump k b) →
      run F n d lib Γ src.stmts w = .done w1 → RunParts F n d lib (afterStmts Γ src.stmts) w1 rest Δ w2 →
      RunParts F n d lib Γ w (src :: rest) Δ w2

/-- The compiler accepts these parts, one after the other. -/
inductive CompileParts : Ctx × Image → List Source → Ctx × Image → Prop
  | nil {s : Ctx × Image} : CompileParts s [] s
  | cons {c c' : Ctx} {img img' : Image} {src : Source} {rest : List Source} {s : Ctx × Image} :
      compileMore src c img = (.ok (), c', img') → CompileParts (c', img') rest s → CompileParts (c, img) (src :: rest) s

/-- The same parts are compiled and executed, one after the other. -/
inductive ExecParts {H : Type} (F : FloatOps) (host : Host H) : Ctx × Image × Vm H → List Source → Ctx × Image × Vm H → Prop
  | nil {s : Ctx × Image × Vm H} : ExecParts F host s [] s
  | cons {c c' : Ctx} {img img' : Image} {vm vm' : Vm H} {src : Source} {rest : List Source} {s : Ctx × Image × Vm H} :
      compileMore src c img = (.ok (), c', img') → Reaches F host img' vm vm' → vmStep F host img' vm' = .stop .eof vm' →
      ExecParts F host (c', img', vm') rest s → ExecParts F host (c, img, vm) (src :: rest) s

end EB.Spec
