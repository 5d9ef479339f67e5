import Verif.Model.Vm
/-!
# Reading variables from outside

Models `Vm::get_global`, `get_global_array`, `get_program` and `get_program_array` (core/src/vm/mod.rs 366-437).
-/

namespace EB

/-- `GetGlobalError` (core/src/vm/mod.rs 59-71). -/
inductive GetError where
  | isArray (key : Str)
  | isScalar (key : Str)
  | bounds (e : SubscriptError)
  deriving DecidableEq, Repr

variable {H : Type}

/-- `Vm::get_scalar_var` (core/src/vm/mod.rs 189-204); the outer `none` is a panic. -/
def Vm.getScalarVar (vm : Vm H) (img : Image) (key : Str) (vars : List (Str × VarInfo)) (readRaw : Mach → Nat → BitVec 64) :
    Option (Except GetError (Option ConstantDatum)) :=
  match vars.lookup key with
  | none => some (.ok none)
  | some info =>
    if info.ndims ≠ 0 then some (.error (.isArray key))
    else (ConstantDatum.fromRaw (readRaw vm.mach info.reg) info.subtype img.constants vm.mach.heap).map fun v => .ok (some v)

/-- `Vm::get_array_var` (core/src/vm/mod.rs 207-230); the outer `none` is a panic. -/
def Vm.getArrayVar (vm : Vm H) (img : Image) (key : Str) (vars : List (Str × VarInfo)) (subscripts : List I32)
    (readRaw : Mach → Nat → BitVec 64) : Option (Except GetError (Option ConstantDatum)) :=
  match vars.lookup key with
  | none => some (.ok none)
  | some info =>
    if info.ndims = 0 then some (.error (.isScalar key))
    else
      match (DatumPtr.ofU64 (readRaw vm.mach info.reg)).bind DatumPtr.heapIndex with
      | none => none
      | some i =>
        match vm.mach.heap.data[i]? with
        | some (.array a) =>
          match flatIndex a.dimensions (subscripts.map BitVec.toInt) with
          | none => none
          | some (.error e) => some (.error (.bounds e))
          | some (.ok j) =>
            match a.values[j]? with
            | none => none
            | some v => (ConstantDatum.fromRaw v info.subtype img.constants vm.mach.heap).map fun v => .ok (some v)
        | _ => none

/-- `Context::get_global_reg_raw` (core/src/vm/context.rs 285-287). -/
def Mach.globalRaw (m : Mach) (index : Nat) : BitVec 64 := m.regs index

/-- `Context::get_program_reg_raw` (core/src/vm/context.rs 293-295). -/
def Mach.programRaw (m : Mach) (index : Nat) : BitVec 64 := m.regs (64 + index)

/-- `Vm::get_global` (core/src/vm/mod.rs 371-377). -/
def Vm.getGlobal (vm : Vm H) (img : Image) (key : Str) := vm.getScalarVar img key img.globalVars Mach.globalRaw

/-- `Vm::get_global_array` (core/src/vm/mod.rs 385-398). -/
def Vm.getGlobalArray (vm : Vm H) (img : Image) (key : Str) (subscripts : List I32) :=
  vm.getArrayVar img key img.globalVars subscripts Mach.globalRaw

/-- `Vm::get_program` (core/src/vm/mod.rs 405-416). -/
def Vm.getProgram (vm : Vm H) (img : Image) (key : Str) := vm.getScalarVar img key img.programVars Mach.programRaw

/-- `Vm::get_program_array` (core/src/vm/mod.rs 424-437). -/
def Vm.getProgramArray (vm : Vm H) (img : Image) (key : Str) (subscripts : List I32) :=
  vm.getArrayVar img key img.programVars subscripts Mach.programRaw

end EB
