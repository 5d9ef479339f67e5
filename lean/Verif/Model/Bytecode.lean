import Verif.Model.Types
/-!
# Instructions and their 32-bit encoding

Models core/src/bytecode.rs.
-/

namespace EB

/-- `Register` (core/src/bytecode.rs 151-152): a register number in 8 bits. -/
abbrev Reg := BitVec 8

/-- `u16` operands: code addresses, constant indexes, immediates, upcall indexes. -/
abbrev U16 := BitVec 16

/-- `PackedArrayType` (core/src/bytecode.rs 257-258). -/
structure PackedArrayType where
  raw : BitVec 8
  deriving DecidableEq, Repr

/-- `PackedArrayType::new` (core/src/bytecode.rs 262-271); `none` is
`TooManyArrayDimensionsError`. -/
def PackedArrayType.new (subtype : ExprType) (ndims : Nat) : Option PackedArrayType :=
  if ndims > 15 then none
  else
    let nd : BitVec 8 := BitVec.ofNat 8 ndims
    some ⟨(BitVec.ofNat 8 subtype.toNat <<< 4) ||| (nd &&& 0x0f#8)⟩

/-- `PackedArrayType::subtype` (core/src/bytecode.rs 274-276); `none` is the failed assertion of
`ExprType::from_u32`. -/
def PackedArrayType.subtype (p : PackedArrayType) : Option ExprType :=
  ExprType.ofNat? (p.raw >>> 4).toNat

/-- `PackedArrayType::ndims` (core/src/bytecode.rs 279-281). -/
def PackedArrayType.ndims (p : PackedArrayType) : Nat := (p.raw &&& 0x0f#8).toNat

/-- `ErrorHandlerMode` (core/src/bytecode.rs 319-329). -/
inductive ErrorHandlerMode where
  | none | resumeNext | jump
  deriving DecidableEq, Repr, Inhabited

/-- `ErrorHandlerMode as u8` (core/src/bytecode.rs 319-329). -/
def ErrorHandlerMode.toNat : ErrorHandlerMode → Nat
  | .none => 0
  | .resumeNext => 1
  | .jump => 2

/-- `RawValue::from_u32 for ErrorHandlerMode` (core/src/bytecode.rs 331-339); `none` is the failed
assertion. -/
def ErrorHandlerMode.ofNat? : Nat → Option ErrorHandlerMode
  | 0 => some .none
  | 1 => some .resumeNext
  | 2 => some .jump
  | _ => Option.none

/-- The binary operations: all opcodes of core/src/bytecode.rs 447-640 whose three operands are
the destination, left and right registers. -/
inductive BinOp where
  | addD | addI | bitAnd | bitOr | bitXor | concat | divD | divI
  | eqB | eqD | eqI | eqS | gtD | geD | geI | geS | gtI | gtS
  | ltD | leD | leI | leS | ltI | ltS | modD | modI | mulD | mulI
  | neB | neD | neI | neS | powD | powI | shl | shr | subD | subI
  deriving DecidableEq, Repr, Inhabited

/-- The in-place unary operations (one register operand). -/
inductive UnOp where
  | bitNot | dtoi | itod | negD | negI
  deriving DecidableEq, Repr, Inhabited

/-- Decoded instructions: every opcode of core/src/bytecode.rs 447-640 with the operands that its
`instr!` definition (650-1165) gives it. -/
inductive Instr where
  | bin (op : BinOp) (dst lhs rhs : Reg)
  | un (op : UnOp) (reg : Reg)
  | alloc (dst : Reg) (ty : ExprType)
  | allocArray (dst : Reg) (packed : PackedArrayType) (firstDim : Reg)
  | call (ret : Reg) (target : U16)
  | gosub (target : U16)
  | jump (target : U16)
  | jumpIfFalse (cond : Reg) (target : U16)
  | loadArray (dst arr firstSub : Reg)
  | loadConst (dst : Reg) (idx : U16)
  | loadInt (dst : Reg) (imm : U16)
  | loadRegPtr (dst : Reg) (ty : ExprType) (src : Reg)
  | move (dst src : Reg)
  | nop
  | ret
  | setErrorHandler (mode : ErrorHandlerMode) (target : U16)
  | storeArray (arr val firstSub : Reg)
  | «end» (code : Reg)
  | upcall (idx : U16) (first : Reg)
  | upcallAsync (idx : U16) (first : Reg)
  | eof
  deriving DecidableEq, Repr

/-- Discriminants of `Opcode` for binary operations (core/src/bytecode.rs 447-640; the enum is
`repr(u8)` without explicit values, so an opcode's number is its position). -/
def BinOp.opcode : BinOp → Nat
  | .addD => 0 | .addI => 1 | .bitAnd => 4 | .bitOr => 6 | .bitXor => 7 | .concat => 9
  | .divD => 10 | .divI => 11 | .eqB => 13 | .eqD => 14 | .eqI => 15 | .eqS => 16
  | .gtD => 18 | .geD => 19 | .geI => 20 | .geS => 21 | .gtI => 22 | .gtS => 23
  | .ltD => 27 | .leD => 28 | .leI => 29 | .leS => 30 | .ltI => 31 | .ltS => 32
  | .modD => 37 | .modI => 38 | .mulD => 40 | .mulI => 41
  | .neB => 44 | .neD => 45 | .neI => 46 | .neS => 47
  | .powD => 49 | .powI => 50 | .shl => 53 | .shr => 54 | .subD => 56 | .subI => 57

/-- Discriminants of `Opcode` for unary operations (core/src/bytecode.rs 447-640). -/
def UnOp.opcode : UnOp → Nat
  | .bitNot => 5 | .dtoi => 12 | .itod => 24 | .negD => 42 | .negI => 43

/-- Discriminants of `Opcode` (core/src/bytecode.rs 447-640). -/
def Instr.opcode : Instr → Nat
  | .bin op .. => op.opcode
  | .un op .. => op.opcode
  | .alloc .. => 2
  | .allocArray .. => 3
  | .call .. => 8
  | .gosub .. => 17
  | .jump .. => 25
  | .jumpIfFalse .. => 26
  | .loadArray .. => 33
  | .loadConst .. => 34
  | .loadInt .. => 35
  | .loadRegPtr .. => 36
  | .move .. => 39
  | .nop => 48
  | .ret => 51
  | .setErrorHandler .. => 52
  | .storeArray .. => 55
  | .«end» .. => 58
  | .upcall .. => 59
  | .upcallAsync .. => 60
  | .eof => 61

/-- One operand as placed by `instr!` (core/src/bytecode.rs 354-443):
`(RawValue::to_u32(v) & mask) << offset`. -/
def field (v mask : BitVec 32) (offset : Nat) : BitVec 32 := (v &&& mask) <<< offset

/-- One operand as extracted by `instr!` (core/src/bytecode.rs 354-443):
`(op >> offset) & mask`. -/
def unfield (op mask : BitVec 32) (offset : Nat) : BitVec 32 := (op >>> offset) &&& mask

/-- The opcode part of an instruction word: `($opcode as u32) << 24`
(core/src/bytecode.rs 354-443). -/
def opBits (n : Nat) : BitVec 32 := BitVec.ofNat 32 n <<< 24

/-- `make_*` generated by `instr!` for each opcode (core/src/bytecode.rs 650-1165). -/
def Instr.encode (i : Instr) : BitVec 32 :=
  let o := opBits i.opcode
  match i with
  | .bin _ d l r =>
      o ||| field (d.setWidth 32) 0xff#32 16 ||| field (l.setWidth 32) 0xff#32 8
        ||| field (r.setWidth 32) 0xff#32 0
  | .un _ r => o ||| field (r.setWidth 32) 0xff#32 0
  | .alloc d t => o ||| field (d.setWidth 32) 0xff#32 8 ||| field (BitVec.ofNat 32 t.toNat) 0xff#32 0
  | .allocArray d p f =>
      o ||| field (d.setWidth 32) 0xff#32 16 ||| field (p.raw.setWidth 32) 0xff#32 8
        ||| field (f.setWidth 32) 0xff#32 0
  | .call r t => o ||| field (r.setWidth 32) 0xff#32 16 ||| field (t.setWidth 32) 0xffff#32 0
  | .gosub t => o ||| field (t.setWidth 32) 0xffff#32 0
  | .jump t => o ||| field (t.setWidth 32) 0xffff#32 0
  | .jumpIfFalse r t => o ||| field (r.setWidth 32) 0xff#32 16 ||| field (t.setWidth 32) 0xffff#32 0
  | .loadArray d a f =>
      o ||| field (d.setWidth 32) 0xff#32 16 ||| field (a.setWidth 32) 0xff#32 8
        ||| field (f.setWidth 32) 0xff#32 0
  | .loadConst d i => o ||| field (d.setWidth 32) 0xff#32 16 ||| field (i.setWidth 32) 0xffff#32 0
  | .loadInt d i => o ||| field (d.setWidth 32) 0xff#32 16 ||| field (i.setWidth 32) 0xffff#32 0
  | .loadRegPtr d t s =>
      o ||| field (d.setWidth 32) 0xff#32 16 ||| field (BitVec.ofNat 32 t.toNat) 0xff#32 8
        ||| field (s.setWidth 32) 0xff#32 0
  | .move d s => o ||| field (d.setWidth 32) 0xff#32 8 ||| field (s.setWidth 32) 0xff#32 0
  | .nop => o
  | .ret => o
  | .setErrorHandler m t =>
      o ||| field (BitVec.ofNat 32 m.toNat) 0xff#32 16 ||| field (t.setWidth 32) 0xffff#32 0
  | .storeArray a v f =>
      o ||| field (a.setWidth 32) 0xff#32 16 ||| field (v.setWidth 32) 0xff#32 8
        ||| field (f.setWidth 32) 0xff#32 0
  | .«end» r => o ||| field (r.setWidth 32) 0xff#32 0
  | .upcall i r => o ||| field (i.setWidth 32) 0xffff#32 8 ||| field (r.setWidth 32) 0xff#32 0
  | .upcallAsync i r => o ||| field (i.setWidth 32) 0xffff#32 8 ||| field (r.setWidth 32) 0xff#32 0
  | .eof => o

/-- The register operand of `op` at `offset` (`Register::from_u32`, core/src/bytecode.rs 160-168;
the truncation is exact because of the mask). -/
def regAt (op : BitVec 32) (offset : Nat) : Reg := (unfield op 0xff#32 offset).setWidth 8

/-- The `u16` operand of `op` at `offset` (core/src/bytecode.rs 139-140). -/
def u16At (op : BitVec 32) (offset : Nat) : U16 := (unfield op 0xffff#32 offset).setWidth 16

/-- `opcode_of` (core/src/bytecode.rs 1172-1179) followed by the `parse_*` function that the VM
dispatch calls for that opcode.  `none` models the failed debug assertions (invalid opcode, type
tag or handler mode). -/
def decode (op : BitVec 32) : Option Instr :=
  let bin (b : BinOp) : Option Instr := some (.bin b (regAt op 16) (regAt op 8) (regAt op 0))
  let un (u : UnOp) : Option Instr := some (.un u (regAt op 0))
  match (op >>> 24).toNat with
  | 0 => bin .addD
  | 1 => bin .addI
  | 2 => (ExprType.ofNat? (unfield op 0xff#32 0).toNat).map fun t => .alloc (regAt op 8) t
  | 3 => some (.allocArray (regAt op 16) ⟨regAt op 8⟩ (regAt op 0))
  | 4 => bin .bitAnd
  | 5 => un .bitNot
  | 6 => bin .bitOr
  | 7 => bin .bitXor
  | 8 => some (.call (regAt op 16) (u16At op 0))
  | 9 => bin .concat
  | 10 => bin .divD
  | 11 => bin .divI
  | 12 => un .dtoi
  | 13 => bin .eqB
  | 14 => bin .eqD
  | 15 => bin .eqI
  | 16 => bin .eqS
  | 17 => some (.gosub (u16At op 0))
  | 18 => bin .gtD
  | 19 => bin .geD
  | 20 => bin .geI
  | 21 => bin .geS
  | 22 => bin .gtI
  | 23 => bin .gtS
  | 24 => un .itod
  | 25 => some (.jump (u16At op 0))
  | 26 => some (.jumpIfFalse (regAt op 16) (u16At op 0))
  | 27 => bin .ltD
  | 28 => bin .leD
  | 29 => bin .leI
  | 30 => bin .leS
  | 31 => bin .ltI
  | 32 => bin .ltS
  | 33 => some (.loadArray (regAt op 16) (regAt op 8) (regAt op 0))
  | 34 => some (.loadConst (regAt op 16) (u16At op 0))
  | 35 => some (.loadInt (regAt op 16) (u16At op 0))
  | 36 =>
    (ExprType.ofNat? (unfield op 0xff#32 8).toNat).map fun t =>
      .loadRegPtr (regAt op 16) t (regAt op 0)
  | 37 => bin .modD
  | 38 => bin .modI
  | 39 => some (.move (regAt op 8) (regAt op 0))
  | 40 => bin .mulD
  | 41 => bin .mulI
  | 42 => un .negD
  | 43 => un .negI
  | 44 => bin .neB
  | 45 => bin .neD
  | 46 => bin .neI
  | 47 => bin .neS
  | 48 => some .nop
  | 49 => bin .powD
  | 50 => bin .powI
  | 51 => some .ret
  | 52 =>
    (ErrorHandlerMode.ofNat? (unfield op 0xff#32 16).toNat).map fun m =>
      .setErrorHandler m (u16At op 0)
  | 53 => bin .shl
  | 54 => bin .shr
  | 55 => some (.storeArray (regAt op 16) (regAt op 8) (regAt op 0))
  | 56 => bin .subD
  | 57 => bin .subI
  | 58 => some (.«end» (regAt op 0))
  | 59 => some (.upcall (u16At op 8) (regAt op 0))
  | 60 => some (.upcallAsync (u16At op 8) (regAt op 0))
  | 61 => some .eof
  | _ => none

/-! ## Exit codes -/

/-- `ExitCode::try_new` (core/src/bytecode.rs 85-91): the code as stored (a `u8`), or `none` for
`InvalidExitCodeError`. -/
def exitCodeTryNew (value : Int) : Option (BitVec 8) :=
  if 0 ≤ value ∧ value < 128 then some (BitVec.ofInt 8 value) else none

/-- `ExitCode::to_i32` (core/src/bytecode.rs 94-96). -/
def exitCodeToInt (c : BitVec 8) : Int := c.toNat

/-! ## Registers -/

/-- `Register::MAX_GLOBAL` (core/src/bytecode.rs 174). -/
def maxGlobal : Nat := 64

/-- `Register::global` (core/src/bytecode.rs 178-180). -/
def regGlobal (reg : BitVec 8) : Option Reg := if reg.toNat < maxGlobal then some reg else none

/-- `Register::local` (core/src/bytecode.rs 184-189). -/
def regLocal (reg : BitVec 8) : Option Reg :=
  if reg.toNat + maxGlobal < 256 then some (BitVec.ofNat 8 (reg.toNat + maxGlobal)) else none

/-- `Register::to_parts` (core/src/bytecode.rs 193-195). -/
def regToParts (r : Reg) : Bool × Nat :=
  if r.toNat < maxGlobal then (true, r.toNat) else (false, r.toNat - maxGlobal)

/-! ## Tagged register references -/

/-- `TaggedRegisterRef::new` (core/src/bytecode.rs 211-220); `none` is the failed
`u32::try_from(..).expect(..)`. -/
def taggedRegNew (reg : Reg) (fp : Nat) (ty : ExprType) : Option (BitVec 64) :=
  let (isGlobal, index) := regToParts reg
  let index := if isGlobal then index else index + fp
  if index < 2 ^ 32 then
    some ((BitVec.ofNat 64 ty.toNat <<< 32) ||| BitVec.ofNat 64 index)
  else none

/-- `TaggedRegisterRef::parse` (core/src/bytecode.rs 226-239); the type is read with an unchecked
truncation to 8 bits, `none` is the failed assertion. -/
def taggedRegParse (v : BitVec 64) : Option (Nat × ExprType) :=
  (ExprType.ofNat? ((v >>> 32).setWidth 8).toNat).map fun t => ((v &&& 0xffffffff#64).toNat, t)

/-! ## Variadic argument tags -/

/-- `VarArgTag` (core/src/bytecode.rs 1188-1200). -/
inductive VarArgTag where
  | missing (sep : ArgSep)
  | immediate (sep : ArgSep) (ty : ExprType)
  | pointer (sep : ArgSep)
  deriving DecidableEq, Repr

/-- `VarArgTag::make_u16` (core/src/bytecode.rs 1239-1246). -/
def VarArgTag.make (t : VarArgTag) : BitVec 16 :=
  let (key, sep, other) : Nat × ArgSep × Nat := match t with
    | .missing sep => (0, sep, 0)
    | .immediate sep ty => (1, sep, ty.toNat)
    | .pointer sep => (2, sep, 0)
  (BitVec.ofNat 16 key <<< 8) ||| (BitVec.ofNat 16 sep.toNat <<< 4) ||| BitVec.ofNat 16 other

/-- `VarArgTag::parse_u64` (core/src/bytecode.rs 1204-1236); `none` is `InvalidTypeTag`. -/
def VarArgTag.parse (value : BitVec 64) : Option VarArgTag :=
  if value &&& ~~~0x0fff#64 ≠ 0#64 then none
  else
    let key := ((value &&& 0x0f00#64) >>> 8).toNat
    let sep := ((value &&& 0x00f0#64) >>> 4).toNat
    let other := (value &&& 0x000f#64).toNat
    match ArgSep.ofNat? sep with
    | none => none
    | some sep =>
      match key with
      | 0 => if other = 0 then some (.missing sep) else none
      | 1 => (ExprType.ofNat? other).map fun t => .immediate sep t
      | 2 => if other = 0 then some (.pointer sep) else none
      | _ => none

end EB
