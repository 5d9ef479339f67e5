import Verif.Model.Types
/-!
# Constants, arrays and the heap

Models core/src/mem.rs and core/src/num.rs.
-/

namespace EB

/-- `ConstantDatum` (core/src/mem.rs 65-77).  A double is its 64-bit pattern, which is also what
its `PartialEq` and `Hash` (84-108) compare; an integer is its 32-bit pattern. -/
inductive ConstantDatum where
  | boolean (b : Bool)
  | double (bits : BitVec 64)
  | integer (i : BitVec 32)
  | text (s : Str)
  deriving DecidableEq, Repr

/-- `ConstantDatum::etype` (core/src/mem.rs 137-144). -/
def ConstantDatum.etype : ConstantDatum → ExprType
  | .boolean _ => .boolean
  | .double _ => .double
  | .integer _ => .integer
  | .text _ => .text

/-- Why `flat_index` fails (core/src/mem.rs 47 and 50). -/
inductive SubscriptError where
  | negative (s : Int)
  | exceeds (s : Nat) (d : Nat)
  deriving DecidableEq, Repr

/-- The loop of `ArrayData::flat_index` (core/src/mem.rs 45-54) with the loop variables `offset`
and `multiplier`.  `usize` arithmetic is unbounded here: the products are bounded by the number of
elements of an array that exists. -/
def flatIndexLoop (offset multiplier : Nat) : List Int → List Nat → Except SubscriptError Nat
  | s :: ss, d :: ds =>
    if s < 0 then .error (.negative s)
    else if s.toNat ≥ d then .error (.exceeds s.toNat d)
    else flatIndexLoop (offset + s.toNat * multiplier) (multiplier * d) ss ds
  | _, _ => .ok offset

/-- `ArrayData::flat_index` (core/src/mem.rs 36-56).  `none` is the failed `debug_assert_eq` on the
number of subscripts. -/
def flatIndex (dims : List Nat) (subs : List Int) : Option (Except SubscriptError Nat) :=
  if subs.length = dims.length then some (flatIndexLoop 0 1 subs dims) else none

/-- `ArrayData` (core/src/mem.rs 25-32). -/
structure ArrayData where
  dimensions : List Nat
  values : List (BitVec 64)
  deriving DecidableEq, Repr

/-- `HeapDatum` (core/src/mem.rs 207-213). -/
inductive HeapDatum where
  | array (a : ArrayData)
  | text (s : Str)
  deriving DecidableEq, Repr

/-- `Heap` (core/src/mem.rs 221-224). -/
structure Heap where
  data : List HeapDatum
  maxEntries : Nat
  deriving DecidableEq, Repr

/-- `Heap::new` (core/src/mem.rs 228-230). -/
def Heap.new (maxEntries : Nat) : Heap := ⟨[.text []], maxEntries⟩

/-- `DatumPtr::for_heap` (core/src/mem.rs 304-308): `(-(index as i32) - 1) as u64`, with wrapping
32-bit arithmetic and sign extension. -/
def ptrForHeap (index : Nat) : BitVec 64 := (-(BitVec.ofNat 32 index) - 1#32).signExtend 64

/-- `Heap::empty_text_ptr` (core/src/mem.rs 243-246); the debug assertion is an invariant of the
heap (see `Heap.WF`). -/
def Heap.emptyTextPtr (_ : Heap) : BitVec 64 := ptrForHeap 0

/-- `Heap::push` (core/src/mem.rs 249-260); `none` is `HeapOverflowError`. -/
def Heap.push (h : Heap) (d : HeapDatum) : Option (BitVec 64 × Heap) :=
  if d = .text [] then some (h.emptyTextPtr, h)
  else if h.data.length ≥ 2 ^ 24 then none
  else if h.data.length ≥ h.maxEntries then none
  else some (ptrForHeap h.data.length, { h with data := h.data ++ [d] })

/-- `DatumPtr` (core/src/mem.rs 277-284). -/
inductive DatumPtr where
  | constant (i : Nat)
  | heap (i : Nat)
  deriving DecidableEq, Repr

/-- `DatumPtr::from(u64)` (core/src/mem.rs 286-294); `none` is the failed `unwrap` of
`U24::try_from` (core/src/num.rs 31-46). -/
def DatumPtr.ofU64 (v : BitVec 64) : Option DatumPtr :=
  let s : BitVec 32 := v.setWidth 32
  if s.toInt < 0 then
    let i := (-s - 1#32).toNat
    if i < 2 ^ 24 then some (.heap i) else none
  else
    if s.toNat < 2 ^ 24 then some (.constant s.toNat) else none

/-- `DatumPtr::resolve_string` (core/src/mem.rs 305-320); `none` is a panic. -/
def DatumPtr.resolveString (p : DatumPtr) (constants : List ConstantDatum) (heap : Heap) : Option Str :=
  match p with
  | .constant i => match constants[i]? with
    | some (.text s) => some s
    | _ => none
  | .heap i => match heap.data[i]? with
    | some (.text s) => some s
    | _ => none

/-- `DatumPtr::heap_index` (core/src/mem.rs 333-338); `none` is a panic. -/
def DatumPtr.heapIndex : DatumPtr → Option Nat
  | .heap i => some i
  | .constant _ => none

/-- `ConstantDatum::from_raw` (core/src/mem.rs 184-200); `none` is a panic. -/
def ConstantDatum.fromRaw (value : BitVec 64) (ty : ExprType) (constants : List ConstantDatum)
    (heap : Heap) : Option ConstantDatum :=
  match ty with
  | .boolean => some (.boolean (value != 0))
  | .double => some (.double value)
  | .integer => some (.integer (value.setWidth 32))
  | .text => do
    let p ← DatumPtr.ofU64 value
    let s ← p.resolveString constants heap
    pure (.text s)

end EB

namespace EB

/-- A new array as made by `do_alloc_array` (core/src/vm/context.rs 636-642): `total` copies of the
default value (0, or the pointer to the empty string). -/
def newArray (ty : ExprType) (dims : List Nat) : ArrayData :=
  let total := dims.foldl (· * ·) 1
  { dimensions := dims
    values := List.replicate total (if ty = .text then ptrForHeap 0 else 0#64) }

/-- Reading an element (`do_load_array`, core/src/vm/context.rs 897-908).  `none` is a panic (wrong
number of subscripts or index out of range). -/
def ArrayData.load (a : ArrayData) (subs : List Int) : Option (Except SubscriptError (BitVec 64)) :=
  match flatIndex a.dimensions subs with
  | none => none
  | some (.error e) => some (.error e)
  | some (.ok i) => (a.values[i]?).map .ok

/-- Writing an element (`do_store_array`, core/src/vm/context.rs 1097-1109).  `none` is a panic
(wrong number of subscripts or index out of range). -/
def ArrayData.store (a : ArrayData) (subs : List Int) (v : BitVec 64) :
    Option (Except SubscriptError ArrayData) :=
  match flatIndex a.dimensions subs with
  | none => none
  | some (.error e) => some (.error e)
  | some (.ok i) =>
    if i < a.values.length then some (.ok { a with values := a.values.set i v }) else none

end EB
