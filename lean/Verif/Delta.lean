import Verif.Runtime

/-!
# Model of `crates/zserio/src/ztype/array_traits/`

Array traits, the delta context and the packing context tree.
-/

namespace Zs

/-- `i64` subtraction: panics on overflow in debug builds, wraps in release builds. -/
def subI64 (md : Mode) (a b : Int) : Res Int :=
  if -2 ^ 63 ≤ a - b ∧ a - b < 2 ^ 63 then .ok (a - b)
  else match md with
    | .debug => .panic
    | .release => .ok (wrapSigned 64 (a - b))

/-- `i64` addition: panics on overflow in debug builds, wraps in release builds. -/
def addI64 (md : Mode) (a b : Int) : Res Int :=
  if -2 ^ 63 ≤ a + b ∧ a + b < 2 ^ 63 then .ok (a + b)
  else match md with
    | .debug => .panic
    | .release => .ok (wrapSigned 64 (a + b))

/-- `u64::abs_diff`. -/
def absDiff (a b : Nat) : Nat := if a ≤ b then b - a else a - b

/-- `array_trait.rs` lines 6-16: the part of `ArrayTrait<T>` that deals with single elements.
`value: &mut T` becomes an argument (the old content) and a result.  `needs_bitsizeof_position` and
`initialize_offsets` are never called by the run-time library and are left out. -/
structure Elem (α : Type) where
  isBitsizeofConstant : Bool
  bitsizeOf : Nat → α → Res Nat
  read : Reader → α → Res (α × Reader)
  write : Writer → α → Res Writer
  toU64 : α → Res Nat
  fromU64 : Nat → Res α

/-- `delta_context.rs` lines 13-22. -/
structure DeltaContext where
  isPacked : Bool
  maxBitNumber : Nat
  unpackedSize : Nat
  firstElementSize : Nat
  numElements : Nat
  previousElement : Nat
  initStarted : Bool
  processingStarted : Bool
  deriving DecidableEq, Repr

namespace DeltaContext

/-- `delta_context.rs` line 10. -/
def maxBitNumberLimit : Nat := 62
/-- `delta_context.rs` line 11. -/
def maxBitNumberBits : Nat := 6

/-- `delta_context.rs` lines 31-42. -/
def new : DeltaContext := ⟨false, 0, 0, 0, 0, 0, false, false⟩

/-- `delta_context.rs` lines 44-65: `init`.  The `u64` sums `num_elements`, `unpacked_size` are kept
as natural numbers (an overflow needs 2^64 bits of data). -/
def init {α : Type} (c : DeltaContext) (e : Elem α) (element : α) : Res DeltaContext := do
  let c := { c with numElements := c.numElements + 1 }
  let size ← e.bitsizeOf 0 element
  let c := { c with unpackedSize := c.unpackedSize + size }
  if !c.initStarted then do
    let u ← e.toU64 element
    pure { c with initStarted := true, previousElement := u, firstElementSize := c.unpackedSize }
  else if c.maxBitNumber ≤ maxBitNumberLimit then do
    let c := { c with isPacked := true }
    let u ← e.toU64 element
    let delta := absDiff c.previousElement u
    let maxBitNumber ← bitLength delta
    let c :=
      if maxBitNumber > c.maxBitNumber then
        let c := { c with maxBitNumber := maxBitNumber }
        if c.maxBitNumber > maxBitNumberLimit then { c with isPacked := false } else c
      else c
    pure { c with previousElement := u }
  else pure c

/-- `delta_context.rs` lines 112-130: `finish_init`. -/
def finishInit (c : DeltaContext) : DeltaContext :=
  if !c.isPacked then c
  else
    let deltaBitSize := c.maxBitNumber
    let deltaBitSize := if deltaBitSize > 0 then deltaBitSize + 1 else deltaBitSize
    let packedBitSizeWithDescriptor :=
      1 + maxBitNumberBits + c.firstElementSize + (c.numElements - 1) * deltaBitSize
    let unpackedBitSizeWithDescriptor := 1 + c.unpackedSize
    if packedBitSizeWithDescriptor ≥ unpackedBitSizeWithDescriptor then
      { c with isPacked := false }
    else c

/-- `delta_context.rs` lines 158-163. -/
def bitsizeOfDescriptor (c : DeltaContext) : Nat :=
  if c.isPacked then 1 + maxBitNumberBits else 1

/-- `delta_context.rs` lines 207-209. -/
def bitsizeOfUnpacked {α : Type} (e : Elem α) (element : α) : Res Nat := e.bitsizeOf 0 element

/-- `delta_context.rs` lines 67-88: `bitsize_of` (the bit position is not used). -/
def bitsizeOf {α : Type} (c : DeltaContext) (e : Elem α) (element : α) :
    Res (Nat × DeltaContext) :=
  if !c.processingStarted then do
    let c := finishInit { c with processingStarted := true }
    let s ← bitsizeOfUnpacked e element
    pure (c.bitsizeOfDescriptor + s, c)
  else if !c.isPacked then do
    let s ← bitsizeOfUnpacked e element
    pure (s, c)
  else if c.maxBitNumber > 0 then pure (c.maxBitNumber + 1, c)
  else pure (0, c)

/-- `delta_context.rs` lines 165-173: `read_descriptor` (`expect`/`unwrap` panic at the end of the
data). -/
def readDescriptor (c : DeltaContext) (r : Reader) : Res (DeltaContext × Reader) := do
  let (isPacked, r) ← r.readBool.unwrap
  let c := { c with isPacked := isPacked }
  if c.isPacked then do
    let (m, r) ← (readUnsignedBits r maxBitNumberBits).unwrap
    pure ({ c with maxBitNumber := m % 2 ^ 8 }, r)
  else pure (c, r)

/-- `delta_context.rs` lines 175-184: `read_unpacked`. -/
def readUnpacked {α : Type} (c : DeltaContext) (e : Elem α) (r : Reader) (value : α) :
    Res ((α × DeltaContext) × Reader) := do
  let (value, r) ← e.read r value
  let u ← e.toU64 value
  pure ((value, { c with previousElement := u }), r)

/-- `delta_context.rs` lines 90-110: `read`. -/
def read {α : Type} (md : Mode) (c : DeltaContext) (e : Elem α) (r : Reader) (value : α) :
    Res ((α × DeltaContext) × Reader) :=
  if !c.processingStarted then do
    let c := { c with processingStarted := true }
    let (c, r) ← c.readDescriptor r
    c.readUnpacked e r value
  else if !c.isPacked then c.readUnpacked e r value
  else do
    let (c, r) ←
      if c.maxBitNumber > 0 then do
        let (delta, r) ← readSignedBits r (c.maxBitNumber + 1)
        let sum ← addI64 md (asI64 c.previousElement) delta
        pure ({ c with previousElement := asU64 sum }, r)
      else pure (c, r)
    let value ← e.fromU64 c.previousElement
    pure ((value, c), r)

/-- `delta_context.rs` lines 186-194: `write_descriptor`. -/
def writeDescriptor (c : DeltaContext) (w : Writer) : Res Writer := do
  let w ← (w.writeBool c.isPacked).unwrap
  if c.isPacked then (writeUnsignedBits w c.maxBitNumber maxBitNumberBits).unwrap
  else pure w

/-- `delta_context.rs` lines 196-205: `write_unpacked`. -/
def writeUnpacked {α : Type} (c : DeltaContext) (e : Elem α) (w : Writer) (element : α) :
    Res (Writer × DeltaContext) := do
  let u ← e.toU64 element
  let c := { c with previousElement := u }
  let w ← e.write w element
  pure (w, c)

/-- `delta_context.rs` lines 132-155: `write`. -/
def write {α : Type} (md : Mode) (c : DeltaContext) (e : Elem α) (w : Writer) (element : α) :
    Res (Writer × DeltaContext) :=
  if !c.processingStarted then do
    let c := finishInit { c with processingStarted := true }
    let w ← c.writeDescriptor w
    c.writeUnpacked e w element
  else if !c.isPacked then c.writeUnpacked e w element
  else if c.maxBitNumber > 0 then do
    let u ← e.toU64 element
    let delta ← subI64 md (asI64 u) (asI64 c.previousElement)
    let w ← writeSignedBits w delta (c.maxBitNumber + 1)
    pure (w, { c with previousElement := u })
  else pure (w, c)

end DeltaContext

/-- `packing_context_node.rs` lines 10-22. -/
inductive Node where
  | mk (children : List Node) (context : Option DeltaContext)

namespace Node

/-- `packing_context_node.rs` lines 15-22. -/
def new : Node := .mk [] none

/-- The field `children`. -/
def children : Node → List Node
  | .mk cs _ => cs

/-- The field `context`. -/
def context : Node → Option DeltaContext
  | .mk _ c => c

/-- `context_node.context.as_mut().unwrap()`: run `f` on the context and store what it leaves. -/
def onContext {β : Type} (n : Node) (f : DeltaContext → Res (β × DeltaContext)) :
    Res (β × Node) :=
  match n with
  | .mk _ none => .panic
  | .mk cs (some c) => do
    let (b, c) ← f c
    pure (b, .mk cs (some c))

end Node

/-- `array_trait.rs` lines 6-54: `ArrayTrait<T>` with its context functions. -/
structure ArrayTrait (α : Type) extends Elem α where
  createContext : Node
  initContext : Node → α → Res Node
  bitsizeOfPacked : Node → Nat → α → Res (Nat × Node)
  readPacked : Node → Reader → α → Res ((α × Node) × Reader)
  writePacked : Node → Writer → α → Res (Writer × Node)

/-- All traits but `ObjectArrayTrait` share this implementation of the context functions
(`array_trait.rs` lines 19-24 for `create_context`; `unsigned_bit_field_array_trait.rs` lines 49-105
and the same text in the other trait files): they go to the delta context of the node. -/
def Elem.packable {α : Type} (md : Mode) (e : Elem α) : ArrayTrait α where
  toElem := e
  createContext := .mk [] (some DeltaContext.new)
  initContext n x := do
    let (_, n) ← n.onContext (fun c => do let c ← c.init e x; pure ((), c))
    pure n
  bitsizeOfPacked n _ x := n.onContext (fun c => c.bitsizeOf e x)
  readPacked n r x :=
    match n with
    | .mk _ none => .panic
    | .mk cs (some c) => do
      let ((x, c), r) ← c.read md e r x
      pure ((x, .mk cs (some c)), r)
  writePacked n w x := n.onContext (fun c => c.write md e w x)

/-! ## The element traits

`value` after a successful read never depends on its old content for these. -/

/-- `unsigned_bit_field_array_trait.rs` lines 16-48, for the Rust type `u(width)`. -/
def uintElem (width numBits : Nat) : Elem Nat where
  isBitsizeofConstant := true
  bitsizeOf _ _ := .ok numBits
  read r _ := do
    let (v, r) ← readUnsignedBits r numBits
    pure (v % 2 ^ width, r)
  write w v := writeUnsignedBits w v numBits
  toU64 v := .ok v
  fromU64 u := .ok (u % 2 ^ width)

/-- `bit_field_array_trait.rs` lines 16-48, for the Rust type `i(width)`. -/
def intElem (width numBits : Nat) : Elem Int where
  isBitsizeofConstant := true
  bitsizeOf _ _ := .ok numBits
  read r _ := do
    let (v, r) ← readSignedBits r numBits
    pure (wrapSigned width v, r)
  write w v := writeSignedBits w v numBits
  toU64 v := .ok (asU64 v)
  fromU64 u := .ok (wrapSigned width (u : Int))

/-- The shape of `varuint16/32/64_array_trait.rs`, `varuint_array_trait.rs`, `varsize_array_trait.rs`
lines 10-41, for the Rust type `u(width)`. -/
def varuElem (width : Nat) (size : Nat → Res Nat) (read : Reader → Res (Nat × Reader))
    (write : Writer → Nat → Res Writer) : Elem Nat where
  isBitsizeofConstant := false
  bitsizeOf _ v := size v
  read r _ := read r
  write w v := write w v
  toU64 v := .ok v
  fromU64 u := .ok (u % 2 ^ width)

/-- `varuint16_array_trait.rs` lines 10-41. -/
def varuint16Elem : Elem Nat := varuElem 16 varuint16Bitsize readVaruint16 writeVaruint16
/-- `varuint32_array_trait.rs` lines 10-41. -/
def varuint32Elem : Elem Nat := varuElem 32 varuint32Bitsize readVaruint32 writeVaruint32
/-- `varuint64_array_trait.rs` lines 10-41. -/
def varuint64Elem : Elem Nat := varuElem 64 varuint64Bitsize readVaruint64 writeVaruint64
/-- `varuint_array_trait.rs` lines 10-41. -/
def varuintElem : Elem Nat := varuElem 64 varuintBitsize readVaruint writeVaruint
/-- `varsize_array_trait.rs` lines 10-41. -/
def varsizeElem : Elem Nat := varuElem 32 varsizeBitsize readVarsize writeVarsize

/-- The shape of `varint16/32/64_array_trait.rs`, `varint_array_trait.rs` lines 10-41, for the Rust
type `i(width)`. -/
def variElem (width : Nat) (size : Int → Res Nat) (read : Reader → Res (Int × Reader))
    (write : Writer → Int → Res Writer) : Elem Int where
  isBitsizeofConstant := false
  bitsizeOf _ v := size v
  read r _ := read r
  write w v := write w v
  toU64 v := .ok (asU64 v)
  fromU64 u := .ok (wrapSigned width (u : Int))

/-- `varint16_array_trait.rs` lines 10-41. -/
def varint16Elem (md : Mode) : Elem Int :=
  variElem 16 (varint16Bitsize md) readVarint16 (writeVarint16 md)
/-- `varint32_array_trait.rs` lines 10-41. -/
def varint32Elem (md : Mode) : Elem Int :=
  variElem 32 (varint32Bitsize md) readVarint32 (writeVarint32 md)
/-- `varint64_array_trait.rs` lines 10-41. -/
def varint64Elem (md : Mode) : Elem Int :=
  variElem 64 (varint64Bitsize md) readVarint64 (writeVarint64 md)
/-- `varint_array_trait.rs` lines 10-41. -/
def varintElem (md : Mode) : Elem Int :=
  variElem 64 (varintBitsize md) readVarint (writeVarint md)

/-- `boolean_array_trait.rs` lines 10-40. -/
def boolElem : Elem Bool where
  isBitsizeofConstant := true
  bitsizeOf _ _ := .ok 1
  read r _ := r.readBool
  write w v := w.writeBool v
  toU64 _ := .ok 0
  fromU64 _ := .ok false

/-- `float16_array_trait.rs` lines 10-41 (values are bit patterns of `f32`). -/
def float16Elem (fromF32 : UInt32 → UInt16) (toF32 : UInt16 → UInt32) : Elem UInt32 where
  isBitsizeofConstant := true
  bitsizeOf _ _ := .ok 16
  read r _ := readFloat16 toF32 r
  write w v := writeFloat16 fromF32 w v
  toU64 _ := .ok 0
  fromU64 _ := .ok 0

/-- `float32_array_trait.rs` lines 10-41. -/
def float32Elem : Elem UInt32 where
  isBitsizeofConstant := true
  bitsizeOf _ _ := .ok 32
  read r _ := readFloat32 r
  write w v := writeFloat32 w v
  toU64 _ := .ok 0
  fromU64 _ := .ok 0

/-- `float64_array_trait.rs` lines 10-41. -/
def float64Elem : Elem UInt64 where
  isBitsizeofConstant := true
  bitsizeOf _ _ := .ok 64
  read r _ := readFloat64 r
  write w v := writeFloat64 w v
  toU64 _ := .ok 0
  fromU64 _ := .ok 0

/-- `string_array_trait.rs` lines 12-43 (line 22 adds the number of *bytes*). -/
def stringElem : Elem String where
  isBitsizeofConstant := false
  bitsizeOf _ s := do
    let h ← varsizeBitsize (asU32 (strBytes s).length)
    pure ((strBytes s).length + h)
  read r _ := readString r
  write w s := writeString w s
  toU64 _ := .ok 0
  fromU64 _ := .ok ""

/-- `byte_buffer_array_trait.rs` lines 10-41. -/
def bytesElem : Elem BytesType where
  isBitsizeofConstant := false
  bitsizeOf _ v := bitsizeOfBytes v
  read r _ := readBytesType r
  write w v := writeBytesType w v
  toU64 _ := .panic
  fromU64 _ := .panic

/-- `bit_buffer_array_trait.rs` lines 10-41. -/
def externElem : Elem ExternType where
  isBitsizeofConstant := false
  bitsizeOf _ v := bitsizeOfExtern v
  read r _ := readExternType r
  write w v := writeExternType w v
  toU64 _ := .panic
  fromU64 _ := .panic

end Zs
