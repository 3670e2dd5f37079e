import Verif.Base

/-!
# Model of the run-time crate: scalars

`crates/zserio/src/numbits.rs` and the scalar parts of `crates/zserio/src/ztype/`.
-/

namespace Zs

/-! ## numbits.rs -/

/-- `numbits.rs` lines 21-37: the table `BIT_LENGTH_BYTE`, as the list of its characters' codes
(one line of 16 entries per source line). -/
def bitLengthByte : List Nat :=
  [0, 1, 2, 2, 3, 3, 3, 3, 4, 4, 4, 4, 4, 4, 4, 4,
   5, 5, 5, 5, 5, 5, 5, 5, 5, 5, 5, 5, 5, 5, 5, 5,
   6, 6, 6, 6, 6, 6, 6, 6, 6, 6, 6, 6, 6, 6, 6, 6,
   6, 6, 6, 6, 6, 6, 6, 6, 6, 6, 6, 6, 6, 6, 6, 6,
   7, 7, 7, 7, 7, 7, 7, 7, 7, 7, 7, 7, 7, 7, 7, 7,
   7, 7, 7, 7, 7, 7, 7, 7, 7, 7, 7, 7, 7, 7, 7, 7,
   7, 7, 7, 7, 7, 7, 7, 7, 7, 7, 7, 7, 7, 7, 7, 7,
   7, 7, 7, 7, 7, 7, 7, 7, 7, 7, 7, 7, 7, 7, 7, 7,
   8, 8, 8, 8, 8, 8, 8, 8, 8, 8, 8, 8, 8, 8, 8, 8,
   8, 8, 8, 8, 8, 8, 8, 8, 8, 8, 8, 8, 8, 8, 8, 8,
   8, 8, 8, 8, 8, 8, 8, 8, 8, 8, 8, 8, 8, 8, 8, 8,
   8, 8, 8, 8, 8, 8, 8, 8, 8, 8, 8, 8, 8, 8, 8, 8,
   8, 8, 8, 8, 8, 8, 8, 8, 8, 8, 8, 8, 8, 8, 8, 8,
   8, 8, 8, 8, 8, 8, 8, 8, 8, 8, 8, 8, 8, 8, 8, 8,
   8, 8, 8, 8, 8, 8, 8, 8, 8, 8, 8, 8, 8, 8, 8, 8,
   8, 8, 8, 8, 8, 8, 8, 8, 8, 8, 8, 8, 8, 8, 8, 8]

/-- `numbits.rs` lines 3-19: `bit_length`.  The argument is any Rust integer, given by its value;
`to_u64().expect(..)` panics for a negative value, `nth(..).unwrap()` beyond the table. -/
def bitLength (value : Int) : Res Nat :=
  if value < 0 then .panic else
    let x := value.toNat
    let (x, n) := if x ≥ 1 <<< 32 then (x >>> 32, 32) else (x, 0)
    let (x, n) := if x ≥ 1 <<< 16 then (x >>> 16, n + 16) else (x, n)
    let (x, n) := if x ≥ 1 <<< 8 then (x >>> 8, n + 8) else (x, n)
    match bitLengthByte[x]? with
    | some k => .ok (n + k)
    | none => .panic

/-- `numbits.rs` lines 40-48: `numbits`.  (`value - 1` overflows only for the minimum of a signed
type, whose `bit_length` panics in any case; so no separate overflow case is needed.) -/
def numbits (value : Int) : Res Nat :=
  if value = 0 then .ok 0
  else if value = 1 then .ok 1
  else bitLength (value - 1)

/-! ## alignment.rs, bit_alignment.rs -/

/-- `alignment.rs` lines 7-12: `align_reader`.  `% 0` panics. -/
def alignReader (r : Reader) (a : Nat) : Res Reader :=
  if a = 0 then .panic else
    let curAlignment := r.position % a
    let bitsToSkip := (a - curAlignment) % a
    r.skip bitsToSkip

/-- `alignment.rs` lines 14-19: `align_writer`. -/
def alignWriter (w : Writer) (a : Nat) : Res Writer :=
  if a = 0 then .panic else
    let curAlignment := w.bitCount % a
    let bitsToSkip := (a - curAlignment) % a
    w.skip bitsToSkip

/-- `alignment.rs` lines 21-24: `align_bitsize`. -/
def alignBitsize (bitPos a : Nat) : Res Nat :=
  if a = 0 then .panic else
    let curAlignment := bitPos % a
    .ok ((a - curAlignment) % a)

/-- `bit_alignment.rs` lines 9-11: `align_to`.  `bit_position - 1` underflows at 0: a panic in
debug builds; in release builds it wraps to `u64::MAX` and the rest is computed modulo 2^64. -/
def alignTo (m : Mode) (a bitPosition : Nat) : Res Nat :=
  if a = 0 then .panic
  else if bitPosition = 0 then
    match m with
    | .debug => .panic
    | .release => .ok ((((2 ^ 64 - 1) / a + 1) * a) % 2 ^ 64)
  else .ok (((bitPosition - 1) / a + 1) * a)

/-! ## bits_encode.rs, bits_decode.rs -/

/-- `bits_encode.rs` lines 4-9. -/
def writeUnsignedBits (w : Writer) (v bits : Nat) : Res Writer :=
  if bits > 64 then .panic else w.writeUnsigned v bits 64

/-- `bits_encode.rs` lines 11-16. -/
def writeSignedBits (w : Writer) (v : Int) (bits : Nat) : Res Writer :=
  if bits > 64 then .panic else w.writeSigned v bits 64

/-- `bits_encode.rs` lines 18-29: `write_uint8/16/32/64` (`n` = 8, 16, 32, 64). -/
def writeUint (n : Nat) (w : Writer) (v : Nat) : Res Writer := writeUnsignedBits w v n

/-- `bits_encode.rs` lines 31-42: `write_int8/16/32/64` (`n` = 8, 16, 32, 64). -/
def writeInt (n : Nat) (w : Writer) (v : Int) : Res Writer := w.writeSigned v n n

/-- `bits_decode.rs` lines 4-9. -/
def readUnsignedBits (r : Reader) (bits : Nat) : Res (Nat × Reader) :=
  if bits > 64 then .panic else r.readUnsigned bits 64

/-- `bits_decode.rs` lines 11-16. -/
def readSignedBits (r : Reader) (bits : Nat) : Res (Int × Reader) :=
  if bits > 64 then .panic else r.readSigned bits 64

/-- `bits_decode.rs` lines 18-30: `read_uint8/16/32/64`. -/
def readUint (n : Nat) (r : Reader) : Res (Nat × Reader) := r.readUnsigned n n

/-- `bits_decode.rs` lines 32-43: `read_int8/16/32/64`. -/
def readInt (n : Nat) (r : Reader) : Res (Int × Reader) := r.readSigned n n

/-! ## varuint_bitsize.rs, varint_bitsize.rs -/

/-- `u64`/`i64` left shift: bits beyond 64 are dropped. -/
def shl64 (a k : Nat) : Nat := (a <<< k) % 2 ^ 64

/-- `varuint_bitsize.rs` lines 27-45: the loop of `unsigned_bitsize`, at `bytes` and `max`. -/
def unsignedBitsizeLoop (v maxBytes bytes max : Nat) : Res Nat :=
  if v ≤ max then .ok (bytes * 8)
  else if bytes + 1 > maxBytes then .err .dataError
  else if bytes + 1 = maxBytes then
    unsignedBitsizeLoop v maxBytes (bytes + 1) (shl64 max 8 ||| 0xff)
  else
    unsignedBitsizeLoop v maxBytes (bytes + 1) (shl64 max 7 ||| 0xff)
termination_by maxBytes - bytes

/-- `varuint_bitsize.rs` lines 23-46: `unsigned_bitsize`. -/
def unsignedBitsize (v maxBytes : Nat) : Res Nat :=
  unsignedBitsizeLoop v maxBytes 1 ((1 <<< 7) - 1)

/-- Negation of an `i64` (`-v`): overflows for `i64::MIN`. -/
def negI64 (m : Mode) (v : Int) : Res Int :=
  if v = -2 ^ 63 then
    match m with
    | .debug => .panic
    | .release => .ok (-2 ^ 63)
  else .ok (-v)

/-- `varint_bitsize.rs` lines 24-45: the loop of `signed_bitsize`.  `max` is an `i64` that stays
below `2^63` for at most 9 bytes, so it is kept as a natural number. -/
def signedBitsizeLoop (v : Int) (maxBytes bytes max : Nat) : Res Nat :=
  if v ≤ (max : Int) then .ok (bytes * 8)
  else if bytes + 1 > maxBytes then .err .dataError
  else if bytes + 1 = maxBytes then
    signedBitsizeLoop v maxBytes (bytes + 1) (shl64 max 8 ||| 0xff)
  else
    signedBitsizeLoop v maxBytes (bytes + 1) (shl64 max 7 ||| 0xff)
termination_by maxBytes - bytes

/-- `varint_bitsize.rs` lines 19-46: `signed_bitsize`. -/
def signedBitsize (m : Mode) (v : Int) (maxBytes : Nat) : Res Nat := do
  let v ← if v < 0 then negI64 m v else pure v
  signedBitsizeLoop v maxBytes 1 ((1 <<< 6) - 1)

/-! ## varuint_encode.rs, varint_encode.rs -/

/-- `varuint_encode.rs` lines 34-47: the byte written in round `i` of the loop. -/
def varuintByte (v neededBytes maxBytes i : Nat) : Nat :=
  let needsCompleteBitRange := neededBytes == maxBytes
  let b := 0
  let remainingBits := 8
  let hasNextByte := decide (i < neededBytes - 1)
  let (remainingBits, b) :=
    if hasNextByte then (remainingBits - 1, b ||| 0x80)
    else if !needsCompleteBitRange then (remainingBits - 1, b)
    else (remainingBits, b)
  let shiftBits := (neededBytes - (i + 1)) * 7
  let shiftBits := if needsCompleteBitRange && hasNextByte then shiftBits + 1 else shiftBits
  b ||| ((v >>> shiftBits) &&& (0xff >>> (8 - remainingBits)))

/-- `varuint_encode.rs` lines 33-49: the loop over the bytes. -/
def writeVaruintLoop (v neededBytes maxBytes : Nat) : List Nat → Writer → Res Writer
  | [], w => .ok w
  | i :: is, w => do
    let w ← w.writeUnsigned (varuintByte v neededBytes maxBytes i) 8 8
    writeVaruintLoop v neededBytes maxBytes is w

/-- `varuint_encode.rs` lines 29-51: `write_varuint_type` (panics when the value does not fit,
through `unwrap` in line 30). -/
def writeVaruintType (w : Writer) (v maxBytes : Nat) : Res Writer := do
  let bitsize ← (unsignedBitsize v maxBytes).unwrap
  let neededBytes := bitsize / 8
  writeVaruintLoop v neededBytes maxBytes (List.range neededBytes) w

/-- `varuint_encode.rs` line 5: `MAX_VARSIZE`. -/
def maxVarsize : Nat := (1 <<< (2 + 7 + 7 + 7 + 8)) - 1

/-- `varuint_encode.rs` lines 24-27: `write_varsize`. -/
def writeVarsize (w : Writer) (v : Nat) : Res Writer :=
  if v ≤ maxVarsize then writeVaruintType w v 5 else .panic

/-- `varuint_encode.rs` lines 7-9. -/
def writeVaruint16 (w : Writer) (v : Nat) : Res Writer := writeVaruintType w v 2
/-- `varuint_encode.rs` lines 11-13. -/
def writeVaruint32 (w : Writer) (v : Nat) : Res Writer := writeVaruintType w v 4
/-- `varuint_encode.rs` lines 15-17. -/
def writeVaruint64 (w : Writer) (v : Nat) : Res Writer := writeVaruintType w v 8
/-- `varuint_encode.rs` lines 19-21. -/
def writeVaruint (w : Writer) (v : Nat) : Res Writer := writeVaruintType w v 9

/-- `varuint_bitsize.rs` lines 3-21: the wrappers. -/
def varuint16Bitsize (v : Nat) : Res Nat := unsignedBitsize v 2
/-- `varuint_bitsize.rs` lines 7-9. -/
def varuint32Bitsize (v : Nat) : Res Nat := unsignedBitsize v 4
/-- `varuint_bitsize.rs` lines 11-13. -/
def varuint64Bitsize (v : Nat) : Res Nat := unsignedBitsize v 8
/-- `varuint_bitsize.rs` lines 15-17. -/
def varuintBitsize (v : Nat) : Res Nat := unsignedBitsize v 9
/-- `varuint_bitsize.rs` lines 19-21. -/
def varsizeBitsize (v : Nat) : Res Nat := unsignedBitsize v 5

/-- `varint_encode.rs` lines 28-48: the byte written in round `i` of the loop. -/
def varintByte (neg : Bool) (absValue neededBytes maxBytes i : Nat) : Nat :=
  let needsCompleteBitRange := neededBytes == maxBytes
  let b := 0
  let remainingBits := 8
  let hasNextByte := decide (i < neededBytes - 1)
  let hasSignBit := i == 0
  let (remainingBits, b) :=
    if hasSignBit then (remainingBits - 1, if neg then b ||| 0x80 else b) else (remainingBits, b)
  let (remainingBits, b) :=
    if hasNextByte then (remainingBits - 1, b ||| (1 <<< (remainingBits - 1)))
    else if !needsCompleteBitRange then (remainingBits - 1, b)
    else (remainingBits, b)
  let shiftBits := (neededBytes - (i + 1)) * 7
  let shiftBits := if needsCompleteBitRange && hasNextByte then shiftBits + 1 else shiftBits
  b ||| ((absValue >>> shiftBits) &&& (0xff >>> (8 - remainingBits)))

/-- `varint_encode.rs` lines 27-50: the loop over the bytes. -/
def writeVarintLoop (neg : Bool) (absValue neededBytes maxBytes : Nat) :
    List Nat → Writer → Res Writer
  | [], w => .ok w
  | i :: is, w => do
    let w ← w.writeUnsigned (varintByte neg absValue neededBytes maxBytes i) 8 8
    writeVarintLoop neg absValue neededBytes maxBytes is w

/-- `varint_encode.rs` lines 21-52: `write_varint_type` (`-v as u64` is `(-v) as u64`). -/
def writeVarintType (m : Mode) (w : Writer) (v : Int) (maxBytes : Nat) : Res Writer := do
  let absValue ← if v < 0 then (do let n ← negI64 m v; pure (asU64 n)) else pure (asU64 v)
  let bitsize ← signedBitsize m v maxBytes
  let neededBytes := bitsize / 8
  writeVarintLoop (decide (v < 0)) absValue neededBytes maxBytes (List.range neededBytes) w

/-- `varint_encode.rs` lines 5-7. -/
def writeVarint16 (m : Mode) (w : Writer) (v : Int) : Res Writer := writeVarintType m w v 2
/-- `varint_encode.rs` lines 9-11. -/
def writeVarint32 (m : Mode) (w : Writer) (v : Int) : Res Writer := writeVarintType m w v 4
/-- `varint_encode.rs` lines 13-15. -/
def writeVarint64 (m : Mode) (w : Writer) (v : Int) : Res Writer := writeVarintType m w v 8
/-- `varint_encode.rs` lines 17-19. -/
def writeVarint (m : Mode) (w : Writer) (v : Int) : Res Writer := writeVarintType m w v 9

/-- `varint_bitsize.rs` lines 3-5. -/
def varint16Bitsize (m : Mode) (v : Int) : Res Nat := signedBitsize m v 2
/-- `varint_bitsize.rs` lines 7-9. -/
def varint32Bitsize (m : Mode) (v : Int) : Res Nat := signedBitsize m v 4
/-- `varint_bitsize.rs` lines 11-13. -/
def varint64Bitsize (m : Mode) (v : Int) : Res Nat := signedBitsize m v 8
/-- `varint_bitsize.rs` lines 15-17. -/
def varintBitsize (m : Mode) (v : Int) : Res Nat := signedBitsize m v 9

/-! ## varuint_decode.rs, varint_decode.rs -/

/-- `varuint_decode.rs` lines 29-37: the `for` loop with its early `break`; `n` rounds left.
The value stays below `2^64` (at most 7·8+8 bits), so no shift ever drops bits. -/
def readSizedUintLoop : Nat → Nat → Bool → Reader → Res (Nat × Bool × Reader)
  | 0, value, hasNext, r => .ok (value, hasNext, r)
  | n + 1, value, hasNext, r =>
    if !hasNext then .ok (value, hasNext, r)
    else do
      let (b, r) ← r.readUnsigned 8 64
      readSizedUintLoop n ((value <<< 7) ||| (b &&& 0x7f)) ((b &&& 0x80) != 0) r

/-- `varuint_decode.rs` lines 24-43: `read_sized_uint`. -/
def readSizedUint (r : Reader) (numBytes : Nat) : Res (Nat × Reader) := do
  let (b, r) ← r.readUnsigned 8 64
  let (value, hasNext, r) ←
    readSizedUintLoop (numBytes - 2) (b &&& 0x7f) ((b &&& 0x80) != 0) r
  if hasNext then do
    let (b, r) ← r.readUnsigned 8 64
    pure ((value <<< 8) ||| b, r)
  else pure (value, r)

/-- `varuint_decode.rs` lines 4-6: `read_varsize` (`as u32` keeps the low 32 bits). -/
def readVarsize (r : Reader) : Res (Nat × Reader) := do
  let (v, r) ← readSizedUint r 5
  pure (v % 2 ^ 32, r)
/-- `varuint_decode.rs` lines 8-10. -/
def readVaruint16 (r : Reader) : Res (Nat × Reader) := do
  let (v, r) ← readSizedUint r 2
  pure (v % 2 ^ 16, r)
/-- `varuint_decode.rs` lines 12-14. -/
def readVaruint32 (r : Reader) : Res (Nat × Reader) := do
  let (v, r) ← readSizedUint r 4
  pure (v % 2 ^ 32, r)
/-- `varuint_decode.rs` lines 16-18. -/
def readVaruint64 (r : Reader) : Res (Nat × Reader) := readSizedUint r 8
/-- `varuint_decode.rs` lines 20-22. -/
def readVaruint (r : Reader) : Res (Nat × Reader) := readSizedUint r 9

/-- `varint_decode.rs` lines 26-34: the `for` loop.  The value is an `i64` below `2^63` (at most
6+7·7+8 bits), so it is kept as a natural number. -/
def readSizedIntLoop : Nat → Nat → Bool → Reader → Res (Nat × Bool × Reader)
  | 0, value, hasNext, r => .ok (value, hasNext, r)
  | n + 1, value, hasNext, r =>
    if !hasNext then .ok (value, hasNext, r)
    else do
      let (b, r) ← r.readUnsigned 8 8
      readSizedIntLoop n ((value <<< 7) ||| (b &&& 0x7f)) ((b &&& 0x80) != 0) r

/-- `varint_decode.rs` lines 20-43: `read_sized_int`. -/
def readSizedInt (r : Reader) (numBytes : Nat) : Res (Int × Reader) := do
  let (b, r) ← r.readUnsigned 8 8
  let isNegative := (b &&& 0x80) != 0
  let (value, hasNext, r) ←
    readSizedIntLoop (numBytes - 2) (b &&& 0x3f) ((b &&& 0x40) != 0) r
  let (value, r) ←
    if hasNext then do
      let (b, r) ← r.readUnsigned 8 8
      pure ((value <<< 8) ||| b, r)
    else pure (value, r)
  pure (if isNegative then -(value : Int) else (value : Int), r)

/-- `as i16`, `as i32`: keep the low `n` bits, two's complement. -/
def wrapSigned (n : Nat) (v : Int) : Int := signExtend n (v % 2 ^ n).toNat

/-- `varint_decode.rs` lines 4-6. -/
def readVarint16 (r : Reader) : Res (Int × Reader) := do
  let (v, r) ← readSizedInt r 2
  pure (wrapSigned 16 v, r)
/-- `varint_decode.rs` lines 8-10. -/
def readVarint32 (r : Reader) : Res (Int × Reader) := do
  let (v, r) ← readSizedInt r 4
  pure (wrapSigned 32 v, r)
/-- `varint_decode.rs` lines 12-14. -/
def readVarint64 (r : Reader) : Res (Int × Reader) := readSizedInt r 8
/-- `varint_decode.rs` lines 16-18. -/
def readVarint (r : Reader) : Res (Int × Reader) := readSizedInt r 9

/-! ## reader.rs, writer.rs -/

/-- `reader.rs` lines 6-16: `read_bytes`. -/
def readBytes (r : Reader) (numBytes : Nat) : Res (List UInt8 × Reader) :=
  if r.remaining < numBytes * 8 then .err .ioError
  else r.readU8Slice numBytes

/-- `writer.rs` lines 4-9: `write_bytes`. -/
def writeBytes : Writer → List UInt8 → Res Writer
  | w, [] => .ok w
  | w, b :: bs => do
    let w ← w.writeUnsigned b.toNat 8 8
    writeBytes w bs

/-! ## string_encode.rs, string_decode.rs -/

/-- `as u32` of a length (`usize`). -/
def asU32 (n : Nat) : Nat := n % 2 ^ 32

/-- The UTF-8 bytes of a string (`str::as_bytes`). -/
def strBytes (s : String) : List UInt8 := s.toByteArray.data.toList

/-- `String::from_utf8`. -/
def strOfBytes (bs : List UInt8) : Res String :=
  match String.fromUTF8? ⟨bs.toArray⟩ with
  | some s => .ok s
  | none => .err .invalidUtf8

/-- `string_encode.rs` lines 8-17: `write_string`. -/
def writeString (w : Writer) (s : String) : Res Writer := do
  let stringBytes := strBytes s
  let w ← writeVarsize w (asU32 stringBytes.length)
  writeBytes w stringBytes

/-- `string_encode.rs` lines 19-22: `bitsize_string`. -/
def bitsizeString (s : String) : Res Nat := do
  let headerSize ← unsignedBitsize (strBytes s).length 5
  pure (headerSize + (strBytes s).length * 8)

/-- `string_decode.rs` lines 8-22: `read_string` (the `unwrap` in line 10 panics when the length
cannot be read). -/
def readString (r : Reader) : Res (String × Reader) := do
  let (strLen, r) ← (readVarsize r).unwrap
  if r.remaining < strLen * 8 then .err .ioError
  else do
    let (buffer, r) ← r.readU8Slice strLen
    let s ← strOfBytes buffer
    pure (s, r)

/-! ## bytes_type.rs -/

/-- `bytes_type.rs` lines 9-12 (`byte_size` is a `u32`). -/
structure BytesType where
  byteSize : Nat
  dataBlob : List UInt8
  deriving DecidableEq, Repr

/-- `bytes_type.rs` lines 15-21. -/
def readBytesType (r : Reader) : Res (BytesType × Reader) := do
  let (byteSize, r) ← readVarsize r
  let (blob, r) ← readBytes r byteSize
  pure (⟨byteSize, blob⟩, r)

/-- `bytes_type.rs` lines 24-28. -/
def writeBytesType (w : Writer) (b : BytesType) : Res Writer := do
  let w ← writeVarsize w b.byteSize
  writeBytes w b.dataBlob

/-- `bytes_type.rs` lines 30-32. -/
def bitsizeOfBytes (b : BytesType) : Res Nat := do
  let h ← (varsizeBitsize b.byteSize).unwrap
  pure (h + b.byteSize * 8)

/-! ## extern_type.rs -/

/-- `extern_type.rs` lines 11-14 (`bit_size` is a `u32`). -/
structure ExternType where
  bitSize : Nat
  dataBlob : List UInt8
  deriving DecidableEq, Repr

/-- `extern_type.rs` lines 36-54: `read_extern_type` (the `expect` in line 45 panics at the end of
data).  `u8 <<` drops bits above 8. -/
def readExternType (r : Reader) : Res (ExternType × Reader) := do
  let (bitSize, r) ← readVarsize r
  let numOfFullBytes := bitSize / 8
  let remainingBits := bitSize % 8
  let (externBytes, r) ← readBytes r numOfFullBytes
  if remainingBits ≠ 0 then do
    let (lastByte, r) ← (r.readUnsigned remainingBits 8).unwrap
    let bitShift := 8 - remainingBits
    pure (⟨bitSize, externBytes ++ [UInt8.ofNat (lastByte <<< bitShift)]⟩, r)
  else pure (⟨bitSize, externBytes⟩, r)

/-- `extern_type.rs` lines 57-75: `write_extern_type` (the slice in line 63 panics when the blob is
too short). -/
def writeExternType (w : Writer) (e : ExternType) : Res Writer := do
  let w ← writeVarsize w e.bitSize
  let numOfFullBytes := e.bitSize / 8
  let remainingBits := e.bitSize % 8
  if e.dataBlob.length < numOfFullBytes then .panic else do
    let w ← writeBytes w (e.dataBlob.take numOfFullBytes)
    if remainingBits ≠ 0 then
      match e.dataBlob.getLast? with
      | none => .err .dataError
      | some lastByte =>
        let bitShift := 8 - remainingBits
        w.writeUnsigned (lastByte.toNat >>> bitShift) remainingBits 8
    else pure w

/-- `extern_type.rs` lines 77-79. -/
def bitsizeOfExtern (e : ExternType) : Res Nat := do
  let h ← (varsizeBitsize e.bitSize).unwrap
  pure (h + e.bitSize)

/-! ## float_encode.rs, float_decode.rs

Floats are represented by their bit pattern (`f32::to_bits`, `f64::to_bits`). -/

/-- `f64::to_be_bytes` etc.: the `n` big-endian bytes of a bit pattern. -/
def beBytes : Nat → Nat → List UInt8
  | 0, _ => []
  | n + 1, v => UInt8.ofNat (v >>> (8 * n)) :: beBytes n v

/-- `from_be_bytes`. -/
def ofBeBytes (bs : List UInt8) : Nat := bs.foldl (fun acc b => acc * 256 + b.toNat) 0

/-- `float_encode.rs` lines 6-8. -/
def writeFloat64 (w : Writer) (v : UInt64) : Res Writer := writeBytes w (beBytes 8 v.toNat)
/-- `float_encode.rs` lines 10-12. -/
def writeFloat32 (w : Writer) (v : UInt32) : Res Writer := writeBytes w (beBytes 4 v.toNat)
/-- `float_encode.rs` lines 14-16; `fromF32` is `half::f16::from_f32` on bit patterns. -/
def writeFloat16 (fromF32 : UInt32 → UInt16) (w : Writer) (v : UInt32) : Res Writer :=
  writeBytes w (beBytes 2 (fromF32 v).toNat)

/-- `float_decode.rs` lines 7-13 (the `try_into` cannot fail: `read_bytes` returned 8 bytes; the
model keeps the check). -/
def readFloat64 (r : Reader) : Res (UInt64 × Reader) := do
  let (bs, r) ← readBytes r 8
  if bs.length = 8 then pure (UInt64.ofNat (ofBeBytes bs), r) else .err .dataError
/-- `float_decode.rs` lines 14-20. -/
def readFloat32 (r : Reader) : Res (UInt32 × Reader) := do
  let (bs, r) ← readBytes r 4
  if bs.length = 4 then pure (UInt32.ofNat (ofBeBytes bs), r) else .err .dataError
/-- `float_decode.rs` lines 21-30; `toF32` is `half::f16::to_f32` on bit patterns. -/
def readFloat16 (toF32 : UInt16 → UInt32) (r : Reader) : Res (UInt32 × Reader) := do
  let (bs, r) ← readBytes r 2
  if bs.length = 2 then pure (toF32 (UInt16.ofNat (ofBeBytes bs)), r) else .err .dataError

end Zs
