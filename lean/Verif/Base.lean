/-!
# Outcomes, bit streams, reader and writer

The external crates `bitreader` and `rust-bitwriter` are modelled here (trusted, see DESIGN.md §3).
Everything else in the model is built on these operations.
-/

namespace Zs

/-- `crates/zserio/src/error.rs` lines 11-23: the kinds of `ZserioError` (payload texts dropped). -/
inductive Err where
  | eof
  | dataDoesNotFit
  | invalidUtf8
  | ioError
  | dataError
  deriving DecidableEq, Repr

/-- Outcome of a call: normal result, `Err(..)` result, or a panic (which is *not* a result). -/
inductive Res (α : Type u) where
  | ok (a : α)
  | err (e : Err)
  | panic
  deriving DecidableEq, Repr

namespace Res

/-- Sequencing: the `?` operator; a panic ends everything. -/
@[inline] def bind {α : Type u} {β : Type v} : Res α → (α → Res β) → Res β
  | .ok a, f => f a
  | .err e, _ => .err e
  | .panic, _ => .panic

instance : Monad Res where
  pure := .ok
  bind := Res.bind

@[simp] theorem pure_eq {α : Type u} (a : α) : (pure a : Res α) = .ok a := rfl
@[simp] theorem ok_bind {α β : Type u} (a : α) (f : α → Res β) : (Res.ok a >>= f) = f a := rfl
@[simp] theorem err_bind {α β : Type u} (e : Err) (f : α → Res β) :
    ((Res.err e : Res α) >>= f) = .err e := rfl
@[simp] theorem panic_bind {α β : Type u} (f : α → Res β) :
    ((Res.panic : Res α) >>= f) = .panic := rfl

instance : LawfulMonad Res := LawfulMonad.mk' _
  (id_map := by intro α x; cases x <;> rfl)
  (pure_bind := by intros; rfl)
  (bind_assoc := by intro α β γ x f g; cases x <;> rfl)

/-- `Result::unwrap` / `expect`: an error becomes a panic. -/
def unwrap {α : Type u} : Res α → Res α
  | .ok a => .ok a
  | .err _ => .panic
  | .panic => .panic

@[simp] theorem unwrap_ok {α : Type u} (a : α) : (Res.ok a).unwrap = .ok a := rfl
@[simp] theorem unwrap_err {α : Type u} (e : Err) : (Res.err e : Res α).unwrap = .panic := rfl
@[simp] theorem unwrap_panic {α : Type u} : (Res.panic : Res α).unwrap = .panic := rfl

/-- The call returned normally (`Ok`). -/
def isOk {α : Type u} : Res α → Bool
  | .ok _ => true
  | _ => false

theorem bind_eq_ok {α β : Type u} {x : Res α} {f : α → Res β} {b : β} :
    (x >>= f) = .ok b ↔ ∃ a, x = .ok a ∧ f a = .ok b := by
  cases x <;> simp

theorem bind_ne_panic {α β : Type u} {x : Res α} {f : α → Res β}
    (h1 : x ≠ .panic) (h2 : ∀ a, x = .ok a → f a ≠ .panic) : (x >>= f) ≠ .panic := by
  cases x with
  | ok a => exact h2 a rfl
  | err e => simp
  | panic => exact absurd rfl h1

end Res

/-- Rust build mode: with (`debug`) or without (`release`) arithmetic overflow checks. -/
inductive Mode where
  | debug
  | release
  deriving DecidableEq, Repr

/-! ## Bits of numbers -/

/-- The low `n` bits of `v`, most significant first. -/
def natBits : Nat → Nat → List Bool
  | 0, _ => []
  | n + 1, v => v.testBit n :: natBits n v

/-- Big-endian value of a bit list. -/
def ofBits (bs : List Bool) : Nat := bs.foldl (fun acc b => 2 * acc + b.toNat) 0

/-- `as u64` of an `i64` (two's complement). -/
def asU64 (i : Int) : Nat := (i % 2 ^ 64).toNat

/-- `as i64` of a `u64` (two's complement). -/
def asI64 (u : Nat) : Int := if u % 2 ^ 64 < 2 ^ 63 then ((u % 2 ^ 64 : Nat) : Int)
  else ((u % 2 ^ 64 : Nat) : Int) - 2 ^ 64

/-- Sign extension of an `n`-bit big-endian value. -/
def signExtend (n u : Nat) : Int := if 2 * u < 2 ^ n then (u : Int) else (u : Int) - 2 ^ n

/-! ## Writer (`rust-bitwriter`) -/

/-- The bits written so far. -/
structure Writer where
  bits : List Bool
  deriving DecidableEq, Repr

namespace Writer

/-- `BitWriter::new`. -/
def new : Writer := ⟨[]⟩

/-- `BitWriter::bit_count`. -/
def bitCount (w : Writer) : Nat := w.bits.length

/-- Append bits. -/
def append (w : Writer) (bs : List Bool) : Writer := ⟨w.bits ++ bs⟩

/-- `write_unsigned_bits(v, n, max)`, also `write_u8/16/32/64(v, n)` with `max` = 8/16/32/64:
the low `n` bits; an error (an `io::Error`) if `n > max`. -/
def writeUnsigned (w : Writer) (v n max : Nat) : Res Writer :=
  if n > max then .err .ioError else .ok (w.append (natBits n v))

/-- `write_i8/16/32/64(v, n)` with `max` = 8/16/32/64: low `n` bits of the two's complement. -/
def writeSigned (w : Writer) (v : Int) (n max : Nat) : Res Writer :=
  if n > max then .err .ioError else .ok (w.append (natBits n (asU64 v)))

/-- `write_bool`. -/
def writeBool (w : Writer) (b : Bool) : Res Writer := .ok (w.append [b])

/-- `skip(n)`: `n` zero bits. -/
def skip (w : Writer) (n : Nat) : Res Writer := .ok (w.append (List.replicate n false))

end Writer

/-! ## Reader (`bitreader`) -/

/-- Bit position from the start of the data and the bits not yet consumed. -/
structure Reader where
  pos : Nat
  rest : List Bool
  deriving DecidableEq, Repr

namespace Reader

/-- `BitReader::remaining`. -/
def remaining (r : Reader) : Nat := r.rest.length

/-- `BitReader::position`. -/
def position (r : Reader) : Nat := r.pos

/-- Move forward. -/
def advance (r : Reader) (n : Nat) : Reader := ⟨r.pos + n, r.rest.drop n⟩

/-- `read_u8/16/32/64(n)` with `max` = 8/16/32/64.  `bitreader` returns `Ok(0)` for `n = 0`,
`TooManyBitsForType` for `n > max`, `NotEnoughData` when the data ends too early; the conversion
to `ZserioError` (`error.rs` lines 25-40) is included. -/
def readUnsigned (r : Reader) (n max : Nat) : Res (Nat × Reader) :=
  if n > max then .err .dataDoesNotFit
  else if r.rest.length < n then .err .eof
  else .ok (ofBits (r.rest.take n), r.advance n)

/-- `read_i8/16/32/64(n)`: as above with sign extension. -/
def readSigned (r : Reader) (n max : Nat) : Res (Int × Reader) :=
  if n > max then .err .dataDoesNotFit
  else if r.rest.length < n then .err .eof
  else .ok (signExtend n (ofBits (r.rest.take n)), r.advance n)

/-- `read_bool`: one bit. -/
def readBool (r : Reader) : Res (Bool × Reader) :=
  match r.rest with
  | [] => .err .eof
  | b :: rest => .ok (b, ⟨r.pos + 1, rest⟩)

/-- `skip(n)`: fails beyond the end of the data. -/
def skip (r : Reader) (n : Nat) : Res Reader :=
  if r.rest.length < n then .err .eof else .ok (r.advance n)

/-- The inner loop of `read_u8_slice` (`n` bytes, enough data known). -/
def takeBytes : Nat → List Bool → List UInt8
  | 0, _ => []
  | n + 1, bs => UInt8.ofNat (ofBits (bs.take 8)) :: takeBytes n (bs.drop 8)

/-- `read_u8_slice` into a buffer of `n` bytes. -/
def readU8Slice (r : Reader) (n : Nat) : Res (List UInt8 × Reader) :=
  if r.rest.length < n * 8 then .err .eof
  else .ok (takeBytes n r.rest, r.advance (n * 8))

end Reader

/-- The bits of a byte sequence: what `BitReader::new(bytes)` walks over. -/
def bytesBits (bs : List UInt8) : List Bool := bs.flatMap (fun b => natBits 8 b.toNat)

/-- `BitReader::new`. -/
def Reader.ofBytes (bs : List UInt8) : Reader := ⟨0, bytesBits bs⟩

end Zs
