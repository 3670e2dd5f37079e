import Verif.Base

/-!
# Model of the top-level functions of `crates/zserio/src/lib.rs`

The object is represented by its `zserio_write` and by `zserio_read` on a default object.
-/

namespace Zs

/-- `BitWriter::close`: zero bits up to the next byte boundary. -/
def Writer.close (w : Writer) : Writer :=
  ⟨w.bits ++ List.replicate ((8 - w.bits.length % 8) % 8) false⟩

/-- `BitWriter::data`: the bytes of a closed writer. -/
def Writer.data (w : Writer) : List UInt8 := Reader.takeBytes (w.bits.length / 8) w.bits

/-- `lib.rs` lines 89-94: `to_bytes`. -/
def toBytes (write : Writer → Res Writer) : Res (List UInt8) := do
  let w ← write Writer.new
  pure w.close.data

/-- `lib.rs` lines 113-121: `to_writer`; the sink is the list of bytes it has received (a sink
that fails is not modelled). -/
def toWriter (out : List UInt8) (write : Writer → Res Writer) : Res (List UInt8) := do
  let w ← write Writer.new
  pure (out ++ w.close.data)

/-- `lib.rs` lines 143-148: `from_bytes`. -/
def fromBytes {α : Type} (read : Reader → Res (α × Reader)) (data : List UInt8) : Res α := do
  let (v, _) ← read (Reader.ofBytes data)
  pure v

/-- `lib.rs` lines 175-181: `from_reader`; the source is the bytes it delivers until its end. -/
def fromReader {α : Type} (read : Reader → Res (α × Reader)) (source : List UInt8) : Res α :=
  fromBytes read source

end Zs
