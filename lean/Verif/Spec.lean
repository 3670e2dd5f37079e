import Verif.Base

/-!
# Specifications

Small definitions in which the properties are stated, independent of the model of the code.
Only the streams (`Writer`, `Reader`) and the outcome type appear here.
-/

namespace Zs.Spec

open Zs

/-- Writing `v` succeeds whatever was written `before`, only appends bits, and reading at that place
gives `v` back and stops exactly after those bits, whatever comes `after` them. -/
def RoundTrips {α : Type} (write : Writer → Res Writer) (read : Reader → Res (α × Reader))
    (v : α) : Prop :=
  ∀ before : List Bool, ∃ bits : List Bool,
    write ⟨before⟩ = .ok ⟨before ++ bits⟩ ∧
    ∀ after : List Bool,
      read ⟨before.length, bits ++ after⟩ = .ok (v, ⟨before.length + bits.length, after⟩)

/-- Writing succeeds and appends exactly `n` bits, whatever was written `before`. -/
def Emits (write : Writer → Res Writer) (n : Nat) : Prop :=
  ∀ before : List Bool, ∃ bits : List Bool,
    write ⟨before⟩ = .ok ⟨before ++ bits⟩ ∧ bits.length = n

/-- The size function is exact: whenever writing succeeds, the size computed for the position where
writing starts is the number of bits written. -/
def SizeExact (size : Nat → Res Nat) (write : Writer → Res Writer) : Prop :=
  ∀ w w' : Writer, write w = .ok w' →
    ∃ n, size w.bits.length = .ok n ∧ w'.bits.length = w.bits.length + n

/-- Writing appends exactly the bits of the byte sequence `bytes`. -/
def EmitsBytes (write : Writer → Res Writer) (bytes : List UInt8) : Prop :=
  ∀ before : List Bool, write ⟨before⟩ = .ok ⟨before ++ bytesBits bytes⟩

/-- The call is refused: error or panic, but no result. -/
def Refused {α : Type} (r : Res α) : Prop := ∀ a, r ≠ .ok a

/-- The reader is total: whatever the input, it returns a value or an error, never a panic. -/
def NeverPanics {α : Type} (read : Reader → Res (α × Reader)) : Prop :=
  ∀ r : Reader, read r ≠ .panic

/-- No proper prefix of what is written is accepted by the reader. -/
def RejectsTruncation {α : Type} (write : Writer → Res Writer) (read : Reader → Res (α × Reader)) :
    Prop :=
  ∀ before bits kept lost : List Bool,
    write ⟨before⟩ = .ok ⟨before ++ bits⟩ → bits = kept ++ lost → lost ≠ [] →
    Refused (read ⟨before.length, kept⟩)

/-- A reader uses only a prefix of its input: when it succeeds it has consumed some bits `used`, and
it gives the same result whatever follows these bits. -/
def Local {α : Type} (read : Reader → Res (α × Reader)) : Prop :=
  ∀ (r : Reader) (v : α) (r' : Reader), read r = .ok (v, r') →
    ∃ used : List Bool, r.rest = used ++ r'.rest ∧ r'.pos = r.pos + used.length ∧
      ∀ after : List Bool, read ⟨r.pos, used ++ after⟩ = .ok (v, ⟨r'.pos, after⟩)

/-- The length of an array is allowed: it is the fixed length, or it is below 2^31 when the length is
stored in front of the array. -/
def LengthFits (fixed : Option Nat) (length : Nat) : Prop :=
  match fixed with
  | some n => n = length
  | none => length < 2 ^ 31

/-- `n` is the least number of binary digits that can represent `v`. -/
def IsBitLength (v n : Nat) : Prop := v < 2 ^ n ∧ ∀ m, v < 2 ^ m → n ≤ m

/-- `n` big-endian groups of 7 bits. -/
def groups7 : Nat → Nat → List Nat
  | 0, _ => []
  | n + 1, v => groups7 n (v / 128) ++ [v % 128]

/-- The zserio layout of an unsigned variable-length integer in `n` of at most `maxBytes` bytes: all
bytes but the last have the top bit set and carry 7 bits; the last one carries 7 bits, or 8 bits if
it is the last byte allowed. -/
def layoutVaruint (maxBytes n v : Nat) : List Nat :=
  if n = maxBytes then (groups7 (n - 1) (v / 256)).map (128 + ·) ++ [v % 256]
  else (groups7 (n - 1) (v / 128)).map (128 + ·) ++ [v % 128]

/-- The zserio layout of a signed variable-length integer: the first byte holds the sign, the flag
for a following byte, and the 6 highest bits of the magnitude; the others are as for unsigned. -/
def layoutVarint (maxBytes n : Nat) (negative : Bool) (magnitude : Nat) : List Nat :=
  let sign := if negative then 128 else 0
  if n = 1 then [sign + magnitude]
  else if n = maxBytes then
    (sign + 64 + magnitude / 2 ^ (7 * (n - 2) + 8)) ::
      ((groups7 (n - 2) (magnitude / 256)).map (128 + ·) ++ [magnitude % 256])
  else
    (sign + 64 + magnitude / 2 ^ (7 * (n - 1))) ::
      ((groups7 (n - 2) (magnitude / 128)).map (128 + ·) ++ [magnitude % 128])

/-- The number denoted by the bytes of an unsigned variable-length integer, `left` bytes being still
allowed and `acc` being the value of the bytes before; `none` if the bytes are not exactly one
encoding. -/
def denote : (left acc : Nat) → List UInt8 → Option Nat
  | _, _, [] => none
  | left, acc, b :: bs =>
    if left = 1 then (if bs = [] then some (acc * 256 + b.toNat) else none)
    else if b.toNat ≥ 128 then denote (left - 1) (acc * 128 + b.toNat % 128) bs
    else if bs = [] then some (acc * 128 + b.toNat) else none

/-- Number of values an `n`-byte unsigned variable-length encoding can hold when at most `maxBytes`
bytes are allowed: 7 bits per byte, and 8 in the last byte of a maximum-length encoding. -/
def capacity (maxBytes n : Nat) : Nat := if n = maxBytes then 2 ^ (7 * n + 1) else 2 ^ (7 * n)

/-- The same for the magnitude of signed encodings: one bit less (the sign). -/
def capacitySigned (maxBytes n : Nat) : Nat := if n = maxBytes then 2 ^ (7 * n) else 2 ^ (7 * n - 1)

end Zs.Spec
