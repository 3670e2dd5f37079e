import Verif.SchemaSpec

/-!
# Specification: what reading arbitrary input may do

Classes of schemas, and the size of a decoded object.
-/

namespace Zs

open Spec

/-! ## Size of a value -/

mutual
/-- The memory a decoded value takes, in units: one for every number, item, `Option`, `Vec` and object,
and one for every byte of strings and buffers.  Parameters are not counted: they are copies of other
values. -/
def Val.size : Val → Nat
  | .str s => 1 + s.utf8ByteSize
  | .bytes b => 1 + b.dataBlob.length
  | .extern e => 1 + e.dataBlob.length
  | .list xs => 1 + Val.sizes xs
  | .some v => 1 + v.size
  | .obj _ fs => 1 + Val.sizes fs
  | .union _ _ fs => 1 + Val.sizes fs
  | _ => 1
/-- The size of several values. -/
def Val.sizes : List Val → Nat
  | [] => 0
  | v :: vs => v.size + Val.sizes vs
end

/-! ## Builtin types -/

namespace Scalar

/-- Integer types with a fixed number of bits in every build. -/
def IsInteger : Scalar → Prop
  | .uint _ | .int _ | .bits _ | .ints _ | .varuint16 | .varuint32 | .varuint64 | .varuint | .varsize
  | .varint16 | .varint32 | .varint64 | .varint => True
  | _ => False

/-- Reading the type does not panic: no strings, no extern values, no more than 64 bits, and at least
one bit for signed numbers (what `bitreader` does for none is not relied upon). -/
def Steady : Scalar → Prop
  | .string | .extern => False
  | .uint n | .int n | .bits n => n ≤ 64
  | .ints n => 1 ≤ n ∧ n ≤ 64
  | .bitsDyn len => ∀ env, len env ≤ 64
  | .intsDyn len => ∀ env, 1 ≤ len env ∧ len env ≤ 64
  | _ => True

/-- Whatever is read is a value of the type; not so for `varsize`, whose encoding has room for more
than 31 bits, nor for widths that are out of range.  For `float16` the conversions of the `half`
crate must fit together. -/
def Sound (cfg : Cfg) : Scalar → Prop
  | .varsize => False
  | .float16 => ∀ h, cfg.toF32 (cfg.fromF32 (cfg.toF32 h)) = cfg.toF32 h
  | .bitsDyn len => ∀ env, len env ≤ 64
  | .intsDyn len => ∀ env, 1 ≤ len env ∧ len env ≤ 64
  | s => s.WidthOk

/-- Whatever is read from a packed array is a value of the type: only where the Rust type has no other
values. -/
def SoundPacked : Scalar → Prop
  | .uint n | .int n => n ∈ [8, 16, 32, 64]
  | _ => False

/-- Every value takes at least one bit. -/
def Takes : Scalar → Prop
  | .uint n | .int n | .bits n | .ints n => 1 ≤ n
  | .bitsDyn _ | .intsDyn _ => False
  | _ => True

end Scalar

/-- The type has parameters. -/
def Ty.hasParams : Ty → Bool
  | .struct .. | .choice .. | .union .. => true
  | _ => false

/-- The array is stored packed. -/
def FieldInfo.isPackedArray (info : FieldInfo) (a : ArrayInfo) : Bool := a.isPacked && !info.isOffsetField

mutual
/-- Reading the type does not panic: no strings, extern values, unions and packed arrays. -/
def Ty.Steady : Ty → Prop
  | .scalar s => s.Steady
  | .enum base _ => base.IsInteger ∧ base.Steady
  | .bitmask base _ => base.IsInteger ∧ base.Steady
  | .struct _ fields => fields.Steady
  | .choice _ _ cases => cases.Steady
  | .union _ _ => False
def Fields.Steady : Fields → Prop
  | .nil => True
  | .cons info ty rest => (¬ info.array.any info.isPackedArray) ∧ ty.Steady ∧ rest.Steady
def Cases.Steady : Cases → Prop
  | .nil => True
  | .field _ info ty rest => (¬ info.array.any info.isPackedArray) ∧ ty.Steady ∧ rest.Steady
  | .empty _ rest => rest.Steady
end

mutual
/-- Every value takes at least one bit: for structures, because of a field that is always there. -/
def Ty.Takes : Ty → Prop
  | .scalar s => s.Takes
  | .enum base _ => base.Takes
  | .bitmask base _ => base.Takes
  | .struct _ fields => fields.Takes
  | .choice _ _ _ => False
  | .union _ _ => True
/-- One of the fields takes at least one bit. -/
def Fields.Takes : Fields → Prop
  | .nil => False
  | .cons info ty rest => (info.clause = none ∧ (info.optional = true ∨
      match info.array with
      | none => ty.Takes
      | some a => a.length.isNone = true)) ∨ rest.Takes
end

mutual
/-- Whatever is read is a valid value of the type.  Arrays that are stored with their length must have
elements that take bits, packed arrays must have a fixed length: otherwise a few bytes could stand for
an array that is too long to be written. -/
def Ty.Sound (cfg : Cfg) : Ty → Prop
  | .scalar s => s.Sound cfg
  | .enum base items => base.IsInteger ∧ ∀ x ∈ enumValues items, base.Contains x ∧ x < 2 ^ 63
  | .bitmask base _ => base.IsInteger ∧ base.Sound cfg
  | .struct _ fields => fields.Sound cfg
  | .choice _ _ cases => cases.Sound cfg
  | .union _ members => members.defaults.length ≤ 2 ^ 31 ∧ members.Sound cfg
def Fields.Sound (cfg : Cfg) : Fields → Prop
  | .nil => True
  | .cons info ty rest => (info.args = [] ∨ ty.hasParams = true) ∧
      (match info.array with
      | none => ty.Sound cfg
      | some a => if info.isPackedArray a then a.length.isSome = true ∧ ty.SoundPacked cfg
        else (a.length.isSome = true ∨ ty.Takes) ∧ ty.Sound cfg) ∧ rest.Sound cfg
def Cases.Sound (cfg : Cfg) : Cases → Prop
  | .nil => True
  | .field _ info ty rest => (info.args = [] ∨ ty.hasParams = true) ∧
      (match info.array with
      | none => ty.Sound cfg
      | some a => if info.isPackedArray a then a.length.isSome = true ∧ ty.SoundPacked cfg
        else (a.length.isSome = true ∨ ty.Takes) ∧ ty.Sound cfg) ∧ rest.Sound cfg
  | .empty _ rest => rest.Sound cfg
/-- The same for elements of packed arrays. -/
def Ty.SoundPacked (cfg : Cfg) : Ty → Prop
  | .scalar s => s.SoundPacked
  | .enum base items => base.IsInteger ∧ ∀ x ∈ enumValues items, base.Contains x ∧ x < 2 ^ 63
  | .bitmask base _ => base.SoundPacked
  | .struct _ fields => fields.SoundPacked cfg
  | .choice _ _ cases => cases.SoundPacked cfg
  | .union _ _ => False
def Fields.SoundPacked (cfg : Cfg) : Fields → Prop
  | .nil => True
  | .cons info ty rest => (info.args = [] ∨ ty.hasParams = true) ∧
      (match info.array with
      | none => if info.isDelta ty then ty.SoundPacked cfg else ty.Sound cfg
      | some a => if info.isOffsetField then (a.length.isSome = true ∨ ty.Takes) ∧ ty.Sound cfg
        else a.length.isSome = true ∧ ty.SoundPacked cfg) ∧ rest.SoundPacked cfg
def Cases.SoundPacked (cfg : Cfg) : Cases → Prop
  | .nil => True
  | .field _ info ty rest => (info.args = [] ∨ ty.hasParams = true) ∧
      (match info.array with
      | none => if info.isDelta ty then ty.SoundPacked cfg else ty.Sound cfg
      | some a => if info.isOffsetField then (a.length.isSome = true ∨ ty.Takes) ∧ ty.Sound cfg
        else a.length.isSome = true ∧ ty.SoundPacked cfg) ∧ rest.SoundPacked cfg
  | .empty _ rest => rest.SoundPacked cfg
end

mutual
/-- Decoded objects are not much larger than their encoding: all arrays, at any depth, are unpacked and
have elements that take bits. -/
def Ty.Compact : Ty → Prop
  | .scalar _ | .enum _ _ | .bitmask _ _ => True
  | .struct _ fields => fields.Compact
  | .choice _ _ cases => cases.Compact
  | .union _ members => members.Compact
def Fields.Compact : Fields → Prop
  | .nil => True
  | .cons info ty rest => (match info.array with
      | none => True
      | some a => info.isPackedArray a = false ∧ ty.Takes) ∧ ty.Compact ∧ rest.Compact
def Cases.Compact : Cases → Prop
  | .nil => True
  | .field _ info ty rest => (match info.array with
      | none => True
      | some a => info.isPackedArray a = false ∧ ty.Takes) ∧ ty.Compact ∧ rest.Compact
  | .empty _ rest => rest.Compact
end

mutual
/-- How many units an object takes at most per bit of its encoding (and one more bit). -/
def Ty.weight : Ty → Nat
  | .scalar _ | .enum _ _ | .bitmask _ _ => 1
  | .struct _ fields => 1 + fields.weight
  | .choice _ _ cases => 1 + cases.weight
  | .union _ members => 1 + members.weight
def Fields.weight : Fields → Nat
  | .nil => 0
  | .cons _ ty rest => (2 * ty.weight + 2) + rest.weight
def Cases.weight : Cases → Nat
  | .nil => 0
  | .field _ _ ty rest => (2 * ty.weight + 2) + rest.weight
  | .empty _ rest => rest.weight
end

end Zs
