import Verif.SchemaSpec

/-!
# Specification: where generated size functions are claimed to be exact

`Val.Consistent` says that a value could be stored at all: lengths kept beside the data are right.
`Ty.Sized` and `Ty.PackSized` leave out the places where the generated size functions disagree with
the generated writers; for every one of them `PropsSize.lean` proves a disagreement.
-/

namespace Zs

mutual
/-- Strings are shorter than 2^32 bytes and the size field of a `bytes` value is the length of its
data. -/
def Val.Consistent : Val → Prop
  | .str s => (strBytes s).length < 2 ^ 32
  | .bytes b => b.byteSize = b.dataBlob.length
  | .list xs => Val.AllConsistent xs
  | .some v => v.Consistent
  | .obj _ fields => Val.AllConsistent fields
  | .union _ _ fields => Val.AllConsistent fields
  | _ => True
/-- All of them. -/
def Val.AllConsistent : List Val → Prop
  | [] => True
  | v :: vs => v.Consistent ∧ Val.AllConsistent vs
end

namespace Scalar

/-- Builtin types whose size is computed correctly for a field: not `bytes` and `extern` (their length
header is forgotten), not `bit<expr>` and `int<expr>` (counted as zero bits). -/
def FieldSized : Scalar → Prop
  | .bytes | .extern | .bitsDyn _ | .intsDyn _ => False
  | _ => True

/-- Builtin types whose size is computed correctly for the elements of an array: not `string` (bytes
are counted as bits). -/
def ElemSized : Scalar → Prop
  | .string => False
  | _ => True

/-- Builtin types whose size is computed correctly for a packed field: not `bit:n` and `int:n` (counted
as if they were not packed). -/
def PackSized : Scalar → Prop
  | .string | .bits _ | .ints _ => False
  | _ => True

end Scalar

/-- Elements of an array: builtin types follow a rule of their own. -/
def Ty.elemRule (t : Ty) (other : Prop) : Prop :=
  match t with
  | .scalar s => s.ElemSized
  | _ => other

/-- The type of a field can be delta packed. -/
def Ty.deltaPackable : Ty → Bool
  | .scalar s => s.isPackable
  | _ => true

mutual
/-- Types whose (not packed) size is claimed to be exact. -/
def Ty.Sized : Ty → Prop
  | .scalar s => s.FieldSized
  | .enum base _ => base.FieldSized
  | .bitmask base _ => base.FieldSized
  | .struct _ fields => fields.Sized
  | .choice _ _ cases => cases.Sized
  | .union _ members => members.Sized
/-- Types whose packed size is claimed to be exact: no unions (their selector is forgotten). -/
def Ty.PackSized : Ty → Prop
  | .scalar s => s.PackSized
  | .enum base _ => base.PackSized
  | .bitmask base _ => base.PackSized
  | .struct _ fields => fields.PackSized
  | .choice _ _ cases => cases.PackSized
  | .union _ _ => False
/-- All fields of an object that is not packed. -/
def Fields.Sized : Fields → Prop
  | .nil => True
  | .cons info ty rest =>
    (match info.array with
      | none => ty.Sized
      | some a => ty.elemRule (if a.isPacked ∧ info.isOffsetField = false then ty.PackSized
        else ty.Sized)) ∧ rest.Sized
/-- All fields of a packed object. -/
def Fields.PackSized : Fields → Prop
  | .nil => True
  | .cons info ty rest =>
    (match info.array with
      | none => if info.isOffsetField = false ∧ ty.deltaPackable = true then ty.PackSized
        else ty.Sized
      | some _ => ty.elemRule (if info.isOffsetField = false then ty.PackSized else ty.Sized)) ∧
      rest.PackSized
/-- All fields of a choice that is not packed. -/
def Cases.Sized : Cases → Prop
  | .nil => True
  | .field _ info ty rest =>
    (match info.array with
      | none => ty.Sized
      | some a => ty.elemRule (if a.isPacked ∧ info.isOffsetField = false then ty.PackSized
        else ty.Sized)) ∧ rest.Sized
  | .empty _ rest => rest.Sized
/-- All fields of a packed choice. -/
def Cases.PackSized : Cases → Prop
  | .nil => True
  | .field _ info ty rest =>
    (match info.array with
      | none => if info.isOffsetField = false ∧ ty.deltaPackable = true then ty.PackSized
        else ty.Sized
      | some _ => ty.elemRule (if info.isOffsetField = false then ty.PackSized else ty.Sized)) ∧
      rest.PackSized
  | .empty _ rest => rest.PackSized
end

end Zs
