import Verif.TextSpec
import Verif.Wire

/-!
# Specification: what constraints, initializers, offsets and `implicit` mean in the zserio language

Nothing here is code of the repository.
-/

namespace Zs.Spec

open Src

variable {fo : FloatOps}

/-- The names of the parameters and of the first `i` fields. -/
def namesUpTo (s : Struct) (i : Nat) : List String :=
  s.params.map Param.name ++ (s.fields.take i).map fun f => f.typeId.name

/-- The constraint of the `i`-th field, an expression over the parameters and the fields up to this one, is true for
the object with the parameters `ps` and the fields `vs`. -/
def ConstraintHolds (round : List Char → fo.F) (float : Val → fo.F) (s : Struct) (i : Nat) (ps vs : List Val) :
    Prop :=
  ∀ f e x, s.fields[i]? = some f → f.constraint = some e → Stands round (namesUpTo s (i + 1)) e x →
    ∃ v, means (textLook float noConstants s ⟨ps, vs.take (i + 1)⟩) x = some v ∧ truth v = some true

/-- `v` is the value that the `i`-th field has in a new object: the value of its initializer. -/
def Initial (round : List Char → fo.F) (float : Val → fo.F) (s : Struct) (i : Nat) (v : Val) : Prop :=
  ∀ f e x t, s.fields[i]? = some f → f.initializer = some e → Stands round [] e x →
    exprTypeOf f.typeId.type.type = some t →
    means (textLook float noConstants s ⟨[], []⟩) x = some (datumOf float (fun _ => none) t v)

/-- The offset of the `i`-th field is right in an object with the fields `vs`, in whose encoding this field begins at
bit `p`: it is the number of bytes in front. -/
def OffsetRight (s : Struct) (i : Nat) (vs : List Val) (p : Nat) : Prop :=
  ∀ f name (j : Nat) (g : StructField), s.fields[i]? = some f → f.offset = some (.id name) →
    s.fields[j]? = some g → g.typeId.name = name → ∃ n : Nat, vs[j]? = some (Val.nat n) ∧ 8 * n = p

/-- The encoding of an implicit array of bytes: the bytes, without their number in front. -/
def implicitBits (ns : List Nat) : List Bool := ns.flatMap fun n => binary 8 (n : Nat)

/-- The two structures differ in constraints, initializers and `implicit` at most. -/
structure FieldAlike (f g : StructField) : Prop where
  align : f.align = g.align
  offset : f.offset = g.offset
  optional : f.optional = g.optional
  clause : f.clause = g.clause
  name : f.typeId.name = g.typeId.name
  type : f.typeId.type = g.typeId.type
  array : f.typeId.array = g.typeId.array
  packed : f.typeId.packed = g.typeId.packed

/-- The same for lists. -/
def FieldsAlike : List StructField → List StructField → Prop
  | [], [] => True
  | f :: fs, g :: gs => FieldAlike f g ∧ FieldsAlike fs gs
  | _, _ => False

/-- The same for structures. -/
structure Alike (s t : Struct) : Prop where
  params : s.params = t.params
  functions : s.functions = t.functions
  fields : FieldsAlike s.fields t.fields

end Zs.Spec
