import Verif.SchemaSpecLemmas

/-!
# A schema with all kinds of types and fields, for the examples
-/

namespace Zs

open Spec

namespace Demo

/-- Field `i` of the structure so far, as a number. -/
def num (env : Env) (i : Nat) : Nat := match env.fields[i]? with
  | .some (.nat n) => n
  | _ => 0

/-- `choice Inner(uint8 kind) on kind { case 1: int32 a; case 2: case 3: string b; case 4: ; }` -/
def inner : Ty := .choice [.nat 0] (fun ps => ps.headD (.nat 0))
  (.field [.nat 1] {} (.scalar (.int 32))
  (.field [.nat 2, .nat 3] {} (.scalar .string) (.empty [.nat 4] .nil)))

/-- `enum varint16 Color { RED = -3, GREEN, BLUE = 100 }` -/
def color : Ty := .enum .varint16 [some (-3), none, some 100]

/-- `bitmask uint8 Perm { R = 1, W, X }` -/
def perm : Ty := .bitmask (.uint 8) 1

/-- `union Shape { varuint id; Color colors[]; }` -/
def shape : Ty := .union [] (.cons {} (.scalar .varuint)
  (.cons { array := some ⟨false, none⟩ } color .nil))

/-- `struct Point { int:12 x; optional varint32 y; packed uint16 zs[3]; }` -/
def point : Ty := .struct [] (.cons {} (.scalar (.ints 12))
  (.cons { optional := true } (.scalar .varint32)
  (.cons { array := some ⟨true, some (fun _ => 3)⟩ } (.scalar (.uint 16)) .nil)))

/-- A structure with all kinds of fields. -/
def big : Ty := .struct [] (
  .cons {} (.scalar (.uint 8)) (
  .cons { optional := true } (.scalar .varuint) (
  .cons { clause := some (fun env => num env 0 == 1) } (.scalar (.bits 3)) (
  .cons { alignment := 8, array := some ⟨false, none⟩ } (.scalar .varint32) (
  .cons { array := some ⟨true, none⟩ } point (
  .cons { args := [fun env _ => .nat (num env 0)] } inner (
  .cons {} perm (
  .cons { optional := true, offset := .plain } shape (
  .cons {} (.scalar (.bitsDyn (fun env => num env 0 + 4))) .nil)))))))))

def bigVal : Val := .obj [] [.nat 2, .some (.nat 1000), .nat 0, .list [.int (-5), .int 300],
  .list [.obj [] [.int (-2048), .none, .list [.nat 1, .nat 2, .nat 3]],
         .obj [] [.int (-2047), .some (.int 7), .list [.nat 65535, .nat 0, .nat 3]]],
  .obj [.nat 2] [.int 0, .str "hi"], .nat 6, .some (.union [] 1 [.nat 0, .list [.item 1, .item 2]]),
  .nat 63]

theorem big_supported (cfg : Cfg) : big.Supported cfg := by
  simp [big, inner, color, perm, shape, point, Ty.Supported, Fields.Supported, Cases.Supported,
    Ty.Packable, Fields.Packable, Scalar.WidthOk, Scalar.isPackable, Scalar.Narrow,
    FieldInfo.isDelta, enumValues, enumValuesFrom]

theorem big_valid (cfg : Cfg) : big.Valid cfg ⟨[], []⟩ bigVal := by
  have h : "hi".utf8ByteSize < 2 ^ 31 := by decide
  simp [big, bigVal, inner, color, perm, shape, point, FieldInfo.FieldValid,
    FieldInfo.contentValid_single, FieldInfo.contentValid_list, FieldInfo.expectedParams,
    forall_get_cons, LengthFits, FieldInfo.default, Ty.default, Fields.defaults, num, Val.params,
    Scalar.dflt, Scalar.InRange, enumValues, enumValuesFrom, Scalar.Contains, Scalar.ofInt, h]

/-- A configuration for computed examples; its conversions are not those of the `half` crate. -/
def cfg : Cfg := ⟨.debug, fun x => x.toUInt16, fun x => x.toUInt32, 4, 1024⟩

end Demo

end Zs
