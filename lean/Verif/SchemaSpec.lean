import Verif.Schema
import Verif.Kinds

/-!
# Specification: the values of a schema

What a zserio schema says about values, independent of the generated code: default values, value
ranges, and which objects are valid.
-/

namespace Zs

open Spec

/-! ## Builtin types -/

/-- The number a Rust integer denotes. -/
def Val.number : Val → Option Int
  | .nat n => .some n
  | .int i => .some i
  | _ => .none

namespace Scalar

/-- The bit widths zserio allows. -/
def WidthOk : Scalar → Prop
  | .uint n | .int n => n ∈ [8, 16, 32, 64]
  | .bits n | .ints n => 1 ≤ n ∧ n ≤ 64
  | _ => True

/-- `v` is a value of the builtin type (`varint` without `i64::MIN`, see `C02_varint_min_violated`;
`float16` values are images of half-precision numbers). The width of a `bit<expr>` is looked up in
`env`. -/
def InRange (cfg : Cfg) (env : Env) : Scalar → Val → Prop
  | .bool, .bool _ => True
  | .string, .str s => s.utf8ByteSize < 2 ^ 31
  | .bytes, .bytes b => b.byteSize = b.dataBlob.length ∧ b.byteSize < 2 ^ 31
  | .extern, .extern e => WellFormedExtern e
  | .float16, .f32 x => cfg.toF32 (cfg.fromF32 x) = x
  | .float32, .f32 _ => True
  | .float64, .f64 _ => True
  | .uint n, .nat v => v < 2 ^ n
  | .bits n, .nat v => v < 2 ^ n
  | .bitsDyn len, .nat v => len env ≤ 64 ∧ v < 2 ^ len env
  | .int n, .int v => -(2 ^ (n - 1) : Int) ≤ v ∧ v < 2 ^ (n - 1)
  | .ints n, .int v => -(2 ^ (n - 1) : Int) ≤ v ∧ v < 2 ^ (n - 1)
  | .intsDyn len, .int v => 1 ≤ len env ∧ len env ≤ 64 ∧ -(2 ^ (len env - 1) : Int) ≤ v ∧
      v < 2 ^ (len env - 1)
  | .varuint16, .nat v => v < 2 ^ 15
  | .varuint32, .nat v => v < 2 ^ 29
  | .varuint64, .nat v => v < 2 ^ 57
  | .varuint, .nat v => v < 2 ^ 64
  | .varsize, .nat v => v < 2 ^ 31
  | .varint16, .int v => -(2 ^ 14) < v ∧ v < 2 ^ 14
  | .varint32, .int v => -(2 ^ 28) < v ∧ v < 2 ^ 28
  | .varint64, .int v => -(2 ^ 56) < v ∧ v < 2 ^ 56
  | .varint, .int v => -(2 ^ 63) < v ∧ v < 2 ^ 63
  | _, _ => False

/-- The number `x` is a value of the integer type. -/
def Contains : Scalar → Int → Prop
  | .uint n, x | .bits n, x => 0 ≤ x ∧ x < 2 ^ n
  | .int n, x | .ints n, x => -(2 ^ (n - 1) : Int) ≤ x ∧ x < 2 ^ (n - 1)
  | .varuint16, x => 0 ≤ x ∧ x < 2 ^ 15
  | .varuint32, x => 0 ≤ x ∧ x < 2 ^ 29
  | .varuint64, x => 0 ≤ x ∧ x < 2 ^ 57
  | .varuint, x => 0 ≤ x ∧ x < 2 ^ 64
  | .varsize, x => 0 ≤ x ∧ x < 2 ^ 31
  | .varint16, x => -(2 ^ 14) < x ∧ x < 2 ^ 14
  | .varint32, x => -(2 ^ 28) < x ∧ x < 2 ^ 28
  | .varint64, x => -(2 ^ 56) < x ∧ x < 2 ^ 56
  | .varint, x => -(2 ^ 63) < x ∧ x < 2 ^ 63
  | _, _ => False

/-- Types of at most 63 bits: the difference of two values that is small enough to be packed does not
overflow an `i64`. -/
def Narrow : Scalar → Prop
  | .uint n | .int n | .bits n | .ints n => n ≤ 63
  | .varuint16 | .varuint32 | .varuint64 | .varsize | .varint16 | .varint32 | .varint64 => True
  | _ => False

end Scalar

/-! ## Fields -/

namespace FieldInfo

/-- The default of a field whose type has the default `dflt`. -/
def default (info : FieldInfo) (dflt : Val) : Val :=
  if info.optional then .none else if info.array.isSome then .list [] else dflt

/-- The parameters an element must have: the arguments, or the defaults when none are passed. -/
def expectedParams (info : FieldInfo) (dflt : Val) (env : Env) (index : Nat) : List Val :=
  if info.args = [] then dflt.params else info.args.map (fun a => a env index)

/-- The content of a field (without `Option`) is valid: a valid value with the parameters the field
passes, or an array of such values with an allowed length. -/
def ContentValid (info : FieldInfo) (valid : Env → Val → Prop) (dflt : Val) (env : Env) (x : Val) :
    Prop :=
  match info.array with
  | none => valid env x ∧ x.params = info.expectedParams dflt env 0
  | some a => ∃ xs, x = .list xs ∧ LengthFits (a.length.map (fun e => e env)) xs.length ∧
      ∀ i y, xs[i]? = some y → valid env y ∧ y.params = info.expectedParams dflt env i

/-- A field is valid: it holds its default when its condition is false; otherwise its content is valid,
or it is an optional field that is not set. -/
def FieldValid (info : FieldInfo) (valid : Env → Val → Prop) (dflt : Val) (env : Env) (v : Val) :
    Prop :=
  if info.clause.all (fun c => c env) then
    if info.optional then v = .none ∨ ∃ x, v = .some x ∧ info.ContentValid valid dflt env x
    else info.ContentValid valid dflt env v
  else v = info.default dflt

end FieldInfo

/-! ## Types -/

mutual
/-- The default value of a type. -/
def Ty.default : Ty → Val
  | .scalar s => s.dflt
  | .enum _ _ => .item 0
  | .bitmask base first => base.ofInt first
  | .struct params fields => .obj params fields.defaults
  | .choice params _ cases => .obj params cases.defaults
  | .union params members => .union params 0 members.defaults
def Fields.defaults : Fields → List Val
  | .nil => []
  | .cons info ty rest => info.default ty.default :: rest.defaults
def Cases.defaults : Cases → List Val
  | .nil => []
  | .field _ info ty rest => info.default ty.default :: rest.defaults
  | .empty _ rest => rest.defaults
end

mutual
/-- `v` is a valid value of the type. -/
def Ty.Valid (cfg : Cfg) : Ty → Env → Val → Prop
  | .scalar s, env, v => s.InRange cfg env v
  | .enum base items, _, v => ∃ i x, v = .item i ∧ (enumValues items)[i]? = some x ∧
      base.Contains x ∧ x < 2 ^ 63
  | .bitmask base _, _, v => base.InRange cfg ⟨[], []⟩ v
  | .struct _ fields, _, v => ∃ ps vs, v = .obj ps vs ∧ fields.Valid cfg ps [] vs
  | .choice _ sel cases, _, v => ∃ ps vs, v = .obj ps vs ∧ cases.Valid cfg ps (sel ps) false vs
  | .union _ members, _, v => ∃ ps sel vs, v = .union ps sel vs ∧ sel < 2 ^ 31 ∧
      members.ValidMember cfg ps sel vs
/-- The fields `vs` of a structure with parameters `ps` are valid; `done` are the fields in front. -/
def Fields.Valid (cfg : Cfg) : Fields → List Val → List Val → List Val → Prop
  | .nil, _, _, vs => vs = []
  | .cons info ty rest, ps, done, vs => ∃ v vs', vs = v :: vs' ∧
      info.FieldValid (ty.Valid cfg) ty.default ⟨ps, done⟩ v ∧ rest.Valid cfg ps (done ++ [v]) vs'
/-- The member `sel` of a union is valid, the others hold their default. -/
def Fields.ValidMember (cfg : Cfg) : Fields → List Val → Nat → List Val → Prop
  | .nil, _, _, _ => False
  | .cons info ty rest, ps, sel, vs => ∃ v vs', vs = v :: vs' ∧
      match sel with
      | 0 => info.FieldValid (ty.Valid cfg) ty.default ⟨ps, []⟩ v ∧ vs' = rest.defaults
      | sel + 1 => v = info.default ty.default ∧ rest.ValidMember cfg ps sel vs'
/-- The first case whose labels contain the selector `sel` is valid, the others hold their default;
`taken` tells whether such a case came before. -/
def Cases.Valid (cfg : Cfg) : Cases → List Val → Val → Bool → List Val → Prop
  | .nil, _, _, _, vs => vs = []
  | .field labels info ty rest, ps, sel, taken, vs => ∃ v vs', vs = v :: vs' ∧
      (if taken = false ∧ sel ∈ labels then
        info.FieldValid (ty.Valid cfg) ty.default ⟨ps, []⟩ v
      else v = info.default ty.default) ∧
      rest.Valid cfg ps sel (taken || decide (sel ∈ labels)) vs'
  | .empty labels rest, ps, sel, taken, vs =>
      rest.Valid cfg ps sel (taken || decide (sel ∈ labels)) vs
end

/-! ## Classes of schemas -/

/-- Generated types. -/
def Ty.isCompound : Ty → Bool
  | .scalar _ => false
  | _ => true

/-- The field itself (not an array) takes part in delta packing. -/
def FieldInfo.isDelta (info : FieldInfo) (ty : Ty) : Bool :=
  !info.isOffsetField && (match ty with
    | .scalar s => s.isPackable
    | _ => true)

mutual
/-- Schemas whose generated code is correct when packed: integers (not of 64 bits in debug builds),
enums, bitmasks, structures and choices of such; no unions, no packed arrays of other builtin types.
`z` marks types below a choice: there enums and bitmasks must have the default 0. -/
def Ty.Packable (cfg : Cfg) : Ty → Bool → Prop
  | .scalar s, _ => s.isPackable = true ∧ s.WidthOk ∧ (cfg.md = .release ∨ s.Narrow)
  | .enum base items, z => base.isPackable = true ∧ base.WidthOk ∧
      (cfg.md = .release ∨ base.Narrow) ∧ (enumValues items).Nodup ∧
      (z = true → (enumValues items)[0]? = some 0 ∧ base.Contains 0)
  | .bitmask base first, z => base.isPackable = true ∧ base.WidthOk ∧
      (cfg.md = .release ∨ base.Narrow) ∧ (z = true → first = 0 ∧ base.Contains 0)
  | .struct _ fields, z => fields.Packable cfg z
  | .choice _ _ cases, _ => cases.Packable cfg
  | .union _ _, _ => False
def Fields.Packable (cfg : Cfg) : Fields → Bool → Prop
  | .nil, _ => True
  | .cons info ty rest, z =>
      (if info.array.isSome then
        (if info.isOffsetField then ty.Supported cfg else ty.Packable cfg false)
      else if info.isDelta ty then ty.Packable cfg z
      else ty.Supported cfg ∧ ty.isCompound = false) ∧ rest.Packable cfg z
def Cases.Packable (cfg : Cfg) : Cases → Prop
  | .nil => True
  | .field _ info ty rest =>
      (if info.array.isSome then
        (if info.isOffsetField then ty.Supported cfg else ty.Packable cfg false)
      else if info.isDelta ty then ty.Packable cfg true
      else ty.Supported cfg ∧ ty.isCompound = false) ∧ rest.Packable cfg
  | .empty _ rest => rest.Packable cfg
/-- Schemas that are supported: allowed widths, different values of enum items, and packed arrays of
`Packable` types only. -/
def Ty.Supported (cfg : Cfg) : Ty → Prop
  | .scalar s => s.WidthOk
  | .enum base items => base.WidthOk ∧ (enumValues items).Nodup
  | .bitmask base _ => base.WidthOk
  | .struct _ fields => fields.Supported cfg
  | .choice _ _ cases => cases.Supported cfg
  | .union _ members => members.Supported cfg
def Fields.Supported (cfg : Cfg) : Fields → Prop
  | .nil => True
  | .cons info ty rest =>
      (if info.array.any (fun a => a.isPacked && !info.isOffsetField) then ty.Packable cfg false
      else ty.Supported cfg) ∧ rest.Supported cfg
def Cases.Supported (cfg : Cfg) : Cases → Prop
  | .nil => True
  | .field _ info ty rest =>
      (if info.array.any (fun a => a.isPacked && !info.isOffsetField) then ty.Packable cfg false
      else ty.Supported cfg) ∧ rest.Supported cfg
  | .empty _ rest => rest.Supported cfg
end

end Zs
