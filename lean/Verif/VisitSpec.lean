import Verif.Source
import Verif.LiteralSpec

/-!
# What a declaration says

Everything in a declaration that has a meaning in zserio, as a value that can be compared.  Independent of the
visitor.
-/

namespace Zs.Spec

open Src

/-- A type.  `bit:0` and `int:0` are not told from `bit` and `int` without a length; zserio allows neither as the
type of a field. -/
def tySays : Ty → Ty
  | .builtin name => .builtin name
  | .fixedBits signed bits =>
    if bits = 0 then .builtin (if signed then "int" else "bit") else .fixedBits signed bits
  | .named first rest args => .named first rest (tysSay args)
where
  tysSay : List Ty → List Ty
    | [] => []
    | t :: ts => tySays t :: tysSay ts

/-- An argument.  `explicit`, which is allowed in SQL tables only, is ignored. -/
def argSays : Arg → Arg
  | .explicit name => .expr (.id name)
  | .expr e => .expr e

/-- Arguments of a type. -/
def argsSay : Args → Args
  | .none => .none
  | .args first rest => .args (argSays first) (rest.map argSays)
  | .length e => .length e

/-- A type with its arguments. -/
def instSays (i : Inst) : Inst := ⟨tySays i.type, argsSay i.args⟩

/-- An array. -/
structure ArraySays where
  packed : Bool
  implicit_ : Bool
  length : Option Exp

/-- A field. -/
structure FieldSays where
  name : String
  type : Inst
  array : Option ArraySays
  /-- the field may be missing at the end of old data -/
  extended : Bool
  optional : Bool
  /-- number of bits, 0 if there is no alignment -/
  align : Nat
  offset : Option Exp
  initializer : Option Exp
  clause : Option Exp
  constraint : Option Exp

/-- The number of bits in `align(..)`. -/
def alignSays : Option Exp → Nat
  | some (.lit .decimal text) => digitsValue 10 (text.map fun c => c.toNat - 48)
  | _ => 0

/-- `packed` and `implicit` apply to arrays. -/
def arraySays (f : FieldTypeId) : Option ArraySays := f.array.map fun l => ⟨f.packed, f.implicit_, l⟩

/-- A field of a structure. -/
def structFieldSays (f : StructField) : FieldSays where
  name := f.typeId.name
  type := instSays f.typeId.type
  array := arraySays f.typeId
  extended := f.extended
  optional := f.optional
  align := alignSays f.align
  offset := f.offset
  initializer := f.initializer
  clause := f.clause
  constraint := f.constraint

/-- A field of a choice or union. -/
def choiceFieldSays (f : ChoiceField) : FieldSays where
  name := f.typeId.name
  type := instSays f.typeId.type
  array := arraySays f.typeId
  extended := false
  optional := false
  align := 0
  offset := none
  initializer := none
  clause := none
  constraint := f.constraint

/-- A name with a type. -/
structure ParamSays where
  name : String
  type : Ty

/-- A parameter. -/
def paramSays (p : Param) : ParamSays := ⟨p.name, tySays p.type⟩

/-- A function. -/
structure FuncSays where
  name : String
  type : Ty
  body : Exp

/-- A function. -/
def funcSays (f : Func) : FuncSays := ⟨f.name, tySays f.type, f.body⟩

/-- A structure or union. -/
structure RecordSays where
  name : String
  templates : List String
  params : List ParamSays
  fields : List FieldSays
  functions : List FuncSays

/-- A structure. -/
def structSays (s : Struct) : RecordSays :=
  ⟨s.name, s.templates, s.params.map paramSays, s.fields.map structFieldSays, s.functions.map funcSays⟩

/-- A union. -/
def unionSays (u : Union) : RecordSays :=
  ⟨u.name, u.templates, u.params.map paramSays, u.fields.map choiceFieldSays, u.functions.map funcSays⟩

/-- A case of a choice. -/
structure CaseSays where
  labels : List Exp
  field : Option FieldSays

/-- A choice. -/
structure ChoiceSays where
  name : String
  templates : List String
  params : List ParamSays
  selector : Exp
  cases : List CaseSays
  default_ : Option (Option FieldSays)
  functions : List FuncSays

/-- A case. -/
def caseSays (c : Cases) : CaseSays := ⟨c.labels, c.field.map choiceFieldSays⟩

/-- A choice. -/
def choiceSays (c : Choice) : ChoiceSays :=
  ⟨c.name, c.templates, c.params.map paramSays, c.selector, c.cases.map caseSays,
    c.default_.map (Option.map choiceFieldSays), c.functions.map funcSays⟩

/-- An enumeration. -/
structure EnumSays where
  name : String
  type : Inst
  items : List Item

/-- An enumeration. -/
def enumSays (e : Enum) : EnumSays := ⟨e.name, instSays e.type, e.items⟩

/-- A bitmask. -/
structure BitmaskSays where
  name : String
  type : Inst
  values : List (String × Option Exp)

/-- A bitmask. -/
def bitmaskSays (b : Bitmask) : BitmaskSays := ⟨b.name, instSays b.type, b.values⟩

/-- A constant. -/
structure ConstSays where
  name : String
  type : Inst
  value : Exp

/-- A constant. -/
def constSays (c : Const) : ConstSays := ⟨c.name, instSays c.type, c.value⟩

/-- A subtype or an instantiation. -/
def aliasSays (a : Alias) : ParamSays := ⟨a.name, tySays a.type⟩

/-! ## Leaving things out -/

/-- A field without `extend`. -/
def FieldSays.withoutExtend (f : FieldSays) : FieldSays := { f with extended := false }

/-- A field without constraint. -/
def FieldSays.withoutConstraint (f : FieldSays) : FieldSays := { f with constraint := none }

/-- A structure without `extend`. -/
def RecordSays.withoutExtend (r : RecordSays) : RecordSays :=
  { r with fields := r.fields.map FieldSays.withoutExtend }

/-- A union without constraints. -/
def RecordSays.withoutConstraints (r : RecordSays) : RecordSays :=
  { r with fields := r.fields.map FieldSays.withoutConstraint }

/-- A case without constraint. -/
def CaseSays.withoutConstraint (c : CaseSays) : CaseSays :=
  { c with field := c.field.map FieldSays.withoutConstraint }

/-- A choice without constraints and without default. -/
def ChoiceSays.withoutDefault (c : ChoiceSays) : ChoiceSays :=
  { c with cases := c.cases.map CaseSays.withoutConstraint, default_ := none }

/-- An enumeration without `deprecated` and `removed`. -/
def EnumSays.withoutMarks (e : EnumSays) : EnumSays :=
  { e with items := e.items.map fun i => { i with mark := .none } }

/-! ## Declarations of a file -/

/-- The structures. -/
def structsOf (ds : List Directive) : List Struct := ds.filterMap fun | .struct d => some d | _ => none
/-- The choices. -/
def choicesOf (ds : List Directive) : List Choice := ds.filterMap fun | .choice d => some d | _ => none
/-- The unions. -/
def unionsOf (ds : List Directive) : List Union := ds.filterMap fun | .union d => some d | _ => none
/-- The enumerations. -/
def enumsOf (ds : List Directive) : List Enum := ds.filterMap fun | .enum d => some d | _ => none
/-- The bitmasks. -/
def bitmasksOf (ds : List Directive) : List Bitmask := ds.filterMap fun | .bitmask d => some d | _ => none
/-- The constants. -/
def constsOf (ds : List Directive) : List Const := ds.filterMap fun | .const d => some d | _ => none
/-- The subtypes. -/
def subtypesOf (ds : List Directive) : List Alias := ds.filterMap fun | .subtype d => some d | _ => none
/-- The instantiations. -/
def instantiationsOf (ds : List Directive) : List Alias :=
  ds.filterMap fun | .instantiate d => some d | _ => none

end Zs.Spec
