import Verif.VisitSpec
import Verif.SourceSpec
import Verif.PropsLiteral

/-!
# Specification: what the text of a structure means

From the parse tree of a structure to its fields with expressions (`Written`, `SourceSpec.lean`), the types of the
names in these expressions and their values.  Nothing here is code of the repository.

Only structures without templates and functions, all of whose types are builtin; constraints and initializers say
nothing about the encoding.
-/

namespace Zs.Spec

open Src

variable {F : Type}

/-! ## Expressions -/

/-- The operation of an operator with two operands. -/
def binaryMeans : Src.BinOp → Expr F → Expr F → Expr F
  | .mul => .arith .mul | .div => .arith .div | .mod => .arith .mod | .add => .arith .add | .sub => .arith .sub
  | .shl => .bit .shl | .shr => .bit .shr | .band => .bit .and | .bxor => .bit .xor | .bor => .bit .or
  | .lt => .cmp .lt | .le => .cmp .le | .gt => .cmp .gt | .ge => .cmp .ge | .eq => .cmp .eq | .ne => .cmp .ne
  | .land => .logic .and | .lor => .logic .or

/-- The operation of an operator with one operand. -/
def unaryMeans : Src.UnOp → Expr F → Expr F
  | .plus => .plus | .minus => .neg | .bang => .not | .tilde => .compl

/-- The text of an expression stands for an expression; literals stand for their values (`round`: the floating-point
number next to a text).  `known`: the names that may be used.  Left out: binary literals (the compiler panics, C52)
and strings with escapes. -/
inductive Stands (round : List Char → F) (known : List String) : Exp → Expr F → Prop
  | paren {e x} : Stands round known e x → Stands round known (.paren e) (.paren x)
  | elem {e i x y} : Stands round known e x → Stands round known i y → Stands round known (.elem e i) (.elem x y)
  | isset {a b x y} : Stands round known a x → Stands round known b y → Stands round known (.isset a b) (.isset x y)
  | lengthof {e x} : Stands round known e x → Stands round known (.lengthof e) (.lengthof x)
  | valueof {e x} : Stands round known e x → Stands round known (.valueof e) (.valueof x)
  | numbits {e x} : Stands round known e x → Stands round known (.numbits e) (.numbits x)
  | unary {op e x} : Stands round known e x → Stands round known (.unary op e) (unaryMeans op x)
  | binary {op a b x y} : Stands round known a x → Stands round known b y →
      Stands round known (.binary op a b) (binaryMeans op x y)
  | ternary {c a b x y z} : Stands round known c x → Stands round known a y → Stands round known b z →
      Stands round known (.ternary c a b) (.tern x y z)
  | int {l : IntLit} : l.WellFormed → ¬ l.IsBinary → Stands round known (.lit l.kind l.text) (.intLit l.value)
  | true_ : Stands round known (.lit .bool "true".toList) (.boolLit true)
  | false_ : Stands round known (.lit .bool "false".toList) (.boolLit false)
  | string {cs} : (∀ c ∈ cs, (StrElem.plain c).WellFormed) →
      Stands round known (.lit .string ('"' :: cs ++ ['"'])) (.strLit (String.ofList cs))
  | float {l : FloatLit} : l.WellFormed → Stands round known (.lit .double l.text) (.floatLit (round l.text))
  | id {name} : name ∈ known → Stands round known (.id name) (.ident name)
  | dot {e x} {name : String} : Stands round known e x → Stands round known (.dot e name) (.dot x name)
  | call {name} : name ∈ known → Stands round known (.call (.id name)) (.call (.ident name))
  | method {e x} {name : String} : Stands round known e x → Stands round known (.call (.dot e name)) (.call (.dot x name))

/-- An expression that may be missing. -/
def MayStand (round : List Char → F) (known : List String) : Option Exp → Option (Expr F) → Prop
  | none, none => True
  | some e, some x => Stands round known e x
  | _, _ => False

/-! ## Types -/

/-- The values of a builtin type. -/
def scalarOf : Src.Ty → Option Scalar
  | .builtin "bool" => some .bool
  | .builtin "string" => some .string
  | .builtin "bytes" => some .bytes
  | .builtin "extern" => some .extern
  | .builtin "float16" => some .float16
  | .builtin "float32" => some .float32
  | .builtin "float64" => some .float64
  | .builtin "uint8" => some (.uint 8)
  | .builtin "uint16" => some (.uint 16)
  | .builtin "uint32" => some (.uint 32)
  | .builtin "uint64" => some (.uint 64)
  | .builtin "int8" => some (.int 8)
  | .builtin "int16" => some (.int 16)
  | .builtin "int32" => some (.int 32)
  | .builtin "int64" => some (.int 64)
  | .builtin "varuint16" => some .varuint16
  | .builtin "varuint32" => some .varuint32
  | .builtin "varuint64" => some .varuint64
  | .builtin "varuint" => some .varuint
  | .builtin "varsize" => some .varsize
  | .builtin "varint16" => some .varint16
  | .builtin "varint32" => some .varint32
  | .builtin "varint64" => some .varint64
  | .builtin "varint" => some .varint
  | .fixedBits signed bits => if bits = 0 then none else some (if signed then .ints bits else .bits bits)
  | _ => none

/-- The type of a builtin type in expressions; there are no expressions with `bytes` and `extern`. -/
def exprTypeOf : Src.Ty → Option ZTy
  | .builtin "bool" => some .bool
  | .builtin "string" => some .string
  | .builtin "float16" => some (.num .float16)
  | .builtin "float32" => some (.num .float32)
  | .builtin "float64" => some (.num .float64)
  | .builtin "uint8" => some (.num .uint8)
  | .builtin "uint16" => some (.num .uint16)
  | .builtin "uint32" => some (.num .uint32)
  | .builtin "uint64" => some (.num .uint64)
  | .builtin "int8" => some (.num .int8)
  | .builtin "int16" => some (.num .int16)
  | .builtin "int32" => some (.num .int32)
  | .builtin "int64" => some (.num .int64)
  | .builtin "varuint16" => some (.num .varuint16)
  | .builtin "varuint32" => some (.num .varuint32)
  | .builtin "varuint64" => some (.num .varuint64)
  | .builtin "varuint" => some (.num .varuint)
  | .builtin "varsize" => some (.num .varsize)
  | .builtin "varint16" => some (.num .varint16)
  | .builtin "varint32" => some (.num .varint32)
  | .builtin "varint64" => some (.num .varint64)
  | .builtin "varint" => some (.num .varint)
  | .builtin "bit" => some (.num .bit)
  | .builtin "int" => some (.num .int)
  | .fixedBits signed _ => some (.num (if signed then .int else .bit))
  | _ => none

/-- An enumeration: the type of its numbers, and its items with their numbers. -/
structure Enumeration where
  base : NumRef
  items : List (String × Int)

/-- The number of an item. -/
def Enumeration.number (e : Enumeration) (i : Nat) : Int := ((e.items[i]?).map Prod.snd).getD 0

/-- The number of the item with the name. -/
def Enumeration.named (e : Enumeration) (n : String) : Option Int :=
  (e.items.find? fun i => i.1 = n).map Prod.snd

/-- The type in expressions of a builtin type or of a declared type (`T`); there is one package, so that the name of a
declared type is the last part of a name. -/
def typeIn (T : String → Option ZTy) : Src.Ty → Option ZTy
  | .named first rest _ => T ((first :: rest).getLast (by simp))
  | t => exprTypeOf t

/-- The type of a field. -/
inductive TypeStands (round : List Char → F) (known : List String) : Inst → WrittenTy F → Prop
  | scalar {t s} : scalarOf t = some s → TypeStands round known ⟨t, .none⟩ (.plain (.scalar s))
  | bit {e x} : Stands round known e x → TypeStands round known ⟨.builtin "bit", .length e⟩ (.bit x)
  | int {e x} : Stands round known e x → TypeStands round known ⟨.builtin "int", .length e⟩ (.int x)

/-! ## Fields -/

/-- The array of a field. -/
def ArrayStands (round : List Char → F) (known : List String) (f : FieldTypeId) :
    Option (Bool × Option (Expr F)) → Prop
  | none => f.array = none
  | some (packed, x) => packed = f.packed ∧ f.implicit_ = false ∧
      ∃ e, f.array = some e ∧ MayStand round known e x

/-- `name:` and `name[@index]:` in front of a field, where `name` is one of the fields. -/
inductive OffsetStands (s : Struct) : Option Exp → Offset → Prop
  | none : OffsetStands s none .none
  | plain {g} : g ∈ s.fields → OffsetStands s (some (.id g.typeId.name)) .plain
  | indexed {g} : g ∈ s.fields → OffsetStands s (some (.elem (.id g.typeId.name) .index)) .indexed

/-- The offset is in the field `name`. -/
def OffsetIn (name : String) (offset : Option Exp) : Prop :=
  offset = some (.id name) ∨ offset = some (.elem (.id name) .index)

/-- A field of the structure `s`, whose expressions use the names in `known`. -/
structure FieldStands (round : List Char → F) (s : Struct) (known : List String) (f : StructField) (w : Written F) :
    Prop where
  extended : f.extended = false
  ty : TypeStands round known f.typeId.type w.ty
  array : ArrayStands round known f.typeId w.array
  optional : w.optional = f.optional
  clause : MayStand round known f.clause w.clause
  alignment : w.alignment = alignSays f.align
  offset : OffsetStands s f.offset w.offset
  isOffsetField : w.isOffsetField = true ↔ ∃ g ∈ s.fields, OffsetIn f.typeId.name g.offset
  args : w.args = []

/-- The fields of the structure; their expressions use parameters and fields in front of them. -/
def FieldsStand (round : List Char → F) (s : Struct) : List String → List StructField → List (Written F) → Prop
  | _, [], [] => True
  | known, f :: fs, w :: ws => FieldStands round s known f w ∧
      FieldsStand round s (known ++ [f.typeId.name]) fs ws
  | _, _, _ => False

/-- The structure has the fields `ws`. -/
structure StructStands (round : List Char → F) (s : Struct) (ws : List (Written F)) : Prop where
  templates : s.templates = []
  functions : s.functions = []
  params : ∀ p ∈ s.params, ∃ t, scalarOf p.type = some t
  names : (s.params.map Param.name ++ s.fields.map fun f => f.typeId.name).Nodup
  fields : FieldsStand round s (s.params.map Param.name) s.fields ws

/-! ## Names -/

/-- Optional fields and arrays. -/
def shapeOf (f : StructField) : Shape :=
  if f.optional then if f.typeId.array.isSome then .optionalArray else .optional
  else if f.typeId.array.isSome then .array else .plain

/-- A parameter or a field: its type in expressions, and where its value is. -/
structure Member where
  name : String
  symb : Option Symb
  value : Env → Val

/-- The parameters and fields.  The fields behind the one that is written or read are not there yet. -/
def membersOf (T : String → Option ZTy) (s : Struct) : List Member :=
  s.params.zipIdx.map (fun p =>
    ⟨p.1.name, (typeIn T p.1.type).map (⟨·, .plain⟩), fun env => env.params.getD p.2 .none⟩) ++
  s.fields.zipIdx.map (fun f =>
    ⟨f.1.typeId.name, (typeIn T f.1.typeId.type.type).map (⟨·, shapeOf f.1⟩),
      fun env => env.fields.getD f.2 .none⟩)

/-- The functions, as members without values. -/
def methodsOf (T : String → Option ZTy) (s : Struct) : List Member :=
  s.functions.map fun f => ⟨f.name, (typeIn T f.type).map (⟨.function ·, .plain⟩), fun _ => .none⟩

/-- The parameters, fields and functions. -/
def partsOf (T : String → Option ZTy) (s : Struct) : List Member := membersOf T s ++ methodsOf T s

/-- The parameter or field with the name. -/
def memberNamed (T : String → Option ZTy) (s : Struct) (name : String) : Option Member :=
  (membersOf T s).find? fun m => m.name = name

/-- An object that expressions see: the name of its type, and its value. -/
structure Object where
  type : String
  value : Val

/-- The parameters and fields of an object. -/
def Object.env (o : Object) : Env :=
  match o.value with
  | .obj ps vs => ⟨ps, vs⟩
  | _ => ⟨[], []⟩

/-- What expressions use of a package: constants, with their types and values; enumerations; bitmasks, whose values are
written like the items of enumerations; the parameters, fields and functions of structures; and what functions return (`calls`: the
name of the type, that of the function, and the object). -/
structure Constants (F : Type) where
  ty : String → Option ZTy
  value : String → Option (Datum F Object)
  enums : String → Option Enumeration
  masks : String → Option Enumeration := fun _ => none
  objects : String → Option (List Member)
  calls : String → String → Env → Option (Datum F Object) := fun _ _ _ => none

/-- The types that expressions know by the names of declared types. -/
def Constants.types (K : Constants F) (n : String) : Option ZTy :=
  match K.enums n with
  | some e => some (.enum n e.base)
  | none => match K.masks n with
    | some b => some (.bitmask n b.base)
    | none => (K.objects n).map fun _ => .compound n

/-- The parameter, field or function of a structure. -/
def Constants.part (K : Constants F) (id n : String) : Option Member :=
  (K.objects id).bind fun ms => ms.find? fun m => m.name = n

/-- The value is one of the type: a number in the range of its Rust type, a boolean or a string. -/
def ConstHas : ZTy → Datum F Object → Prop
  | .num n, .int v => (numTy n).Holds v
  | .num n, .float _ => n.rustInt = none
  | .bool, .bool _ => True
  | .string, .str _ => True
  | _, _ => False

/-- The constants have values of their types; the values of bitmasks are in the range of the Rust type; the parameters,
fields and functions are those of structures, whose functions have other names than the methods that generated code uses. -/
structure Constants.Good (K : Constants F) : Prop where
  value : ∀ n t, K.ty n = some t → ∃ v, K.value n = some v ∧ ConstHas t v
  none : ∀ n, K.ty n = none → K.value n = none
  masks : ∀ n b, K.masks n = some b → ∀ i ∈ b.items, (RTy.int (baseTy b.base)).Holds i.2
  objects : ∀ n ms, K.objects n = some ms →
    ∃ s, ms = partsOf K.types s ∧ ∀ f ∈ s.functions, f.name ∉ ["len", "bits", "clone"]

/-- No constants, no enumerations, no bitmasks, no structures. -/
def noConstants : Constants F where
  ty _ := none
  value _ := none
  enums _ := none
  objects _ := none

/-- The type of a name outside of objects: constants, enumerations and bitmasks. -/
def Constants.symb (K : Constants F) (n : String) : Option Symb :=
  match K.ty n with
  | some t => some ⟨t, .const⟩
  | none => match K.enums n with
    | some e => some ⟨.enum n e.base, .typeName⟩
    | none => (K.masks n).map fun b => ⟨.bitmask n b.base, .typeName⟩

/-- The enumeration has the item, or the bitmask the value. -/
def Constants.hasItem (K : Constants F) (id n : String) : Bool :=
  match K.enums id with
  | some e => (e.named n).isSome
  | none => ((K.masks id).bind (·.named n)).isSome

/-- The function with the name. -/
def funcNamed (s : Struct) (n : String) : Option Func := s.functions.find? fun f => f.name = n

/-- The types of the names: parameters, fields and functions; all other names are constants, enumerations and bitmasks. -/
def textScope (K : Constants F) (s : Struct) : TScope where
  ident n := match memberNamed K.types s n with
    | some m => m.symb
    | none => match funcNamed s n with
      | some f => (typeIn K.types f.type).map fun t => ⟨.function t, .plain⟩
      | none => K.symb n
  member id n := (K.part id n).bind Member.symb
  hasItem := K.hasItem
  index := false

/-- A value in an expression; `float`: the number of a bit pattern.  A bitmask that is not in the range of its Rust type is
no Rust value; it counts as 0. -/
def datumOf (float : Val → F) (E : String → Option Enumeration) : ZTy → Val → Datum F Object
  | .num n, v => if n.rustInt.isSome then .int (v.number.getD 0) else .float (float v)
  | .bool, .bool b => .bool b
  | .string, .str s => .str s
  | .string, _ => .str ""
  | .enum id _, .item i => .enum (((E id).map (·.number i)).getD 0)
  | .enum _ _, _ => .enum 0
  | .bitmask _ base, v => .mask (if (baseTy base).Contains (v.number.getD 0) then v.number.getD 0 else 0)
  | .compound id, v => .object ⟨id, v⟩
  | _, _ => .bool false

/-- An array in an expression. -/
def listDatum (float : Val → F) (E : String → Option Enumeration) (t : ZTy) : Val → Datum F Object
  | .list vs => .list (vs.map (datumOf float E t))
  | _ => .list []

/-- The value of a parameter or field in an expression. -/
def shapedDatum (float : Val → F) (E : String → Option Enumeration) (y : Symb) (v : Val) : Datum F Object :=
  match y.shape, v with
  | .optional, .some x => .opt (some (datumOf float E y.ty x))
  | .optional, _ => .opt none
  | .optionalArray, .some x => .opt (some (listDatum float E y.ty x))
  | .optionalArray, _ => .opt none
  | .array, v => listDatum float E y.ty v
  | _, v => datumOf float E y.ty v

/-- The value is one of the Rust type. -/
def fitsRust : ZTy → Val → Bool
  | .num n, v => match n.rustInt, v.number with
    | some i, some z => decide (i.Contains z)
    | _, _ => true
  | _, _ => true

/-- The same for an optional field and an array. -/
def shapeFits (y : Symb) (v : Val) : Bool :=
  match y.shape, v with
  | .optional, .some x => fitsRust y.ty x
  | .array, .list xs | .optionalArray, .some (.list xs) => xs.all (fitsRust y.ty)
  | .optional, _ | .array, _ | .optionalArray, _ => true
  | _, v => fitsRust y.ty v

/-- The value of a parameter or field of an object.  An object with values that are not of their Rust types is no Rust
object; they count as if they were not there. -/
def Constants.member (float : Val → F) (K : Constants F) (o : Object) (n : String) : Option (Datum F Object) :=
  (K.part o.type n).bind fun m => m.symb.bind fun y => match y.ty with
    | .function _ => none
    | _ =>
      let v := m.value o.env
      some (shapedDatum float K.enums y (if shapeFits y v then v else .none))

/-- The value of an item of an enumeration, and of a value of a bitmask: `e` is the name of the enumeration or bitmask in the
symbol table. -/
def Constants.item (K : Constants F) (sc : TScope) (e : Expr F) (n : String) : Option (Datum F Object) :=
  match e.symbol sc with
  | some ⟨.enum id _, .typeName⟩ => ((K.enums id).bind (·.named n)).map .enum
  | some ⟨.bitmask id _, .typeName⟩ => ((K.masks id).bind (·.named n)).map .mask
  | _ => none

/-- A function returns a number in the range of the Rust type, a boolean or a string. -/
def returns : ZTy → Datum F Object → Bool
  | .num n, .int v => match n.rustInt with
    | some i => decide (i.Contains v)
    | none => false
  | .num n, .float _ => n.rustInt.isNone
  | .bool, .bool _ => true
  | .string, .str _ => true
  | _, _ => false

/-- What a function of an object returns, if it returns a value of its type. -/
def Constants.method (K : Constants F) (o : Object) (n : String) : Option (Datum F Object) :=
  (K.part o.type n).bind fun m => m.symb.bind fun y => match y.ty with
    | .function t => (K.calls o.type n o.env).filter (returns t)
    | _ => none

/-- What the expressions see of an object, the constants, the items of enumerations and the values of bitmasks.  A function
that does not return a value of its type has none. -/
def textLook (float : Val → F) (K : Constants F) (s : Struct) (env : Env) : World F Object where
  name n := match memberNamed K.types s n with
    | some m => m.symb.map fun y => shapedDatum float K.enums y (m.value env)
    | none => match funcNamed s n with
      | some _ => none
      | none => K.value n
  func n := match memberNamed K.types s n with
    | some _ => none
    | none => (funcNamed s n).bind fun f => (typeIn K.types f.type).bind fun t =>
        (K.calls s.name n env).filter (returns t)
  member := K.member float
  method := K.method
  item := K.item (textScope K s)
  index := none
  isA o id := o.type = id

/-- The structure as a type, with the defaults of its parameters. -/
def textType (s : Struct) (ws : List (Written F)) : WrittenType F :=
  .struct (s.params.map fun p => match scalarOf p.type with
    | some t => t.dflt
    | none => .none) ws

/-- The parameters have values of their types; those of an enumeration are its items. -/
def ParamsValid (cfg : Cfg) (E : String → Option Enumeration) : List Param → List Val → Prop
  | [], [] => True
  | p :: ps, v :: vs => ((∃ t, scalarOf p.type = some t ∧ t.WidthOk ∧ t.InRange cfg ⟨[], []⟩ v) ∨
      ∃ id e i, p.type = .named id [] [] ∧ E id = some e ∧ v = .item i ∧ i < e.items.length) ∧ ParamsValid cfg E ps vs
  | _, _ => False

end Zs.Spec
