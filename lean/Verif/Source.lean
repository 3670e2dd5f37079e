import Verif.Literal

/-!
# Parse trees

What the generated parser hands to the visitor, one type per rule of
`crates/zserio-rs-build/src/internal/parser/ZserioParser.g4` (line numbers in the comments refer to that
file).  Texts of literals are lists of characters, identifiers are strings.  Syntax errors and the error
recovery of ANTLR are not modelled: a tree always matches the grammar.
-/

namespace Zs.Src

/-- Line 358: the operators of `unaryExpression`. -/
inductive UnOp where
  | plus | minus | bang | tilde
  deriving DecidableEq, Repr

/-- Lines 359-368: the operators with two operands. -/
inductive BinOp where
  | mul | div | mod | add | sub | shl | shr | lt | le | gt | ge | eq | ne | band | bxor | bor | land | lor
  deriving DecidableEq, Repr

/-- Lines 349-373: `expression`. -/
inductive Exp where
  | paren (e : Exp)
  | call (e : Exp)
  | elem (e i : Exp)
  | dot (e : Exp) (id : String)
  | isset (a b : Exp)
  | lengthof (e : Exp)
  | valueof (e : Exp)
  | numbits (e : Exp)
  | unary (op : UnOp) (e : Exp)
  | binary (op : BinOp) (a b : Exp)
  | ternary (c a b : Exp)
  | lit (kind : LitKind) (text : List Char)
  | index
  | id (name : String)
  deriving DecidableEq, Repr

/-- Lines 393-396 `typeReference`, 402-412 `builtinType`, 454-460 bit fields, 414-416 `qualifiedName`.
The number behind `bit:` is a decimal literal without leading zeros (`ZserioLexer.g4` lines 148-151), so it
is given by its value. -/
inductive Ty where
  /-- a keyword: `uint8`, `varsize`, `bit`, `string`, … -/
  | builtin (name : String)
  /-- `bit:n` or `int:n` -/
  | fixedBits (signed : Bool) (bits : Nat)
  /-- `a.b.Name<T, ..>` -/
  | named (first : String) (rest : List String) (args : List Ty)

/-- Lines 422-425: `typeArgument`. -/
inductive Arg where
  | explicit (id : String)
  | expr (e : Exp)

/-- Lines 398-400: what may follow a type reference. -/
inductive Args where
  | none
  | args (first : Arg) (rest : List Arg)
  | length (e : Exp)

/-- Lines 398-400: `typeInstantiation`. -/
structure Inst where
  type : Ty
  args : Args

/-- Lines 117-123: `fieldTypeId`, `fieldArrayRange`. -/
structure FieldTypeId where
  packed : Bool
  implicit_ : Bool
  type : Inst
  name : String
  array : Option (Option Exp)

/-- Lines 97-107: `structureFieldDefinition`. -/
structure StructField where
  align : Option Exp
  offset : Option Exp
  extended : Bool
  optional : Bool
  typeId : FieldTypeId
  initializer : Option Exp
  clause : Option Exp
  constraint : Option Exp

/-- Lines 162-164: `choiceFieldDefinition`. -/
structure ChoiceField where
  typeId : FieldTypeId
  constraint : Option Exp

/-- Lines 296-314: `functionDefinition`. -/
structure Func where
  type : Ty
  name : String
  body : Exp

/-- Lines 323-325: `parameterDefinition`. -/
structure Param where
  type : Ty
  name : String

/-- Lines 88-95: `structureDeclaration`. -/
structure Struct where
  name : String
  templates : List String
  params : List Param
  fields : List StructField
  functions : List Func

/-- Lines 150-156: `choiceCases`, `choiceCase`. -/
structure Cases where
  labels : List Exp
  field : Option ChoiceField

/-- Lines 140-148, 158-160: `choiceDeclaration`, `choiceDefault`. -/
structure Choice where
  name : String
  templates : List String
  params : List Param
  selector : Exp
  cases : List Cases
  default_ : Option (Option ChoiceField)
  functions : List Func

/-- Lines 169-180: `unionDeclaration`. -/
structure Union where
  name : String
  templates : List String
  params : List Param
  fields : List ChoiceField
  functions : List Func

/-- Lines 193-195: the marks of an enumeration item. -/
inductive Mark where
  | none | deprecated | removed
  deriving DecidableEq, Repr

/-- Lines 193-195: `enumItem`. -/
structure Item where
  mark : Mark
  name : String
  value : Option Exp

/-- Lines 185-191: `enumDeclaration`. -/
structure Enum where
  type : Inst
  name : String
  items : List Item

/-- Lines 200-210: `bitmaskDeclaration`, `bitmaskValue`. -/
structure Bitmask where
  type : Inst
  name : String
  values : List (String × Option Exp)

/-- Lines 59-61: `constDefinition`. -/
structure Const where
  type : Inst
  name : String
  value : Exp

/-- Lines 81-83, 342-344: `subtypeDeclaration`, `instantiateDeclaration`. -/
structure Alias where
  type : Ty
  name : String

/-- Lines 66-76, 215-291: rules, SQL tables and databases, services, pubsub.  Simplified: only the types and
expressions in them, since the visitor does not look at anything else. -/
structure Other where
  name : String
  types : List Inst
  exprs : List Exp

/-- Lines 33-55: `languageDirective`. -/
inductive Directive where
  | const (d : Const)
  | subtype (d : Alias)
  | struct (d : Struct)
  | choice (d : Choice)
  | union (d : Union)
  | enum (d : Enum)
  | bitmask (d : Bitmask)
  | instantiate (d : Alias)
  | other (d : Other)

/-- Lines 29-31: `importDeclaration`: at least one identifier, then an identifier or `*`. -/
structure Import where
  first : String
  rest : List String
  star : Bool

/-- Lines 13-23: `packageDeclaration`. -/
structure Package where
  compat : Option (List Char)
  name : Option (List String)
  imports : List Import
  directives : List Directive

end Zs.Src
