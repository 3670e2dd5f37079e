import Verif.FileParser
import Verif.ParserSpec
import Verif.LexerSpec

/-!
# Specification: how files are written

Nothing here is code of the repository.
-/

namespace Zs.Spec

open Src

/-- One behind the other, with commas in between. -/
def separated : List (List Token) → List Token
  | [] => []
  | [x] => x
  | x :: y :: r => x ++ [.comma] ++ separated (y :: r)

/-- `.a.b` -/
def dotted (xs : List String) : List Token := xs.flatMap fun x => [.dot, .id x]

mutual
/-- How a type is written: `uint8`, `bit:5`, `a.b<c, d>`. -/
def writtenType : Ty → List Token
  | .builtin w => [.other w]
  | .fixedBits signed n => [.other (if signed then "int" else "bit"), .colon, .lit .decimal (Nat.toDigits 10 n)]
  | .named x xs [] => [.id x] ++ dotted xs
  | .named x xs (a :: as) => [.id x] ++ dotted xs ++ [.lt] ++ separated (writtenTypes (a :: as)) ++ [.gt]
/-- Several types. -/
def writtenTypes : List Ty → List (List Token)
  | [] => []
  | t :: ts => writtenType t :: writtenTypes ts
end

/-- An argument. -/
def writtenArg : Arg → List Token
  | .explicit x => [.other "explicit", .id x]
  | .expr e => written e

/-- `(a, b)` or `<n>` -/
def writtenArgs : Args → List Token
  | .none => []
  | .args a as => [.lparen] ++ separated (writtenArg a :: as.map writtenArg) ++ [.rparen]
  | .length e => [.lt] ++ written e ++ [.gt]

/-- A type with arguments. -/
def writtenInst (i : Inst) : List Token := writtenType i.type ++ writtenArgs i.args

/-- A word that is there or not. -/
def writtenFlag (w : String) (b : Bool) : List Token := if b then [.other w] else []

/-- `[]`, `[n]` or nothing. -/
def writtenArray : Option (Option Exp) → List Token
  | none => []
  | some none => [.lbracket, .rbracket]
  | some (some e) => [.lbracket] ++ written e ++ [.rbracket]

/-- `packed implicit type name[n]` -/
def writtenTypeId (f : FieldTypeId) : List Token :=
  writtenFlag "packed" f.packed ++ writtenFlag "implicit" f.implicit_ ++ writtenInst f.type ++ [.id f.name] ++
    writtenArray f.array

/-- An expression behind a sign, or nothing. -/
def writtenBehind (t : Token) : Option Exp → List Token
  | none => []
  | some e => [t] ++ written e

/-- A field behind its alignment and offset. -/
def writtenBody (f : StructField) : List Token :=
  writtenFlag "extend" f.extended ++ writtenFlag "optional" f.optional ++ writtenTypeId f.typeId ++
    writtenBehind (.other "=") f.initializer ++ writtenBehind (.other "if") f.clause ++
    writtenBehind .colon f.constraint ++ [.other ";"]

/-- `align(n):` or nothing. -/
def writtenAlign : Option Exp → List Token
  | none => []
  | some e => [.other "align", .lparen] ++ written e ++ [.rparen, .colon]

/-- `offset:` or nothing. -/
def writtenOffset : Option Exp → List Token
  | none => []
  | some e => written e ++ [.colon]

/-- `align(n): offset: extend optional type name = value if condition : constraint;` -/
def writtenField (f : StructField) : List Token := writtenAlign f.align ++ writtenOffset f.offset ++ writtenBody f

/-- `type name : constraint;` -/
def writtenChoiceField (f : ChoiceField) : List Token :=
  writtenTypeId f.typeId ++ writtenBehind .colon f.constraint ++ [.other ";"]

/-- A field or nothing. -/
def writtenCaseField : Option ChoiceField → List Token
  | none => [.other ";"]
  | some f => writtenChoiceField f

/-- `case a: case b: field;` -/
def writtenCases (c : Cases) : List Token :=
  c.labels.flatMap (fun e => [.other "case"] ++ written e ++ [.colon]) ++ writtenCaseField c.field

/-- `default: field;` or nothing. -/
def writtenDefault : Option (Option ChoiceField) → List Token
  | none => []
  | some f => [.other "default", .colon] ++ writtenCaseField f

/-- `function type name() { return value; }` -/
def writtenFunction (f : Func) : List Token :=
  [.other "function"] ++ writtenType f.type ++ [.id f.name, .lparen, .rparen, .other "{", .other "return"] ++
    written f.body ++ [.other ";", .other "}"]

/-- `<A, B>` or nothing. -/
def writtenTemplates : List String → List Token
  | [] => []
  | x :: xs => [.lt] ++ separated ((x :: xs).map fun x => [.id x]) ++ [.gt]

/-- A parameter. -/
def writtenParam (p : Param) : List Token := writtenType p.type ++ [.id p.name]

/-- `(uint8 a, uint8 b)` or nothing. -/
def writtenParams : List Param → List Token
  | [] => []
  | p :: ps => [.lparen] ++ separated ((p :: ps).map writtenParam) ++ [.rparen]

/-- An item of an enumeration. -/
def writtenItem (i : Item) : List Token :=
  (match i.mark with
    | .none => []
    | .deprecated => [.other "@deprecated"]
    | .removed => [.other "@removed"]) ++ [.id i.name] ++ writtenBehind (.other "=") i.value

/-- A value of a bitmask. -/
def writtenValue (v : String × Option Exp) : List Token := [.id v.1] ++ writtenBehind (.other "=") v.2

/-- The functions and the end. -/
def writtenEnd (fs : List Func) : List Token := fs.flatMap writtenFunction ++ [.other "}", .other ";"]

/-- A declaration.  Those that are not modelled have no text (see `DirectiveText`). -/
def writtenDirective : Directive → List Token
  | .const d => [.other "const"] ++ writtenInst d.type ++ [.id d.name, .other "="] ++ written d.value ++ [.other ";"]
  | .subtype d => [.other "subtype"] ++ writtenType d.type ++ [.id d.name, .other ";"]
  | .struct d => [.other "struct", .id d.name] ++ writtenTemplates d.templates ++ writtenParams d.params ++
      [.other "{"] ++ d.fields.flatMap writtenField ++ writtenEnd d.functions
  | .choice d => [.other "choice", .id d.name] ++ writtenTemplates d.templates ++ writtenParams d.params ++
      [.other "on"] ++ written d.selector ++ [.other "{"] ++ d.cases.flatMap writtenCases ++
      writtenDefault d.default_ ++ writtenEnd d.functions
  | .union d => [.other "union", .id d.name] ++ writtenTemplates d.templates ++ writtenParams d.params ++
      [.other "{"] ++ d.fields.flatMap writtenChoiceField ++ writtenEnd d.functions
  | .enum d => [.other "enum"] ++ writtenInst d.type ++ [.id d.name, .other "{"] ++
      separated (d.items.map writtenItem) ++ [.other "}", .other ";"]
  | .bitmask d => [.other "bitmask"] ++ writtenInst d.type ++ [.id d.name, .other "{"] ++
      separated (d.values.map writtenValue) ++ [.other "}", .other ";"]
  | .instantiate d => [.other "instantiate"] ++ writtenType d.type ++ [.id d.name, .other ";"]
  | .other _ => []

/-- `import a.b.C;` or `import a.b.*;` -/
def writtenImport (i : Import) : List Token :=
  [.other "import", .id i.first] ++ dotted i.rest ++ (if i.star then [.dot, .multiply] else []) ++ [.other ";"]

/-- `zserio_compatibility_version("1.0");` or nothing. -/
def writtenVersion : Option (List Char) → List Token
  | none => []
  | some x => [.other "zserio_compatibility_version", .lparen, .lit .string x, .rparen, .other ";"]

/-- `package a.b;` or nothing. -/
def writtenName : Option (List String) → List Token
  | some (x :: xs) => [.other "package", .id x] ++ dotted xs ++ [.other ";"]
  | _ => []

/-- A text of a declaration: there may be a comma behind the last item. -/
inductive DirectiveText : Directive → List Token → Prop
  | plain (d : Directive) (h : ∀ o, d ≠ .other o) : DirectiveText d (writtenDirective d)
  | enum (d : Enum) : DirectiveText (.enum d) ([.other "enum"] ++ writtenInst d.type ++ [.id d.name, .other "{"] ++
      separated (d.items.map writtenItem) ++ [.comma, .other "}", .other ";"])
  | bitmask (d : Bitmask) : DirectiveText (.bitmask d) ([.other "bitmask"] ++ writtenInst d.type ++
      [.id d.name, .other "{"] ++ separated (d.values.map writtenValue) ++ [.comma, .other "}", .other ";"])

/-- A text of several declarations. -/
inductive DirectivesText : List Directive → List Token → Prop
  | nil : DirectivesText [] []
  | cons {d : Directive} {ds : List Directive} {ts us : List Token} (hd : DirectiveText d ts) (hds : DirectivesText ds us) :
      DirectivesText (d :: ds) (ts ++ us)

/-- A text of a file. -/
def FileText (p : Package) (ts : List Token) : Prop :=
  ∃ us, DirectivesText p.directives us ∧
    ts = writtenVersion p.compat ++ writtenName p.name ++ p.imports.flatMap writtenImport ++ us

/-- The characters of a file. -/
def FileWritten (p : Package) (cs : List Char) : Prop := ∃ ts, Tokens cs ts ∧ FileText p ts

/-! ## What can be written -/

/-- The names of the builtin types. -/
def builtinNames : List String :=
  ["int8", "int16", "int32", "int64", "uint8", "uint16", "uint32", "uint64", "varint16", "varint32", "varint64", "varint",
   "varuint16", "varuint32", "varuint64", "varuint", "varsize", "bit", "int", "float16", "float32", "float64", "bool",
   "string", "bytes", "extern"]

mutual
/-- The type is one of the language. -/
def TypeOk : Ty → Prop
  | .builtin w => w ∈ builtinNames
  | .fixedBits _ _ => True
  | .named _ _ as => TypesOk as
/-- All of them are. -/
def TypesOk : List Ty → Prop
  | [] => True
  | t :: ts => TypeOk t ∧ TypesOk ts
end

/-- What is there is bracketed. -/
def OptionOk (e : Option Exp) : Prop := ∀ x, e = some x → Bracketed x

/-- The argument is bracketed. -/
def ArgOk : Arg → Prop
  | .explicit _ => True
  | .expr e => Bracketed e

/-- A type with arguments.  `apart`: a length is only behind a builtin type, otherwise it could be a template argument. -/
def InstOk (apart : Bool) (i : Inst) : Prop :=
  TypeOk i.type ∧ match i.args with
    | .none => True
    | .args a as => ArgOk a ∧ ∀ b ∈ as, ArgOk b
    | .length e => Bracketed e ∧ (apart = true → ∃ w, i.type = .builtin w)

def TypeIdOk (apart : Bool) (f : FieldTypeId) : Prop := InstOk apart f.type ∧ ∀ e, f.array = some (some e) → Bracketed e

/-- Not both `<` and `>` are in the expression. -/
def NoAngles (e : Exp) : Prop := .lt ∉ written e ∨ .gt ∉ written e

/-- The type has template arguments. -/
def Templated : Ty → Prop
  | .named _ _ (_ :: _) => True
  | _ => False

/-- A field.  `apart`: it is none like `A<B> x : a < b > c;`, where `A<B> x` could be an offset. -/
def FieldOk (apart : Bool) (f : StructField) : Prop :=
  OptionOk f.align ∧ OptionOk f.offset ∧ TypeIdOk apart f.typeId ∧ OptionOk f.initializer ∧ OptionOk f.clause ∧
    OptionOk f.constraint ∧
    (apart = true → f.offset = none → Templated f.typeId.type.type → ∀ e, f.constraint = some e → NoAngles e)

def ChoiceFieldOk (apart : Bool) (f : ChoiceField) : Prop := TypeIdOk apart f.typeId ∧ OptionOk f.constraint

def CasesOk (apart : Bool) (c : Cases) : Prop :=
  c.labels ≠ [] ∧ (∀ e ∈ c.labels, Bracketed e) ∧ ∀ f, c.field = some f → ChoiceFieldOk apart f

def FunctionOk (f : Func) : Prop := TypeOk f.type ∧ Bracketed f.body

def ParamsOk (ps : List Param) : Prop := ∀ p ∈ ps, TypeOk p.type

def DirectiveOk (apart : Bool) : Directive → Prop
  | .const d => InstOk apart d.type ∧ Bracketed d.value
  | .subtype d | .instantiate d => TypeOk d.type
  | .struct d => ParamsOk d.params ∧ (∀ f ∈ d.fields, FieldOk apart f) ∧ ∀ f ∈ d.functions, FunctionOk f
  | .choice d => d.params ≠ [] ∧ ParamsOk d.params ∧ Bracketed d.selector ∧ (∀ c ∈ d.cases, CasesOk apart c) ∧
      (∀ f, d.default_ = some (some f) → ChoiceFieldOk apart f) ∧ ∀ f ∈ d.functions, FunctionOk f
  | .union d => ParamsOk d.params ∧ (∀ f ∈ d.fields, ChoiceFieldOk apart f) ∧ ∀ f ∈ d.functions, FunctionOk f
  | .enum d => InstOk apart d.type ∧ d.items ≠ [] ∧ ∀ i ∈ d.items, OptionOk i.value
  | .bitmask d => InstOk apart d.type ∧ d.values ≠ [] ∧ ∀ v ∈ d.values, OptionOk v.2
  | .other _ => False

/-- The file is one of the language and does not use what is not modelled.  `apart`: no part of it could be read
differently. -/
def FileOk (apart : Bool) (p : Package) : Prop :=
  p.name ≠ some [] ∧ (∀ i ∈ p.imports, i.star = false → i.rest ≠ []) ∧ ∀ d ∈ p.directives, DirectiveOk apart d

end Zs.Spec
