import Verif.Lexer
import Verif.Visitor

/-!
# The parser of files

The rules of `crates/zserio-rs-build/src/internal/parser/ZserioParser.g4` other than `expression`, which is in
`Parser.lean`; line numbers in the comments refer to the grammar.  The functions of
`parser/gen/zserioparser.rs` have the same names and read the same tokens in the same order.

Simplified: where the next token does not decide between two readings, ANTLR looks as far ahead as needed
(`adaptive_predict`) and, if both readings fit, takes the one that comes first in the grammar.  Here the first reading
is tried and the second one is taken if it fails; how far the first is tried is said at each of the three places
(`typeReference`, `lengthArgument`, `structureFieldDefinition`).  Syntax errors are `none`.  Rules, SQL, services and
pubsub are not read.
-/

namespace Zs.Src

/-- A reader of tokens. -/
abbrev Reader (α : Type) := List Token → Option (α × List Token)

/-- Lines 386-388: `id`. -/
def readId : Reader String
  | .id x :: ts => some (x, ts)
  | _ => none

/-- `(DOT id)*`. -/
def moreIds : List Token → List String × List Token
  | .dot :: .id x :: ts => (x :: (moreIds ts).1, (moreIds ts).2)
  | ts => ([], ts)

/-- A word that may be there. -/
def readFlag (w : String) : List Token → Bool × List Token
  | .other v :: ts => if v = w then (true, ts) else (false, .other v :: ts)
  | ts => (false, ts)

/-- `p (COMMA p)*`.  The first argument bounds the number of elements. -/
def readCommas {α : Type} (p : Reader α) : Nat → Reader (List α)
  | 0, _ => none
  | n + 1, ts => (p ts).bind fun r => match r.2 with
    | .comma :: us => (readCommas p n us).map fun q => (r.1 :: q.1, q.2)
    | us => some ([r.1], us)

/-- `p*`, up to a token at which another rule begins.  The first argument bounds the number of elements. -/
def readMany {α : Type} (stop : Token → Bool) (p : Reader α) : Nat → Reader (List α)
  | 0, ts => some ([], ts)
  | n + 1, ts => match ts with
    | [] => some ([], [])
    | t :: us => if stop t then some ([], t :: us) else
      (p (t :: us)).bind fun r => (readMany stop p n r.2).map fun q => (r.1 :: q.1, q.2)

/-! ## Types -/

/-- Lines 402-412, 431-482: the words of builtin types. -/
def typeWords : List String :=
  ["int8", "int16", "int32", "int64", "uint8", "uint16", "uint32", "uint64", "varint", "varint16", "varint32", "varint64",
   "varsize", "varuint", "varuint16", "varuint32", "varuint64", "bit", "int", "bool", "string", "float16", "float32",
   "float64", "extern", "bytes"]

/-- The number behind `bit:`. -/
def decimalNumber (text : List Char) : Nat := text.foldl (fun n c => 10 * n + (c.toNat - 48)) 0

mutual
/-- Lines 393-396: `typeReference`.  In `a<b>`, `<b>` are template arguments if it can be read so, otherwise it is left
for `dynamicLengthArgument`.  (ANTLR also looks at what is behind, which may make a difference in `a<b>c>`.)  The first
argument bounds the number of nested calls. -/
def typeReference : Nat → Reader Ty
  | 0, _ => none
  | n + 1, ts => match ts with
    | .other w :: us =>
      if w ∈ typeWords then match us with
        | .colon :: .lit .decimal x :: vs =>
          if w = "bit" ∨ w = "int" then some (.fixedBits (w = "int") (decimalNumber x), vs) else some (.builtin w, us)
        | _ => some (.builtin w, us)
      else none
    | .id x :: us => match (moreIds us).2 with
      | .lt :: vs => match templateArguments n vs with
        | some r => some (.named x (moreIds us).1 r.1, r.2)
        | none => some (.named x (moreIds us).1 [], .lt :: vs)
      | vs => some (.named x (moreIds us).1 [], vs)
    | _ => none
/-- Lines 334-340: `templateArguments`, behind `<`. -/
def templateArguments : Nat → Reader (List Ty)
  | 0, _ => none
  | n + 1, ts => (typeReference n ts).bind fun r => match r.2 with
    | .comma :: us => (templateArguments n us).map fun q => (r.1 :: q.1, q.2)
    | .gt :: us => some ([r.1], us)
    | _ => none
end

/-- `typeReference`; each nested call reads a token. -/
def readType (ts : List Token) : Option (Ty × List Token) := typeReference (2 * ts.length) ts

/-- Lines 422-425: `typeArgument`. -/
def typeArgument : Reader Arg
  | .other "explicit" :: ts => (readId ts).map fun r => (.explicit r.1, r.2)
  | ts => (parseExpression ts).map fun r => (.expr r.1, r.2)

/-- Lines 427-429: `dynamicLengthArgument`, behind `<`.  The `>` at the end could be an operator.  It is the last one in
front of which there is a whole expression: behind the type there is a name, and an expression that goes on with it
could not be closed any more. -/
def lengthArgument (ts : List Token) : Option (Exp × List Token) :=
  (List.range ts.length).reverse.findSome? fun i => match ts.drop i with
    | .gt :: us => match parseExpression (ts.take i) with
      | some (e, []) => some (e, us)
      | _ => none
    | _ => none

/-- Lines 398-400, 418-420: `(typeArguments | dynamicLengthArgument)?`. -/
def readArgs : Reader Args
  | .lparen :: ts => (readCommas typeArgument ts.length ts).bind fun r => (matchToken .rparen r.2).bind fun us =>
    match r.1 with
    | a :: as => some (.args a as, us)
    | [] => none
  | .lt :: ts => (lengthArgument ts).map fun r => (.length r.1, r.2)
  | ts => some (.none, ts)

/-- Lines 398-400: `typeInstantiation`. -/
def typeInstantiation (ts : List Token) : Option (Inst × List Token) :=
  (readType ts).bind fun t => (readArgs t.2).map fun a => (⟨t.1, a.1⟩, a.2)

/-! ## Fields -/

/-- Lines 121-123: `fieldArrayRange?`. -/
def fieldArrayRange : Reader (Option (Option Exp))
  | .lbracket :: ts => match ts with
    | .rbracket :: us => some (some none, us)
    | us => (parseExpression us).bind fun r => (matchToken .rbracket r.2).map fun vs => (some (some r.1), vs)
  | ts => some (none, ts)

/-- Lines 117-119: `fieldTypeId`. -/
def fieldTypeId (ts : List Token) : Option (FieldTypeId × List Token) :=
  (typeInstantiation (readFlag "implicit" (readFlag "packed" ts).2).2).bind fun t => (readId t.2).bind fun x =>
    (fieldArrayRange x.2).map fun a =>
      (⟨(readFlag "packed" ts).1, (readFlag "implicit" (readFlag "packed" ts).2).1, t.1, x.1, a.1⟩, a.2)

/-- An expression behind a token, if the token is there: `fieldInitializer?` (lines 125-127), `fieldOptionalClause?`
(129-131), `fieldConstraint?` (133-135), `(ASSIGN expression)?` (194, 209). -/
def expressionBehind (t : Token) : Reader (Option Exp)
  | u :: ts => if u = t then (parseExpression ts).map fun r => (some r.1, r.2) else some (none, u :: ts)
  | [] => some (none, [])

/-- Lines 100-106: a field behind its offset. -/
def fieldBody (align offset : Option Exp) (ts : List Token) : Option (StructField × List Token) :=
  (fieldTypeId (readFlag "optional" (readFlag "extend" ts).2).2).bind fun t =>
    (expressionBehind (.other "=") t.2).bind fun i => (expressionBehind (.other "if") i.2).bind fun c =>
    (expressionBehind .colon c.2).bind fun k => (matchToken (.other ";") k.2).map fun us =>
      (⟨align, offset, (readFlag "extend" ts).1, (readFlag "optional" (readFlag "extend" ts).2).1, t.1, i.1, c.1, k.1⟩, us)

/-- Lines 99-106: a field behind its alignment.  What stands in front may be an offset or a type: it is an offset if the
whole field can be read so. -/
def fieldBehindAlign (align : Option Exp) (ts : List Token) : Option (StructField × List Token) :=
  match (parseExpression ts).bind fun o => (matchToken .colon o.2).bind fun us => fieldBody align (some o.1) us with
  | some r => some r
  | none => fieldBody align none ts

/-- Lines 97-107: `structureFieldDefinition`. -/
def structureFieldDefinition : Reader StructField
  | .other "align" :: ts => (matchToken .lparen ts).bind fun ts => (parseExpression ts).bind fun a =>
    (matchToken .rparen a.2).bind fun ts => (matchToken .colon ts).bind fun ts => fieldBehindAlign (some a.1) ts
  | ts => fieldBehindAlign none ts

/-- Lines 162-164: `choiceFieldDefinition`. -/
def choiceFieldDefinition (ts : List Token) : Option (ChoiceField × List Token) :=
  (fieldTypeId ts).bind fun t => (expressionBehind .colon t.2).map fun k => (⟨t.1, k.1⟩, k.2)

/-- Lines 178-180: `unionFieldDefinition`. -/
def unionFieldDefinition (ts : List Token) : Option (ChoiceField × List Token) :=
  (choiceFieldDefinition ts).bind fun f => (matchToken (.other ";") f.2).map fun us => (f.1, us)

/-- `choiceFieldDefinition? SEMICOLON` in lines 151 and 159. -/
def fieldOrNothing : Reader (Option ChoiceField)
  | .other ";" :: ts => some (none, ts)
  | ts => (unionFieldDefinition ts).map fun f => (some f.1, f.2)

/-- Lines 154-156: `choiceCase`. -/
def choiceCase (ts : List Token) : Option (Exp × List Token) :=
  (matchToken (.other "case") ts).bind fun ts => (parseExpression ts).bind fun e =>
    (matchToken .colon e.2).map fun us => (e.1, us)

/-- Not the token. -/
def isNot (w : String) (t : Token) : Bool := decide (t ≠ .other w)

/-- Lines 150-152: `choiceCases`. -/
def choiceCases (ts : List Token) : Option (Cases × List Token) :=
  (choiceCase ts).bind fun l => (readMany (isNot "case") choiceCase l.2.length l.2).bind fun ls =>
    (fieldOrNothing ls.2).map fun f => (⟨l.1 :: ls.1, f.1⟩, f.2)

/-- Lines 158-160: `choiceDefault?`. -/
def choiceDefault : Reader (Option (Option ChoiceField))
  | .other "default" :: ts => (matchToken .colon ts).bind fun ts => (fieldOrNothing ts).map fun f => (some f.1, f.2)
  | ts => some (none, ts)

/-- Lines 296-314: `functionDefinition`. -/
def functionDefinition (ts : List Token) : Option (Func × List Token) :=
  (matchToken (.other "function") ts).bind fun ts => (readType ts).bind fun t => (readId t.2).bind fun x =>
    (matchToken .lparen x.2).bind fun ts => (matchToken .rparen ts).bind fun ts => (matchToken (.other "{") ts).bind fun ts =>
    (matchToken (.other "return") ts).bind fun ts => (parseExpression ts).bind fun e =>
    (matchToken (.other ";") e.2).bind fun ts => (matchToken (.other "}") ts).map fun ts => (⟨t.1, x.1, e.1⟩, ts)

/-! ## Declarations -/

/-- Lines 323-325: `parameterDefinition`. -/
def parameterDefinition (ts : List Token) : Option (Param × List Token) :=
  (readType ts).bind fun t => (readId t.2).map fun x => (⟨t.1, x.1⟩, x.2)

/-- Lines 319-321: `typeParameters?`. -/
def typeParameters : Reader (List Param)
  | .lparen :: ts => (readCommas parameterDefinition ts.length ts).bind fun r =>
    (matchToken .rparen r.2).map fun us => (r.1, us)
  | ts => some ([], ts)

/-- Lines 330-332: `templateParameters?`. -/
def templateParameters : Reader (List String)
  | .lt :: ts => (readCommas readId ts.length ts).bind fun r => (matchToken .gt r.2).map fun us => (r.1, us)
  | ts => some ([], ts)

/-- `functionDefinition* RBRACE SEMICOLON`. -/
def functionsAndEnd (ts : List Token) : Option (List Func × List Token) :=
  (readMany (isNot "function") functionDefinition ts.length ts).bind fun f =>
    (matchToken (.other "}") f.2).bind fun ts => (matchToken (.other ";") ts).map fun ts => (f.1, ts)

/-- The functions or the end of a declaration. -/
def atFunctions (t : Token) : Bool := decide (t = .other "function" ∨ t = .other "}")

/-- Lines 88-95: `structureDeclaration`, behind `struct`. -/
def structureDeclaration (ts : List Token) : Option (Struct × List Token) :=
  (readId ts).bind fun x => (templateParameters x.2).bind fun t => (typeParameters t.2).bind fun p =>
    (matchToken (.other "{") p.2).bind fun ts =>
    (readMany atFunctions structureFieldDefinition ts.length ts).bind fun f => (functionsAndEnd f.2).map fun g =>
      (⟨x.1, t.1, p.1, f.1, g.1⟩, g.2)

/-- Lines 169-176: `unionDeclaration`, behind `union`. -/
def unionDeclaration (ts : List Token) : Option (Union × List Token) :=
  (readId ts).bind fun x => (templateParameters x.2).bind fun t => (typeParameters t.2).bind fun p =>
    (matchToken (.other "{") p.2).bind fun ts =>
    (readMany atFunctions unionFieldDefinition ts.length ts).bind fun f => (functionsAndEnd f.2).map fun g =>
      (⟨x.1, t.1, p.1, f.1, g.1⟩, g.2)

/-- Lines 140-148: `choiceDeclaration`, behind `choice`. -/
def choiceDeclaration (ts : List Token) : Option (Choice × List Token) :=
  (readId ts).bind fun x => (templateParameters x.2).bind fun t => (matchToken .lparen t.2).bind fun us =>
    (typeParameters (.lparen :: us)).bind fun p => (matchToken (.other "on") p.2).bind fun ts => (parseExpression ts).bind fun s =>
    (matchToken (.other "{") s.2).bind fun ts => (readMany (isNot "case") choiceCases ts.length ts).bind fun c =>
    (choiceDefault c.2).bind fun d => (functionsAndEnd d.2).map fun g => (⟨x.1, t.1, p.1, s.1, c.1, d.1, g.1⟩, g.2)

/-- Lines 193-195: `enumItem`. -/
def enumItem (ts : List Token) : Option (Item × List Token) :=
  let m : Mark × List Token := match ts with
    | .other "@deprecated" :: us => (.deprecated, us)
    | .other "@removed" :: us => (.removed, us)
    | us => (.none, us)
  (readId m.2).bind fun x => (expressionBehind (.other "=") x.2).map fun v => (⟨m.1, x.1, v.1⟩, v.2)

/-- Lines 208-210: `bitmaskValue`. -/
def bitmaskValue (ts : List Token) : Option ((String × Option Exp) × List Token) :=
  (readId ts).bind fun x => (expressionBehind (.other "=") x.2).map fun v => ((x.1, v.1), v.2)

/-- Lines 188-190, 203-205: `p (COMMA p)* COMMA? RBRACE SEMICOLON`. -/
def itemsAndEnd {α : Type} (p : Reader α) : Nat → Reader (List α)
  | 0, _ => none
  | n + 1, ts => (p ts).bind fun r => match r.2 with
    | .comma :: .other "}" :: us => (matchToken (.other ";") us).map fun us => ([r.1], us)
    | .comma :: us => (itemsAndEnd p n us).map fun q => (r.1 :: q.1, q.2)
    | us => (matchToken (.other "}") us).bind fun us => (matchToken (.other ";") us).map fun us => ([r.1], us)

/-- Lines 185-191: `enumDeclaration`, behind `enum`. -/
def enumDeclaration (ts : List Token) : Option (Enum × List Token) :=
  (typeInstantiation ts).bind fun t => (readId t.2).bind fun x => (matchToken (.other "{") x.2).bind fun ts =>
    (itemsAndEnd enumItem ts.length ts).map fun i => (⟨t.1, x.1, i.1⟩, i.2)

/-- Lines 200-206: `bitmaskDeclaration`, behind `bitmask`. -/
def bitmaskDeclaration (ts : List Token) : Option (Bitmask × List Token) :=
  (typeInstantiation ts).bind fun t => (readId t.2).bind fun x => (matchToken (.other "{") x.2).bind fun ts =>
    (itemsAndEnd bitmaskValue ts.length ts).map fun i => (⟨t.1, x.1, i.1⟩, i.2)

/-- Lines 59-61: `constDefinition`, behind `const`. -/
def constDefinition (ts : List Token) : Option (Const × List Token) :=
  (typeInstantiation ts).bind fun t => (readId t.2).bind fun x => (matchToken (.other "=") x.2).bind fun ts =>
    (parseExpression ts).bind fun e => (matchToken (.other ";") e.2).map fun ts => (⟨t.1, x.1, e.1⟩, ts)

/-- Lines 81-83, 342-344: `subtypeDeclaration`, `instantiateDeclaration`, behind the first word. -/
def aliasDeclaration (ts : List Token) : Option (Alias × List Token) :=
  (readType ts).bind fun t => (readId t.2).bind fun x => (matchToken (.other ";") x.2).map fun ts => (⟨t.1, x.1⟩, ts)

/-- Lines 33-55: `languageDirective`. -/
def languageDirective : Reader Directive
  | .other "const" :: ts => (constDefinition ts).map fun d => (.const d.1, d.2)
  | .other "subtype" :: ts => (aliasDeclaration ts).map fun d => (.subtype d.1, d.2)
  | .other "struct" :: ts => (structureDeclaration ts).map fun d => (.struct d.1, d.2)
  | .other "choice" :: ts => (choiceDeclaration ts).map fun d => (.choice d.1, d.2)
  | .other "union" :: ts => (unionDeclaration ts).map fun d => (.union d.1, d.2)
  | .other "enum" :: ts => (enumDeclaration ts).map fun d => (.enum d.1, d.2)
  | .other "bitmask" :: ts => (bitmaskDeclaration ts).map fun d => (.bitmask d.1, d.2)
  | .other "instantiate" :: ts => (aliasDeclaration ts).map fun d => (.instantiate d.1, d.2)
  | _ => none

/-- Lines 21-23: `compatibilityVersionDirective?`. -/
def compatibilityVersion : Reader (Option (List Char))
  | .other "zserio_compatibility_version" :: ts => match ts with
    | .lparen :: .lit .string x :: .rparen :: .other ";" :: us => some (some x, us)
    | _ => none
  | ts => some (none, ts)

/-- Lines 25-27: `packageNameDefinition?`. -/
def packageName : Reader (Option (List String))
  | .other "package" :: ts => (readId ts).bind fun x =>
    (matchToken (.other ";") (moreIds x.2).2).map fun us => (some (x.1 :: (moreIds x.2).1), us)
  | ts => some (none, ts)

/-- Lines 29-31: `importDeclaration`. -/
def importDeclaration (ts : List Token) : Option (Import × List Token) :=
  (matchToken (.other "import") ts).bind fun ts => (readId ts).bind fun x => match (moreIds x.2).2 with
    | .dot :: .multiply :: .other ";" :: us => some (⟨x.1, (moreIds x.2).1, true⟩, us)
    | .other ";" :: us => if (moreIds x.2).1 = [] then none else some (⟨x.1, (moreIds x.2).1, false⟩, us)
    | _ => none

/-- Lines 13-19: `packageDeclaration`. -/
def parseFile (ts : List Token) : Option Package :=
  (compatibilityVersion ts).bind fun c => (packageName c.2).bind fun x =>
    (readMany (isNot "import") importDeclaration x.2.length x.2).bind fun i =>
    (readMany (fun _ => false) languageDirective i.2.length i.2).bind fun d =>
      if d.2 = [] then some ⟨c.1, x.1, i.1, d.1⟩ else none

/-- `model/package.rs` lines 14-19: from the contents of a file to its parse tree.  Simplified: ANTLR reports errors and
tries to go on behind them; here there is no tree (`none`). -/
def fileOfText (cs : List Char) : Option Package := (lexText cs).bind parseFile

/-- `model/package.rs` lines 14-27: from the contents of a file to the package.  `none`: syntax errors, which are not
modelled. -/
def packageOfText (fl : FloatText) (cs : List Char) : Option (Res (Ast.Package fl.F)) :=
  (fileOfText cs).map (visitPackage fl)

end Zs.Src
