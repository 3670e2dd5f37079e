import Verif.Source

/-!
# Model of the visitor

`crates/zserio-rs-build/src/internal/visitor.rs` turns a parse tree into the data structures of
`crates/zserio-rs-build/src/internal/ast/`.  Line numbers without a file refer to `visitor.rs`.

`Rc<RefCell<..>>` and `Box<..>` are dropped, comments (always `""` or `"todo"`) too.  A package name is the list
of its parts.
-/

namespace Zs

/-! ## The data structures -/

namespace Ast

/-- The token types that occur as `expression_type` (`parser/gen/zserioparser.rs`), and `0xFFFFF` (line 890)
as `member`. -/
inductive Tok where
  | lparen | rparen | lbracket | dot | member | isset | lengthof | valueof | numbits
  | plus | minus | bang | tilde | multiply | divide | modulo | lshift | rshift | lt | le | gt | ge | eq | ne
  | and | xor | or | logicalAnd | logicalOr | questionmark | index | id
  | literal (kind : LitKind)
  deriving DecidableEq, Repr

/-- `ast/expression.rs` lines 19-41: `ExpressionType`, as far as the visitor sets it. -/
inductive Value (F : Type) where
  | other
  | bool (b : Bool)
  | lit (v : LitVal F)

/-- `ast/expression.rs` lines 43-71: `Expression`.  `operands` are `operand1`, `operand2`, `operand3` as far as
they are set; `flagged` is `flag == IsDotExpressionRightOperand`; `resolved` is `fully_resolved`, for which
`evaluation_state` says the same; `symbol` is never set by the visitor. -/
inductive Node (F : Type) where
  | mk (token : Tok) (text : List Char) (flagged : Bool) (value : Value F) (resolved : Bool)
      (native : Option String) (operands : List (Node F))

/-- `ast/type_reference.rs` lines 7-16: `TypeReference`. -/
inductive TypeRef (F : Type) where
  | mk (builtin : Bool) (package : List String) (name : String) (bits : Nat) (templateArgs : List (TypeRef F))
      (typeArgs : List (Node F)) (length : Option (Node F))

/-- `ast/field.rs` lines 10-26: `Array`. -/
structure Array (F : Type) where
  packed : Bool
  implicit_ : Bool
  length : Option (Node F)

/-- `ast/field.rs` lines 28-66: `Field`.  `is_offset_field` is set later. -/
structure Field (F : Type) where
  name : String
  optional : Bool
  alignment : Nat
  type : TypeRef F
  initializer : Option (Node F)
  offset : Option (Node F)
  constraint : Option (Node F)
  clause : Option (Node F)
  array : Option (Array F)

/-- `ast/parameter.rs`. -/
structure Param (F : Type) where
  name : String
  type : TypeRef F

/-- `ast/zfunction.rs` lines 7-12. -/
structure Func (F : Type) where
  name : String
  result : Node F
  returnType : TypeRef F

/-- `ast/zstruct.rs`. -/
structure Struct (F : Type) where
  name : String
  templates : List String
  params : List (Param F)
  fields : List (Field F)
  functions : List (Func F)

/-- `ast/zchoice.rs` lines 15-19. -/
structure Case (F : Type) where
  conditions : List (Node F)
  field : Option (Field F)

/-- `ast/zchoice.rs` lines 21-30. -/
structure Choice (F : Type) where
  name : String
  templates : List String
  params : List (Param F)
  selector : Node F
  cases : List (Case F)
  default_ : Option (Case F)
  functions : List (Func F)

/-- `ast/zunion.rs`. -/
structure Union (F : Type) where
  name : String
  templates : List String
  params : List (Param F)
  fields : List (Field F)
  functions : List (Func F)

/-- `ast/zenum.rs` lines 9-14. -/
structure Item (F : Type) where
  name : String
  value : Option (Node F)

/-- `ast/zenum.rs` lines 15-21. -/
structure Enum (F : Type) where
  name : String
  type : TypeRef F
  items : List (Item F)

/-- `ast/zbitmask.rs` lines 7-40: the name, the type, and the values with their expressions. -/
structure Bitmask (F : Type) where
  name : String
  type : TypeRef F
  values : List (Item F)

/-- `ast/zconst.rs`. -/
structure Const (F : Type) where
  name : String
  type : TypeRef F
  value : Node F

/-- `ast/zsubtype.rs`, `ast/type_reference.rs` lines 42-45. -/
structure Alias (F : Type) where
  name : String
  type : TypeRef F

/-- `ast/package.rs` lines 11-18: `ZImport`. -/
structure Import where
  dir : List String
  symbol : Option String
  deriving DecidableEq, Repr

/-- A `HashMap` with string keys, as the function `get`. -/
abbrev Map (α : Type) := String → Option α

/-- `HashMap::insert`: replaces the value of an existing key. -/
def Map.insert {α : Type} (m : Map α) (k : String) (v : α) : Map α := fun n => if n = k then some v else m n

/-- `HashMap::new`. -/
def Map.empty {α : Type} : Map α := fun _ => none

/-- `ast/package.rs` lines 19-33: `ZPackage`. -/
structure Package (F : Type) where
  name : List String
  imports : List Import
  structs : Map (Struct F)
  choices : Map (Choice F)
  unions : Map (Union F)
  enums : List (Enum F)
  consts : List (Const F)
  subtypes : List (Alias F)
  instantiated : List (Alias F)
  bitmasks : List (Bitmask F)

end Ast

open Ast

/-- The elements of a list one after the other; the first panic ends everything. -/
def visitList {α β : Type} (f : α → Res β) : List α → Res (List β)
  | [] => .ok []
  | a :: as => do
    let b ← f a
    let bs ← visitList f as
    .ok (b :: bs)

/-- `if let Some(ctx) = ..`. -/
def visitOption {α β : Type} (f : α → Res β) : Option α → Res (Option β)
  | none => .ok none
  | some a => do
    let b ← f a
    .ok (some b)

/-! ## Expressions -/

/-- The token of a unary operator. -/
def Src.UnOp.token : Src.UnOp → Tok
  | .plus => .plus | .minus => .minus | .bang => .bang | .tilde => .tilde

/-- The token that ANTLR reports as `operator`; for `>>` it is the first `>`
(`parser/ZserioParser.g4` line 361). -/
def Src.BinOp.token : Src.BinOp → Tok
  | .mul => .multiply | .div => .divide | .mod => .modulo | .add => .plus | .sub => .minus
  | .shl => .lshift | .shr => .gt | .lt => .lt | .le => .le | .gt => .gt | .ge => .ge | .eq => .eq
  | .ne => .ne | .band => .and | .bxor => .xor | .bor => .or | .land => .logicalAnd | .lor => .logicalOr

/-- The text of an operator token (`parser/ZserioLexer.g4`). -/
def Ast.Tok.text : Tok → String
  | .lparen => "(" | .rparen => ")" | .lbracket => "[" | .dot => "." | .isset => "isset"
  | .lengthof => "lengthof" | .valueof => "valueof" | .numbits => "numbits" | .plus => "+" | .minus => "-"
  | .bang => "!" | .tilde => "~" | .multiply => "*" | .divide => "/" | .modulo => "%" | .lshift => "<<"
  | .lt => "<" | .le => "<=" | .gt => ">" | .ge => ">=" | .eq => "==" | .ne => "!=" | .and => "&" | .xor => "^"
  | .or => "|" | .logicalAnd => "&&" | .logicalOr => "||" | .questionmark => "?" | .index => "@index"
  | .rshift | .id | .member | .literal _ => ""

variable {fl : FloatText}

/-- An operator node as it is created everywhere in lines 789-1435. -/
def operatorNode {F : Type} (token : Tok) (value : Value F) (native : Option String)
    (operands : List (Node F)) : Node F :=
  .mk token token.text.toList false value false native operands

/-- Lines 1191-1219: the token of a shift operator is corrected. -/
def shiftToken : Tok → Tok
  | .gt => .rshift
  | t => t

/-- Lines 1138-1406: the node of a binary operator, by grammar alternative.  `native_type` is preset for
`&&` and `||` (lines 1370, 1394). -/
def binaryNode {F : Type} (op : Src.BinOp) (a b : Node F) : Node F :=
  match op with
  | .shl | .shr => .mk (shiftToken op.token) op.token.text.toList false .other false none [a, b]
  | .land | .lor => operatorNode op.token .other (some "bool") [a, b]
  | _ => operatorNode op.token .other none [a, b]

/-- Lines 980-990: the type of a literal. -/
def literalNative : LitKind → Option String
  | .bool => some "bool"
  | .string => some "string"
  | _ => none

/-- Lines 789-1435: the node of an expression. -/
def visitExp (fl : FloatText) : Src.Exp → Res (Node fl.F)
  | .paren e => do
    let a ← visitExp fl e
    .ok (operatorNode .lparen .other none [a])
  | .call e => do
    let a ← visitExp fl e
    .ok (operatorNode .rparen .other none [a])
  | .elem e i => do
    let a ← visitExp fl e
    let b ← visitExp fl i
    .ok (operatorNode .lbracket .other none [a, b])
  | .dot e id => do
    let a ← visitExp fl e
    .ok (operatorNode .dot .other none [a, .mk .member id.toList true .other false none []])
  | .isset x y => do
    let a ← visitExp fl x
    let b ← visitExp fl y
    .ok (operatorNode .isset (.bool true) none [a, b])
  | .lengthof e => do
    let a ← visitExp fl e
    .ok (operatorNode .lengthof .other (some "varsize") [a])
  | .valueof e => do
    let a ← visitExp fl e
    .ok (operatorNode .valueof .other none [a])
  | .numbits e => do
    let a ← visitExp fl e
    .ok (operatorNode .numbits .other (some "varsize") [a])
  | .unary op e => do
    let a ← visitExp fl e
    .ok (operatorNode op.token .other none [a])
  | .binary op x y => do
    let a ← visitExp fl x
    let b ← visitExp fl y
    .ok (binaryNode op a b)
  | .ternary c x y => do
    let a ← visitExp fl c
    let b ← visitExp fl x
    let d ← visitExp fl y
    .ok (operatorNode .questionmark .other none [a, b, d])
  | .lit kind text => do
    let v ← literalValue fl kind text
    .ok (.mk (.literal kind) text false (.lit v) true (literalNative kind) [])
  | .index => .ok (operatorNode .index .other none [])
  | .id name => .ok (.mk .id name.toList false .other false none [])

/-! ## Types -/

/-- Lines 1470-1522: a type reference.  `rsplit_once('.')` separates the last identifier from the others;
`parse::<u8>` of the number behind the colon panics above 255. -/
def visitTy {F : Type} : Src.Ty → Res (TypeRef F)
  | .builtin name => .ok (.mk true [] name 0 [] [] none)
  | .fixedBits signed bits =>
    if bits < 256 then .ok (.mk true [] (if signed then "int" else "bit") bits [] [] none) else .panic
  | .named first rest args => do
    let targs ← visitTys args
    .ok (.mk false (first :: rest).dropLast ((first :: rest).getLast (by simp)) 0 targs [] none)
where
  /-- Lines 736-752: the arguments of a template. -/
  visitTys : List Src.Ty → Res (List (TypeRef F))
    | [] => .ok []
    | t :: ts => do
      let r ← visitTy t
      let rs ← visitTys ts
      .ok (r :: rs)

/-- Lines 1566-1583: an argument; `explicit` is dropped. -/
def visitArg (fl : FloatText) : Src.Arg → Res (Node fl.F)
  | .explicit name => .ok (.mk .id name.toList false .other false none [])
  | .expr e => visitExp fl e

/-- Lines 1437-1468: a type with its arguments. -/
def visitInst (fl : FloatText) (t : Src.Inst) : Res (TypeRef fl.F) := do
  let r ← visitTy t.type
  match r, t.args with
  | r, .none => .ok r
  | .mk b p n w ts _ l, .args first rest => do
    let args ← visitList (visitArg fl) (first :: rest)
    .ok (.mk b p n w ts args l)
  | .mk b p n w ts as _, .length e => do
    let l ← visitExp fl e
    .ok (.mk b p n w ts as (some l))

/-! ## Fields -/

/-- `parse::<u8>`: no minus sign. -/
def parseU8 (cs : List Char) : Option Nat :=
  if cs.head? = some '-' then none
  else (parseI32 10 cs).bind fun n => if 0 ≤ n ∧ n < 256 then some n.toNat else none

/-- Lines 566-581. -/
def visitAlignment (fl : FloatText) (e : Src.Exp) : Res Nat := do
  let n ← visitExp fl e
  match n with
  | .mk token text _ _ _ _ _ =>
    if token = .literal .decimal then
      match parseU8 text with
      | some a => .ok a
      | none => .panic
    else .panic

/-- Lines 583-632: `visit_fieldTypeId`.  `packed` and `implicit` matter for arrays only. -/
def visitFieldTypeId (fl : FloatText) (f : Src.FieldTypeId) : Res (Field fl.F) := do
  let t ← visitInst fl f.type
  let array ← visitOption (fun length => do
    let l ← visitOption (visitExp fl) length
    .ok { packed := f.packed, implicit_ := f.implicit_, length := l : Ast.Array fl.F }) f.array
  .ok { name := f.name, optional := false, alignment := 0, type := t, initializer := none, offset := none,
        constraint := none, clause := none, array := array }

/-- Lines 400-461: a field of a structure; `extend` is dropped. -/
def visitStructField (fl : FloatText) (f : Src.StructField) : Res (Field fl.F) := do
  let field ← visitFieldTypeId fl f.typeId
  let alignment ← visitOption (visitAlignment fl) f.align
  let offset ← visitOption (visitExp fl) f.offset
  let initializer ← visitOption (visitExp fl) f.initializer
  let clause ← visitOption (visitExp fl) f.clause
  let constraint ← visitOption (visitExp fl) f.constraint
  .ok { field with
    optional := f.optional
    alignment := alignment.getD 0
    offset := offset
    initializer := initializer
    clause := clause
    constraint := constraint }

/-- Lines 510-515: a field of a choice or union; its constraint is not visited. -/
def visitChoiceField (fl : FloatText) (f : Src.ChoiceField) : Res (Field fl.F) :=
  visitFieldTypeId fl f.typeId

/-! ## Declarations -/

/-- Lines 754-763. -/
def visitParam {F : Type} (p : Src.Param) : Res (Ast.Param F) := do
  let t ← visitTy p.type
  .ok ⟨p.name, t⟩

/-- Lines 1524-1540. -/
def visitFunc (fl : FloatText) (f : Src.Func) : Res (Ast.Func fl.F) := do
  let r ← visitExp fl f.body
  let t ← visitTy f.type
  .ok ⟨f.name, r, t⟩

/-- Lines 356-398. -/
def visitStruct (fl : FloatText) (s : Src.Struct) : Res (Ast.Struct fl.F) := do
  let params ← visitList visitParam s.params
  let fields ← visitList (visitStructField fl) s.fields
  let functions ← visitList (visitFunc fl) s.functions
  .ok ⟨s.name, s.templates, params, fields, functions⟩

/-- Lines 463-492. -/
def visitCases (fl : FloatText) (c : Src.Cases) : Res (Ast.Case fl.F) := do
  let conditions ← visitList (visitExp fl) c.labels
  let field ← visitOption (visitChoiceField fl) c.field
  .ok ⟨conditions, field⟩

/-- Lines 516-564: `default_case` is `None` (line 526), the default of the tree is not visited (line 551). -/
def visitChoice (fl : FloatText) (c : Src.Choice) : Res (Ast.Choice fl.F) := do
  let selector ← visitExp fl c.selector
  let params ← visitList visitParam c.params
  let cases ← visitList (visitCases fl) c.cases
  let functions ← visitList (visitFunc fl) c.functions
  .ok ⟨c.name, c.templates, params, selector, cases, none, functions⟩

/-- Lines 634-673. -/
def visitUnion (fl : FloatText) (u : Src.Union) : Res (Ast.Union fl.F) := do
  let params ← visitList visitParam u.params
  let fields ← visitList (visitChoiceField fl) u.fields
  let functions ← visitList (visitFunc fl) u.functions
  .ok ⟨u.name, u.templates, params, fields, functions⟩

/-- Lines 708-723: `deprecated` and `removed` are dropped. -/
def visitItem (fl : FloatText) (i : Src.Item) : Res (Ast.Item fl.F) := do
  let v ← visitOption (visitExp fl) i.value
  .ok ⟨i.name, v⟩

/-- Lines 675-706. -/
def visitEnum (fl : FloatText) (e : Src.Enum) : Res (Ast.Enum fl.F) := do
  let t ← visitInst fl e.type
  let items ← visitList (visitItem fl) e.items
  .ok ⟨e.name, t, items⟩

/-- Lines 339-354. -/
def visitBitmaskValue (fl : FloatText) (v : String × Option Src.Exp) : Res (Ast.Item fl.F) := do
  let e ← visitOption (visitExp fl) v.2
  .ok ⟨v.1, e⟩

/-- Lines 317-337. -/
def visitBitmask (fl : FloatText) (b : Src.Bitmask) : Res (Ast.Bitmask fl.F) := do
  let t ← visitInst fl b.type
  let values ← visitList (visitBitmaskValue fl) b.values
  .ok ⟨b.name, t, values⟩

/-- Lines 267-284. -/
def visitConst (fl : FloatText) (c : Src.Const) : Res (Ast.Const fl.F) := do
  let t ← visitInst fl c.type
  let v ← visitExp fl c.value
  .ok ⟨c.name, t, v⟩

/-- Lines 286-315. -/
def visitAlias {F : Type} (a : Src.Alias) : Res (Ast.Alias F) := do
  let t ← visitTy a.type
  .ok ⟨a.name, t⟩

/-- Rules, SQL, services and pubsub have no method of their own: the types and expressions in them are
visited by the default implementation and dropped (lines 178-229, 126-142). -/
def visitOther (fl : FloatText) (o : Src.Other) : Res Unit := do
  let _ ← visitList (visitInst fl) o.types
  let _ ← visitList (visitExp fl) o.exprs
  .ok ()

/-! ## Packages -/

/-- Lines 232-247: `import a.b.C;` and `import a.b.*;`. -/
def visitImport (i : Src.Import) : Ast.Import :=
  if i.star then ⟨i.first :: i.rest, none⟩
  else ⟨(i.first :: i.rest).dropLast, some ((i.first :: i.rest).getLast (by simp))⟩

/-- Lines 174-226: a declaration is added to the package. -/
def addDirective (fl : FloatText) (p : Ast.Package fl.F) : Src.Directive → Res (Ast.Package fl.F)
  | .struct d => do
    let s ← visitStruct fl d
    .ok { p with structs := p.structs.insert s.name s }
  | .choice d => do
    let c ← visitChoice fl d
    .ok { p with choices := p.choices.insert c.name c }
  | .union d => do
    let u ← visitUnion fl d
    .ok { p with unions := p.unions.insert u.name u }
  | .enum d => do
    let e ← visitEnum fl d
    .ok { p with enums := p.enums ++ [e] }
  | .const d => do
    let c ← visitConst fl d
    .ok { p with consts := p.consts ++ [c] }
  | .subtype d => do
    let s ← visitAlias d
    .ok { p with subtypes := p.subtypes ++ [s] }
  | .instantiate d => do
    let i ← visitAlias d
    .ok { p with instantiated := p.instantiated ++ [i] }
  | .bitmask d => do
    let b ← visitBitmask fl d
    .ok { p with bitmasks := p.bitmasks ++ [b] }
  | .other d => do
    visitOther fl d
    .ok p

/-- The loop in lines 174-226. -/
def addDirectives (fl : FloatText) : Ast.Package fl.F → List Src.Directive → Res (Ast.Package fl.F)
  | p, [] => .ok p
  | p, d :: ds => do
    let p ← addDirective fl p d
    addDirectives fl p ds

/-- Lines 146-230: `ctx.packageNameDefinition().unwrap()` panics if there is no package name. -/
def visitPackage (fl : FloatText) (p : Src.Package) : Res (Ast.Package fl.F) :=
  match p.name with
  | none => .panic
  | some name =>
    addDirectives fl
      { name := name, imports := p.imports.map visitImport, structs := Map.empty, choices := Map.empty,
        unions := Map.empty, enums := [], consts := [], subtypes := [], instantiated := [], bitmasks := [] }
      p.directives

/-- `model.rs` lines 28-54, `model/package.rs`: the files of the directory in the order in which
`WalkDir` yields them; a package replaces one of the same name. -/
def loadModel (fl : FloatText) : (List String → Option (Ast.Package fl.F)) → List Src.Package →
    Res (List String → Option (Ast.Package fl.F))
  | m, [] => .ok m
  | m, p :: ps => do
    let q ← visitPackage fl p
    loadModel fl (fun n => if n = q.name then some q else m n) ps

end Zs
