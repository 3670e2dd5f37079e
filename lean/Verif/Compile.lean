import Verif.Symbols
import Verif.ExprType
import Verif.Emit

/-!
# What the generator takes from the representation of a structure

The other files on generated code start from expressions (`Expr`), symbol tables (`TScope`) and fields
(`Emit.Field`) as they suit them.  Here is how these are obtained from the data structures that the visitor
fills (`Visitor.lean`).  File names are relative to `crates/zserio-rs-build/src/internal/`.

Simplified, for the whole file: of the symbols outside of the structure there are only constants, enumerations and
structures, and the types of fields are builtin or one of these.
-/

namespace Zs

open Ast

variable {F : Type}

/-! ## Expressions -/

/-- `ast/expression.rs` lines 99-135, `generator/expression.rs` lines 12-94: the operation that stands for a token
with two operands. -/
def Ast.Tok.binary : Tok → Option (Expr F → Expr F → Expr F)
  | .multiply => some (.arith .mul) | .divide => some (.arith .div) | .modulo => some (.arith .mod)
  | .plus => some (.arith .add) | .minus => some (.arith .sub)
  | .lshift => some (.bit .shl) | .rshift => some (.bit .shr)
  | .and => some (.bit .and) | .xor => some (.bit .xor) | .or => some (.bit .or)
  | .lt => some (.cmp .lt) | .le => some (.cmp .le) | .gt => some (.cmp .gt) | .ge => some (.cmp .ge)
  | .eq => some (.cmp .eq) | .ne => some (.cmp .ne)
  | .logicalAnd => some (.logic .and) | .logicalOr => some (.logic .or)
  | _ => none

/-- The same with one operand. -/
def Ast.Tok.unary : Tok → Option (Expr F → Expr F)
  | .plus => some .plus | .minus => some .neg | .bang => some .not | .tilde => some .compl
  | _ => none

/-- The value of a literal. -/
def LitVal.expr : LitVal F → Expr F
  | .int n => .intLit n
  | .bool b => .boolLit b
  | .str s => .strLit (String.ofList s)
  | .float f => .floatLit f

/-- `ast/expression.rs` lines 99-135: `evaluate` looks at `expression_type` and at the operands.  `none`: the
expression has other operands than the visitor gives it. -/
def Ast.Node.expr : Node F → Option (Expr F)
  | .mk .lparen _ _ _ _ _ [a] => a.expr.map .paren
  | .mk .rparen _ _ _ _ _ [a] => a.expr.map .call
  | .mk .lbracket _ _ _ _ _ [a, b] => do return .elem (← a.expr) (← b.expr)
  | .mk .dot _ _ _ _ _ [a, .mk .member name _ _ _ _ []] => do return .dot (← a.expr) (String.ofList name)
  | .mk .isset _ _ _ _ _ [a, b] => do return .isset (← a.expr) (← b.expr)
  | .mk .lengthof _ _ _ _ _ [a] => a.expr.map .lengthof
  | .mk .valueof _ _ _ _ _ [a] => a.expr.map .valueof
  | .mk .numbits _ _ _ _ _ [a] => a.expr.map .numbits
  | .mk .questionmark _ _ _ _ _ [a, b, c] => do return .tern (← a.expr) (← b.expr) (← c.expr)
  | .mk .index _ _ _ _ _ [] => some .index
  | .mk .id name _ _ _ _ [] => some (.ident (String.ofList name))
  | .mk (.literal _) _ _ (.lit v) _ _ [] => some v.expr
  | .mk t _ _ _ _ _ [a] => do return (← t.unary) (← a.expr)
  | .mk t _ _ _ _ _ [a, b] => do return (← t.binary) (← a.expr) (← b.expr)
  | _ => none

/-- The token of a node. -/
def Ast.Node.token : Node F → Tok
  | .mk t _ _ _ _ _ _ => t

/-- The text of a node. -/
def Ast.Node.text : Node F → List Char
  | .mk _ t _ _ _ _ _ => t

/-- The operands of a node. -/
def Ast.Node.operands : Node F → List (Node F)
  | .mk _ _ _ _ _ _ os => os

mutual
/-- `generator/pass_parameters.rs` lines 57-76: `does_expression_contains_index_operator`; the order in which the
operands are visited does not matter. -/
def Ast.Node.hasIndex : Node F → Bool
  | .mk t _ _ _ _ _ os => decide (t = .index) || nodesHaveIndex os
/-- The operands. -/
def Ast.nodesHaveIndex : List (Node F) → Bool
  | [] => false
  | o :: os => o.hasIndex || nodesHaveIndex os
end

/-- `generator/index_offsets.rs` lines 5-21: `extract_indexed_offset_expression`. -/
def Ast.Node.offsetName (n : Node F) : Node F :=
  if n.token = .lbracket then n.operands.headD n else n

/-! ## Types and symbols -/

/-- `generator/types.rs` lines 106-136, `generator/array.rs` lines 14-50: the names of builtin types that the
generator knows. -/
def Emit.BName.ofString : String → Option Emit.BName
  | "int8" => some .int8 | "int16" => some .int16 | "int32" => some .int32 | "int64" => some .int64
  | "uint8" => some .uint8 | "uint16" => some .uint16 | "uint32" => some .uint32 | "uint64" => some .uint64
  | "varint16" => some .varint16 | "varint32" => some .varint32 | "varint64" => some .varint64
  | "varint" => some .varint
  | "varuint16" => some .varuint16 | "varuint32" => some .varuint32 | "varuint64" => some .varuint64
  | "varuint" => some .varuint | "varsize" => some .varsize
  | "bool" => some .bool | "string" => some .string
  | "float16" => some .float16 | "float32" => some .float32 | "float64" => some .float64
  | "bit" => some .bit | "int" => some .int | "extern" => some .extern | "bytes" => some .bytes
  | _ => none

/-- `ast/expression.rs` lines 657-699: `type_reference_to_expression_type` for builtin types; the name is kept as
`native_type`.  There are no expressions of the types `extern` and `bytes` (line 697: `panic!`). -/
def Emit.BName.zty : Emit.BName → Option ZTy
  | .int8 => some (.num .int8) | .int16 => some (.num .int16) | .int32 => some (.num .int32)
  | .int64 => some (.num .int64)
  | .uint8 => some (.num .uint8) | .uint16 => some (.num .uint16) | .uint32 => some (.num .uint32)
  | .uint64 => some (.num .uint64)
  | .varint16 => some (.num .varint16) | .varint32 => some (.num .varint32) | .varint64 => some (.num .varint64)
  | .varint => some (.num .varint)
  | .varuint16 => some (.num .varuint16) | .varuint32 => some (.num .varuint32)
  | .varuint64 => some (.num .varuint64) | .varuint => some (.num .varuint) | .varsize => some (.num .varsize)
  | .bool => some .bool | .string => some .string
  | .float16 => some (.num .float16) | .float32 => some (.num .float32) | .float64 => some (.num .float64)
  | .bit => some (.num .bit) | .int => some (.num .int) | .extern => none | .bytes => none

/-- What expressions find in the package: the types of constants, the types of the numbers of enumerations and bitmasks, the
items of enumerations and values of bitmasks, and the types of the parameters and fields of structures. -/
structure Ast.Names where
  consts : String → Option ZTy
  enums : String → Option NumRef
  masks : String → Option NumRef
  hasItem : String → String → Bool
  objects : String → Bool
  member : String → String → Option Symb

/-- A package without constants, enumerations, bitmasks and structures. -/
def Ast.Names.empty : Ast.Names := ⟨fun _ => none, fun _ => none, fun _ => none, fun _ _ => false, fun _ => false, fun _ _ => none⟩

/-- `ast/expression.rs` lines 625-655 (`symbol_to_expression_type`): the types of declared types.  Simplified: only
enumerations, bitmasks and structures are found (C86 is about subtypes). -/
def Ast.Names.types (N : Ast.Names) (n : String) : Option ZTy :=
  match N.enums n with
  | some b => some (.enum n b)
  | none => match N.masks n with
    | some b => some (.bitmask n b)
    | none => if N.objects n then some (.compound n) else none

/-- `ast/expression.rs` lines 657-699, 637: the same for a type reference.  Types that are not builtin are looked up by
their names, without the package in front. -/
def Ast.TypeRef.zty (types : String → Option ZTy) : TypeRef F → Option ZTy
  | .mk true _ name _ _ _ _ => (Emit.BName.ofString name).bind Emit.BName.zty
  | .mk false _ name _ _ _ _ => types name

/-- `generator/packed_contexts.rs` lines 59-70 (`full_rust_type`): `Option`, `Vec`. -/
def Ast.Field.shape (f : Ast.Field F) : Shape :=
  match f.optional, f.array.isSome with
  | false, false => .plain
  | true, false => .optional
  | false, true => .array
  | true, true => .optionalArray

/-- `ast/expression.rs` lines 625-655: `symbol_to_expression_type`, with the Rust type of the member that is
generated for the symbol. -/
def Ast.Symbol.symb (types : String → Option ZTy) : Ast.Symbol F → Option Symb
  | .field f => (f.type.zty types).map fun t => ⟨t, f.shape⟩
  | .param p => (p.type.zty types).map fun t => ⟨t, .plain⟩
  | .func f => (f.returnType.zty types).map fun t => ⟨.function t, .plain⟩
  | _ => none

/-- `compiler/symbol_scope.rs` lines 209-241, `ast/expression.rs` lines 630-637: the types of names in the package. -/
def Ast.Names.symb (N : Ast.Names) (n : String) : Option Symb :=
  match N.consts n with
  | some t => some ⟨t, .const⟩
  | none => match N.enums n with
    | some b => some ⟨.enum n b, .typeName⟩
    | none => (N.masks n).map fun b => ⟨.bitmask n b, .typeName⟩

/-- `ast/zstruct.rs` lines 18-57: the expressions of a structure are evaluated in the scope of the structure;
`compiler/symbol_scope.rs` lines 209-241: other names are looked up in the package, and names behind a dot in the type
in front of it.  Simplified: only constants, enumerations, bitmasks and structures are found there. -/
def Ast.Struct.scope (N : Ast.Names) (s : Ast.Struct F) : TScope where
  ident n := match structSymbols s n with
    | some y => y.symb N.types
    | none => N.symb n
  member := N.member
  hasItem := N.hasItem
  index := false

/-- `ast/field.rs` lines 77-88: the offset is in the field `name`. -/
def Ast.offsetIn (name : String) : Option (Node F) → Bool
  | some o => decide (o.offsetName.token = .id) && decide (o.offsetName.text = name.toList)
  | none => false

/-- `ast/field.rs` lines 77-88: some field of the structure has the field `f` for its offset. -/
def Ast.Struct.marks (s : Ast.Struct F) (f : Ast.Field F) : Bool :=
  s.fields.any fun g => Ast.offsetIn f.name g.offset

/-- `generator/encode.rs` lines 152-168, `generator/decode.rs` lines 150-166, `generator/bitsize.rs` lines
140-156: what the generator looks at in an offset. -/
def Ast.offsetKind : Option (Node F) → Offset
  | none => .none
  | some o => if o.hasIndex then .indexed else .plain

end Zs
