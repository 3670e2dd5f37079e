import Verif.ExprText
import Verif.Mixing

/-!
# Model of the types the schema compiler gives to expressions

`native_type` of `ast/expression.rs`, the casts that `generator/expression.rs` derives from it, and the
places in which expressions are emitted (constants, functions, lengths, conditions).  File names are
relative to `crates/zserio-rs-build/src/internal/`.
-/

namespace Zs

/-- The type of a symbol behind its subtypes (`compiler/fundamental_type.rs` lines 16-65,
`ast/expression.rs` lines 625-699).  Enums and bitmasks carry their name and their underlying type
(simplified: which is not a subtype), structs, choices and unions their name, functions what they
return. -/
inductive ZTy where
  | num (n : NumName)
  | bool
  | string
  | enum (id : String) (base : NumRef)
  | bitmask (id : String) (base : NumRef)
  | compound (id : String)
  | function (result : ZTy)
  deriving DecidableEq

/-- What a name refers to, as far as it matters to the Rust type of the generated code: a field or
parameter (a plain one, an optional one, an array, an optional array), a constant, a type. -/
inductive Shape where
  | plain | optional | array | optionalArray | const | typeName
  deriving DecidableEq

/-- `compiler/symbol_scope.rs`, `SymbolReference`: what is left of it. -/
structure Symb where
  ty : ZTy
  shape : Shape
  deriving DecidableEq

/-- The symbol table: names in the current scope, the members of compounds, the items of enums and
bitmasks; and whether the text is emitted where the loop variable `param_index` exists. -/
structure TScope where
  ident : String → Option Symb
  member : String → String → Option Symb
  hasItem : String → String → Bool
  index : Bool

/-- `ast/expression.rs` lines 657-699: the kind of a type. -/
def ZTy.sym : ZTy → SymTy
  | .num n => if n.rustFloat.isSome then .float else .integer
  | .bool => .bool
  | .string => .string
  | .enum .. => .enum
  | .bitmask .. => .bitmask
  | .compound _ => .compound
  | .function _ => .function

/-- The `symbol` of an expression: set for names (`ast/expression.rs` line 619) and members of compounds
(line 270).  Simplified: calls (lines 145-149) have the function for a symbol, with which no member can
be looked up (lines 246-259); `?:`, which takes over the one of a branch (lines 592, 597), cannot stand
before a dot without parentheses, and parentheses have no symbol. -/
def Expr.symbol {F : Type} (sc : TScope) : Expr F → Option Symb
  | .ident name => sc.ident name
  | .dot e name => (e.symbol sc).bind fun s => match s.ty with
    | .compound id => sc.member id name
    | _ => none
  | _ => none

/-- The underlying type of the enum or bitmask that an expression yields (`ast/expression.rs` lines
302-319). -/
def ZTy.base : ZTy → Option NumRef
  | .enum _ base | .bitmask _ base => some base
  | _ => none

/-- What the function returns that a symbol stands for. -/
def ZTy.result : ZTy → Option ZTy
  | .function r => some r
  | _ => none

/-- What the evaluation of expressions asks for (`Expr.lean`). -/
def TScope.erase {F : Type} (sc : TScope) : EScope F where
  ident := fun name => (sc.ident name).map (·.ty.sym)
  member := fun e name => ((Expr.dot e name).symbol sc).map (·.ty.sym)
  result := fun e => ((e.symbol sc).bind (·.ty.result)).map (·.sym)
  hasItem := fun e name => match (e.symbol sc) with
    | some ⟨.enum id _, _⟩ | some ⟨.bitmask id _, _⟩ => sc.hasItem id name
    | _ => false

/-- `ast/expression.rs` lines 657-699: the `native_type` of a type, `new_native_type(name)`, which drops
the length of `bit:n` and `int:n`.  `None` also stands for the native types `bool` and `string` here,
which no cast depends on. -/
def ZTy.native : ZTy → Option NumRef
  | .num n => some { name := n }
  | _ => none

variable {fo : FloatOps}

/-- The type of an expression whose `result_type` is `Enum` or `BitMask`: which enum or bitmask it is
(`ast/expression.rs` lines 130, 139-144, 267, 586-603, 618). -/
def Expr.resultType (md : Mode) (sc : TScope) : Expr fo.F → Option ZTy
  | .paren e => e.resultType md sc
  | .ident name => (sc.ident name).map (·.ty)
  | .dot e name => ((Expr.dot e name).symbol sc).map (·.ty)
  | .call e => (e.symbol sc).bind (·.ty.result)
  | .tern c a b => match c.evaluate md sc.erase with
    | .ok (.bool true, _) => a.resultType md sc
    | .ok (.bool false, _) => b.resultType md sc
    | _ => none
  | _ => none

/-- The `native_type` of an expression after evaluation (`ast/expression.rs` lines 73-622; operands are
evaluated first, so a panic in one of them is one of the whole): literals have none (`visitor.rs` lines
977-987), neither have results of bit operations, `?:`, `[]`, `isset`, `@index` and items of enums and
bitmasks. -/
def Expr.native (md : Mode) (sc : TScope) : Expr fo.F → Res (Option NumRef)
  | .paren e => e.native md sc                                  -- line 131
  | .plus e | .neg e => e.native md sc                          -- line 341
  | .compl e => e.native md sc                                  -- line 529
  | .ident name => .ok ((sc.ident name).bind (·.ty.native))     -- line 620
  | .dot e name => do                                           -- lines 169-280
    let _ ← e.native md sc
    match e.evaluate md sc.erase with
    | .ok (.compound, _) => .ok (((Expr.dot e name).symbol sc).bind (·.ty.native))
    | _ => .ok none
  | .call e => do                                               -- lines 139-144
    let _ ← e.native md sc
    .ok (((e.symbol sc).bind (·.ty.result)).bind (·.native))
  | .lengthof e | .numbits e => do                              -- lines 285, 328
    let _ ← e.native md sc
    .ok (some { name := .varsize })
  | .valueof e => do                                            -- lines 302-319
    let _ ← e.native md sc
    .ok ((e.resultType md sc).bind (·.base))
  | .arith _ a b => do                                          -- lines 446-507
    let na ← a.native md sc
    let nb ← b.native md sc
    let (ca, _) ← a.evaluate md sc.erase
    let (cb, _) ← b.evaluate md sc.erase
    match ca, cb with
    | .int _, .int _ => mixInteger na nb
    | .float _, .float _ | .int _, .float _ | .float _, .int _ => mixFloat na nb
    | .str _, .str _ => .ok none
    | _, _ => .panic
  | .not e => do
    let _ ← e.native md sc
    .ok none
  | .elem a b | .isset a b | .cmp _ a b | .bit _ a b | .logic _ a b => do
    let _ ← a.native md sc
    let _ ← b.native md sc
    .ok none
  | .tern c a b => do
    let _ ← c.native md sc
    let _ ← a.native md sc
    let _ ← b.native md sc
    .ok none
  | .intLit _ | .boolLit _ | .strLit _ | .floatLit _ | .index => .ok none

/-- `generator/types.rs` lines 106-131: the name of the Rust type. -/
def NumName.rustName : NumName → String
  | .int8 => "i8"
  | .int16 | .varint16 => "i16"
  | .int32 | .varint32 => "i32"
  | .int64 | .varint64 | .varint | .int => "i64"
  | .uint8 => "u8"
  | .uint16 | .varuint16 => "u16"
  | .uint32 | .varuint32 | .varsize => "u32"
  | .uint64 | .varuint64 | .varuint | .bit => "u64"
  | .float16 | .float32 => "f32"
  | .float64 => "f64"

/-- `generator/expression.rs` lines 109-157: the type to which an operand with the native type `operand`
is cast, if the operation has the native type `result`. -/
def castOf (result operand : Option NumRef) : Option String :=
  match result, operand with
  | some r, some o => if r.name.rustName ≠ o.name.rustName then some r.name.rustName else none
  | _, _ => none

/-- `generator/expression.rs` lines 125-135: the native type of an arithmetic operation if its result is
a number. -/
def Expr.castTarget (md : Mode) (sc : TScope) (e : Expr fo.F) : Option NumRef :=
  match e.evaluate md sc.erase, e.native md sc with
  | .ok (.int _, _), .ok n | .ok (.bitmask, _), .ok n | .ok (.float _, _), .ok n => n
  | _, _ => none

/-- The native type of an operand, if it has one. -/
def Expr.nativeOf (md : Mode) (sc : TScope) (e : Expr fo.F) : Option NumRef :=
  match e.native md sc with
  | .ok n => n
  | _ => none

/-- The symbol of an expression, with that of `?:` (`ast/expression.rs` lines 586-603). -/
def Expr.symbolOf (md : Mode) (sc : TScope) : Expr fo.F → Option Symb
  | .tern c a b => match c.evaluate md sc.erase with
    | .ok (.bool true, _) => a.symbolOf md sc
    | .ok (.bool false, _) => b.symbolOf md sc
    | _ => none
  | e => e.symbol sc

/-- `generator/expression.rs` lines 180-197 (`is_bitmask_expression`): the operand is a field or a
parameter of a bitmask type. -/
def Expr.isBitmaskField (md : Mode) (sc : TScope) (e : Expr fo.F) : Bool :=
  match e.symbolOf md sc with
  | some ⟨.bitmask .., shape⟩ => shape ≠ .const && shape ≠ .typeName
  | _ => false

/-- What the text of an expression depends on: the casts of `generator/expression.rs` lines 99-157, the
type and the suffix of `valueof` (lines 251-270). -/
def textInfo (md : Mode) (sc : TScope) : TextInfo fo.F where
  castLeft := fun e => match e with
    | .arith _ a _ => castOf (e.castTarget md sc) (a.nativeOf md sc)
    | _ => none
  castRight := fun e => match e with
    | .arith _ _ b => castOf (e.castTarget md sc) (b.nativeOf md sc)
    | _ => none
  valueType := fun e => match (Expr.valueof e).nativeOf md sc with
    | some r => r.name.rustName
    | none => ""
  isBitmask := fun e => e.isBitmaskField md sc

/-! ## The places of expressions -/

/-- The Rust expression that is emitted for a schema expression, grouped as it is meant (C47 tells when
Rust groups its text that way). -/
abbrev code (md : Mode) (sc : TScope) (e : Expr fo.F) : RExpr fo.F := e.tree md sc.erase (textInfo md sc)

/-- `generator/array.rs` lines 122-127, `generator/encode.rs` lines 272-276: the length of an array,
`(e) as usize`. -/
def lengthCode (md : Mode) (sc : TScope) (e : Expr fo.F) : RExpr fo.F :=
  .cast (.paren (code md sc e)) "usize"

/-- `generator/encode.rs` lines 67-79, `generator/decode.rs` lines 74-90: the length of `bit<e>` and
`int<e>`, cast if its native type is known and not called `uint8`.  Simplified: only for expressions that
are integers. -/
def bitsCode (md : Mode) (sc : TScope) (e : Expr fo.F) : RExpr fo.F :=
  match e.nativeOf md sc with
  | some r => if r.name = .uint8 then code md sc e else .cast (.paren (code md sc e)) "u8"
  | none => code md sc e

/-- `generator/expression.rs` lines 14-26 (`generate_boolean_expression`): a condition. -/
def conditionCode (md : Mode) (sc : TScope) (e : Expr fo.F) : RExpr fo.F :=
  match e.evaluate md sc.erase with
  | .ok (.int _, _) | .ok (.bitmask, _) => .bin (.cmp .ne) (code md sc e) (.atom (.int 0))
  | _ => code md sc e

/-- `generator/types.rs` lines 106-131: the name of the Rust type of a builtin type.  Simplified: of other
types it is a path that contains the name. -/
def ZTy.rustName : ZTy → String
  | .num n => n.rustName
  | .bool => "bool"
  | .string => "String"
  | .enum id _ | .bitmask id _ | .compound id => "crate::" ++ id
  | .function _ => ""

/-- `generator/function.rs` lines 25-50: the body of a function with the return type `ret`. -/
def functionCode (md : Mode) (sc : TScope) (ret : ZTy) (e : Expr fo.F) : RExpr fo.F :=
  match ret, e.evaluate md sc.erase with
  | .string, .ok (_, false) => .call (.field (code md sc e) "clone")
  | _, _ => .cast (.paren (code md sc e)) ret.rustName

/-- `generator/casts.rs` lines 16-30 with `generator/decode.rs` lines 235-258: the argument for a
parameter of the type `param`. -/
def argumentCode (md : Mode) (sc : TScope) (param : ZTy) (e : Expr fo.F) : RExpr fo.F :=
  let t := match e.evaluate md sc.erase with
    | .ok (_, true) => code md sc e
    | _ => .call (.field (code md sc e) "clone")
  match e.castTarget md sc with
  | some r => if param.rustName ≠ r.name.rustName then .cast t param.rustName else t
  | none => t

end Zs
