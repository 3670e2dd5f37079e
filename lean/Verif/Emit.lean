import Verif.Schema

/-!
# The lines of code emitted for fields and compound types

`Schema.lean` gives the meaning of generated code directly.  This file models what the generator
really does: it emits one line of Rust after the other (`function.line(format!(..))`), where opening
and closing a block are separate lines.  `Exec.lean` gives the lines a meaning, and the theorems on
`C55` relate the two.

File names are relative to `crates/zserio-rs-build/src/internal/`.

Simplifications, for the whole file:
* a line is a constructor whose arguments are the holes of the format string; the format string is
  given in the comment on the constructor;
* an expression of the schema is a function of the object (`generate_expression` is the subject of
  `C35` and `C47`); it may panic, as a division does;
* references to types are resolved (`C37`, `C38`): `RefTy` is the result of `get_fundamental_type`;
* comments, and `let` lines of which only the type annotation varies, are not distinguished.
-/

namespace Zs

namespace Emit

/-! ## What the generator looks at -/

/-- `parser/ZserioParser.g4` lines 402-483: the names of the builtin types. -/
inductive BName where
  | int8 | int16 | int32 | int64 | uint8 | uint16 | uint32 | uint64
  | varint16 | varint32 | varint64 | varint
  | varuint16 | varuint32 | varuint64 | varuint | varsize
  | bool | string | float16 | float32 | float64 | bit | int | extern | bytes
  deriving DecidableEq

/-- The length expression of `bit<expr>` and `int<expr>` (`ast/type_reference.rs` line 15).  `native`
is whether its `native_type` is set and is not `uint8`, so that it is cast. -/
structure LenExpr where
  eval : Env → Res Nat
  cast : Bool

/-- `compiler/fundamental_type.rs` lines 4-7: the type of a field without subtypes.  It is builtin, or
it is a compound type (`is_marshaler`); `codec` are the functions generated for that type and
`numParams` is the number of its parameters. -/
inductive RefTy where
  | builtin (name : BName) (bits : Nat) (length : Option LenExpr)
  | compound (codec : Codec) (numParams : Nat)

/-- A type argument; its second argument is `param_index`.  `usesIndex` is the result of
`does_expression_contains_index_operator` (`generator/pass_parameters.rs` lines 57-76). -/
structure Arg where
  eval : Env → Nat → Res Val
  usesIndex : Bool

/-- `ast/field.rs`: the array part of a field. -/
structure ArrayField where
  isPacked : Bool
  length : Option (Env → Res Nat)

/-- `ast/field.rs` and `generator/packed_contexts.rs` lines 16-25 (`FieldDetails`).  The arguments of
the type are those of `fundamental_type.type_arguments`. -/
structure Field where
  ty : RefTy
  optional : Bool := false
  clause : Option (Env → Res Bool) := none
  alignment : Nat := 0
  offset : Offset := .none
  array : Option ArrayField := none
  args : List Arg := []
  isOffsetField : Bool := false

/-- The same type, where its length expression sees another object (`scope`). -/
def RefTy.inScope (scope : Env → Env) : RefTy → RefTy
  | .builtin name bits length =>
    .builtin name bits (length.map fun l => ⟨fun e => l.eval (scope e), l.cast⟩)
  | .compound codec n => .compound codec n

/-- The same argument, where its expression sees another object. -/
def Arg.inScope (scope : Env → Env) (a : Arg) : Arg := ⟨fun e i => a.eval (scope e) i, a.usesIndex⟩

namespace Field

/-- The same field, where its expressions see another object (`scope`): in a structure the fields in
front, in a choice or union the parameters only (as in `Schema.lean`). -/
def inScope (scope : Env → Env) (f : Field) : Field where
  ty := f.ty.inScope scope
  optional := f.optional
  clause := f.clause.map fun c e => c (scope e)
  alignment := f.alignment
  offset := f.offset
  array := f.array.map fun a => ⟨a.isPacked, a.length.map fun l e => l (scope e)⟩
  args := f.args.map (Arg.inScope scope)
  isOffsetField := f.isOffsetField

end Field

/-! ## Types and array traits of the emitted code -/

/-- The Rust types of fields. -/
inductive RustTy where
  | i8 | i16 | i32 | i64 | u8 | u16 | u32 | u64
  | f32 | f64 | bool | string | extern | bytes
  | compound (codec : Codec)

/-- `generator/types.rs` lines 106-136: `zserio_to_rust_type`. -/
def rustName : BName → RustTy
  | .int8 => .i8
  | .int16 => .i16
  | .int32 => .i32
  | .int64 => .i64
  | .varint16 => .i16
  | .varint32 => .i32
  | .varint64 => .i64
  | .varint => .i64
  | .uint8 => .u8
  | .uint16 => .u16
  | .uint32 => .u32
  | .uint64 => .u64
  | .varuint16 => .u16
  | .varuint32 => .u32
  | .varuint64 => .u64
  | .varsize => .u32
  | .varuint => .u64
  | .string => .string
  | .float16 => .f32
  | .float32 => .f32
  | .float64 => .f64
  | .bool => .bool
  | .bit => .u64
  | .int => .i64
  | .extern => .extern
  | .bytes => .bytes

/-- `generator/types.rs` lines 30-43: `ztype_to_rust_type`. -/
def RefTy.rust : RefTy → RustTy
  | .builtin name _ _ => rustName name
  | .compound codec _ => .compound codec

/-- The array traits of the run-time library (`crates/zserio/src/ztype/array_traits/`). -/
inductive TraitName where
  | object | bitField | unsignedBitField
  | varInt16 | varInt32 | varInt64 | varInt
  | varUint16 | varUint32 | varUint64 | varUint | varSize
  | string | float16 | float32 | float64 | boolean | bitBuffer | byteBuffer
  deriving DecidableEq

/-- `generator/array.rs` lines 14-50: `get_array_trait_for_type`. -/
def traitName : RefTy → TraitName
  | .compound _ _ => .object
  | .builtin name _ _ => match name with
    | .int8 => .bitField
    | .int16 => .bitField
    | .int32 => .bitField
    | .int64 => .bitField
    | .varint16 => .varInt16
    | .varint32 => .varInt32
    | .varint64 => .varInt64
    | .varint => .varInt
    | .uint8 => .unsignedBitField
    | .uint16 => .unsignedBitField
    | .uint32 => .unsignedBitField
    | .uint64 => .unsignedBitField
    | .varuint16 => .varUint16
    | .varuint32 => .varUint32
    | .varuint64 => .varUint64
    | .varuint => .varUint
    | .varsize => .varSize
    | .string => .string
    | .float16 => .float16
    | .float32 => .float32
    | .float64 => .float64
    | .bool => .boolean
    | .bit => .unsignedBitField
    | .int => .bitField
    | .extern => .bitBuffer
    | .bytes => .byteBuffer

/-- The text of `num_bits`: a number, or `({expr}) as u8`. -/
inductive NumBits where
  | lit (n : Nat)
  | expr (e : Env → Res Nat)

/-- `ztype::array_traits::{name}{ num_bits: {}, }`; the second line may be missing. -/
structure TraitExpr where
  name : TraitName
  numBits : Option NumBits

/-- `generator/array.rs` lines 72-83: the width of the types without `bits`. -/
def defaultBits : BName → Nat
  | .int8 => 8
  | .int16 => 16
  | .int32 => 32
  | .int64 => 64
  | .uint8 => 8
  | .uint16 => 16
  | .uint32 => 32
  | .uint64 => 64
  | _ => 0

/-- `generator/array.rs` lines 52-92: `initialize_array_trait`. -/
def initTrait (ty : RefTy) : TraitExpr where
  name := traitName ty
  numBits := match ty with
    | .compound _ _ => none
    | .builtin name bits length => match length with
      | some l => some (.expr l.eval)
      | none =>
        let bits := if bits = 0 then defaultBits name else bits
        if bits ≠ 0 then some (.lit bits) else none

/-- `generator/packed_contexts.rs` lines 73-116: `is_delta_packable`. -/
def Field.isPackable (f : Field) : Bool :=
  if f.isOffsetField then false
  else if f.array.isSome then true
  else match f.ty with
    | .compound _ _ => true
    | .builtin name _ _ => match name with
      | .int8 | .int16 | .int32 | .int64 | .uint8 | .uint16 | .uint32 | .uint64 | .int | .bit
      | .varint | .varint16 | .varint32 | .varint64
      | .varuint | .varsize | .varuint16 | .varuint32 | .varuint64 => true
      | _ => false

/-! ## Lines -/

/-- The places a line can name: `self.{field}`, `x`, `optional_value`, `element`.  In the readers of
enums and bitmasks, `x` is the variable `v`. -/
inductive Place where
  | self (i : Nat)
  /-- `(*self as {})` of an enum, `self.bits` and `(self.bits as {})` of a bitmask; `number` is the
  value of it.  It cannot be assigned to. -/
  | number (number : Val → Res Val)
  | x
  | optionalValue
  | element

/-- The text of the length of a bit field: a number, or an expression with or without `as u8`. -/
inductive LenText where
  | lit (n : Nat)
  | expr (e : Env → Res Nat) (cast : Bool)

/-- Lines that neither open nor close a block. -/
inductive Stmt where
  /-- `let mut zs_array_.. = ztype::Array::<{}>{ array_trait: Box::new({}), fixed_size: {}, is_packed: {}, };` -/
  | letArray (rust : RustTy) (trait : TraitExpr) (fixed : Option (Env → Res Nat)) (packed : Bool)
  /-- `ztype::align_writer(writer, {})?;` -/
  | alignWriter (n : Nat)
  /-- `writer.write_bool(true)?;`, `writer.write_bool(false)?;` -/
  | writeBoolLit (b : Bool)
  /-- `assert!({}.{} == {});`: the `k`-th of the `n` parameters of a place -/
  | assertParam (p : Place) (n k : Nat) (arg : Arg)
  /-- `assert!({}.len() == ({}) as usize);` -/
  | assertLen (p : Place) (e : Env → Res Nat)
  /-- `zs_array_...zserio_write(writer, &{}, {})?;` -/
  | writeArray (p : Place) (indexed : Bool)
  /-- `{}.zserio_write(writer)?;` -/
  | writeObject (c : Codec) (p : Place)
  /-- `{}.zserio_write_packed(&mut context_node.children[{}], writer)?;` -/
  | writeObjectPacked (c : Codec) (p : Place) (i : Nat)
  /-- `ztype::write_string(writer, {}.as_str())?;` -/
  | writeString (p : Place)
  /-- `ztype::write_extern_type(writer, &{})?;` -/
  | writeExtern (p : Place)
  /-- `ztype::write_bytes_type(writer, &{})?;` -/
  | writeBytes (p : Place)
  /-- `writer.write_bool({})?;` -/
  | writeBool (p : Place)
  /-- `context_node.children[{}].context.as_mut().unwrap().write(&{}, writer, &{})?;`; `rust` is the
  type of the place -/
  | writeDelta (i : Nat) (trait : TraitExpr) (rust : RustTy) (p : Place)
  /-- `ztype::write_signed_bits(writer, {}, {})?;` -/
  | writeSignedBits (p : Place) (n : LenText)
  /-- `ztype::write_unsigned_bits(writer, {}, {})?;` -/
  | writeUnsignedBits (p : Place) (n : LenText)
  /-- `ztype::write_{}(writer, {})?;` -/
  | writeNamed (name : BName) (p : Place)
  /-- `ztype::align_reader(reader, {})?;` -/
  | alignReader (n : Nat)
  /-- `let present = reader.read_bool()?;` -/
  | letPresent
  /-- `let mut optional_value: {} = Default::default();`, with `Vec<..>` or without -/
  | letOptional (vec : Bool) (rust : RustTy)
  /-- `let initial_value: {} = Default::default();` -/
  | letInitial (rust : RustTy)
  /-- `let initial_value = {} {`, `{}: {},` for the parameters, ` ..Default::default()`, ` };` -/
  | letInitialWith (c : Codec) (args : List Arg)
  /-- `let .._array_length = zs_array_...zserio_read_array_length(reader)?;` -/
  | letLength
  /-- `zs_array_...zserio_read(reader, &mut {}, .._array_length, {})?;`; `rust` is the element type -/
  | readArray (p : Place) (rust : RustTy) (indexed : Bool)
  /-- `{}.clear();` -/
  | clear (p : Place)
  /-- `{}.reserve(.._array_length.min(zserio::get_array_alloc_chunk()));` -/
  | reserve (p : Place)
  /-- `let mut .._packing_context = zs_array_...array_trait.create_context();` -/
  | letPackingContext
  /-- `let mut zs_item = {} {`, `{}: {},` for the parameters whose argument does not use the index,
  ` ..Default::default()`, `};` -/
  | letItem (c : Codec) (args : List Arg)
  /-- `zs_item.{} = {};` -/
  | setItem (n k : Nat) (arg : Arg)
  /-- `zs_array_...read_one_element(reader, &mut .._packing_context, &mut zs_item, param_index, {})?;` -/
  | readElement (indexed : Bool)
  /-- `{}.push(zs_item);` -/
  | pushItem (p : Place)
  /-- `{} = initial_value;` -/
  | assignInitial (p : Place)
  /-- `{}.zserio_read(reader)?;` -/
  | readObject (c : Codec) (p : Place)
  /-- `{}.zserio_read_packed(&mut context_node.children[{}], reader)?;` -/
  | readObjectPacked (c : Codec) (p : Place) (i : Nat)
  /-- `{} = ztype::read_string(reader)?;` -/
  | readString (p : Place)
  /-- `{} = ztype::read_extern_type(reader)?;` -/
  | readExtern (p : Place)
  /-- `{} = ztype::read_bytes_type(reader)?;` -/
  | readBytes (p : Place)
  /-- `{} = reader.read_bool()?;` -/
  | readBool (p : Place)
  /-- `context_node.children[{}].context.as_mut().unwrap().read(&{}, reader, &mut {})?;` -/
  | readDelta (i : Nat) (trait : TraitExpr) (rust : RustTy) (p : Place)
  /-- `{} = ztype::read_signed_bits(reader, {})?;` -/
  | readSignedBits (p : Place) (n : LenText)
  /-- `{} = ztype::read_unsigned_bits(reader, {})?;` -/
  | readUnsignedBits (p : Place) (n : LenText)
  /-- `{} = ztype::read_{}(reader)?;` -/
  | readNamed (name : BName) (p : Place)
  /-- `self.{} = Option::from(optional_value);` -/
  | storeOptional (i : Nat)
  /-- `let mut end_position = bit_position;` -/
  | letEnd
  /-- `end_position += ztype::align_bitsize(end_position, {});` -/
  | addAlign (n : Nat)
  /-- `end_position += {};` with a number, also `{} as u64` -/
  | addLit (n : Nat)
  /-- `end_position += zs_array_...zserio_bitsize(&{}, {}, end_position)?;` -/
  | addArray (p : Place) (indexed : Bool)
  /-- `end_position += {}.zserio_bitsize(end_position).unwrap();` -/
  | addObject (c : Codec) (p : Place)
  /-- `end_position += {}.zserio_bitsize_packed(&mut context_node.children[{}], end_position).unwrap();` -/
  | addObjectPacked (c : Codec) (p : Place) (i : Nat)
  /-- `end_position += ztype::bitsize_string({}.as_str()).unwrap();` -/
  | addString (p : Place)
  /-- `end_position += {}.bit_size as u64;` -/
  | addExtern (p : Place)
  /-- `end_position += ({}.byte_size as u64) * 8;` -/
  | addBytes (p : Place)
  /-- `end_position += context_node.children[{}].context.as_mut().unwrap().bitsize_of(&{}, end_position, &{})?;` -/
  | addDelta (i : Nat) (trait : TraitExpr) (rust : RustTy) (p : Place)
  /-- `end_position += ztype::{}_bitsize({}).unwrap() as u64;` -/
  | addNamed (name : BName) (p : Place)
  /-- `Ok(end_position - bit_position)` -/
  | okSize
  /-- `Ok(())` -/
  | okUnit
  /-- `{}.zserio_init_packing_context(&mut context_node.children[{}])?;` -/
  | initObject (c : Codec) (p : Place) (i : Nat)
  /-- `let mut .._delta_context = context_node.children[{}].context.as_mut().unwrap();` -/
  | letDelta (i : Nat)
  /-- `.._delta_context.init(&{}, &{})?;` -/
  | initDelta (trait : TraitExpr) (rust : RustTy) (p : Place)
  /-- `let mut field_.._node = PackingContextNode::new();` -/
  | letNode
  /-- `{}::zserio_create_packing_context(&mut field_.._node);` -/
  | createObject (c : Codec)
  /-- `field_.._node.context = Some(DeltaContext::new());` -/
  | setContext
  /-- `context_node.children.push(field_.._node);` -/
  | pushNode
  /-- `self.union_selector = {}Selector::from_u32(ztype::read_varsize(reader)?);`, with the number of
  arms of `from_u32` -/
  | readSelector (members : Nat)
  /-- `ztype::write_varsize(writer, self.union_selector as u32)?;` -/
  | writeSelector
  /-- `end_position += ztype::varsize_bitsize(self.union_selector as u32)? as u64;` -/
  | addSelector
  /-- `let mut v: {} = 0;` -/
  | letNumber (rust : RustTy)
  /-- `*self = {}::try_from(v as i64)?;` of an enum, `self.bits = v;` of a bitmask; `item` is the value
  that is assigned -/
  | assignItem (item : Val → Res Val)
  /-- `context_node.context = Some(DeltaContext::new());` -/
  | setOwnContext
  /-- `context_node.children.push(PackingContextNode { children: vec![], context: Some(DeltaContext::new()), });` -/
  | pushDelta
  /-- `context_node.children[0].context.as_mut().unwrap().init(&{}, &{})`, as the last line -/
  | initNumber (trait : TraitExpr) (rust : RustTy) (p : Place)

/-- Lines that open a block. -/
inductive Head where
  /-- `if {} {` -/
  | ifCond (c : Env → Res Bool)
  /-- `{` -/
  | block
  /-- `if let Some(x) = {}{} {`, with or without `&` -/
  | ifLet (borrow : Bool) (p : Place)
  /-- `if present {` -/
  | ifPresent
  /-- `for element in {}{} {`, with or without `&` -/
  | forElement (borrow : Bool) (p : Place)
  /-- `for (param_index, element) in {}.iter().enumerate() {` -/
  | forEnumerate (p : Place)
  /-- `for param_index in 0..{}_array_length {` -/
  | forIndex

/-- What a `match` looks at: `self.{}` (a parameter of a choice), or `&self.union_selector`. -/
inductive Scrutinee where
  | param (selector : List Val → Val)
  | unionSelector

/-- A line of a function body. -/
inductive Line where
  | stmt (s : Stmt)
  | opening (h : Head)
  /-- `} else {` -/
  | elseLine
  /-- `}` -/
  | close
  /-- `match {} {` -/
  | matchLine (s : Scrutinee)
  /-- `{} | {} => {` -/
  | arm (labels : List Val)
  /-- `},` -/
  | armClose
  /-- `_ => (),` -/
  | wildcard

/-! ## Fields -/

/-- `generator/array.rs` lines 94-131: `instantiate_zserio_array`. -/
def instantiateArray (f : Field) (forcePacked : Bool) : List Line :=
  match f.array with
  | none => []
  | some a =>
    [.stmt (.letArray f.ty.rust (initTrait f.ty) a.length
      ((a.isPacked || forcePacked) && f.isPackable))]

/-- `generator/encode.rs` lines 66-82, `generator/decode.rs` lines 75-93: `bit_length_string`. -/
def lenText (bits : Nat) : Option LenExpr → LenText
  | some l => .expr l.eval l.cast
  | none => .lit bits

/-- `generator/encode.rs` lines 16-103: `encode_type`. -/
def encodeType (ty : RefTy) (p : Place) (i : Nat) (packed : Bool) : List Line :=
  match ty with
  | .compound c _ =>
    if packed then [.stmt (.writeObjectPacked c p i)] else [.stmt (.writeObject c p)]
  | .builtin name bits length =>
    if name = .string then [.stmt (.writeString p)]
    else if name = .extern then [.stmt (.writeExtern p)]
    else if name = .bytes then [.stmt (.writeBytes p)]
    else if name = .bool then [.stmt (.writeBool p)]
    else if packed then
      [.stmt (.writeDelta i (initTrait (.builtin name bits length)) (rustName name) p)]
    else if bits ≠ 0 ∨ length.isSome then
      if name = .int then [.stmt (.writeSignedBits p (lenText bits length))]
      else [.stmt (.writeUnsignedBits p (lenText bits length))]
    else [.stmt (.writeNamed name p)]

/-- `generator/encode.rs` lines 105-123: `requires_borrowing`. -/
def Field.requiresBorrowing (f : Field) : Bool :=
  if f.array.isSome then true
  else match f.ty with
    | .compound _ _ => true
    | .builtin name _ _ => decide (name = .string)

/-- The number of parameters of a type (`generator/pass_parameters.rs` lines 10-21). -/
def RefTy.numParams : RefTy → Nat
  | .compound _ n => n
  | .builtin _ _ _ => 0

/-- `generator/encode.rs` lines 227-261: one assertion for every type argument; `k` is `param_index`
of the generator. -/
def assertParams (p : Place) (n : Nat) : Nat → List Arg → List Line
  | _, [] => []
  | k, a :: as => .stmt (.assertParam p n k a) :: assertParams p n (k + 1) as

/-- `generator/encode.rs` lines 186-267: the assertions on the parameters; `borrowed` is
`field_is_borrowed`. -/
def checkParams (f : Field) (p : Place) (borrowed : Bool) : List Line :=
  if f.args.isEmpty then []
  else if f.array.isSome then
    (if f.args.any Arg.usesIndex then [.opening (.forEnumerate p)]
      else [.opening (.forElement (!borrowed) p)])
    ++ assertParams .element f.ty.numParams 0 f.args
    ++ [.close]
  else assertParams p f.ty.numParams 0 f.args

/-- `generator/encode.rs` lines 125-312: `encode_field`. -/
def encodeField (f : Field) (i : Nat) (packed : Bool) : List Line :=
  let p := if f.optional then Place.x else Place.self i
  (match f.clause with
    | some c => [.opening (.ifCond c)]
    | none => [])
  ++ (if f.alignment ≠ 0 then [.stmt (.alignWriter f.alignment)] else [])
  ++ (if f.offset = .plain then [.stmt (.alignWriter 8)] else [])
  ++ (if f.optional then
      [.opening (.ifLet f.requiresBorrowing (.self i)), .stmt (.writeBoolLit true)] else [])
  ++ checkParams f p (f.optional && f.requiresBorrowing)
  ++ (match f.array with
    | some a =>
      (match a.length with
        | some e => [.stmt (.assertLen p e)]
        | none => [])
      ++ [.stmt (.writeArray p (decide (f.offset = .indexed)))]
    | none => encodeType f.ty p i (packed && f.isPackable))
  ++ (if f.optional then [.elseLine, .stmt (.writeBoolLit false), .close] else [])
  ++ (if f.clause.isSome then [.close] else [])

/-- `generator/decode.rs` lines 18-113: `decode_type`. -/
def decodeType (ty : RefTy) (p : Place) (i : Nat) (packed : Bool) : List Line :=
  match ty with
  | .compound c _ =>
    if packed then [.stmt (.readObjectPacked c p i)] else [.stmt (.readObject c p)]
  | .builtin name bits length =>
    if name = .string then [.stmt (.readString p)]
    else if name = .extern then [.stmt (.readExtern p)]
    else if name = .bytes then [.stmt (.readBytes p)]
    else if name = .bool then [.stmt (.readBool p)]
    else if packed then
      [.stmt (.readDelta i (initTrait (.builtin name bits length)) (rustName name) p)]
    else if bits ≠ 0 ∨ length.isSome then
      if name = .int then [.stmt (.readSignedBits p (lenText bits length))]
      else [.stmt (.readUnsignedBits p (lenText bits length))]
    else [.stmt (.readNamed name p)]

/-- `generator/decode.rs` lines 372-411: the parameters whose argument uses the index. -/
def setItems (n : Nat) : Nat → List Arg → List Line
  | _, [] => []
  | k, a :: as =>
    (if a.usesIndex then [.stmt (.setItem n k a)] else []) ++ setItems n (k + 1) as

/-- `generator/decode.rs` lines 184-271: the lines in front of reading a value. -/
def initialValue (f : Field) : List Line :=
  if f.array.isSome then []
  else if f.args.isEmpty then [.stmt (.letInitial f.ty.rust)]
  else match f.ty with
    | .compound c _ => [.stmt (.letInitialWith c f.args)]
    | .builtin _ _ _ => []

/-- `generator/decode.rs` lines 306-420: the loop that reads elements with type arguments. -/
def readElements (f : Field) (p : Place) : List Line :=
  match f.ty with
  | .builtin _ _ _ => []
  | .compound c n =>
    [.stmt (.clear p), .stmt (.reserve p), .stmt .letPackingContext, .opening .forIndex,
      .stmt (.letItem c f.args)]
    ++ (if f.args.any Arg.usesIndex then setItems n 0 f.args else [])
    ++ [.stmt (.readElement (decide (f.offset = .indexed))), .stmt (.pushItem p), .close]

/-- `generator/decode.rs` lines 115-445: `decode_field`.  A builtin type has no type arguments (there
the generator panics in `get_type_parameter`). -/
def decodeField (f : Field) (i : Nat) (packed : Bool) : List Line :=
  let p := if f.optional then Place.optionalValue else Place.self i
  (match f.clause with
    | some c => [.opening (.ifCond c)]
    | none => [.opening .block])
  ++ (if f.alignment ≠ 0 then [.stmt (.alignReader f.alignment)] else [])
  ++ (if f.offset = .plain then [.stmt (.alignReader 8)] else [])
  ++ (if f.optional then [.stmt .letPresent, .opening .ifPresent,
      .stmt (.letOptional f.array.isSome f.ty.rust)] else [])
  ++ initialValue f
  ++ (if f.array.isSome then
      .stmt .letLength ::
      (if f.args.isEmpty then [.stmt (.readArray p f.ty.rust (decide (f.offset = .indexed)))]
      else readElements f p)
    else .stmt (.assignInitial p) :: decodeType f.ty p i (packed && f.isPackable))
  ++ (if f.optional then [.stmt (.storeOptional i), .close] else [])
  ++ [.close]

/-- `generator/bitsize.rs` lines 64-105: the lines for builtin types without `bits`. -/
def bitsizeNamed (name : BName) (bits : Nat) (p : Place) : List Line :=
  match name with
  | .uint8 => [.stmt (.addLit 8)]
  | .uint16 => [.stmt (.addLit 16)]
  | .uint32 => [.stmt (.addLit 32)]
  | .uint64 => [.stmt (.addLit 64)]
  | .int8 => [.stmt (.addLit 8)]
  | .int16 => [.stmt (.addLit 16)]
  | .int32 => [.stmt (.addLit 32)]
  | .int64 => [.stmt (.addLit 64)]
  | .float16 => [.stmt (.addLit 16)]
  | .float32 => [.stmt (.addLit 32)]
  | .float64 => [.stmt (.addLit 64)]
  | .int | .bit => [.stmt (.addLit bits)]
  | name => [.stmt (.addNamed name p)]

/-- `generator/bitsize.rs` lines 12-111: `bitsize_type_reference`.  (The names `string`, `bool`,
`extern` and `bytes` never reach `bitsizeNamed`.) -/
def bitsizeType (ty : RefTy) (p : Place) (i : Nat) (packed : Bool) : List Line :=
  match ty with
  | .compound c _ =>
    if packed then [.stmt (.addObjectPacked c p i)] else [.stmt (.addObject c p)]
  | .builtin name bits length =>
    if name = .string then [.stmt (.addString p)]
    else if name = .extern then [.stmt (.addExtern p)]
    else if name = .bytes then [.stmt (.addBytes p)]
    else if name = .bool then [.stmt (.addLit 1)]
    else if bits ≠ 0 then [.stmt (.addLit bits)]
    else if packed then
      [.stmt (.addDelta i (initTrait (.builtin name bits length)) (rustName name) p)]
    else bitsizeNamed name bits p

/-- `generator/bitsize.rs` lines 113-202: `bitsize_field`. -/
def bitsizeField (f : Field) (i : Nat) (packed : Bool) : List Line :=
  let p := if f.optional then Place.x else Place.self i
  (match f.clause with
    | some c => [.opening (.ifCond c)]
    | none => [])
  ++ (if f.alignment ≠ 0 then [.stmt (.addAlign f.alignment)] else [])
  ++ (if f.offset = .plain then [.stmt (.addAlign 8)] else [])
  ++ (if f.optional then
      [.stmt (.addLit 1), .opening (.ifLet f.requiresBorrowing (.self i))] else [])
  ++ (if f.array.isSome then [.stmt (.addArray p (decide (f.offset = .indexed)))]
    else bitsizeType f.ty p i (packed && f.isPackable))
  ++ (if f.optional then [.close] else [])
  ++ (if f.clause.isSome then [.close] else [])

/-- `generator/packed_contexts.rs` lines 16-25: `is_marshaler`. -/
def RefTy.isMarshaler : RefTy → Bool
  | .compound _ _ => true
  | .builtin _ _ _ => false

/-- `generator/packed_contexts.rs` lines 118-142: `generate_packed_context_for_field`. -/
def createContextField (f : Field) : List Line :=
  .stmt .letNode ::
  (if f.array.isSome then []
    else match f.ty with
      | .compound c _ => [.stmt (.createObject c)]
      | .builtin _ _ _ => if f.isPackable then [.stmt .setContext] else [])
  ++ [.stmt .pushNode]

/-- `generator/packed_contexts.rs` lines 144-210: `generate_init_packed_context_for_field`. -/
def initContextField (f : Field) (i : Nat) : List Line :=
  if f.array.isSome then []
  else if !f.ty.isMarshaler && !f.isPackable then []
  else
    let p := if f.optional then Place.x else Place.self i
    (match f.clause with
      | some c => [.opening (.ifCond c)]
      | none => [])
    ++ (if f.optional then [.opening (.ifLet f.requiresBorrowing (.self i))] else [])
    ++ (match f.ty with
      | .compound c _ => [.stmt (.initObject c p i)]
      | .builtin _ _ _ =>
        if f.isPackable then
          [.stmt (.letDelta i), .stmt (.initDelta (initTrait f.ty) f.ty.rust p)] else [])
    ++ (if f.optional then [.close] else [])
    ++ (if f.clause.isSome then [.close] else [])

/-! ## Function bodies -/

/-- The expressions of field `i` of a structure see the fields in front of it. -/
def before (i : Nat) (e : Env) : Env := ⟨e.params, e.fields.take i⟩

/-- The expressions of the fields of a choice or union see the parameters. -/
def paramsOnly (e : Env) : Env := ⟨e.params, []⟩

/-- `generator/zstruct.rs` lines 131-264: for every field, the array and then the field; `g` is
`encode_field`, `decode_field` or `bitsize_field`. -/
def structLines (g : Field → Nat → Bool → List Line) (packed : Bool) : Nat → List Field → List Line
  | _, [] => []
  | i, f :: fs =>
    instantiateArray (f.inScope (before i)) packed ++ g (f.inScope (before i)) i packed
      ++ structLines g packed (i + 1) fs

/-- `generator/zstruct.rs` lines 174-219: the bodies of `zserio_write` and `zserio_write_packed`. -/
def structWrite (fs : List Field) (packed : Bool) : List Line :=
  structLines encodeField packed 0 fs ++ [.stmt .okUnit]

/-- `generator/zstruct.rs` lines 122-164: the bodies of `zserio_read` and `zserio_read_packed`. -/
def structRead (fs : List Field) (packed : Bool) : List Line :=
  structLines decodeField packed 0 fs ++ [.stmt .okUnit]

/-- `generator/zstruct.rs` lines 221-264: the bodies of `zserio_bitsize` and
`zserio_bitsize_packed`. -/
def structBitsize (fs : List Field) (packed : Bool) : List Line :=
  .stmt .letEnd :: structLines bitsizeField packed 0 fs ++ [.stmt .okSize]

/-- `generator/zstruct.rs` lines 84-88: the body of `zserio_create_packing_context`. -/
def structCreate (fs : List Field) : List Line :=
  fs.flatMap createContextField

/-- `generator/zstruct.rs` lines 90-103: `zserio_init_packing_context`, without the last line. -/
def initLines (scope : Nat → Env → Env) : Nat → List Field → List Line
  | _, [] => []
  | i, f :: fs => initContextField (f.inScope (scope i)) i ++ initLines scope (i + 1) fs

/-- `generator/zstruct.rs` lines 90-103: the body of `zserio_init_packing_context`. -/
def structInit (fs : List Field) : List Line := initLines before 0 fs ++ [.stmt .okUnit]

/-- `ast/zchoice.rs`: a case. -/
structure Case where
  labels : List Val
  field : Option Field

/-- `generator/zchoice.rs` lines 148-184: the arms; `i` is `context_node_index`. -/
def choiceArms (g : Field → Nat → Bool → List Line) (packed : Bool) : Nat → List Case → List Line
  | _, [] => []
  | i, c :: cs =>
    match c.field with
    | none => .arm c.labels :: .armClose :: choiceArms g packed i cs
    | some f =>
      .arm c.labels :: instantiateArray (f.inScope paramsOnly) packed
        ++ g (f.inScope paramsOnly) i packed ++ .armClose :: choiceArms g packed (i + 1) cs

/-- `generator/zchoice.rs` lines 134-208: `generate_choice_match_construct`.  There is never a default
case (`visitor.rs` line 551). -/
def choiceMatch (g : Field → Nat → Bool → List Line) (selector : List Val → Val) (cs : List Case)
    (packed : Bool) : List Line :=
  .matchLine (.param selector) :: choiceArms g packed 0 cs ++ [.wildcard, .close]

/-- `generator/zchoice.rs` lines 247-281. -/
def choiceWrite (selector : List Val → Val) (cs : List Case) (packed : Bool) : List Line :=
  choiceMatch encodeField selector cs packed ++ [.stmt .okUnit]

/-- `generator/zchoice.rs` lines 210-245. -/
def choiceRead (selector : List Val → Val) (cs : List Case) (packed : Bool) : List Line :=
  choiceMatch decodeField selector cs packed ++ [.stmt .okUnit]

/-- `generator/zchoice.rs` lines 283-319. -/
def choiceBitsize (selector : List Val → Val) (cs : List Case) (packed : Bool) : List Line :=
  .stmt .letEnd :: choiceMatch bitsizeField selector cs packed ++ [.stmt .okSize]

/-- `generator/zchoice.rs` lines 30-53: the fields of a choice. -/
def choiceFields (cs : List Case) : List Field := cs.filterMap Case.field

/-- `generator/zchoice.rs` lines 92-97: the body of `zserio_create_packing_context`. -/
def choiceCreate (cs : List Case) : List Line := (choiceFields cs).flatMap createContextField

/-- `generator/zchoice.rs` lines 99-112: the body of `zserio_init_packing_context`. -/
def choiceInit (cs : List Case) : List Line :=
  initLines (fun _ => paramsOnly) 0 (choiceFields cs) ++ [.stmt .okUnit]

/-- `generator/zunion.rs` lines 168-193: the arms; the labels are the items of the selector enum, which
are the numbers of the members (lines 58-65). -/
def unionArms (g : Field → Nat → Bool → List Line) (packed : Bool) : Nat → List Field → List Line
  | _, [] => []
  | i, f :: fs =>
    .arm [.nat i] :: instantiateArray (f.inScope paramsOnly) packed
      ++ g (f.inScope paramsOnly) i packed ++ .armClose :: unionArms g packed (i + 1) fs

/-- `generator/zunion.rs` lines 157-195: `generate_union_match_construct`. -/
def unionMatch (g : Field → Nat → Bool → List Line) (fs : List Field) (packed : Bool) : List Line :=
  .matchLine .unionSelector :: unionArms g packed 0 fs ++ [.close]

/-- `generator/zunion.rs` lines 197-233: only the unpacked reader reads the selector. -/
def unionRead (fs : List Field) (packed : Bool) : List Line :=
  (if packed then [] else [.stmt (.readSelector fs.length)])
  ++ unionMatch decodeField fs packed ++ [.stmt .okUnit]

/-- `generator/zunion.rs` lines 235-273. -/
def unionWrite (fs : List Field) (packed : Bool) : List Line :=
  .stmt .writeSelector :: unionMatch encodeField fs packed ++ [.stmt .okUnit]

/-- `generator/zunion.rs` lines 275-315: only the unpacked size counts the selector. -/
def unionBitsize (fs : List Field) (packed : Bool) : List Line :=
  .stmt .letEnd :: (if packed then [] else [.stmt .addSelector])
  ++ unionMatch bitsizeField fs packed ++ [.stmt .okSize]

/-- The bodies of the functions of `ZserioPackableObject`; `true` stands for the `_packed` variants. -/
structure Bodies where
  write : Bool → List Line
  read : Bool → List Line
  bitsize : Bool → List Line
  create : List Line
  init : List Line

/-- `generator/zstruct.rs` lines 22-264. -/
def structBodies (fs : List Field) : Bodies where
  write := structWrite fs
  read := structRead fs
  bitsize := structBitsize fs
  create := structCreate fs
  init := structInit fs

/-- `generator/zchoice.rs` lines 19-319. -/
def choiceBodies (selector : List Val → Val) (cs : List Case) : Bodies where
  write := choiceWrite selector cs
  read := choiceRead selector cs
  bitsize := choiceBitsize selector cs
  create := choiceCreate cs
  init := choiceInit cs

/-- `generator/zunion.rs` lines 120-137 and 197-315. -/
def unionBodies (fs : List Field) : Bodies where
  write := unionWrite fs
  read := unionRead fs
  bitsize := unionBitsize fs
  create := []
  init := [.stmt .okUnit]

/-- What `generator/zenum.rs` lines 94-266 and `generator/zbitmask.rs` lines 61-225 have in common.
`ty` is the base type, `own` is whether the node itself gets a context. -/
def numberBodies (ty : RefTy) (number item : Val → Res Val) (own : Bool) : Bodies where
  write packed := encodeType ty (.number number) 0 packed ++ [.stmt .okUnit]
  read packed := (if packed then [.stmt (.letNumber ty.rust)] else [])
    ++ decodeType ty .x 0 packed ++ [.stmt (.assignItem item), .stmt .okUnit]
  bitsize packed := .stmt .letEnd :: bitsizeType ty (.number number) 0 packed ++ [.stmt .okSize]
  create := (if own then [.stmt .setOwnContext] else []) ++ [.stmt .pushDelta]
  init := [.stmt (.initNumber (initTrait ty) ty.rust (.number number))]

/-- `generator/zenum.rs` lines 94-266; `number` is the cast of an item to the base type and `item` is
`try_from` (lines 62-92). -/
def enumBodies (ty : RefTy) (number item : Val → Res Val) : Bodies := numberBodies ty number item false

/-- `generator/zbitmask.rs` lines 61-225. -/
def bitmaskBodies (ty : RefTy) : Bodies := numberBodies ty .ok .ok true

end Emit

end Zs
