import Verif.Expr

/-!
# Model of `ast/evaluate_mixing_native_types.rs`

The Rust type of the result when numbers of two zserio types meet in an arithmetic expression.  File
names are relative to `crates/zserio-rs-build/src/internal/`.
-/

namespace Zs

/-- The names of the builtin numeric types (`parser/ZserioParser.g4`, rule `builtinType`). -/
inductive NumName where
  | int8 | int16 | int32 | int64
  | uint8 | uint16 | uint32 | uint64
  | varint16 | varint32 | varint64 | varint
  | varuint16 | varuint32 | varuint64 | varuint | varsize
  | bit | int
  | float16 | float32 | float64
  deriving DecidableEq, Repr

/-- A `TypeReference` (`ast/type_reference.rs` lines 8-17) to a builtin numeric type, as far as it
matters here: its name, `bits` (of `bit:n` and `int:n`, otherwise 0) and whether there is a
`length_expression` (`bit<..>`, `int<..>`). -/
structure NumRef where
  name : NumName
  bits : Nat := 0
  dynamic : Bool := false
  deriving DecidableEq, Repr

/-- Lines 3-5: `compare_native_types`. -/
def compareNative (t1 t2 : NumRef) : Bool := t1.name == t2.name && t1.bits == t2.bits

/-- Lines 7-29: `evaluate_mixing_float_types`. -/
def mixFloat (type1 type2 : Option NumRef) : Res (Option NumRef) :=
  match type1, type2 with
  | some t1, some t2 =>
    if compareNative t1 t2 then .ok type1
    else
      match [NumName.float64, .float32, .float16].find? (fun f => t1.name == f || t2.name == f) with
      | some f => .ok (some { name := f })
      | none => .panic
  | some _, none => .ok type1
  | none, some _ => .ok type2
  | none, none => .ok none

/-- Lines 31-58: `get_integer_rank`. -/
def integerRank (t : NumRef) : Res Nat :=
  if t.dynamic then .ok 64
  else if t.bits ≠ 0 then .ok t.bits
  else match t.name with
    | .int8 => .ok 8
    | .int16 => .ok 16
    | .int32 => .ok 32
    | .int64 => .ok 64
    | .varint16 => .ok 15
    | .varint32 => .ok 29
    | .varint64 => .ok 57
    | .varint => .ok 64
    | .uint8 => .ok 8
    | .uint16 => .ok 16
    | .uint32 => .ok 32
    | .varuint16 => .ok 15
    | .varuint32 => .ok 29
    | .varuint64 => .ok 57
    | .varsize => .ok 31
    | .varuint => .ok 64
    | _ => .panic

/-- Lines 60-80: `is_signed`. -/
def isSigned (name : NumName) : Res Bool :=
  match name with
  | .int8 | .int16 | .int32 | .int64 => .ok true
  | .varint16 | .varint32 | .varint64 | .varint => .ok true
  | .uint8 | .uint16 | .uint32 => .ok false
  | .varuint16 | .varuint32 | .varuint64 | .varsize | .varuint => .ok false
  | _ => .panic

/-- Lines 82-94: `convert_to_unsigned`. -/
def convertToUnsigned (name : NumName) : Res NumName :=
  match name with
  | .int8 => .ok .uint8
  | .int16 => .ok .uint16
  | .int32 => .ok .uint32
  | .int64 => .ok .uint64
  | .varint16 => .ok .varuint16
  | .varint32 => .ok .varuint32
  | .varint64 => .ok .varuint64
  | .varint => .ok .varuint
  | _ => .panic

/-- Lines 96-145: `evaluate_mixing_integer_types`. -/
def mixInteger (type1 type2 : Option NumRef) : Res (Option NumRef) :=
  match type1, type2 with
  | some t1, some t2 =>
    if compareNative t1 t2 then .ok type1
    else do
      let s1 ← isSigned t1.name
      let s2 ← isSigned t2.name
      let rank1 ← integerRank t1
      let rank2 ← integerRank t2
      if rank1 > rank2 then
        if s1 = (s1 && s2) then pure (some t1)
        else do
          let n ← convertToUnsigned t1.name
          pure (some { t1 with name := n })
      else if s2 = (s1 && s2) then pure (some t2)
      else do
        let n ← convertToUnsigned t2.name
        pure (some { t2 with name := n })
  | some _, none => .ok type1
  | none, some _ => .ok type2
  | none, none => .ok none

/-- `generator/types.rs` lines 106-131: the Rust type of the integer types. -/
def NumName.rustInt : NumName → Option IntTy
  | .int8 => some ⟨true, 8⟩
  | .int16 | .varint16 => some ⟨true, 16⟩
  | .int32 | .varint32 => some ⟨true, 32⟩
  | .int64 | .varint64 | .varint | .int => some ⟨true, 64⟩
  | .uint8 => some ⟨false, 8⟩
  | .uint16 | .varuint16 => some ⟨false, 16⟩
  | .uint32 | .varuint32 | .varsize => some ⟨false, 32⟩
  | .uint64 | .varuint64 | .varuint | .bit => some ⟨false, 64⟩
  | .float16 | .float32 | .float64 => none

/-- `generator/types.rs` lines 126-128: the width of the Rust type of the float types. -/
def NumName.rustFloat : NumName → Option Nat
  | .float16 | .float32 => some 32
  | .float64 => some 64
  | _ => none

end Zs
