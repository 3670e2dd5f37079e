import Verif.Val

/-!
# Model of the code emitted by `crates/zserio-rs-build/src/internal/generator`

The generator emits Rust text; the model gives the meaning of that text.  Every generator function
becomes a Lean function that performs, in the same order, the statements the generator emits.  The
argument `packed` has the same role as in the generator: `false` while the bodies of
`zserio_read/write/bitsize` are emitted, `true` for their `_packed` variants.

File names below are relative to `crates/zserio-rs-build/src/internal/`.

Simplifications, for the whole file:
* schemas are finite trees (for types that contain themselves see `Recursive.lean`);
* expressions of the schema are arbitrary functions of what they may look at (`Env`);
* a field of a choice or union may look at parameters only;
* names, comments, initialisers, constraints and functions of a schema do not occur (the generator
  emits no code for initialisers and constraints).
-/

namespace Zs

/-- What the model is parametrised over: build mode, conversions of the `half` crate, the smallest
`Vec` allocation, and the current value of `ARRAY_ALLOC_CHUNK`. -/
structure Cfg where
  md : Mode
  fromF32 : UInt32 → UInt16
  toF32 : UInt16 → UInt32
  minCap : Nat
  chunk : Nat

/-! ## Builtin types -/

/-- Builtin types (`generator/types.rs` lines 106-136).  `bits n` and `ints n` are `bit:n` and
`int:n`; `bitsDyn` and `intsDyn` are `bit<expr>` and `int<expr>` (`length_expression`). -/
inductive Scalar where
  | bool | string | bytes | extern | float16 | float32 | float64
  | uint (n : Nat)
  | int (n : Nat)
  | bits (n : Nat)
  | ints (n : Nat)
  | bitsDyn (len : Env → Nat)
  | intsDyn (len : Env → Nat)
  | varuint16 | varuint32 | varuint64 | varuint | varsize
  | varint16 | varint32 | varint64 | varint

/-- An array trait used on values of type `Val`. -/
def Elem.lift {α : Type} (e : Elem α) (inj : α → Val) (proj : Val → Option α) (dflt : α) :
    Elem Val where
  isBitsizeofConstant := e.isBitsizeofConstant
  bitsizeOf p v := match proj v with
    | .some x => e.bitsizeOf p x
    | .none => .panic
  read r v := do
    let (x, r) ← e.read r ((proj v).getD dflt)
    pure (inj x, r)
  write w v := match proj v with
    | .some x => e.write w x
    | .none => .panic
  toU64 v := match proj v with
    | .some x => e.toU64 x
    | .none => .panic
  fromU64 u := do
    let x ← e.fromU64 u
    pure (inj x)

namespace Val

/-- Projections to the Rust types. -/
def toNat? : Val → Option Nat
  | .nat n => .some n
  | _ => .none
def toInt? : Val → Option Int
  | .int n => .some n
  | _ => .none
def toBool? : Val → Option Bool
  | .bool n => .some n
  | _ => .none
def toF32? : Val → Option UInt32
  | .f32 n => .some n
  | _ => .none
def toF64? : Val → Option UInt64
  | .f64 n => .some n
  | _ => .none
def toStr? : Val → Option String
  | .str n => .some n
  | _ => .none
def toBytes? : Val → Option BytesType
  | .bytes n => .some n
  | _ => .none
def toExtern? : Val → Option ExternType
  | .extern n => .some n
  | _ => .none

end Val

namespace Scalar

/-- `generator/types.rs` lines 106-136: `Default` of the Rust type. -/
def dflt : Scalar → Val
  | .bool => .bool false
  | .string => .str ""
  | .bytes => .bytes ⟨0, []⟩
  | .extern => .extern ⟨0, []⟩
  | .float16 | .float32 => .f32 0
  | .float64 => .f64 0
  | .uint _ | .bits _ | .bitsDyn _ | .varuint16 | .varuint32 | .varuint64 | .varuint
  | .varsize => .nat 0
  | .int _ | .ints _ | .intsDyn _ | .varint16 | .varint32 | .varint64 | .varint => .int 0

/-- `generator/array.rs` lines 14-92: the array trait of a builtin type, with its `num_bits`
(`({expr}) as u8` for a length expression). -/
def elem (cfg : Cfg) (env : Env) : Scalar → Elem Val
  | .bool => boolElem.lift .bool Val.toBool? false
  | .string => stringElem.lift .str Val.toStr? ""
  | .bytes => bytesElem.lift .bytes Val.toBytes? ⟨0, []⟩
  | .extern => externElem.lift .extern Val.toExtern? ⟨0, []⟩
  | .float16 => (float16Elem cfg.fromF32 cfg.toF32).lift .f32 Val.toF32? 0
  | .float32 => float32Elem.lift .f32 Val.toF32? 0
  | .float64 => float64Elem.lift .f64 Val.toF64? 0
  | .uint n => (uintElem n n).lift .nat Val.toNat? 0
  | .int n => (intElem n n).lift .int Val.toInt? 0
  | .bits n => (uintElem 64 n).lift .nat Val.toNat? 0
  | .ints n => (intElem 64 n).lift .int Val.toInt? 0
  | .bitsDyn len => (uintElem 64 (len env % 256)).lift .nat Val.toNat? 0
  | .intsDyn len => (intElem 64 (len env % 256)).lift .int Val.toInt? 0
  | .varuint16 => varuint16Elem.lift .nat Val.toNat? 0
  | .varuint32 => varuint32Elem.lift .nat Val.toNat? 0
  | .varuint64 => varuint64Elem.lift .nat Val.toNat? 0
  | .varuint => varuintElem.lift .nat Val.toNat? 0
  | .varsize => varsizeElem.lift .nat Val.toNat? 0
  | .varint16 => (varint16Elem cfg.md).lift .int Val.toInt? 0
  | .varint32 => (varint32Elem cfg.md).lift .int Val.toInt? 0
  | .varint64 => (varint64Elem cfg.md).lift .int Val.toInt? 0
  | .varint => (varintElem cfg.md).lift .int Val.toInt? 0

/-- `generator/encode.rs` lines 37-99: `encode_type` of a builtin type, not packed. -/
def write (cfg : Cfg) (env : Env) (s : Scalar) (v : Val) (w : Writer) : Res Writer :=
  match s, v with
  | .string, .str x => writeString w x
  | .extern, .extern x => writeExternType w x
  | .bytes, .bytes x => writeBytesType w x
  | .bool, .bool x => w.writeBool x
  | .bits n, .nat x => writeUnsignedBits w x n
  | .ints n, .int x => writeSignedBits w x n
  | .bitsDyn len, .nat x => writeUnsignedBits w x (len env % 256)
  | .intsDyn len, .int x => writeSignedBits w x (len env % 256)
  | .float16, .f32 x => writeFloat16 cfg.fromF32 w x
  | .float32, .f32 x => writeFloat32 w x
  | .float64, .f64 x => writeFloat64 w x
  | .uint n, .nat x => writeUint n w x
  | .int n, .int x => writeInt n w x
  | .varuint16, .nat x => writeVaruint16 w x
  | .varuint32, .nat x => writeVaruint32 w x
  | .varuint64, .nat x => writeVaruint64 w x
  | .varuint, .nat x => writeVaruint w x
  | .varsize, .nat x => writeVarsize w x
  | .varint16, .int x => writeVarint16 cfg.md w x
  | .varint32, .int x => writeVarint32 cfg.md w x
  | .varint64, .int x => writeVarint64 cfg.md w x
  | .varint, .int x => writeVarint cfg.md w x
  | _, _ => .panic

/-- Reads a value of a Rust type and injects it into `Val`. -/
def readAs {α : Type} (inj : α → Val) (read : Reader → Res (α × Reader)) (r : Reader) :
    Res (Val × Reader) := do
  let (x, r) ← read r
  pure (inj x, r)

/-- `generator/decode.rs` lines 44-108: `decode_type` of a builtin type, not packed. -/
def read (cfg : Cfg) (env : Env) (s : Scalar) : Reader → Res (Val × Reader) :=
  match s with
  | .string => readAs .str readString
  | .extern => readAs .extern readExternType
  | .bytes => readAs .bytes readBytesType
  | .bool => readAs .bool Reader.readBool
  | .bits n => readAs .nat (readUnsignedBits · n)
  | .ints n => readAs .int (readSignedBits · n)
  | .bitsDyn len => readAs .nat (readUnsignedBits · (len env % 256))
  | .intsDyn len => readAs .int (readSignedBits · (len env % 256))
  | .float16 => readAs .f32 (readFloat16 cfg.toF32)
  | .float32 => readAs .f32 readFloat32
  | .float64 => readAs .f64 readFloat64
  | .uint n => readAs .nat (readUint n)
  | .int n => readAs .int (readInt n)
  | .varuint16 => readAs .nat readVaruint16
  | .varuint32 => readAs .nat readVaruint32
  | .varuint64 => readAs .nat readVaruint64
  | .varuint => readAs .nat readVaruint
  | .varsize => readAs .nat readVarsize
  | .varint16 => readAs .int readVarint16
  | .varint32 => readAs .int readVarint32
  | .varint64 => readAs .int readVarint64
  | .varint => readAs .int readVarint

/-- `generator/bitsize.rs` lines 36-110: `bitsize_type_reference` of a builtin type, not packed: what
is added to `end_position`. -/
def bitsize (cfg : Cfg) (s : Scalar) (v : Val) : Res Nat :=
  match s, v with
  | .string, .str x => (bitsizeString x).unwrap
  | .extern, .extern x => .ok x.bitSize
  | .bytes, .bytes x => .ok (x.byteSize * 8)
  | .bool, .bool _ => .ok 1
  | .bits n, .nat _ => .ok n
  | .ints n, .int _ => .ok n
  | .bitsDyn _, .nat _ => .ok 0
  | .intsDyn _, .int _ => .ok 0
  | .float16, .f32 _ => .ok 16
  | .float32, .f32 _ => .ok 32
  | .float64, .f64 _ => .ok 64
  | .uint n, .nat _ => .ok n
  | .int n, .int _ => .ok n
  | .varuint16, .nat x => (varuint16Bitsize x).unwrap
  | .varuint32, .nat x => (varuint32Bitsize x).unwrap
  | .varuint64, .nat x => (varuint64Bitsize x).unwrap
  | .varuint, .nat x => (varuintBitsize x).unwrap
  | .varsize, .nat x => (varsizeBitsize x).unwrap
  | .varint16, .int x => (varint16Bitsize cfg.md x).unwrap
  | .varint32, .int x => (varint32Bitsize cfg.md x).unwrap
  | .varint64, .int x => (varint64Bitsize cfg.md x).unwrap
  | .varint, .int x => (varintBitsize cfg.md x).unwrap
  | _, _ => .panic

/-- `generator/packed_contexts.rs` lines 87-110: the builtin types that are delta-packable. -/
def isPackable : Scalar → Bool
  | .bool | .string | .bytes | .extern | .float16 | .float32 | .float64 => false
  | _ => true

/-- `generator/bitsize.rs` lines 53-62: `bitsize_type_reference` of a delta-packable builtin type,
packed.  The test of `bits != 0` comes before the test of `packed`. -/
def bitsizePacked (cfg : Cfg) (env : Env) (s : Scalar) (v : Val) (n : Node) (pos : Nat) :
    Res (Nat × Node) :=
  match s with
  | .bits k => .ok (k, n)
  | .ints k => .ok (k, n)
  | s => ((s.elem cfg env).packable cfg.md).bitsizeOfPacked n pos v

end Scalar

/-! ## Types as they are used -/

/-- `ZserioPackableObject` (`crates/zserio/src/ztype/mod.rs`) as implemented by generated code, and
`Default`. `&mut self` of the readers is an argument and a result. -/
structure Codec where
  dflt : Val
  read : Val → Reader → Res (Val × Reader)
  write : Val → Writer → Res Writer
  bitsize : Val → Nat → Res Nat
  createContext : Node
  initContext : Val → Node → Res Node
  readPacked : Val → Node → Reader → Res ((Val × Node) × Reader)
  writePacked : Val → Node → Writer → Res (Writer × Node)
  bitsizePacked : Val → Node → Nat → Res (Nat × Node)

/-- `crates/zserio/src/ztype/array_traits/object_array_trait.rs` lines 10-93. -/
def Codec.arrayTrait (c : Codec) : ArrayTrait Val where
  isBitsizeofConstant := false
  bitsizeOf p v := c.bitsize v p
  read r v := c.read v r
  write w v := c.write v w
  toU64 _ := .panic
  fromU64 _ := .panic
  createContext := c.createContext
  initContext n v := c.initContext v n
  bitsizeOfPacked n p v := c.bitsizePacked v n p
  readPacked n r v := c.readPacked v n r
  writePacked n w v := c.writePacked v n w

/-- What the generator emits for a reference to a type: the branches of `encode_type`, `decode_type`,
`bitsize_type_reference` and of the context functions.  The packed operations work on the node of the
field (`context_node.children[field_index]`). -/
structure TypeOps where
  isMarshaler : Bool
  isPackable : Bool
  dflt : Val
  read : Env → Val → Reader → Res (Val × Reader)
  write : Env → Val → Writer → Res Writer
  bitsize : Env → Val → Nat → Res Nat
  createContext : Node
  initContext : Env → Val → Node → Res Node
  readPacked : Env → Val → Node → Reader → Res ((Val × Node) × Reader)
  writePacked : Env → Val → Node → Writer → Res (Writer × Node)
  bitsizePacked : Env → Val → Node → Nat → Res (Nat × Node)
  arrayTrait : Env → ArrayTrait Val
  /-- `type_reference.bits` where it is not 0: the size does not use the packing context. -/
  fixedBits : Option Nat := none

/-- `type_reference.bits`, where it is not 0 (`bitsize.rs` line 53). -/
def Scalar.fixedBits : Scalar → Option Nat
  | .bits n => some n
  | .ints n => some n
  | _ => none

/-- A builtin type: `encode.rs` 37-99, `decode.rs` 44-109, `bitsize.rs` 36-109,
`packed_contexts.rs` 130-135 and 186-203. -/
def Scalar.ops (cfg : Cfg) (s : Scalar) : TypeOps where
  isMarshaler := false
  isPackable := s.isPackable
  dflt := s.dflt
  read env _ r := s.read cfg env r
  write env v w := s.write cfg env v w
  bitsize _ v _ := s.bitsize cfg v
  createContext := .mk [] (some DeltaContext.new)
  initContext env v n := ((s.elem cfg env).packable cfg.md).initContext n v
  readPacked env v n r := ((s.elem cfg env).packable cfg.md).readPacked n r v
  writePacked env v n w := ((s.elem cfg env).packable cfg.md).writePacked n w v
  bitsizePacked env v n p := s.bitsizePacked cfg env v n p
  arrayTrait env := (s.elem cfg env).packable cfg.md
  fixedBits := s.fixedBits

/-- A generated type: `encode.rs` 26-36, `decode.rs` 30-43, `bitsize.rs` 22-35 (with `unwrap`),
`packed_contexts.rs` 125-129 and 181-185. -/
def Codec.ops (c : Codec) : TypeOps where
  isMarshaler := true
  isPackable := true
  dflt := c.dflt
  read _ v r := c.read v r
  write _ v w := c.write v w
  bitsize _ v p := (c.bitsize v p).unwrap
  createContext := c.createContext
  initContext _ v n := c.initContext v n
  readPacked _ v n r := c.readPacked v n r
  writePacked _ v n w := c.writePacked v n w
  bitsizePacked _ v n p := (c.bitsizePacked v n p).unwrap
  arrayTrait _ := c.arrayTrait

/-! ## Fields -/

/-- `ast/field.rs`: an array field. Implicit arrays are coded like arrays with a length header. -/
structure ArrayInfo where
  isPacked : Bool
  length : Option (Env → Nat)

/-- `ast/field.rs`: how the offset of a field is given. The value of the offset is never used by the
generated code, only its presence. -/
inductive Offset where
  | none
  | plain
  | indexed
  deriving DecidableEq

/-- `ast/field.rs`: everything about a field but its type. `args` are the type arguments; their second
argument is `@index`. -/
structure FieldInfo where
  optional : Bool := false
  clause : Option (Env → Bool) := none
  alignment : Nat := 0
  offset : Offset := .none
  array : Option ArrayInfo := none
  args : List (Env → Nat → Val) := []
  isOffsetField : Bool := false

namespace Node

/-- `&mut context_node.children[i]`. -/
def onChild {β : Type} (n : Node) (i : Nat) (f : Node → Res (β × Node)) : Res (β × Node) :=
  match n with
  | .mk cs c => match cs[i]? with
    | none => .panic
    | some child => do
      let (b, child) ← f child
      pure (b, .mk (cs.set i child) c)

end Node

/-- A field with the operations of its type (`packed_contexts.rs` lines 17-45, `FieldDetails`). -/
structure FieldOps where
  info : FieldInfo
  ty : TypeOps

namespace FieldOps

variable (cfg : Cfg) (f : FieldOps)

/-- `packed_contexts.rs` lines 73-116. -/
def isPackable : Bool :=
  if f.info.isOffsetField then false
  else if f.info.array.isSome then true
  else f.ty.isPackable

/-- `Default` of the Rust type of the field (`packed_contexts.rs` lines 59-70). -/
def dflt : Val :=
  if f.info.optional then .none
  else if f.info.array.isSome then .list []
  else f.ty.dflt

/-- `generator/array.rs` lines 94-131. -/
def arrayDef (packed : Bool) (env : Env) (a : ArrayInfo) : ArrayDef Val where
  arrayTrait := f.ty.arrayTrait env
  isPacked := (a.isPacked || packed) && f.isPackable
  fixedSize := a.length.map (fun e => e env)

/-- The optional clause: `if {clause} {`. -/
def present (env : Env) : Bool :=
  match f.info.clause with
  | none => true
  | some c => c env

/-- The element offsets: `Some(..)` when the offset expression uses `@index`. -/
def indexed : Bool := decide (f.info.offset = .indexed)

/-- `encode.rs` lines 143-166. -/
def alignWriter (w : Writer) : Res Writer :=
  (if f.info.alignment = 0 then pure w else Zs.alignWriter w f.info.alignment) >>= fun w =>
  if f.info.offset = .plain then Zs.alignWriter w 8 else pure w

/-- `decode.rs` lines 141-164. -/
def alignReader (r : Reader) : Res Reader :=
  (if f.info.alignment = 0 then pure r else Zs.alignReader r f.info.alignment) >>= fun r =>
  if f.info.offset = .plain then Zs.alignReader r 8 else pure r

/-- `bitsize.rs` lines 131-154. -/
def alignBitsize (pos : Nat) : Res Nat :=
  (if f.info.alignment = 0 then pure pos else do
    let n ← Zs.alignBitsize pos f.info.alignment
    pure (pos + n)) >>= fun pos =>
  if f.info.offset = .plain then do
    let n ← Zs.alignBitsize pos 8
    pure (pos + n)
  else pure pos

/-- The values of the type arguments. -/
def argValues (env : Env) (index : Nat) : List Val := f.info.args.map (fun a => a env index)

/-- `encode.rs` lines 227-261: `assert!(x.param == arg)` for every type argument. A type has as many
parameters as arguments are passed. -/
def checkArgs (env : Env) (index : Nat) (x : Val) : Res Unit :=
  if f.info.args.isEmpty then pure ()
  else if x.params = f.argValues env index then pure () else .panic

/-- `encode.rs` lines 199-225, 263-266: the loop over array elements around the assertions. -/
def checkArgsAll (env : Env) : Nat → List Val → Res Unit
  | _, [] => pure ()
  | i, x :: xs => do
    f.checkArgs env i x
    checkArgsAll env (i + 1) xs

/-- `encode.rs` lines 270-277. -/
def checkLength (a : ArrayInfo) (env : Env) (xs : List Val) : Res Unit :=
  match a.length with
  | none => pure ()
  | some e => if xs.length = e env then pure () else .panic

/-- `encode.rs` lines 16-103, called at line 290. -/
def encodeType (packed : Bool) (i : Nat) (env : Env) (x : Val) (n : Node) (w : Writer) :
    Res (Writer × Node) :=
  if packed then n.onChild i (fun c => f.ty.writePacked env x c w)
  else do
    let w ← f.ty.write env x w
    pure (w, n)

/-- `encode.rs` lines 186-299: the value itself, without clause, alignment and presence bit. -/
def encodeContent (packed : Bool) (i : Nat) (env : Env) (x : Val) (n : Node) (w : Writer) :
    Res (Writer × Node) :=
  match f.info.array with
  | none => do
    f.checkArgs env 0 x
    f.encodeType (packed && f.isPackable) i env x n w
  | some a => match x with
    | .list xs => do
      f.checkArgsAll env 0 xs
      checkLength a env xs
      let w ← (f.arrayDef packed env a).zserioWrite w xs f.indexed
      pure (w, n)
    | _ => .panic

/-- `encode.rs` lines 169-184, 301-306: the presence bit of an optional field. -/
def encodeOptional (packed : Bool) (i : Nat) (env : Env) (v : Val) (n : Node) (w : Writer) :
    Res (Writer × Node) :=
  if f.info.optional then
    match v with
    | .some x => do
      let w ← w.writeBool true
      f.encodeContent packed i env x n w
    | .none => do
      let w ← w.writeBool false
      pure (w, n)
    | _ => .panic
  else f.encodeContent packed i env v n w

/-- `encode.rs` lines 125-312: `encode_field`. -/
def encode (packed : Bool) (i : Nat) (env : Env) (v : Val) (n : Node) (w : Writer) :
    Res (Writer × Node) :=
  if f.present env then do
    let w ← f.alignWriter w
    f.encodeOptional packed i env v n w
  else pure (w, n)

/-- `decode.rs` lines 193-271: `initial_value`; for array elements lines 315-412: `zs_item`. -/
def initial (env : Env) (index : Nat) : Val :=
  if f.info.args.isEmpty then f.ty.dflt else f.ty.dflt.withParams (f.argValues env index)

/-- `decode.rs` lines 18-113, called at line 424. -/
def decodeType (packed : Bool) (i : Nat) (env : Env) (x : Val) (n : Node) (r : Reader) :
    Res ((Val × Node) × Reader) :=
  if packed then do
    let ((x, r), n) ← n.onChild i (fun c => do
      let ((x, c), r) ← f.ty.readPacked env x c r
      pure ((x, r), c))
    pure ((x, n), r)
  else do
    let (x, r) ← f.ty.read env x r
    pure ((x, n), r)

/-- `decode.rs` lines 306-420: the loop that reads elements with type arguments. -/
def readParamAll (a : ArrayDef Val) (env : Env) :
    Nat → Nat → Node → Vec Val → Reader → Res (Vec Val × Reader)
  | 0, _, _, data, r => pure (data, r)
  | k + 1, index, node, data, r => do
    let ((item, node), r) ← a.readOneElement r node (f.initial env index) f.indexed
    readParamAll a env k (index + 1) node (data.push cfg.minCap item) r

/-- `decode.rs` lines 274-421: an array, read into a vector that may hold old content. -/
def decodeArray (a : ArrayDef Val) (env : Env) (data : Vec Val) (r : Reader) :
    Res (Val × Reader) := do
  let (len, r) ← a.zserioReadArrayLength r
  if f.info.args.isEmpty then do
    let (v, r) ← a.zserioRead cfg.minCap cfg.chunk f.ty.dflt r data len f.indexed
    pure (.list v.items, r)
  else do
    let data := data.clear.reserve cfg.minCap (min len cfg.chunk)
    let (v, r) ← f.readParamAll cfg a env len 0 a.arrayTrait.createContext data r
    pure (.list v.items, r)

/-- `decode.rs` lines 184-434: the value itself, without clause, alignment and presence bit. -/
def decodeContent (packed : Bool) (i : Nat) (env : Env) (old : Val) (n : Node) (r : Reader) :
    Res ((Val × Node) × Reader) :=
  match f.info.array with
  | none => f.decodeType (packed && f.isPackable) i env (f.initial env 0) n r
  | some a => match old with
    | .list xs => do
      let (x, r) ← f.decodeArray cfg (f.arrayDef packed env a) env ⟨xs, xs.length⟩ r
      pure ((x, n), r)
    | _ => .panic

/-- `Default` of the Rust type of an optional field without the `Option`. -/
def contentDflt : Val := if f.info.array.isSome then .list [] else f.ty.dflt

/-- `decode.rs` lines 166-182, 436-442: the presence bit of an optional field.  An absent field keeps
the old content of the object. -/
def decodeOptional (packed : Bool) (i : Nat) (env : Env) (old : Val) (n : Node) (r : Reader) :
    Res ((Val × Node) × Reader) :=
  if f.info.optional then do
    let (present, r) ← r.readBool
    if present then do
      let ((x, n), r) ← f.decodeContent cfg packed i env f.contentDflt n r
      pure ((.some x, n), r)
    else pure ((old, n), r)
  else f.decodeContent cfg packed i env old n r

/-- `decode.rs` lines 115-445: `decode_field`.  Nothing happens when the clause is false. -/
def decode (packed : Bool) (i : Nat) (env : Env) (old : Val) (n : Node) (r : Reader) :
    Res ((Val × Node) × Reader) :=
  if f.present env then do
    let r ← f.alignReader r
    f.decodeOptional cfg packed i env old n r
  else pure ((old, n), r)

/-- `bitsize.rs` lines 12-111, called at line 182. -/
def bitsizeType (packed : Bool) (i : Nat) (env : Env) (x : Val) (n : Node) (pos : Nat) :
    Res (Nat × Node) :=
  if packed then
    match f.ty.fixedBits with
    | some k => pure (pos + k, n)
    | none => do
      let (s, n) ← n.onChild i (fun c => f.ty.bitsizePacked env x c pos)
      pure (pos + s, n)
  else do
    let s ← f.ty.bitsize env x pos
    pure (pos + s, n)

/-- `bitsize.rs` lines 171-191. -/
def bitsizeContent (packed : Bool) (i : Nat) (env : Env) (x : Val) (n : Node) (pos : Nat) :
    Res (Nat × Node) :=
  match f.info.array with
  | none => f.bitsizeType (packed && f.isPackable) i env x n pos
  | some a => match x with
    | .list xs => do
      let s ← (f.arrayDef packed env a).zserioBitsize xs f.indexed pos
      pure (pos + s, n)
    | _ => .panic

/-- `bitsize.rs` lines 156-169, 192-196. -/
def bitsizeOptional (packed : Bool) (i : Nat) (env : Env) (v : Val) (n : Node) (pos : Nat) :
    Res (Nat × Node) :=
  if f.info.optional then
    match v with
    | .some x => f.bitsizeContent packed i env x n (pos + 1)
    | .none => pure (pos + 1, n)
    | _ => .panic
  else f.bitsizeContent packed i env v n pos

/-- `bitsize.rs` lines 113-202: `bitsize_field`; the result is the new `end_position`. -/
def bitsize (packed : Bool) (i : Nat) (env : Env) (v : Val) (n : Node) (pos : Nat) :
    Res (Nat × Node) :=
  if f.present env then do
    let pos ← f.alignBitsize pos
    f.bitsizeOptional packed i env v n pos
  else pure (pos, n)

/-- `packed_contexts.rs` lines 118-142: the node pushed for a field. -/
def createContext : Node :=
  if f.info.array.isSome then Node.new
  else if f.ty.isMarshaler || f.isPackable then f.ty.createContext
  else Node.new

/-- `packed_contexts.rs` lines 182-203. -/
def initContent (i : Nat) (env : Env) (x : Val) (n : Node) : Res Node := do
  let (_, n) ← n.onChild i (fun c => do
    let c ← f.ty.initContext env x c
    pure ((), c))
  pure n

/-- `packed_contexts.rs` lines 144-210: `generate_init_packed_context_for_field`. -/
def initContext (i : Nat) (env : Env) (v : Val) (n : Node) : Res Node :=
  if f.info.array.isSome then pure n
  else if !f.ty.isMarshaler && !f.isPackable then pure n
  else if f.present env then
    if f.info.optional then
      match v with
      | .some x => f.initContent i env x n
      | .none => pure n
      | _ => .panic
    else f.initContent i env v n
  else pure n

end FieldOps

/-! ## Structures -/

/-- `zstruct.rs` lines 174-219: the body of the writers. -/
def encodeFields (packed : Bool) (params : List Val) :
    List FieldOps → Nat → List Val → List Val → Node → Writer → Res (Writer × Node)
  | [], _, _, [], n, w => pure (w, n)
  | f :: fs, i, done, v :: vs, n, w => do
    let (w, n) ← f.encode packed i ⟨params, done⟩ v n w
    encodeFields packed params fs (i + 1) (done ++ [v]) vs n w
  | _, _, _, _, _, _ => .panic

/-- `zstruct.rs` lines 131-164: the body of the readers. -/
def decodeFields (cfg : Cfg) (packed : Bool) (params : List Val) :
    List FieldOps → Nat → List Val → List Val → Node → Reader →
      Res ((List Val × Node) × Reader)
  | [], _, done, [], n, r => pure ((done, n), r)
  | f :: fs, i, done, old :: olds, n, r => do
    let ((v, n), r) ← f.decode cfg packed i ⟨params, done⟩ old n r
    decodeFields cfg packed params fs (i + 1) (done ++ [v]) olds n r
  | _, _, _, _, _, _ => .panic

/-- `zstruct.rs` lines 228-264: the body of the size functions. -/
def bitsizeFields (packed : Bool) (params : List Val) :
    List FieldOps → Nat → List Val → List Val → Node → Nat → Res (Nat × Node)
  | [], _, _, [], n, pos => pure (pos, n)
  | f :: fs, i, done, v :: vs, n, pos => do
    let (pos, n) ← f.bitsize packed i ⟨params, done⟩ v n pos
    bitsizeFields packed params fs (i + 1) (done ++ [v]) vs n pos
  | _, _, _, _, _, _ => .panic

/-- `zstruct.rs` lines 91-103. -/
def initFields (params : List Val) :
    List FieldOps → Nat → List Val → List Val → Node → Res Node
  | [], _, _, [], n => pure n
  | f :: fs, i, done, v :: vs, n => do
    let n ← f.initContext i ⟨params, done⟩ v n
    initFields params fs (i + 1) (done ++ [v]) vs n
  | _, _, _, _, _ => .panic

/-- `zstruct.rs` lines 22-264: the code generated for a structure.  `params` are the default values of
the parameter types. -/
def structCodec (cfg : Cfg) (params : List Val) (fields : List FieldOps) : Codec where
  dflt := .obj params (fields.map FieldOps.dflt)
  read old r := match old with
    | .obj ps fs => do
      let ((vs, _), r) ← decodeFields cfg false ps fields 0 [] fs Node.new r
      pure (.obj ps vs, r)
    | _ => .panic
  write v w := match v with
    | .obj ps fs => do
      let (w, _) ← encodeFields false ps fields 0 [] fs Node.new w
      pure w
    | _ => .panic
  bitsize v pos := match v with
    | .obj ps fs => do
      let (p, _) ← bitsizeFields false ps fields 0 [] fs Node.new pos
      pure (p - pos)
    | _ => .panic
  createContext := .mk (fields.map FieldOps.createContext) none
  initContext v n := match v with
    | .obj ps fs => initFields ps fields 0 [] fs n
    | _ => .panic
  readPacked old n r := match old with
    | .obj ps fs => do
      let ((vs, n), r) ← decodeFields cfg true ps fields 0 [] fs n r
      pure ((.obj ps vs, n), r)
    | _ => .panic
  writePacked v n w := match v with
    | .obj ps fs => encodeFields true ps fields 0 [] fs n w
    | _ => .panic
  bitsizePacked v n pos := match v with
    | .obj ps fs => do
      let (p, n) ← bitsizeFields true ps fields 0 [] fs n pos
      pure (p - pos, n)
    | _ => .panic

/-! ## Choices -/

/-- A case of a choice (`ast/zchoice.rs`): labels and possibly a field. -/
structure CaseOps where
  labels : List Val
  field : Option FieldOps

/-- `zchoice.rs` lines 134-208: the case taken by `match self.selector`, and the index of its field
among the fields of the choice.  No case and a case without field both do nothing.  The default case
is dropped by the parser (`visitor.rs` line 551), so only `_ => ()` is emitted. -/
def selectCase (sel : Val) : Nat → List CaseOps → Option (Nat × FieldOps)
  | _, [] => none
  | i, c :: cs =>
    if sel ∈ c.labels then c.field.map (fun f => (i, f))
    else selectCase sel (if c.field.isSome then i + 1 else i) cs

/-- `zchoice.rs` lines 30-53: the fields of a choice. -/
def caseFields (cs : List CaseOps) : List FieldOps := cs.filterMap CaseOps.field

/-- `zchoice.rs` lines 247-281. -/
def encodeChoice (packed : Bool) (selector : List Val → Val) (cases : List CaseOps)
    (params fields : List Val) (n : Node) (w : Writer) : Res (Writer × Node) :=
  match selectCase (selector params) 0 cases with
  | none => pure (w, n)
  | some (i, f) => match fields[i]? with
    | none => .panic
    | some v => f.encode packed i ⟨params, []⟩ v n w

/-- `zchoice.rs` lines 210-245. -/
def decodeChoice (cfg : Cfg) (packed : Bool) (selector : List Val → Val) (cases : List CaseOps)
    (params fields : List Val) (n : Node) (r : Reader) : Res ((List Val × Node) × Reader) :=
  match selectCase (selector params) 0 cases with
  | none => pure ((fields, n), r)
  | some (i, f) => match fields[i]? with
    | none => .panic
    | some old => do
      let ((v, n), r) ← f.decode cfg packed i ⟨params, []⟩ old n r
      pure ((fields.set i v, n), r)

/-- `zchoice.rs` lines 283-319. -/
def bitsizeChoice (packed : Bool) (selector : List Val → Val) (cases : List CaseOps)
    (params fields : List Val) (n : Node) (pos : Nat) : Res (Nat × Node) :=
  match selectCase (selector params) 0 cases with
  | none => pure (pos, n)
  | some (i, f) => match fields[i]? with
    | none => .panic
    | some v => f.bitsize packed i ⟨params, []⟩ v n pos

/-- `zchoice.rs` lines 99-112: all fields are initialised, whatever the selector is. -/
def initChoice (params : List Val) : List FieldOps → Nat → List Val → Node → Res Node
  | [], _, [], n => pure n
  | f :: fs, i, v :: vs, n => do
    let n ← f.initContext i ⟨params, []⟩ v n
    initChoice params fs (i + 1) vs n
  | _, _, _, _ => .panic

/-- `zchoice.rs` lines 19-319: the code generated for a choice.  The selector is an arbitrary function
of the parameters (the generator emits `self.{selector text}`). -/
def choiceCodec (cfg : Cfg) (params : List Val) (selector : List Val → Val)
    (cases : List CaseOps) : Codec where
  dflt := .obj params ((caseFields cases).map FieldOps.dflt)
  read old r := match old with
    | .obj ps fs => do
      let ((vs, _), r) ← decodeChoice cfg false selector cases ps fs Node.new r
      pure (.obj ps vs, r)
    | _ => .panic
  write v w := match v with
    | .obj ps fs => do
      let (w, _) ← encodeChoice false selector cases ps fs Node.new w
      pure w
    | _ => .panic
  bitsize v pos := match v with
    | .obj ps fs => do
      let (p, _) ← bitsizeChoice false selector cases ps fs Node.new pos
      pure (p - pos)
    | _ => .panic
  createContext := .mk ((caseFields cases).map FieldOps.createContext) none
  initContext v n := match v with
    | .obj ps fs => initChoice ps (caseFields cases) 0 fs n
    | _ => .panic
  readPacked old n r := match old with
    | .obj ps fs => do
      let ((vs, n), r) ← decodeChoice cfg true selector cases ps fs n r
      pure ((.obj ps vs, n), r)
    | _ => .panic
  writePacked v n w := match v with
    | .obj ps fs => encodeChoice true selector cases ps fs n w
    | _ => .panic
  bitsizePacked v n pos := match v with
    | .obj ps fs => do
      let (p, n) ← bitsizeChoice true selector cases ps fs n pos
      pure (p - pos, n)
    | _ => .panic

/-! ## Unions -/

/-- `zunion.rs` lines 157-195 with `encode_field`. -/
def encodeMember (packed : Bool) (members : List FieldOps) (params : List Val) (sel : Nat)
    (fields : List Val) (n : Node) (w : Writer) : Res (Writer × Node) :=
  match members[sel]?, fields[sel]? with
  | some f, some v => f.encode packed sel ⟨params, []⟩ v n w
  | _, _ => .panic

/-- `zunion.rs` lines 157-195 with `decode_field`. -/
def decodeMember (cfg : Cfg) (packed : Bool) (members : List FieldOps) (params : List Val)
    (sel : Nat) (fields : List Val) (n : Node) (r : Reader) : Res ((Val × Node) × Reader) :=
  match members[sel]?, fields[sel]? with
  | some f, some old => do
    let ((v, n), r) ← f.decode cfg packed sel ⟨params, []⟩ old n r
    pure ((.union params sel (fields.set sel v), n), r)
  | _, _ => .panic

/-- `zunion.rs` lines 157-195 with `bitsize_field`. -/
def bitsizeMember (packed : Bool) (members : List FieldOps) (params : List Val) (sel : Nat)
    (fields : List Val) (n : Node) (pos : Nat) : Res (Nat × Node) :=
  match members[sel]?, fields[sel]? with
  | some f, some v => f.bitsize packed sel ⟨params, []⟩ v n pos
  | _, _ => .panic

/-- `zunion.rs` lines 67-85: `from_u32` panics for an unknown selector. -/
def fromU32 (members : List FieldOps) (value : Nat) : Res Nat :=
  if value < members.length then pure value else .panic

/-- `zunion.rs` lines 33-315: the code generated for a union.  The packed reader does not read the
selector, the packed size does not count it, and there are no packing contexts. -/
def unionCodec (cfg : Cfg) (params : List Val) (members : List FieldOps) : Codec where
  dflt := .union params 0 (members.map FieldOps.dflt)
  read old r := match old with
    | .union ps _ fs => do
      let (s, r) ← readVarsize r
      let sel ← fromU32 members s
      let ((v, _), r) ← decodeMember cfg false members ps sel fs Node.new r
      pure (v, r)
    | _ => .panic
  write v w := match v with
    | .union ps sel fs => do
      let w ← writeVarsize w (asU32 sel)
      let (w, _) ← encodeMember false members ps sel fs Node.new w
      pure w
    | _ => .panic
  bitsize v pos := match v with
    | .union ps sel fs => do
      let s ← varsizeBitsize (asU32 sel)
      let (p, _) ← bitsizeMember false members ps sel fs Node.new (pos + s)
      pure (p - pos)
    | _ => .panic
  createContext := Node.new
  initContext _ n := pure n
  readPacked old n r := match old with
    | .union ps sel fs => decodeMember cfg true members ps sel fs n r
    | _ => .panic
  writePacked v n w := match v with
    | .union ps sel fs => do
      let w ← writeVarsize w (asU32 sel)
      encodeMember true members ps sel fs n w
    | _ => .panic
  bitsizePacked v n pos := match v with
    | .union ps sel fs => do
      let (p, n) ← bitsizeMember true members ps sel fs n pos
      pure (p - pos, n)
    | _ => .panic

/-! ## Enums and bitmasks -/

/-- `zenum.rs` lines 41-60 (and again 70-87): the value of every item; `next` is `enum_value`. -/
def enumValuesFrom : Int → List (Option Int) → List Int
  | _, [] => []
  | next, item :: items =>
    let value := item.getD next
    value :: enumValuesFrom (value + 1) items

/-- The value of every item of an enum. -/
def enumValues (items : List (Option Int)) : List Int := enumValuesFrom 0 items

/-- `zenum.rs` lines 62-91: `TryFrom<i64>`; the result is the index of the item. -/
def enumTryFrom (items : List (Option Int)) (v : Int) : Res Nat :=
  match (enumValues items).findIdx? (fun x => x == v) with
  | some i => .ok i
  | none => .err .dataError

/-- The cast `as T` of an integer to the Rust type of a builtin type (`types.rs` lines 106-136). -/
def Scalar.ofInt (s : Scalar) (x : Int) : Val :=
  match s with
  | .uint n => .nat (x % 2 ^ n).toNat
  | .bits _ | .bitsDyn _ | .varuint64 | .varuint => .nat (x % 2 ^ 64).toNat
  | .varuint16 => .nat (x % 2 ^ 16).toNat
  | .varuint32 | .varsize => .nat (x % 2 ^ 32).toNat
  | .int n => .int (wrapSigned n x)
  | .varint16 => .int (wrapSigned 16 x)
  | .varint32 => .int (wrapSigned 32 x)
  | _ => .int (wrapSigned 64 x)

/-- The cast `v as i64`. -/
def Val.asI64 : Val → Res Int
  | .nat n => .ok (Zs.asI64 n)
  | .int i => .ok i
  | _ => .panic

/-- The number an enum item is stored as: `*self as T`. -/
def enumNumber (base : Scalar) (items : List (Option Int)) (v : Val) : Res Val :=
  match v with
  | .item i => match (enumValues items)[i]? with
    | some x => .ok (base.ofInt x)
    | none => .panic
  | _ => .panic

/-- `zenum.rs` lines 152 and 174: `*self = try_from(v as i64)?`. -/
def enumItem (items : List (Option Int)) (v : Val) : Res Val := do
  let i ← v.asI64
  let k ← enumTryFrom items i
  pure (.item k)

/-- Enums and bitmasks use `context_node.children[0]` for the number they are stored as
(`zenum.rs` lines 104-116, `zbitmask.rs` lines 71-84). -/
def numberCodec (cfg : Cfg) (base : Scalar) (dflt : Val) (number : Val → Res Val)
    (item : Val → Res Val) (own : Option DeltaContext) : Codec where
  dflt := dflt
  read _ r := do
    let (v, r) ← base.read cfg ⟨[], []⟩ r
    let x ← item v
    pure (x, r)
  write x w := do
    let v ← number x
    base.write cfg ⟨[], []⟩ v w
  bitsize x _ := do
    let v ← number x
    base.bitsize cfg v
  createContext := .mk [.mk [] (some DeltaContext.new)] own
  initContext x n := do
    let v ← number x
    let (_, n) ← n.onChild 0 (fun c => do
      let c ← (base.ops cfg).initContext ⟨[], []⟩ v c
      pure ((), c))
    pure n
  readPacked _ n r := do
    let ((v, r), n) ← n.onChild 0 (fun c => do
      let ((v, c), r) ← (base.ops cfg).readPacked ⟨[], []⟩ base.dflt c r
      pure ((v, r), c))
    let x ← item v
    pure ((x, n), r)
  writePacked x n w := do
    let v ← number x
    n.onChild 0 (fun c => (base.ops cfg).writePacked ⟨[], []⟩ v c w)
  bitsizePacked x n pos := do
    let v ← number x
    match base.fixedBits with
    | some k => pure (k, n)
    | none => n.onChild 0 (fun c => (base.ops cfg).bitsizePacked ⟨[], []⟩ v c pos)

/-- `zenum.rs` lines 15-266: the code generated for an enum with an integer base type. -/
def enumCodec (cfg : Cfg) (base : Scalar) (items : List (Option Int)) : Codec :=
  numberCodec cfg base (.item 0) (enumNumber base items) (enumItem items) none

/-- `zbitmask.rs` lines 15-225: the code generated for a bitmask; its value is `bits`. `first` is the
value of the first item, which is the default. -/
def bitmaskCodec (cfg : Cfg) (base : Scalar) (first : Int) : Codec :=
  numberCodec cfg base (base.ofInt first) .ok .ok (some DeltaContext.new)

/-- `ast/zbitmask.rs` lines 36-66: `evaluate`; `next` is `bitmask_value` (a `u64`), an item is its
explicit value, if it has one.  `<<=` drops the highest bit. -/
def bitmaskValuesFrom : Nat → List (Option Nat) → Res (List Nat)
  | _, [] => pure []
  | next, item :: items =>
    (match item with
      | none => pure next
      | some x => if x < next ∧ x ≠ 0 then .panic else pure x) >>= fun value => do
    let rest ← bitmaskValuesFrom (if value = 0 then 1 else value * 2 % 2 ^ 64) items
    pure (value :: rest)

/-- The value of every item of a bitmask. -/
def bitmaskValues (items : List (Option Nat)) : Res (List Nat) := bitmaskValuesFrom 1 items

/-! ## Schemas -/

mutual
/-- A type of a schema. -/
inductive Ty where
  | scalar (s : Scalar)
  | enum (base : Scalar) (items : List (Option Int))
  | bitmask (base : Scalar) (first : Int)
  | struct (params : List Val) (fields : Fields)
  | choice (params : List Val) (selector : List Val → Val) (cases : Cases)
  | union (params : List Val) (members : Fields)
/-- A list of fields. -/
inductive Fields where
  | nil
  | cons (info : FieldInfo) (ty : Ty) (rest : Fields)
/-- A list of cases: with or without a field. -/
inductive Cases where
  | nil
  | field (labels : List Val) (info : FieldInfo) (ty : Ty) (rest : Cases)
  | empty (labels : List Val) (rest : Cases)
end

mutual
/-- What is generated for a type and for references to it. -/
def Ty.ops (cfg : Cfg) : Ty → TypeOps
  | .scalar s => s.ops cfg
  | .enum base items => (enumCodec cfg base items).ops
  | .bitmask base first => (bitmaskCodec cfg base first).ops
  | .struct params fields => (structCodec cfg params (fields.ops cfg)).ops
  | .choice params sel cases => (choiceCodec cfg params sel (cases.ops cfg)).ops
  | .union params members => (unionCodec cfg params (members.ops cfg)).ops
def Fields.ops (cfg : Cfg) : Fields → List FieldOps
  | .nil => []
  | .cons info ty rest => ⟨info, ty.ops cfg⟩ :: rest.ops cfg
def Cases.ops (cfg : Cfg) : Cases → List CaseOps
  | .nil => []
  | .field labels info ty rest => ⟨labels, some ⟨info, ty.ops cfg⟩⟩ :: rest.ops cfg
  | .empty labels rest => ⟨labels, none⟩ :: rest.ops cfg
end

end Zs
