import Verif.Emit

/-!
# The meaning of emitted lines

Rust groups lines into blocks; `Code` is the resulting tree and `Code.lines` writes it down again.
`Code.run` executes a tree.  The functions of the run-time library that the lines call are those of
`Runtime.lean`, `Delta.lean` and `Array.lean`.

This file is part of the trusted base: it says what the Rust statements do.  A call that would not
compile, such as one of a function that does not exist, ends in `panic`, as does every operation on a
value of the wrong shape.
-/

namespace Zs

namespace Emit

/-! ## Blocks -/

mutual
/-- Lines grouped into blocks. -/
inductive Code where
  | nil
  | stmt (s : Stmt) (rest : Code)
  /-- `{head}`, lines, `}` -/
  | block (h : Head) (body rest : Code)
  /-- `{head}`, lines, `} else {`, lines, `}` -/
  | blockElse (h : Head) (body els rest : Code)
  /-- `match .. {`, arms, `}` -/
  | branch (s : Scrutinee) (arms : Arms) (rest : Code)
/-- The arms of a `match`. -/
inductive Arms where
  | nil
  /-- `{labels} => {`, lines, `},` -/
  | arm (labels : List Val) (body : Code) (rest : Arms)
  /-- `_ => (),` -/
  | wildcard
end

mutual
/-- The lines of a tree. -/
def Code.lines : Code → List Line
  | .nil => []
  | .stmt s rest => .stmt s :: rest.lines
  | .block h body rest => .opening h :: (body.lines ++ .close :: rest.lines)
  | .blockElse h body els rest =>
    .opening h :: (body.lines ++ .elseLine :: (els.lines ++ .close :: rest.lines))
  | .branch s arms rest => .matchLine s :: (arms.lines ++ .close :: rest.lines)
/-- The lines of arms. -/
def Arms.lines : Arms → List Line
  | .nil => []
  | .arm labels body rest => .arm labels :: (body.lines ++ .armClose :: rest.lines)
  | .wildcard => [.wildcard]
end

/-! ## The state of a running function -/

/-- What outlives the function: the object (`self`; an enum or bitmask is the only element of
`fields`), the packing context, the streams, and
`end_position` with its first value `bit_position`; `size` is the result of a size function. -/
structure Core where
  params : List Val
  fields : List Val
  selector : Nat
  node : Node
  w : Writer
  r : Reader
  start : Nat
  pos : Nat
  size : Nat

/-- The local variables.  `capacity` is the capacity of the vector that is filled. -/
structure Locals where
  x : Val
  optionalValue : Val
  initialValue : Val
  element : Val
  item : Val
  present : Bool
  array : Option (ArrayDef Val)
  length : Nat
  index : Nat
  packing : Node
  capacity : Nat
  delta : Nat
  newNode : Node

/-- The state of a running function. -/
structure St where
  core : Core
  loc : Locals

namespace St

/-- What expressions see. -/
def env (st : St) : Env := ⟨st.core.params, st.core.fields⟩

/-- The value of a place. -/
def get (st : St) : Place → Res Val
  | .self i => match st.core.fields[i]? with
    | some v => .ok v
    | none => .panic
  | .number f => match st.core.fields with
    | [v] => f v
    | _ => .panic
  | .x => .ok st.loc.x
  | .optionalValue => .ok st.loc.optionalValue
  | .element => .ok st.loc.element

/-- Assignment to a place. -/
def set (st : St) (p : Place) (v : Val) : St :=
  match p with
  | .self i => { st with core := { st.core with fields := st.core.fields.set i v } }
  | .number _ => st
  | .x => { st with loc := { st.loc with x := v } }
  | .optionalValue => { st with loc := { st.loc with optionalValue := v } }
  | .element => { st with loc := { st.loc with element := v } }

/-- The writer after a call. -/
def withW (st : St) (w : Writer) : St := { st with core := { st.core with w := w } }
/-- The reader after a call. -/
def withR (st : St) (r : Reader) : St := { st with core := { st.core with r := r } }
/-- The packing context after a call. -/
def withNode (st : St) (n : Node) : St := { st with core := { st.core with node := n } }
/-- `end_position += n;` -/
def add (st : St) (n : Nat) : St := { st with core := { st.core with pos := st.core.pos + n } }

end St

/-! ## Expressions -/

/-- `({e}) as u8`, or `{e}` where it is a `u8` already. -/
def LenText.eval (env : Env) : LenText → Res Nat
  | .lit n => .ok n
  | .expr e cast => do
    let n ← e env
    pure (if cast then n % 256 else n)

/-- The default value of a Rust type. -/
def RustTy.default : RustTy → Val
  | .i8 | .i16 | .i32 | .i64 => .int 0
  | .u8 | .u16 | .u32 | .u64 => .nat 0
  | .f32 => .f32 0
  | .f64 => .f64 0
  | .bool => .bool false
  | .string => .str ""
  | .extern => .extern ⟨0, []⟩
  | .bytes => .bytes ⟨0, []⟩
  | .compound c => c.dflt

/-- The implementations of `ArrayTrait<T>` in `crates/zserio/src/ztype/array_traits/`: the trait
`name`, used for elements of type `rust`, with `num_bits`. -/
def traitImpl (cfg : Cfg) (numBits : Option Nat) : TraitName → RustTy → Option (ArrayTrait Val)
  | .object, .compound c => some c.arrayTrait
  | .bitField, .i8 => numBits.map fun n => ((intElem 8 n).lift .int Val.toInt? 0).packable cfg.md
  | .bitField, .i16 => numBits.map fun n => ((intElem 16 n).lift .int Val.toInt? 0).packable cfg.md
  | .bitField, .i32 => numBits.map fun n => ((intElem 32 n).lift .int Val.toInt? 0).packable cfg.md
  | .bitField, .i64 => numBits.map fun n => ((intElem 64 n).lift .int Val.toInt? 0).packable cfg.md
  | .unsignedBitField, .u8 =>
    numBits.map fun n => ((uintElem 8 n).lift .nat Val.toNat? 0).packable cfg.md
  | .unsignedBitField, .u16 =>
    numBits.map fun n => ((uintElem 16 n).lift .nat Val.toNat? 0).packable cfg.md
  | .unsignedBitField, .u32 =>
    numBits.map fun n => ((uintElem 32 n).lift .nat Val.toNat? 0).packable cfg.md
  | .unsignedBitField, .u64 =>
    numBits.map fun n => ((uintElem 64 n).lift .nat Val.toNat? 0).packable cfg.md
  | .varInt16, .i16 => some (((varint16Elem cfg.md).lift .int Val.toInt? 0).packable cfg.md)
  | .varInt32, .i32 => some (((varint32Elem cfg.md).lift .int Val.toInt? 0).packable cfg.md)
  | .varInt64, .i64 => some (((varint64Elem cfg.md).lift .int Val.toInt? 0).packable cfg.md)
  | .varInt, .i64 => some (((varintElem cfg.md).lift .int Val.toInt? 0).packable cfg.md)
  | .varUint16, .u16 => some ((varuint16Elem.lift .nat Val.toNat? 0).packable cfg.md)
  | .varUint32, .u32 => some ((varuint32Elem.lift .nat Val.toNat? 0).packable cfg.md)
  | .varUint64, .u64 => some ((varuint64Elem.lift .nat Val.toNat? 0).packable cfg.md)
  | .varUint, .u64 => some ((varuintElem.lift .nat Val.toNat? 0).packable cfg.md)
  | .varSize, .u32 => some ((varsizeElem.lift .nat Val.toNat? 0).packable cfg.md)
  | .string, .string => some ((stringElem.lift .str Val.toStr? "").packable cfg.md)
  | .float16, .f32 =>
    some (((float16Elem cfg.fromF32 cfg.toF32).lift .f32 Val.toF32? 0).packable cfg.md)
  | .float32, .f32 => some ((float32Elem.lift .f32 Val.toF32? 0).packable cfg.md)
  | .float64, .f64 => some ((float64Elem.lift .f64 Val.toF64? 0).packable cfg.md)
  | .boolean, .bool => some ((boolElem.lift .bool Val.toBool? false).packable cfg.md)
  | .bitBuffer, .extern => some ((externElem.lift .extern Val.toExtern? ⟨0, []⟩).packable cfg.md)
  | .byteBuffer, .bytes => some ((bytesElem.lift .bytes Val.toBytes? ⟨0, []⟩).packable cfg.md)
  | _, _ => none

/-- The value of `num_bits`; the cast is to `u8`. -/
def NumBits.eval (env : Env) : NumBits → Res Nat
  | .lit n => .ok n
  | .expr e => do
    let n ← e env
    pure (n % 256)

/-- The array trait an expression denotes, for elements of type `rust`. -/
def TraitExpr.eval (cfg : Cfg) (env : Env) (t : TraitExpr) (rust : RustTy) : Res (ArrayTrait Val) :=
  (match t.numBits with
    | none => .ok none
    | some n => do
      let n ← n.eval env
      pure (some n)) >>= fun n =>
  match traitImpl cfg n t.name rust with
  | some a => .ok a
  | none => .panic

/-! ## Functions of the run-time library, by name -/

/-- `ztype::write_{name}(writer, v)` (`bits_encode.rs`, `float_encode.rs`, `varuint_encode.rs`,
`varint_encode.rs`).  There are no functions for the other names. -/
def writeByName (cfg : Cfg) (name : BName) (v : Val) (w : Writer) : Res Writer :=
  match name, v with
  | .uint8, .nat x => writeUint 8 w x
  | .uint16, .nat x => writeUint 16 w x
  | .uint32, .nat x => writeUint 32 w x
  | .uint64, .nat x => writeUint 64 w x
  | .int8, .int x => writeInt 8 w x
  | .int16, .int x => writeInt 16 w x
  | .int32, .int x => writeInt 32 w x
  | .int64, .int x => writeInt 64 w x
  | .float16, .f32 x => writeFloat16 cfg.fromF32 w x
  | .float32, .f32 x => writeFloat32 w x
  | .float64, .f64 x => writeFloat64 w x
  | .varuint16, .nat x => writeVaruint16 w x
  | .varuint32, .nat x => writeVaruint32 w x
  | .varuint64, .nat x => writeVaruint64 w x
  | .varuint, .nat x => writeVaruint w x
  | .varsize, .nat x => writeVarsize w x
  | .varint16, .int x => writeVarint16 cfg.md w x
  | .varint32, .int x => writeVarint32 cfg.md w x
  | .varint64, .int x => writeVarint64 cfg.md w x
  | .varint, .int x => writeVarint cfg.md w x
  | _, _ => .panic

/-- `ztype::read_{name}(reader)`. -/
def readByName (cfg : Cfg) (name : BName) : Reader → Res (Val × Reader) :=
  match name with
  | .uint8 => Scalar.readAs .nat (readUint 8)
  | .uint16 => Scalar.readAs .nat (readUint 16)
  | .uint32 => Scalar.readAs .nat (readUint 32)
  | .uint64 => Scalar.readAs .nat (readUint 64)
  | .int8 => Scalar.readAs .int (readInt 8)
  | .int16 => Scalar.readAs .int (readInt 16)
  | .int32 => Scalar.readAs .int (readInt 32)
  | .int64 => Scalar.readAs .int (readInt 64)
  | .float16 => Scalar.readAs .f32 (readFloat16 cfg.toF32)
  | .float32 => Scalar.readAs .f32 readFloat32
  | .float64 => Scalar.readAs .f64 readFloat64
  | .varuint16 => Scalar.readAs .nat readVaruint16
  | .varuint32 => Scalar.readAs .nat readVaruint32
  | .varuint64 => Scalar.readAs .nat readVaruint64
  | .varuint => Scalar.readAs .nat readVaruint
  | .varsize => Scalar.readAs .nat readVarsize
  | .varint16 => Scalar.readAs .int readVarint16
  | .varint32 => Scalar.readAs .int readVarint32
  | .varint64 => Scalar.readAs .int readVarint64
  | .varint => Scalar.readAs .int readVarint
  | _ => fun _ => .panic

/-- `ztype::{name}_bitsize(v)` (`varuint_bitsize.rs`, `varint_bitsize.rs`). -/
def bitsizeByName (cfg : Cfg) (name : BName) (v : Val) : Res Nat :=
  match name, v with
  | .varuint16, .nat x => varuint16Bitsize x
  | .varuint32, .nat x => varuint32Bitsize x
  | .varuint64, .nat x => varuint64Bitsize x
  | .varuint, .nat x => varuintBitsize x
  | .varsize, .nat x => varsizeBitsize x
  | .varint16, .int x => varint16Bitsize cfg.md x
  | .varint32, .int x => varint32Bitsize cfg.md x
  | .varint64, .int x => varint64Bitsize cfg.md x
  | .varint, .int x => varintBitsize cfg.md x
  | _, _ => .panic

/-! ## Statements -/

/-- `{place}.{parameter k}` of a type with `n` parameters. -/
def paramOf (n k : Nat) (v : Val) : Res Val :=
  if v.params.length = n then
    match v.params[k]? with
    | some p => .ok p
    | none => .panic
  else .panic

/-- The vector behind a place. -/
def vecOf : Val → Res (List Val)
  | .list xs => .ok xs
  | _ => .panic

/-- The parameters of a struct literal: one argument after the other is evaluated. -/
def literalParams (env : Env) (index : Nat) : List Arg → Res (List Val)
  | [] => .ok []
  | a :: as => do
    let v ← a.eval env index
    let vs ← literalParams env index as
    pure (v :: vs)

/-- The parameters of a struct literal that leaves those out whose argument uses the index; these are
the ones of the default value. -/
def itemParams (env : Env) (index : Nat) : List Val → List Arg → Res (List Val)
  | _, [] => .ok []
  | [], _ :: _ => .panic
  | d :: ds, a :: as => do
    let v ← if a.usesIndex then pure d else a.eval env index
    let vs ← itemParams env index ds as
    pure (v :: vs)

/-- The array declared in front of a field. -/
def St.theArray (st : St) : Res (ArrayDef Val) :=
  match st.loc.array with
  | some a => .ok a
  | none => .panic

/-- `context_node.children[i].context.as_mut().unwrap()`. -/
def onDelta {β : Type} (n : Node) (i : Nat) (f : DeltaContext → Res (β × DeltaContext)) :
    Res (β × Node) :=
  n.onChild i (fun c => c.onContext f)

/-- What a line does. -/
def Stmt.exec (cfg : Cfg) (s : Stmt) (st : St) : Res St :=
  match s with
  | .letArray rust trait fixed packed => do
    let t ← trait.eval cfg st.env rust
    (match fixed with
      | none => pure none
      | some e => do
        let n ← e st.env
        pure (some n)) >>= fun n =>
    pure { st with loc := { st.loc with array := some ⟨t, packed, n⟩ } }
  | .alignWriter n => do
    let w ← Zs.alignWriter st.core.w n
    pure (st.withW w)
  | .writeBoolLit b => do
    let w ← st.core.w.writeBool b
    pure (st.withW w)
  | .assertParam p n k arg => do
    let v ← st.get p
    let a ← paramOf n k v
    let b ← arg.eval st.env st.loc.index
    if a = b then pure st else .panic
  | .assertLen p e => do
    let v ← st.get p
    let xs ← vecOf v
    let n ← e st.env
    if xs.length = n then pure st else .panic
  | .writeArray p indexed => do
    let v ← st.get p
    let xs ← vecOf v
    let a ← st.theArray
    let w ← a.zserioWrite st.core.w xs indexed
    pure (st.withW w)
  | .writeObject c p => do
    let v ← st.get p
    let w ← c.write v st.core.w
    pure (st.withW w)
  | .writeObjectPacked c p i => do
    let v ← st.get p
    let (w, n) ← st.core.node.onChild i (fun n => c.writePacked v n st.core.w)
    pure ((st.withW w).withNode n)
  | .writeString p => do
    match ← st.get p with
    | .str x => do
      let w ← Zs.writeString st.core.w x
      pure (st.withW w)
    | _ => .panic
  | .writeExtern p => do
    match ← st.get p with
    | .extern x => do
      let w ← writeExternType st.core.w x
      pure (st.withW w)
    | _ => .panic
  | .writeBytes p => do
    match ← st.get p with
    | .bytes x => do
      let w ← writeBytesType st.core.w x
      pure (st.withW w)
    | _ => .panic
  | .writeBool p => do
    match ← st.get p with
    | .bool x => do
      let w ← st.core.w.writeBool x
      pure (st.withW w)
    | _ => .panic
  | .writeDelta i trait rust p => do
    let v ← st.get p
    let t ← trait.eval cfg st.env rust
    let (w, n) ← onDelta st.core.node i (fun d => d.write cfg.md t.toElem st.core.w v)
    pure ((st.withW w).withNode n)
  | .writeSignedBits p n => do
    let n ← n.eval st.env
    match ← st.get p with
    | .int x => do
      let w ← Zs.writeSignedBits st.core.w x n
      pure (st.withW w)
    | _ => .panic
  | .writeUnsignedBits p n => do
    let n ← n.eval st.env
    match ← st.get p with
    | .nat x => do
      let w ← Zs.writeUnsignedBits st.core.w x n
      pure (st.withW w)
    | _ => .panic
  | .writeNamed name p => do
    let v ← st.get p
    let w ← writeByName cfg name v st.core.w
    pure (st.withW w)
  | .alignReader n => do
    let r ← Zs.alignReader st.core.r n
    pure (st.withR r)
  | .letPresent => do
    let (b, r) ← st.core.r.readBool
    pure { st.withR r with loc := { st.loc with present := b } }
  | .letOptional vec rust =>
    pure { st with loc := { st.loc with
      optionalValue := if vec then .list [] else rust.default } }
  | .letInitial rust => pure { st with loc := { st.loc with initialValue := rust.default } }
  | .letInitialWith c args => do
    let ps ← literalParams st.env st.loc.index args
    pure { st with loc := { st.loc with initialValue := c.dflt.withParams ps } }
  | .letLength => do
    let a ← st.theArray
    let (n, r) ← a.zserioReadArrayLength st.core.r
    pure { st.withR r with loc := { st.loc with length := n } }
  | .readArray p rust indexed => do
    let v ← st.get p
    let xs ← vecOf v
    let a ← st.theArray
    let (v, r) ← a.zserioRead cfg.minCap cfg.chunk rust.default st.core.r ⟨xs, xs.length⟩
      st.loc.length indexed
    pure ((st.withR r).set p (.list v.items))
  | .clear p => do
    let v ← st.get p
    let xs ← vecOf v
    let st := st.set p (.list [])
    pure { st with loc := { st.loc with capacity := xs.length } }
  | .reserve p => do
    let v ← st.get p
    let xs ← vecOf v
    let v := Vec.reserve cfg.minCap ⟨xs, st.loc.capacity⟩ (min st.loc.length cfg.chunk)
    pure { st with loc := { st.loc with capacity := v.capacity } }
  | .letPackingContext => do
    let a ← st.theArray
    pure { st with loc := { st.loc with packing := a.arrayTrait.createContext } }
  | .letItem c args => do
    let ps ← itemParams st.env st.loc.index c.dflt.params args
    pure { st with loc := { st.loc with item := c.dflt.withParams ps } }
  | .setItem n k arg => do
    let _ ← paramOf n k st.loc.item
    let v ← arg.eval st.env st.loc.index
    pure { st with loc := { st.loc with
      item := st.loc.item.withParams (st.loc.item.params.set k v) } }
  | .readElement indexed => do
    let a ← st.theArray
    let ((item, node), r) ← a.readOneElement st.core.r st.loc.packing st.loc.item indexed
    pure { st.withR r with loc := { st.loc with item := item, packing := node } }
  | .pushItem p => do
    let v ← st.get p
    let xs ← vecOf v
    let v := Vec.push cfg.minCap ⟨xs, st.loc.capacity⟩ st.loc.item
    let st := st.set p (.list v.items)
    pure { st with loc := { st.loc with capacity := v.capacity } }
  | .assignInitial p => do
    let _ ← st.get p
    pure (st.set p st.loc.initialValue)
  | .readObject c p => do
    let v ← st.get p
    let (v, r) ← c.read v st.core.r
    pure ((st.withR r).set p v)
  | .readObjectPacked c p i => do
    let v ← st.get p
    let ((v, r), n) ← st.core.node.onChild i (fun n => do
      let ((v, n), r) ← c.readPacked v n st.core.r
      pure ((v, r), n))
    pure (((st.withR r).withNode n).set p v)
  | .readString p => do
    let _ ← st.get p
    let (v, r) ← Scalar.readAs .str Zs.readString st.core.r
    pure ((st.withR r).set p v)
  | .readExtern p => do
    let _ ← st.get p
    let (v, r) ← Scalar.readAs .extern readExternType st.core.r
    pure ((st.withR r).set p v)
  | .readBytes p => do
    let _ ← st.get p
    let (v, r) ← Scalar.readAs .bytes readBytesType st.core.r
    pure ((st.withR r).set p v)
  | .readBool p => do
    let _ ← st.get p
    let (v, r) ← Scalar.readAs .bool Reader.readBool st.core.r
    pure ((st.withR r).set p v)
  | .readDelta i trait rust p => do
    let v ← st.get p
    let t ← trait.eval cfg st.env rust
    let ((v, r), n) ← onDelta st.core.node i (fun d => do
      let ((v, d), r) ← d.read cfg.md t.toElem st.core.r v
      pure ((v, r), d))
    pure (((st.withR r).withNode n).set p v)
  | .readSignedBits p n => do
    let n ← n.eval st.env
    let _ ← st.get p
    let (v, r) ← Scalar.readAs .int (Zs.readSignedBits · n) st.core.r
    pure ((st.withR r).set p v)
  | .readUnsignedBits p n => do
    let n ← n.eval st.env
    let _ ← st.get p
    let (v, r) ← Scalar.readAs .nat (Zs.readUnsignedBits · n) st.core.r
    pure ((st.withR r).set p v)
  | .readNamed name p => do
    let _ ← st.get p
    let (v, r) ← readByName cfg name st.core.r
    pure ((st.withR r).set p v)
  | .storeOptional i => do
    let _ ← st.get (.self i)
    pure (st.set (.self i) (.some st.loc.optionalValue))
  | .letEnd => pure { st with core := { st.core with pos := st.core.start } }
  | .addAlign n => do
    let k ← alignBitsize st.core.pos n
    pure (st.add k)
  | .addLit n => pure (st.add n)
  | .addArray p indexed => do
    let v ← st.get p
    let xs ← vecOf v
    let a ← st.theArray
    let n ← a.zserioBitsize xs indexed st.core.pos
    pure (st.add n)
  | .addObject c p => do
    let v ← st.get p
    let n ← (c.bitsize v st.core.pos).unwrap
    pure (st.add n)
  | .addObjectPacked c p i => do
    let v ← st.get p
    let (k, n) ← st.core.node.onChild i (fun n => (c.bitsizePacked v n st.core.pos).unwrap)
    pure ((st.add k).withNode n)
  | .addString p => do
    match ← st.get p with
    | .str x => do
      let n ← (bitsizeString x).unwrap
      pure (st.add n)
    | _ => .panic
  | .addExtern p => do
    match ← st.get p with
    | .extern x => pure (st.add x.bitSize)
    | _ => .panic
  | .addBytes p => do
    match ← st.get p with
    | .bytes x => pure (st.add (x.byteSize * 8))
    | _ => .panic
  | .addDelta i trait rust p => do
    let v ← st.get p
    let t ← trait.eval cfg st.env rust
    let (k, n) ← onDelta st.core.node i (fun d => d.bitsizeOf t.toElem v)
    pure ((st.add k).withNode n)
  | .addNamed name p => do
    let v ← st.get p
    let n ← (bitsizeByName cfg name v).unwrap
    pure (st.add n)
  | .okSize => pure { st with core := { st.core with size := st.core.pos - st.core.start } }
  | .okUnit => pure st
  | .initObject c p i => do
    let v ← st.get p
    let (_, n) ← st.core.node.onChild i (fun n => do
      let n ← c.initContext v n
      pure ((), n))
    pure (st.withNode n)
  | .letDelta i => do
    let (_, _) ← onDelta st.core.node i (fun d => pure ((), d))
    pure { st with loc := { st.loc with delta := i } }
  | .initDelta trait rust p => do
    let t ← trait.eval cfg st.env rust
    let v ← st.get p
    let (_, n) ← onDelta st.core.node st.loc.delta (fun d => do
      let d ← d.init t.toElem v
      pure ((), d))
    pure (st.withNode n)
  | .letNode => pure { st with loc := { st.loc with newNode := Node.new } }
  -- the node is always a new one (`letNode` comes first)
  | .createObject c => pure { st with loc := { st.loc with newNode := c.createContext } }
  | .setContext =>
    pure { st with loc := { st.loc with
      newNode := .mk st.loc.newNode.children (some DeltaContext.new) } }
  | .pushNode => pure (st.withNode (.mk (st.core.node.children ++ [st.loc.newNode])
      st.core.node.context))
  | .readSelector members => do
    let (s, r) ← readVarsize st.core.r
    if s < members then pure { st.withR r with core := { st.core with r := r, selector := s } }
    else .panic
  | .writeSelector => do
    let w ← writeVarsize st.core.w (asU32 st.core.selector)
    pure (st.withW w)
  | .addSelector => do
    let n ← varsizeBitsize (asU32 st.core.selector)
    pure (st.add n)
  | .letNumber rust => pure { st with loc := { st.loc with x := rust.default } }
  | .assignItem item => do
    let v ← item st.loc.x
    pure { st with core := { st.core with fields := [v] } }
  | .setOwnContext => pure (st.withNode (.mk st.core.node.children (some DeltaContext.new)))
  | .pushDelta => pure (st.withNode (.mk (st.core.node.children
      ++ [.mk [] (some DeltaContext.new)]) st.core.node.context))
  | .initNumber trait rust p => do
    let t ← trait.eval cfg st.env rust
    let v ← st.get p
    let (_, n) ← onDelta st.core.node 0 (fun d => do
      let d ← d.init t.toElem v
      pure ((), d))
    pure (st.withNode n)

/-! ## Blocks -/

/-- `for element in xs { body }`; `index` is `param_index` where it is declared. -/
def forElements (setIndex : Bool) (body : St → Res St) : Nat → List Val → St → Res St
  | _, [], st => .ok st
  | i, x :: xs, st => do
    let st ← body { st with loc := { st.loc with
      element := x, index := if setIndex then i else st.loc.index } }
    forElements setIndex body (i + 1) xs st

/-- `for param_index in i..i+n { body }`. -/
def forIndices (body : St → Res St) : Nat → Nat → St → Res St
  | 0, _, st => .ok st
  | n + 1, i, st => do
    let st ← body { st with loc := { st.loc with index := i } }
    forIndices body n (i + 1) st

/-- What a block does, given what its lines (and the lines after `else`) do. -/
def Head.exec (h : Head) (body els : St → Res St) (st : St) : Res St :=
  match h with
  | .ifCond c => do
    let b ← c st.env
    if b then body st else els st
  | .block => body st
  | .ifLet _ p => do
    match ← st.get p with
    | .some v => body { st with loc := { st.loc with x := v } }
    | .none => els st
    | _ => .panic
  | .ifPresent => if st.loc.present then body st else els st
  | .forElement _ p => do
    let v ← st.get p
    let xs ← vecOf v
    forElements false body 0 xs st
  | .forEnumerate p => do
    let v ← st.get p
    let xs ← vecOf v
    forElements true body 0 xs st
  | .forIndex => forIndices body st.loc.length 0 st

/-- The value a `match` looks at. -/
def Scrutinee.value (st : St) : Scrutinee → Val
  | .param selector => selector st.core.params
  | .unionSelector => .nat st.core.selector

mutual
/-- Executes lines grouped into blocks. -/
def Code.run (cfg : Cfg) : Code → St → Res St
  | .nil, st => .ok st
  | .stmt s rest, st => s.exec cfg st >>= rest.run cfg
  | .block h body rest, st => h.exec (body.run cfg) .ok st >>= rest.run cfg
  | .blockElse h body els rest, st => h.exec (body.run cfg) (els.run cfg) st >>= rest.run cfg
  | .branch s arms rest, st => arms.run cfg (s.value st) st >>= rest.run cfg
/-- The first arm with a fitting label; a `match` without one does not compile. -/
def Arms.run (cfg : Cfg) : Arms → Val → St → Res St
  | .nil, _, _ => .panic
  | .arm labels body rest, v, st =>
    if v ∈ labels then body.run cfg st else rest.run cfg v st
  | .wildcard, _, st => .ok st
end

/-- The state at the beginning of a function. -/
def St.start (core : Core) : St where
  core := core
  loc :=
    { x := .none, optionalValue := .none, initialValue := .none, element := .none, item := .none,
      present := false, array := none, length := 0, index := 0, packing := Node.new, capacity := 0,
      delta := 0, newNode := Node.new }

/-- The lines `ls` group into blocks, and executing them has the outcome `out`, of which `view` is
looked at. -/
def Executes {α : Type} (cfg : Cfg) (ls : List Line) (core : Core) (view : Core → α) (out : Res α) :
    Prop :=
  ∃ c : Code, c.lines = ls ∧ (c.run cfg (St.start core) >>= fun st => .ok (view st.core)) = out

end Emit

end Zs
