import Verif.Delta

/-!
# Model of `crates/zserio/src/ztype/array.rs`

`index_offsets: Option<&Vec<U>>` is used only through `is_some`; it is the flag `offsets` here.
-/

namespace Zs

/-- `Vec<T>`: content and capacity (standard library; trusted). -/
structure Vec (α : Type) where
  items : List α
  capacity : Nat

namespace Vec

/-- `Vec::new`. -/
def new {α : Type} : Vec α := ⟨[], 0⟩

/-- `Vec::clear` keeps the capacity. -/
def clear {α : Type} (v : Vec α) : Vec α := ⟨[], v.capacity⟩

/-- `Vec::reserve`: does nothing when there is room, otherwise grows to the maximum of twice the
capacity, the space needed, and the smallest non-empty allocation `minCap` (8, 4 or 1 depending on
the element size). -/
def reserve {α : Type} (minCap : Nat) (v : Vec α) (additional : Nat) : Vec α :=
  if v.items.length + additional ≤ v.capacity then v
  else { v with capacity := max minCap (max (2 * v.capacity) (v.items.length + additional)) }

/-- `Vec::push`. -/
def push {α : Type} (minCap : Nat) (v : Vec α) (x : α) : Vec α :=
  let v := v.reserve minCap 1
  { v with items := v.items ++ [x] }

end Vec

/-- `array.rs` lines 38-42. -/
structure ArrayDef (α : Type) where
  arrayTrait : ArrayTrait α
  isPacked : Bool
  fixedSize : Option Nat

/-- `array.rs` lines 248-258. -/
def alignElemWriter (offsets : Bool) (w : Writer) : Res Writer :=
  if offsets then alignWriter w 8 else pure w

/-- `array.rs` lines 259-269. -/
def alignElemReader (offsets : Bool) (r : Reader) : Res Reader :=
  if offsets then alignReader r 8 else pure r

/-- `array.rs` lines 271-282. -/
def alignElemBitsize (offsets : Bool) (pos : Nat) : Res Nat :=
  if offsets then do
    let n ← alignBitsize pos 8
    pure (pos + n)
  else pure pos

namespace ArrayDef

variable {α : Type} (a : ArrayDef α)

/-- `array.rs` lines 74-77 (also 186-189, 230-233): `init_context` over all elements. -/
def initAll (t : ArrayTrait α) : Node → List α → Res Node
  | n, [] => pure n
  | n, x :: xs => do
    let n ← t.initContext n x
    initAll t n xs

/-- `array.rs` lines 80-84: the loop writing packed elements. -/
def writePackedAll (t : ArrayTrait α) (offsets : Bool) : Node → Writer → List α → Res Writer
  | _, w, [] => pure w
  | n, w, x :: xs => do
    let w ← alignElemWriter offsets w
    let (w, n) ← t.writePacked n w x
    writePackedAll t offsets n w xs

/-- `array.rs` lines 86-89: the loop writing unpacked elements. -/
def writeAll (t : ArrayTrait α) (offsets : Bool) : Writer → List α → Res Writer
  | w, [] => pure w
  | w, x :: xs => do
    let w ← alignElemWriter offsets w
    let w ← t.write w x
    writeAll t offsets w xs

/-- `array.rs` lines 58-64: the check of a fixed length or the length header. -/
def writeLength (w : Writer) (data : List α) : Res Writer :=
  match a.fixedSize with
  | some expected => if expected = data.length then pure w else .panic
  | none => writeVarsize w (asU32 data.length)

/-- `array.rs` lines 66-91: the elements. -/
def writeElements (w : Writer) (data : List α) (offsets : Bool) : Res Writer :=
  if data.isEmpty then pure w
  else if a.isPacked then do
    let node ← initAll a.arrayTrait a.arrayTrait.createContext data
    writePackedAll a.arrayTrait offsets node w data
  else writeAll a.arrayTrait offsets w data

/-- `array.rs` lines 52-92: `zserio_write`. -/
def zserioWrite (w : Writer) (data : List α) (offsets : Bool) : Res Writer := do
  let w ← a.writeLength w data
  a.writeElements w data offsets

/-- `array.rs` lines 94-99: `zserio_read_array_length`. -/
def zserioReadArrayLength (r : Reader) : Res (Nat × Reader) :=
  match a.fixedSize with
  | some expected => pure (expected, r)
  | none => readVarsize r

/-- `array.rs` lines 117-128: the loop reading packed elements; `dflt` is `T::default()`. -/
def readPackedAll (t : ArrayTrait α) (minCap : Nat) (offsets : Bool) (dflt : α) :
    Nat → Node → Vec α → Reader → Res (Vec α × Reader)
  | 0, _, data, r => pure (data, r)
  | n + 1, node, data, r => do
    let r ← alignElemReader offsets r
    let ((item, node), r) ← t.readPacked node r dflt
    readPackedAll t minCap offsets dflt n node (data.push minCap item) r

/-- `array.rs` lines 129-134: the loop reading unpacked elements. -/
def readAll (t : ArrayTrait α) (minCap : Nat) (offsets : Bool) (dflt : α) :
    Nat → Vec α → Reader → Res (Vec α × Reader)
  | 0, data, r => pure (data, r)
  | n + 1, data, r => do
    let r ← alignElemReader offsets r
    let (item, r) ← t.read r dflt
    readAll t minCap offsets dflt n (data.push minCap item) r

/-- `array.rs` lines 112-113: what happens to the vector before the first element is read. -/
def prepare (minCap chunk : Nat) (data : Vec α) (arrayLength : Nat) : Vec α :=
  data.clear.reserve minCap (min arrayLength chunk)

/-- `array.rs` lines 101-136: `zserio_read`; `chunk` is the current value of `ARRAY_ALLOC_CHUNK`. -/
def zserioRead (minCap chunk : Nat) (dflt : α) (r : Reader) (data : Vec α) (arrayLength : Nat)
    (offsets : Bool) : Res (Vec α × Reader) :=
  let data := prepare minCap chunk data arrayLength
  if a.isPacked then
    readPackedAll a.arrayTrait minCap offsets dflt arrayLength a.arrayTrait.createContext data r
  else readAll a.arrayTrait minCap offsets dflt arrayLength data r

/-- `array.rs` lines 148-164: `read_one_element`. -/
def readOneElement (r : Reader) (node : Node) (item : α) (offsets : Bool) :
    Res ((α × Node) × Reader) := do
  let r ← alignElemReader offsets r
  if a.isPacked then a.arrayTrait.readPacked node r item
  else do
    let (item, r) ← a.arrayTrait.read r item
    pure ((item, node), r)

/-- `array.rs` lines 191-198 (also 235-242): the loop adding up packed sizes. -/
def bitsizePackedAll (t : ArrayTrait α) (offsets : Bool) : Node → Nat → List α → Res Nat
  | _, pos, [] => pure pos
  | n, pos, x :: xs => do
    let pos ← alignElemBitsize offsets pos
    let (s, n) ← t.bitsizeOfPacked n pos x
    bitsizePackedAll t offsets n (pos + s) xs

/-- `array.rs` lines 207-211: the loop adding up unpacked sizes. -/
def bitsizeAll (t : ArrayTrait α) (offsets : Bool) : Nat → List α → Res Nat
  | pos, [] => pure pos
  | pos, x :: xs => do
    let pos ← alignElemBitsize offsets pos
    let s ← t.bitsizeOf pos x
    bitsizeAll t offsets (pos + s) xs

/-- `array.rs` lines 172-175 (also 223-226): the end position after the length header. -/
def bitsizeLength (data : List α) (bitPosition : Nat) : Res Nat :=
  if a.fixedSize.isNone then do
    let s ← varsizeBitsize (asU32 data.length)
    pure (bitPosition + s)
  else pure bitPosition

/-- `array.rs` lines 176-213: the end position after the elements. -/
def bitsizeElements (data : List α) (offsets : Bool) (pos : Nat) : Res Nat :=
  match data with
  | [] => pure pos
  | x :: xs =>
    if a.isPacked then do
      let node ← initAll a.arrayTrait a.arrayTrait.createContext (x :: xs)
      bitsizePackedAll a.arrayTrait offsets node pos (x :: xs)
    else if a.arrayTrait.isBitsizeofConstant && !offsets then do
      let s ← a.arrayTrait.bitsizeOf pos x
      pure (pos + (x :: xs).length * s)
    else bitsizeAll a.arrayTrait offsets pos (x :: xs)

/-- `array.rs` lines 166-215: `zserio_bitsize`. -/
def zserioBitsize (data : List α) (offsets : Bool) (bitPosition : Nat) : Res Nat := do
  let pos ← a.bitsizeLength data bitPosition
  let pos ← a.bitsizeElements data offsets pos
  pure (pos - bitPosition)

/-- `array.rs` lines 227-243: the end position after the packed elements. -/
def bitsizeElementsPacked (data : List α) (offsets : Bool) (pos : Nat) : Res Nat :=
  if data.isEmpty then pure pos
  else do
    let node ← initAll a.arrayTrait a.arrayTrait.createContext data
    bitsizePackedAll a.arrayTrait offsets node pos data

/-- `array.rs` lines 217-245: `zserio_bitsize_packed`. -/
def zserioBitsizePacked (data : List α) (offsets : Bool) (bitPosition : Nat) : Res Nat := do
  let pos ← a.bitsizeLength data bitPosition
  let pos ← a.bitsizeElementsPacked data offsets pos
  pure (pos - bitPosition)

/-- What generated code does to read a field of array type (`generator/decode.rs` lines 275-292):
the length, then the elements into a fresh vector. -/
def readField (minCap chunk : Nat) (dflt : α) (offsets : Bool) (r : Reader) :
    Res (List α × Reader) := do
  let (len, r) ← a.zserioReadArrayLength r
  let (v, r) ← a.zserioRead minCap chunk dflt r Vec.new len offsets
  pure (v.items, r)

end ArrayDef

end Zs
