import Verif.SchemaSpec

/-!
# Specification: the zserio encoding of a schema

Which bits a value takes, independent of the generated code: numbers as binary digits, padding up to a
multiple of an alignment, headers, presence bits, selectors and delta packing.  Taken from the
description of the encoding, not from the writers; where the description leaves the order open (the
padding of an optional field comes before its presence bit) it follows `generator/encode.rs`.  Which
columns of a packed array are stored as differences is up to the writer; the encoding has a rule for it
as a parameter.
-/

namespace Zs

namespace Spec

/-- The `n` lowest binary digits of `v`, the highest first; the digit of weight `2^k` is
`⌊v / 2^k⌋ mod 2`, so negative numbers appear in two's complement. -/
def binary (n : Nat) (v : Int) : List Bool :=
  (List.range n).reverse.map (fun k => decide (v / 2 ^ k % 2 = 1))

/-- The bits of some bytes. -/
def binaryBytes (bs : List UInt8) : List Bool := bs.flatMap (fun b => binary 8 b.toNat)

/-- `n` is the least number of bytes, at least one, whose capacity exceeds `x`. -/
def FewestBytes (cap : Nat → Nat) (x n : Nat) : Prop := 1 ≤ n ∧ x < cap n ∧ ∀ k, 1 ≤ k → k < n → cap k ≤ x

/-- `bits` is the unsigned variable-length encoding of `v` in as few of at most `maxBytes` bytes as
possible. -/
def IsVaruint (maxBytes : Nat) (v : Int) (bits : List Bool) : Prop :=
  0 ≤ v ∧ ∃ n, n ≤ maxBytes ∧ FewestBytes (capacity maxBytes) v.toNat n ∧
    bits = (layoutVaruint maxBytes n v.toNat).flatMap (fun (b : Nat) => binary 8 b)

/-- `bits` is the signed variable-length encoding of `v` in as few of at most `maxBytes` bytes as
possible. -/
def IsVarint (maxBytes : Nat) (v : Int) (bits : List Bool) : Prop :=
  ∃ n, n ≤ maxBytes ∧ FewestBytes (capacitySigned maxBytes) v.natAbs n ∧
    bits = (layoutVarint maxBytes n (decide (v < 0)) v.natAbs).flatMap (fun (b : Nat) => binary 8 b)

/-! ## Layouts -/

/-- The number last written in each column of a packed array; a column is the path of field indices
from an element to a number. -/
abbrev Columns := List Nat → Option Int

/-- How something is laid out: what is known of the columns and the bit position before it, its bits,
and what is known of the columns after it. -/
abbrev Layout := Columns → Nat → List Bool → Columns → Prop

namespace Layout

/-- Not encodable. -/
def never : Layout := fun _ _ _ _ => False

/-- Bits outside of columns that satisfy `p`. -/
def some (p : List Bool → Prop) : Layout := fun before _ bits after => p bits ∧ after = before

/-- Fixed bits. -/
def bits (bs : List Bool) : Layout := some (· = bs)

/-- No bits. -/
def empty : Layout := bits []

/-- One after the other. -/
def seq (a b : Layout) : Layout := fun before pos bits after =>
  ∃ x y between, bits = x ++ y ∧ a before pos x between ∧ b between (pos + x.length) y after

/-- As few zero bits as lead to a multiple of `a`. -/
def align (a : Nat) : Layout := fun before pos bits after => after = before ∧
  ∃ k, bits = List.replicate k false ∧ a ∣ pos + k ∧ ∀ j, a ∣ pos + j → k ≤ j

/-- The elements of an array, each aligned to bytes if `aligned`. -/
def elements (aligned : Bool) : List Layout → Layout
  | [] => empty
  | l :: ls => seq (if aligned then align 8 else empty) (seq l (elements aligned ls))

/-- Inside of field `i`: the columns below that field. -/
def inField (i : Nat) (l : Layout) : Layout := fun before pos bits after =>
  l (fun q => before (i :: q)) pos bits (fun q => after (i :: q)) ∧
    ∀ q, (∀ r, q ≠ i :: r) → after q = before q

end Layout

/-! ## Packing -/

/-- How each column of a packed array is stored: one by one (`none`), or as differences of at most so
many binary digits. -/
abbrev Plan := List Nat → Option Nat

/-- What is written in front of the first number of a column: a bit telling whether differences follow
and, if they do, their width in 6 bits. -/
def descriptor : Option Nat → List Bool
  | none => [false]
  | some m => true :: binary 6 m

/-- The number `x` of a packed array, in the column of this place: the first number of a column follows
the descriptor; the others are stored as `plain` says, or as the difference to the one before, in one
bit more than the width (for the sign), or not at all if the width is zero. -/
def packedNumber (plan : Option Nat) (plain : List Bool → Prop) (x : Int) : Layout :=
  fun before _ bits after =>
    after = (fun q => if q = [] then some x else before q) ∧
    match before [], plan with
    | none, plan => ∃ rest, plain rest ∧ bits = descriptor plan ++ rest
    | some _, none => plain bits
    | some _, some 0 => bits = []
    | some previous, some m => bits = binary (m + 1) (x - previous)

end Spec

open Spec

/-! ## Builtin types -/

namespace Scalar

/-- The encoding of a number. -/
def NumberWire (env : Env) : Scalar → Int → List Bool → Prop
  | .uint n, x, out | .int n, x, out | .bits n, x, out | .ints n, x, out => out = binary n x
  | .bitsDyn len, x, out | .intsDyn len, x, out => out = binary (len env) x
  | .varuint16, x, out => IsVaruint 2 x out
  | .varuint32, x, out => IsVaruint 4 x out
  | .varuint64, x, out => IsVaruint 8 x out
  | .varuint, x, out => IsVaruint 9 x out
  | .varsize, x, out => IsVaruint 5 x out
  | .varint16, x, out => IsVarint 2 x out
  | .varint32, x, out => IsVarint 4 x out
  | .varint64, x, out => IsVarint 8 x out
  | .varint, x, out => IsVarint 9 x out
  | _, _, _ => False

/-- The encoding of a value that is not a number. -/
def OtherWire (cfg : Cfg) : Scalar → Val → List Bool → Prop
  | .bool, .bool b, out => out = [b]
  | .string, .str s, out => ∃ size, IsVaruint 5 s.utf8ByteSize size ∧
      out = size ++ binaryBytes s.toByteArray.data.toList
  | .bytes, .bytes b, out => ∃ size, IsVaruint 5 b.dataBlob.length size ∧
      out = size ++ binaryBytes b.dataBlob
  | .extern, .extern e, out => ∃ size, IsVaruint 5 e.bitSize size ∧
      out = size ++ (binaryBytes e.dataBlob).take e.bitSize
  | .float16, .f32 x, out => out = binary 16 (cfg.fromF32 x).toNat
  | .float32, .f32 x, out => out = binary 32 x.toNat
  | .float64, .f64 x, out => out = binary 64 x.toNat
  | _, _, _ => False

end Scalar

/-! ## The choice of a plan -/

namespace Spec

/-- A number in a column, with the type it is stored as. -/
abbrev Entry := Scalar × Int

/-- `sizes` are the numbers of bits that the entries take when stored one by one. -/
def Sizes : List Entry → List Nat → Prop
  | [], sizes => sizes = []
  | e :: es, sizes => ∃ bits rest, e.1.NumberWire ⟨[], []⟩ e.2 bits ∧ Sizes es rest ∧
      sizes = bits.length :: rest

/-- Any two neighbours differ by less than `2^m`. -/
def ColumnFits (m : Nat) (xs : List Int) : Prop :=
  ∀ i a b, xs[i]? = some a → xs[i + 1]? = some b → (b - a).natAbs < 2 ^ m

/-- The bits of a column stored as differences of width `m`: the descriptor of 7 bits, the first number
and the differences. -/
def packedBits (m : Nat) (sizes : List Nat) : Nat :=
  7 + sizes.headD 0 + (sizes.length - 1) * (if m = 0 then 0 else m + 1)

/-- The bits of a column stored one by one: the descriptor of one bit and the numbers. -/
def plainBits (sizes : List Nat) : Nat := 1 + sizes.sum

/-- The best way to store numbers of these sizes: as differences, exactly if the least width into which
they fit is at most 62 and this takes fewer bits than the numbers themselves. -/
def Best (xs : List Int) (sizes : List Nat) (plan : Option Nat) : Prop :=
  ∀ m, plan = some m ↔ (ColumnFits m xs ∧ ∀ k, ColumnFits k xs → m ≤ k) ∧ m ≤ 62 ∧
    packedBits m sizes < plainBits sizes

/-- A rule for choosing the plan of a column: the numbers that are stored in the column, the numbers
that are counted for it, and the plan.  They are the same numbers but for choices: there the fields
that are not selected are counted, too. -/
abbrev Packing := List Entry → List Entry → Option Nat → Prop

/-- The encoding permits every plan from which the numbers can be read back. -/
def anyPacking : Packing := fun _ _ _ => True

/-- The rule of this implementation: the best way to store the counted numbers, taken as unsigned
64-bit numbers. -/
def exactPacking : Packing := fun _ counted plan =>
  ∃ sizes, Sizes counted sizes ∧ Best (counted.map (fun e => e.2 % 2 ^ 64)) sizes plan

/-- All numbers are negative, or none is. -/
def OneSign (xs : List Int) : Prop :=
  (∀ x ∈ xs, 0 ≤ x ∧ x < 2 ^ 64) ∨ (∀ x ∈ xs, -2 ^ 64 ≤ x ∧ x < 0)

/-- What one would expect: the best way to store the numbers.  Asked of columns without numbers of
different signs, and without fields of choices that are counted but not stored. -/
def bestPacking : Packing := fun stored counted plan => stored = counted →
  OneSign (stored.map (·.2)) → ∃ sizes, Sizes stored sizes ∧ Best (stored.map (·.2)) sizes plan

end Spec

/-- A builtin type with its width looked up (widths are `u8`). -/
def Scalar.fixed (env : Env) : Scalar → Scalar
  | .bitsDyn len => .bits (len env % 256)
  | .intsDyn len => .ints (len env % 256)
  | s => s

/-- What a field adds to the columns of a packed array: nothing if it is absent, an array, or does not
take part in packing. -/
def FieldInfo.numbers (info : FieldInfo) (delta : Bool) (one : Env → Val → List Nat → List Entry)
    (i : Nat) (env : Env) (v : Val) (q : List Nat) : List Entry :=
  match q with
  | [] => []
  | j :: r =>
    if j = i ∧ delta = true ∧ info.array = none ∧ info.clause.all (fun c => c env) = true then
      if info.optional then
        match v with
        | .some x => one env x r
        | _ => []
      else one env v r
    else []

mutual
/-- The numbers that a value adds to the column `q` of a packed array; `all` tells whether fields of
choices that are not selected add theirs. -/
def Ty.numbers (all : Bool) : Ty → Env → Val → List Nat → List Entry
  | .scalar s, env, v, q => match v.number with
    | some x => if q = [] ∧ s.isPackable = true then [(s.fixed env, x)] else []
    | none => []
  | .enum base items, _, v, q => match v with
    | .item i => match (enumValues items)[i]? with
      | some x => if q = [0] then [(base, x)] else []
      | none => []
    | _ => []
  | .bitmask base _, _, v, q => match v.number with
    | some x => if q = [0] then [(base.fixed ⟨[], []⟩, x)] else []
    | none => []
  | .struct _ fields, _, v, q => match v with
    | .obj ps vs => fields.numbers all 0 ps [] vs q
    | _ => []
  | .choice _ sel cases, _, v, q => match v with
    | .obj ps vs => cases.numbers all 0 ps (sel ps) false vs q
    | _ => []
  | .union _ _, _, _, _ => []
/-- The same for the fields of a structure, beginning with field `i`. -/
def Fields.numbers (all : Bool) : Fields → Nat → List Val → List Val → List Val → List Nat → List Entry
  | .nil, _, _, _, _, _ => []
  | .cons info ty rest, i, ps, done, vs, q => match vs with
    | v :: vs => info.numbers (info.isDelta ty) (ty.numbers all) i ⟨ps, done⟩ v q ++
        rest.numbers all (i + 1) ps (done ++ [v]) vs q
    | [] => []
/-- The same for the cases of a choice; `taken` tells whether a case was selected before. -/
def Cases.numbers (all : Bool) : Cases → Nat → List Val → Val → Bool → List Val → List Nat → List Entry
  | .nil, _, _, _, _, _, _ => []
  | .field labels info ty rest, i, ps, sel, taken, vs, q => match vs with
    | v :: vs =>
        (if all = true ∨ (taken = false ∧ sel ∈ labels) then
          info.numbers (info.isDelta ty) (ty.numbers all) i ⟨ps, []⟩ v q
        else []) ++
        rest.numbers all (i + 1) ps sel (taken || decide (sel ∈ labels)) vs q
    | [] => []
  | .empty labels rest, i, ps, sel, taken, vs, q =>
      rest.numbers all i ps sel (taken || decide (sel ∈ labels)) vs q
end

/-- A number of type `s`, in a column of a packed array or not. -/
def Scalar.Wire (cfg : Cfg) (s : Scalar) (pack : Option Plan) (env : Env) (v : Val) : Layout :=
  match v.number, pack with
  | .some x, .some plan => packedNumber (plan []) (s.NumberWire env x) x
  | .some x, .none => Layout.some (s.NumberWire env x)
  | .none, _ => Layout.some (s.OtherWire cfg v)

/-! ## Fields -/

/-- The part of a plan for field `i`. -/
def Spec.Plan.field (plan : Plan) (i : Nat) : Plan := fun q => plan (i :: q)

namespace FieldInfo

/-- One value or an array of them.  A packed array has columns and a plan of its own, which follows
the rule `packing`; `numbers` are those that a value adds to the columns. -/
def ContentWire (info : FieldInfo) (packing : Packing) (delta : Bool)
    (one : Option Plan → Env → Val → Layout) (numbers : Bool → Env → Val → List Nat → List Entry)
    (pack : Option Plan) (i : Nat) (env : Env) (x : Val) : Layout :=
  match info.array with
  | none => match pack, delta with
    | some plan, true => Layout.inField i (one (some (plan.field i)) env x)
    | _, _ => one none env x
  | some a => match x with
    | .list xs => Layout.seq
        (if a.length.isNone then Layout.some (IsVaruint 5 xs.length) else Layout.empty)
        (if (a.isPacked || pack.isSome) && !info.isOffsetField then
          fun before pos bits after => after = before ∧ ∃ plan last,
            (∀ q, packing (xs.flatMap (fun x => numbers false env x q))
              (xs.flatMap (fun x => numbers true env x q)) (plan q)) ∧
            Layout.elements (info.offset = .indexed) (xs.map (one (some plan) env))
              (fun _ => none) pos bits last
        else Layout.elements (info.offset = .indexed) (xs.map (one none env)))
    | _ => Layout.never

/-- A field: nothing if its condition is false; otherwise padding, a presence bit if it is optional,
and its content. -/
def Wire (info : FieldInfo) (packing : Packing) (delta : Bool)
    (one : Option Plan → Env → Val → Layout) (numbers : Bool → Env → Val → List Nat → List Entry)
    (pack : Option Plan) (i : Nat) (env : Env) (v : Val) : Layout :=
  if info.clause.all (fun c => c env) then
    Layout.seq (if info.alignment = 0 then Layout.empty else Layout.align info.alignment)
      (Layout.seq (if info.offset = .plain then Layout.align 8 else Layout.empty)
        (if info.optional then
          match v with
          | .none => Layout.bits [false]
          | .some x => Layout.seq (Layout.bits [true]) (info.ContentWire packing delta one numbers pack i env x)
          | _ => Layout.never
        else info.ContentWire packing delta one numbers pack i env v))
  else Layout.empty

end FieldInfo

/-! ## Types -/

mutual
/-- A value of a type, in a packed array with a plan for its columns, or not packed; the plans of
packed arrays inside follow the rule `packing`.  Packed unions have no layout here. -/
def Ty.Wire (cfg : Cfg) (packing : Packing) : Ty → Option Plan → Env → Val → Layout
  | .scalar s, pack, env, v => s.Wire cfg (if s.isPackable then pack else none) env v
  | .enum base items, pack, _, v => match v with
    | .item i => match (enumValues items)[i]?, pack with
      | some x, some plan => Layout.inField 0
          (packedNumber (plan [0]) (base.NumberWire ⟨[], []⟩ x) x)
      | some x, none => Layout.some (base.NumberWire ⟨[], []⟩ x)
      | none, _ => Layout.never
    | _ => Layout.never
  | .bitmask base _, pack, _, v => match pack with
    | some plan => Layout.inField 0 (base.Wire cfg (some (plan.field 0)) ⟨[], []⟩ v)
    | none => base.Wire cfg none ⟨[], []⟩ v
  | .struct _ fields, pack, _, v => match v with
    | .obj ps vs => fields.Wire cfg packing pack 0 ps [] vs
    | _ => Layout.never
  | .choice _ sel cases, pack, _, v => match v with
    | .obj ps vs => cases.Wire cfg packing pack 0 ps (sel ps) vs
    | _ => Layout.never
  | .union _ members, pack, _, v => match v, pack with
    | .union ps sel vs, none =>
        Layout.seq (Layout.some (IsVaruint 5 sel)) (members.MemberWire cfg packing ps sel sel vs)
    | _, _ => Layout.never
/-- The fields of a structure one after the other, beginning with field `i`. -/
def Fields.Wire (cfg : Cfg) (packing : Packing) :
    Fields → Option Plan → Nat → List Val → List Val → List Val → Layout
  | .nil, _, _, _, _, vs => if vs = [] then Layout.empty else Layout.never
  | .cons info ty rest, pack, i, ps, done, vs => match vs with
    | v :: vs => Layout.seq (info.Wire packing (info.isDelta ty) (ty.Wire cfg packing)
          (fun all => ty.numbers all) pack i ⟨ps, done⟩ v)
        (rest.Wire cfg packing pack (i + 1) ps (done ++ [v]) vs)
    | [] => Layout.never
/-- The member of a union that is selected: `left` more members come before it. -/
def Fields.MemberWire (cfg : Cfg) (packing : Packing) :
    Fields → List Val → Nat → Nat → List Val → Layout
  | .nil, _, _, _, _ => Layout.never
  | .cons info ty rest, ps, sel, left, vs => match vs, left with
    | v :: _, 0 => info.Wire packing (info.isDelta ty) (ty.Wire cfg packing)
        (fun all => ty.numbers all) none sel ⟨ps, []⟩ v
    | _ :: vs, left + 1 => rest.MemberWire cfg packing ps sel left vs
    | [], _ => Layout.never
/-- The first case whose labels contain the selector; nothing if there is none or it has no field. -/
def Cases.Wire (cfg : Cfg) (packing : Packing) :
    Cases → Option Plan → Nat → List Val → Val → List Val → Layout
  | .nil, _, _, _, _, _ => Layout.empty
  | .field labels info ty rest, pack, i, ps, sel, vs => match vs with
    | v :: vs => if sel ∈ labels then
          info.Wire packing (info.isDelta ty) (ty.Wire cfg packing) (fun all => ty.numbers all)
            pack i ⟨ps, []⟩ v
        else rest.Wire cfg packing pack (i + 1) ps sel vs
    | [] => Layout.never
  | .empty labels rest, pack, i, ps, sel, vs =>
    if sel ∈ labels then Layout.empty else rest.Wire cfg packing pack i ps sel vs
end

end Zs
