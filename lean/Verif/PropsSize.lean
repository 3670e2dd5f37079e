import Verif.SizeValid
import Verif.PropsSchema

/-!
# Properties of generated size functions
-/

namespace Zs

open Spec

/-! ## C25: sizes of generated types -/

/-- **C25 (partial)** The generated size function gives the number of bits the generated writer emits,
for every schema in `Ty.Sized`, for every object that can be written, at every start position.

Missing, because the property is false there: fields of type `bytes`, `extern`, `bit<expr>`,
`int<expr>` (`C25_fields_violated`), arrays of strings (`C25_string_arrays_violated`), strings of 2^32
bytes and more (`C25_huge_strings_violated`; `Val.Consistent` excludes them), and packed arrays of
what C32 excludes. -/
theorem C25_sizes_exact_partial (cfg : Cfg) (t : Ty) (ht : t.Sized) (env : Env) (v : Val)
    (hv : v.Consistent) :
    SizeExact (fun p => (t.ops cfg).bitsize env v p) (fun w => (t.ops cfg).write env v w) :=
  (Ty.sizeGood cfg t).field ht env v hv

/-- **C25 (partial)** For valid objects both functions succeed.  Missing: as above. -/
theorem C25_valid_objects_partial (cfg : Cfg) (t : Ty) (ht : t.Sized) (hs : t.Supported cfg)
    (env : Env) (v : Val) (hv : t.Valid cfg env v) (before : List Bool) :
    ∃ bits, (t.ops cfg).write env v ⟨before⟩ = .ok ⟨before ++ bits⟩ ∧
      (t.ops cfg).bitsize env v before.length = .ok bits.length := by
  obtain ⟨bits, hw, _⟩ := C24_schema_round_trip cfg t hs env v hv before
  obtain ⟨n, hn, hl⟩ :=
    C25_sizes_exact_partial cfg t ht env v (Ty.valid_consistent cfg t env v hv) _ _ hw
  simp only [List.length_append] at hl
  have : n = bits.length := by omega
  subst this
  exact ⟨bits, hw, hn⟩

namespace Demo

/-- `Demo.big` without its last field, whose width is given by an expression. -/
def sized : Ty := .struct [] (
  .cons {} (.scalar (.uint 8)) (
  .cons { optional := true } (.scalar .varuint) (
  .cons { clause := some (fun env => num env 0 == 1) } (.scalar (.bits 3)) (
  .cons { alignment := 8, array := some ⟨false, none⟩ } (.scalar .varint32) (
  .cons { array := some ⟨true, none⟩ } (.struct [] (.cons {} (.scalar (.int 16))
    (.cons { optional := true } (.scalar .varint32)
    (.cons { array := some ⟨true, some (fun _ => 3)⟩ } (.scalar (.uint 16)) .nil)))) (
  .cons { args := [fun env _ => .nat (num env 0)] } inner (
  .cons {} perm (
  .cons { optional := true, offset := .plain } shape .nil))))))))

def sizedVal : Val := .obj [] [.nat 2, .some (.nat 1000), .nat 0, .list [.int (-5), .int 300],
  .list [.obj [] [.int (-2048), .none, .list [.nat 1, .nat 2, .nat 3]],
         .obj [] [.int (-2047), .some (.int 7), .list [.nat 65535, .nat 0, .nat 3]]],
  .obj [.nat 2] [.int 0, .str "hi"], .nat 6, .some (.union [] 1 [.nat 0, .list [.item 1, .item 2]])]

theorem sized_supported (cfg : Cfg) : sized.Supported cfg := by
  simp [sized, inner, color, perm, shape, Ty.Supported, Fields.Supported, Cases.Supported,
    Ty.Packable, Fields.Packable, Scalar.WidthOk, Scalar.isPackable, Scalar.Narrow,
    FieldInfo.isDelta, enumValues, enumValuesFrom]

theorem sized_valid (cfg : Cfg) : sized.Valid cfg ⟨[], []⟩ sizedVal := by
  have h : "hi".utf8ByteSize < 2 ^ 31 := by decide
  simp [sized, sizedVal, inner, color, perm, shape, FieldInfo.FieldValid,
    FieldInfo.contentValid_single, FieldInfo.contentValid_list, FieldInfo.expectedParams,
    forall_get_cons, LengthFits, FieldInfo.default, Ty.default, Fields.defaults, num, Val.params,
    Scalar.dflt, Scalar.InRange, enumValues, enumValuesFrom, Scalar.Contains, Scalar.ofInt, h]

theorem sized_sized : sized.Sized := by
  simp [sized, inner, color, perm, shape, Ty.Sized, Fields.Sized, Cases.Sized, Ty.PackSized,
    Fields.PackSized, Ty.elemRule, Scalar.FieldSized, Scalar.ElemSized, Scalar.PackSized,
    Ty.deltaPackable, Scalar.isPackable]

end Demo

example (before : List Bool) : ∃ bits,
    (Demo.sized.ops Demo.cfg).write ⟨[], []⟩ Demo.sizedVal ⟨before⟩ = .ok ⟨before ++ bits⟩ ∧
    (Demo.sized.ops Demo.cfg).bitsize ⟨[], []⟩ Demo.sizedVal before.length = .ok bits.length :=
  C25_valid_objects_partial _ _ Demo.sized_sized (Demo.sized_supported _) _ _ (Demo.sized_valid _)
    before

/-- **C25, violated** for fields of four builtin types.  `bytes` and `extern`: every value is given a
size that lacks the length header (`bitsize.rs` lines 43-49), so at least 8 bits are missing.
`bit<expr>` and `int<expr>`: the size is always 0 (`bitsize.rs` lines 103-105: `bits` of the type
reference is 0 when there is a length expression). -/
theorem C25_fields_violated (cfg : Cfg) (env : Env) :
    (∀ b : BytesType, Scalar.bytes.InRange cfg env (.bytes b) → ∃ size bits,
      (Scalar.bytes.ops cfg).bitsize env (.bytes b) 0 = .ok size ∧
      Emits (fun w => (Scalar.bytes.ops cfg).write env (.bytes b) w) bits ∧ size + 8 ≤ bits) ∧
    (∀ e : ExternType, Scalar.extern.InRange cfg env (.extern e) → ∃ size bits,
      (Scalar.extern.ops cfg).bitsize env (.extern e) 0 = .ok size ∧
      Emits (fun w => (Scalar.extern.ops cfg).write env (.extern e) w) bits ∧ size + 8 ≤ bits) ∧
    (∀ (len : Env → Nat) (x : Nat), (Scalar.bitsDyn len).InRange cfg env (.nat x) →
      ((Scalar.bitsDyn len).ops cfg).bitsize env (.nat x) 0 = .ok 0 ∧
      Emits (fun w => ((Scalar.bitsDyn len).ops cfg).write env (.nat x) w) (len env)) ∧
    (∀ (len : Env → Nat) (x : Int), (Scalar.intsDyn len).InRange cfg env (.int x) →
      ((Scalar.intsDyn len).ops cfg).bitsize env (.int x) 0 = .ok 0 ∧
      Emits (fun w => ((Scalar.intsDyn len).ops cfg).write env (.int x) w) (len env)) := by
  have hhead : ∀ {v n : Nat}, varsizeBitsize v = .ok n → 8 ≤ n := by
    intro v n h
    have : ∀ (v m b x n : Nat), 1 ≤ b → unsignedBitsizeLoop v m b x = .ok n → 8 ≤ n := by
      intro v m b x n hb h
      fun_induction unsignedBitsizeLoop v m b x with
      | case1 => cases h; omega
      | case2 => cases h
      | case3 _ _ _ _ _ ih => exact ih (by omega) h
      | case4 _ _ _ _ _ ih => exact ih (by omega) h
    exact this _ _ _ _ _ (by decide) h
  refine ⟨fun b hb => ?_, fun e he => ?_, fun len x hx => ?_, fun len x hx => ?_⟩
  · have hrt := Scalar.roundTrips (cfg := cfg) (env := env) (s := .bytes) trivial hb
    have hsz := bytes_size hb.1
    have h8 : ∃ n, varsizeBitsize b.byteSize = .ok n := by
      obtain ⟨bits, hw, _⟩ := hrt []
      obtain ⟨n, hn, _⟩ := hsz _ _ hw
      simp only [bitsizeOfBytes] at hn
      cases hv : varsizeBitsize b.byteSize with
      | ok k => exact ⟨k, rfl⟩
      | err e => rw [hv] at hn; cases hn
      | panic => rw [hv] at hn; cases hn
    obtain ⟨n, hn⟩ := h8
    refine ⟨b.byteSize * 8, n + b.byteSize * 8, rfl, fun before => ?_, by have := hhead hn; omega⟩
    obtain ⟨bits, hw, _⟩ := hrt before
    obtain ⟨k, hk, hl⟩ := hsz _ _ hw
    simp only [bitsizeOfBytes, hn, Res.unwrap_ok, Res.ok_bind, Res.pure_eq] at hk
    cases hk
    simp only [List.length_append] at hl
    exact ⟨bits, hw, by omega⟩
  · have hrt := Scalar.roundTrips (cfg := cfg) (env := env) (s := .extern) trivial he
    have hsz := extern_size e
    have h8 : ∃ n, varsizeBitsize e.bitSize = .ok n := by
      obtain ⟨bits, hw, _⟩ := hrt []
      obtain ⟨n, hn, _⟩ := hsz _ _ hw
      simp only [bitsizeOfExtern] at hn
      cases hv : varsizeBitsize e.bitSize with
      | ok k => exact ⟨k, rfl⟩
      | err e => rw [hv] at hn; cases hn
      | panic => rw [hv] at hn; cases hn
    obtain ⟨n, hn⟩ := h8
    refine ⟨e.bitSize, n + e.bitSize, rfl, fun before => ?_, by have := hhead hn; omega⟩
    obtain ⟨bits, hw, _⟩ := hrt before
    obtain ⟨k, hk, hl⟩ := hsz _ _ hw
    simp only [bitsizeOfExtern, hn, Res.unwrap_ok, Res.ok_bind, Res.pure_eq] at hk
    cases hk
    simp only [List.length_append] at hl
    exact ⟨bits, hw, by omega⟩
  · refine ⟨rfl, fun before => ?_⟩
    obtain ⟨bits, hw, _⟩ := Scalar.roundTrips (cfg := cfg) (env := env) (s := .bitsDyn len) trivial hx
      before
    have hl := Adds.writeUnsignedBits _ _ _ _ hw
    have : len env % 256 = len env := Nat.mod_eq_of_lt (by have := hx.1; omega)
    simp only [List.length_append, this] at hl
    exact ⟨bits, hw, by omega⟩
  · refine ⟨rfl, fun before => ?_⟩
    obtain ⟨bits, hw, _⟩ := Scalar.roundTrips (cfg := cfg) (env := env) (s := .intsDyn len) trivial hx
      before
    have hl := Adds.writeSignedBits _ _ _ _ hw
    have : len env % 256 = len env := Nat.mod_eq_of_lt (by have := hx.2.1; omega)
    simp only [List.length_append, this] at hl
    exact ⟨bits, hw, by omega⟩

example : Scalar.bytes.InRange Demo.cfg ⟨[], []⟩ (.bytes ⟨2, [7, 8]⟩) ∧
    Scalar.extern.InRange Demo.cfg ⟨[], []⟩ (.extern ⟨11, [7, 32]⟩) ∧
    (Scalar.bitsDyn (fun _ => 5)).InRange Demo.cfg ⟨[], []⟩ (.nat 17) ∧
    (Scalar.intsDyn (fun _ => 5)).InRange Demo.cfg ⟨[], []⟩ (.int (-16)) := by
  refine ⟨by simp [Scalar.InRange], ?_, by simp [Scalar.InRange], by simp [Scalar.InRange]⟩
  simp only [Scalar.InRange, WellFormedExtern]
  decide

/-- **C25, violated** for arrays of strings: the array `["abc"]` is given the size 19, but 40 bits are
written. -/
theorem C25_string_arrays_violated :
    (Demo.strings.ops Demo.cfg).bitsize ⟨[], []⟩ (.obj [] [.list [.str "abc"]]) 0 = .ok 19 ∧
    ∃ w, (Demo.strings.ops Demo.cfg).write ⟨[], []⟩ (.obj [] [.list [.str "abc"]]) Writer.new = .ok w ∧
      w.bits.length = 40 := by
  refine ⟨by decide +kernel, ?_⟩
  refine ⟨⟨bytesBits [1, 3, 97, 98, 99]⟩, by decide +kernel, by decide +kernel⟩

/-- **C25, violated** for strings of 2^32 bytes and a few more: the writer stores the length modulo
2^32 (`string_encode.rs` line 10), which takes one byte, while the size function counts the five bytes
of the true length (line 20). -/
theorem C25_huge_strings_violated (cfg : Cfg) (env : Env) (s : String)
    (h1 : 2 ^ 32 ≤ s.utf8ByteSize) (h2 : s.utf8ByteSize < 2 ^ 32 + 128) :
    (Scalar.string.ops cfg).bitsize env (.str s) 0 = .ok (40 + s.utf8ByteSize * 8) ∧
    Emits (fun w => (Scalar.string.ops cfg).write env (.str s) w) (8 + s.utf8ByteSize * 8) := by
  rw [← strBytes_length] at *
  constructor
  · show (bitsizeString s).unwrap = _
    obtain ⟨k, hk1, hk2, hk3, hk4, hk5, _⟩ := varuint_all (m := 5) (v := (strBytes s).length)
      (by decide) (by decide) (by have : capacity 5 5 = 2 ^ 36 := by decide
                                  omega)
    have : k = 5 := by
      have h4 : capacity 5 4 = 2 ^ 28 := by decide
      have hmono : k ≤ 4 → capacity 5 k ≤ 2 ^ 28 := by
        intro h
        have : k = 1 ∨ k = 2 ∨ k = 3 ∨ k = 4 := by omega
        rcases this with rfl | rfl | rfl | rfl <;> decide
      by_cases h : k ≤ 4
      · have := hmono h
        omega
      · omega
    subst this
    simp [bitsizeString, hk5]
  · intro before
    have hlt : asU32 (strBytes s).length < 2 ^ 31 ∧ asU32 (strBytes s).length < 128 := by
      unfold asU32; omega
    obtain ⟨k, hk1, hk2, hk3, hk4, hk5, hk6, hk7, _⟩ := varsize_all hlt.1
    have : k = 1 := by
      by_cases h : k = 1
      · exact h
      · have := hk4 1 (by omega) (by omega)
        have h1 : capacity 5 1 = 128 := by decide
        omega
    subst this
    refine ⟨varuintBits (asU32 (strBytes s).length) 1 5 ++ bytesBits (strBytes s), ?_, ?_⟩
    · show writeString ⟨before⟩ s = _
      unfold writeString
      simp only []
      rw [hk6, Res.ok_bind, writeBytes_eq]
      simp only [Writer.append, List.append_assoc]
    · simp [hk7, bytesBits_length]

theorem exists_string (n : Nat) : ∃ s : String, s.utf8ByteSize = n := by
  induction n with
  | zero => exact ⟨"", rfl⟩
  | succ n ih =>
    obtain ⟨s, hs⟩ := ih
    refine ⟨s.push 'a', ?_⟩
    rw [String.utf8ByteSize_push, hs]
    rfl

example : ∃ s : String, 2 ^ 32 ≤ s.utf8ByteSize ∧ s.utf8ByteSize < 2 ^ 32 + 128 := by
  obtain ⟨s, hs⟩ := exists_string (2 ^ 32 + 5)
  exact ⟨s, by omega, by omega⟩

/-! ## C32: sizes of packed arrays -/

/-- **C32 (partial)** The size computed for a packed array of structures, choices, enums, bitmasks (or
builtin types) equals the number of bits written, whenever the array can be written; with and without
a fixed length, aligned elements or not, at every position.

Missing, because the property is false there: unions and packed `bit:n`, `int:n` fields
(`C32_packed_bits_violated`, `C32_packed_union_violated`), strings (C16, C21), enums and bitmasks
stored in `bit:n`, and fields that are not packed but excluded in C25. -/
theorem C32_packed_sizes_partial (cfg : Cfg) (t : Ty) (ht : t.elemRule t.PackSized)
    (info : FieldInfo) (a : ArrayInfo) (ha : info.array = some a) (hpacked : a.isPacked = true)
    (hoff : info.isOffsetField = false) (env : Env) (xs : List Val)
    (hx : ∀ x ∈ xs, x.Consistent) :
    (FieldOps.arrayDef ⟨info, t.ops cfg⟩ false env a).isPacked = true ∧
    SizeExact
      (fun p => (FieldOps.arrayDef ⟨info, t.ops cfg⟩ false env a).zserioBitsize xs
        (decide (info.offset = .indexed)) p)
      (fun w => (FieldOps.arrayDef ⟨info, t.ops cfg⟩ false env a).zserioWrite w xs
        (decide (info.offset = .indexed))) ∧
    ∀ p, (FieldOps.arrayDef ⟨info, t.ops cfg⟩ false env a).zserioBitsizePacked xs
        (decide (info.offset = .indexed)) p =
      (FieldOps.arrayDef ⟨info, t.ops cfg⟩ false env a).zserioBitsize xs
        (decide (info.offset = .indexed)) p := by
  have hp : (FieldOps.arrayDef ⟨info, t.ops cfg⟩ false env a).isPacked = true := by
    simp [FieldOps.arrayDef, hpacked, FieldOps.isPackable, hoff, ha]
  refine ⟨hp, array_size_exact _ _ _ ?_ (fun h => by rw [hp] at h; cases h), fun p => ?_⟩
  · rw [if_pos hp]
    exact FieldOps.packedSize_of_step (fun x h => (Ty.sizeGood cfg t).packElem ht env x (hx x h))
  · simp only [ArrayDef.zserioBitsizePacked, ArrayDef.zserioBitsize]
    congr 1
    funext q
    cases xs with
    | nil => rfl
    | cons x xs => simp only [ArrayDef.bitsizeElementsPacked, ArrayDef.bitsizeElements, hp]; rfl

/-- **C32 (partial)** A packed array of valid elements is written, and its size is computed without
failure and exact.  Missing: as above. -/
theorem C32_valid_arrays_partial (cfg : Cfg) (t : Ty) (ht : t.elemRule t.PackSized)
    (htp : t.Packable cfg false)
    (info : FieldInfo) (a : ArrayInfo) (ha : info.array = some a) (hpacked : a.isPacked = true)
    (hoff : info.isOffsetField = false) (env : Env) (xs : List Val)
    (hlen : LengthFits (a.length.map (fun e => e env)) xs.length)
    (hx : ∀ i y, xs[i]? = some y → t.Valid cfg env y ∧
      y.params = info.expectedParams t.default env i) (before : List Bool) :
    ∃ bits,
      (FieldOps.arrayDef ⟨info, t.ops cfg⟩ false env a).zserioWrite ⟨before⟩ xs
        (decide (info.offset = .indexed)) = .ok ⟨before ++ bits⟩ ∧
      (FieldOps.arrayDef ⟨info, t.ops cfg⟩ false env a).zserioBitsize xs
        (decide (info.offset = .indexed)) before.length = .ok bits.length := by
  obtain ⟨bits, hw, _⟩ := (C31_packed_structures_round_trip_partial cfg t htp info a ha hpacked hoff
    env xs hlen hx).1 before
  have hc : ∀ x ∈ xs, x.Consistent := by
    intro x hm
    obtain ⟨i, hi⟩ := List.getElem?_of_mem hm
    exact Ty.valid_consistent cfg t env x (hx i x hi).1
  obtain ⟨n, hn, hl⟩ := (C32_packed_sizes_partial cfg t ht info a ha hpacked hoff env xs hc).2.1 _ _ hw
  simp only [List.length_append] at hl
  have : n = bits.length := by omega
  subst this
  exact ⟨bits, hw, hn⟩

namespace Demo

/-- `struct { int16 x; optional varint32 y; uint16 zs[3]; choice(1) on .. { int32 a; string b; } c; }` -/
def packSized : Ty := .struct [] (.cons {} (.scalar (.int 16))
  (.cons { optional := true } (.scalar .varint32)
  (.cons { array := some ⟨false, some (fun _ => 3)⟩ } (.scalar (.uint 16))
  (.cons { args := [fun _ _ => .nat 1] } inner .nil))))

/-- `struct { bit:7 x; }` -/
def packedBits : Ty := .struct [] (.cons {} (.scalar (.bits 7)) .nil)

/-- `enum bit:7 { A = 1, B = 2, C = 3, D = 4 }` -/
def packedEnum : Ty := .enum (.bits 7) [some 1, some 2, some 3, some 4]

/-- All its items. -/
def packedEnumVal : Val := .obj [] [.list [.item 0, .item 1, .item 2, .item 3]]

/-- Four of them. -/
def packedBitsVal : Val := .obj [] [.list [.obj [] [.nat 1], .obj [] [.nat 2], .obj [] [.nat 3],
  .obj [] [.nat 4]]]

end Demo

example : Demo.packSized.elemRule Demo.packSized.PackSized ∧
    ∀ x ∈ [Val.obj [] [.int 5, .none, .list [.nat 1, .nat 2, .nat 3], .obj [.nat 1] [.int 7, .str ""]]],
      x.Consistent := by
  simp [Demo.packSized, Demo.inner, Ty.elemRule, Ty.PackSized, Fields.PackSized, Cases.PackSized,
    Scalar.PackSized, Scalar.ElemSized, Ty.deltaPackable, Scalar.isPackable, Ty.Sized,
    Scalar.FieldSized, Val.Consistent, Val.AllConsistent, strBytes]

example (cfg : Cfg) : Demo.packSized.Packable cfg false ∧ ∀ (i : Nat) (y : Val),
    [Val.obj [] [.int 5, .none, .list [.nat 1, .nat 2, .nat 3], .obj [.nat 1] [.int 7, .str ""]],
      Val.obj [] [.int 6, .some (.int 7), .list [.nat 1, .nat 2, .nat 3],
        .obj [.nat 1] [.int 7, .str ""]]][i]? = some y →
    Demo.packSized.Valid cfg ⟨[], []⟩ y ∧ y.params =
      ({ array := some ⟨true, none⟩ } : FieldInfo).expectedParams Demo.packSized.default ⟨[], []⟩ i := by
  constructor
  · simp [Demo.packSized, Demo.inner, Ty.Packable, Fields.Packable, Cases.Packable, Ty.Supported, Ty.isCompound, Scalar.WidthOk,
      Scalar.isPackable, Scalar.Narrow, FieldInfo.isDelta]
  · simp [Demo.packSized, Demo.inner, FieldInfo.FieldValid, FieldInfo.contentValid_single,
      FieldInfo.contentValid_list, FieldInfo.expectedParams, forall_get_cons, LengthFits,
      FieldInfo.default, Ty.default, Val.params, Scalar.InRange, Scalar.dflt]

/-- The size computed for the value, beside the number of bits written into an empty stream. -/
def sizeAndLength (ops : TypeOps) (v : Val) : Res (Nat × Nat) := do
  let size ← ops.bitsize ⟨[], []⟩ v 0
  let w ← ops.write ⟨[], []⟩ v Writer.new
  pure (size, w.bits.length)

/-- **C32, violated** for packed structures with a `bit:7` field and for enums stored in `bit:7`: the
size function counts 7 bits per element (`bitsize.rs` line 53 tests `bits` before `packed`), the writer
packs.  The objects are valid. -/
theorem C32_packed_bits_violated :
    ((Demo.packedOf Demo.packedBits).Valid Demo.cfg ⟨[], []⟩ Demo.packedBitsVal ∧
    sizeAndLength ((Demo.packedOf Demo.packedBits).ops Demo.cfg) Demo.packedBitsVal = .ok (36, 28)) ∧
    ((Demo.packedOf Demo.packedEnum).Valid Demo.cfg ⟨[], []⟩ Demo.packedEnumVal ∧
    sizeAndLength ((Demo.packedOf Demo.packedEnum).ops Demo.cfg) Demo.packedEnumVal = .ok (36, 28)) := by
  refine ⟨⟨?_, by decide +kernel⟩, ?_, by decide +kernel⟩
  all_goals simp [Demo.packedOf, Demo.packedBits, Demo.packedBitsVal, Demo.packedEnum,
    Demo.packedEnumVal, FieldInfo.FieldValid, FieldInfo.contentValid_list,
    FieldInfo.contentValid_single, FieldInfo.expectedParams, forall_get_cons, LengthFits, Ty.default,
    Val.params, Scalar.InRange, Scalar.dflt, enumValues, enumValuesFrom, Scalar.Contains]

/-- **C32, violated** for packed unions: the size lacks the selector (8 bits). -/
theorem C32_packed_union_violated :
    (Demo.packedOf Demo.either).Valid Demo.cfg ⟨[], []⟩ Demo.eitherVal ∧
    sizeAndLength ((Demo.packedOf Demo.either).ops Demo.cfg) Demo.eitherVal = .ok (24, 32) :=
  ⟨C33_packed_union_violated.1.1, by decide +kernel⟩

/-- **C32, violated** for packed structures with an array of strings. -/
theorem C32_inner_strings_violated :
    (Demo.packedOf Demo.strings).Valid Demo.cfg ⟨[], []⟩ Demo.stringsVal ∧
    sizeAndLength ((Demo.packedOf Demo.strings).ops Demo.cfg) Demo.stringsVal = .ok (32, 39) :=
  ⟨C31_inner_arrays_violated.1, by decide +kernel⟩

end Zs
