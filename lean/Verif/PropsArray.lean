import Verif.ArrayReadLemmas
import Verif.PropsStream

/-!
# Properties C15 – C22 (and the array part of C12, C13): arrays

`⟨t, packed, fixed⟩ : ArrayDef α` is an array of the trait `t`, packed or not, of fixed or stored
length; `offsets` tells whether every element is aligned to a byte.
-/

namespace Zs

open Spec

/-! ## C15: unpacked arrays -/

/-- **C15** An unpacked array whose elements round-trip is read back: any length that is allowed,
with or without element alignment, any chunk setting, at any place in the stream. -/
theorem C15_unpacked_arrays_round_trip {α : Type} (t : ArrayTrait α) (dflt : α)
    (fixed : Option Nat) (offsets : Bool) (minCap chunk : Nat) (xs : List α)
    (hlen : LengthFits fixed xs.length)
    (hx : ∀ x ∈ xs, RoundTrips (fun w => t.write w x) (fun r => t.read r dflt) x) :
    RoundTrips (fun w => ArrayDef.zserioWrite ⟨t, false, fixed⟩ w xs offsets)
      (fun r => ArrayDef.readField ⟨t, false, fixed⟩ minCap chunk dflt offsets r) xs :=
  array_round_trip ⟨t, false, fixed⟩ minCap chunk dflt offsets xs hlen hx

/-- **C15** in particular for every element type of the run-time library and all its values. -/
theorem C15_unpacked_arrays_all_types (md : Mode) {α : Type} {e : Elem α} {dflt : α}
    {valid : α → Prop} (hk : AnyKind md e dflt valid) (fixed : Option Nat) (offsets : Bool)
    (minCap chunk : Nat) (xs : List α) (hlen : LengthFits fixed xs.length)
    (hx : ∀ x ∈ xs, valid x) :
    RoundTrips (fun w => ArrayDef.zserioWrite ⟨e.packable md, false, fixed⟩ w xs offsets)
      (fun r => ArrayDef.readField ⟨e.packable md, false, fixed⟩ minCap chunk dflt offsets r) xs :=
  C15_unpacked_arrays_round_trip (e.packable md) dflt fixed offsets minCap chunk xs hlen
    (fun x h => hk.roundTrips (hx x h))

example : LengthFits none ["a", "bc", ""].length ∧
    ∀ s ∈ ["a", "bc", ""], s.utf8ByteSize < 2 ^ 31 := by
  constructor
  · show 3 < 2 ^ 31; decide
  · decide
example : ArrayDef.zserioWrite ⟨(uintElem 8 5).packable .debug, false, some 2⟩ ⟨[true]⟩ [3, 17] true =
    .ok ⟨[true] ++ List.replicate 7 false ++ natBits 5 3 ++ List.replicate 3 false ++
      natBits 5 17⟩ := by decide +kernel

/-! ## C16: sizes -/

/-- **C16** The size of an unpacked array of elements with exact sizes is exact; constant sizes have
to be what their name says. -/
theorem C16_unpacked_size_exact {α : Type} (t : ArrayTrait α) (fixed : Option Nat) (offsets : Bool)
    (xs : List α)
    (hx : ∀ x ∈ xs, SizeExact (fun p => t.bitsizeOf p x) (fun w => t.write w x))
    (hconst : t.isBitsizeofConstant = true →
      ∀ x ∈ xs, ∀ y ∈ xs, ∀ p q, t.bitsizeOf p x = t.bitsizeOf q y) :
    SizeExact (fun p => ArrayDef.zserioBitsize ⟨t, false, fixed⟩ xs offsets p)
      (fun w => ArrayDef.zserioWrite ⟨t, false, fixed⟩ w xs offsets) :=
  array_size_exact ⟨t, false, fixed⟩ offsets xs hx (fun _ hc x h y h' p q m n h1 h2 => by
    have := hconst hc x h y h' p q
    simp only at h1 h2
    rw [h1, h2] at this
    exact Res.ok.inj this)

/-- **C16** The size of a packed array of elements with exact sizes is exact. -/
theorem C16_packed_size_exact {α : Type} (md : Mode) (e : Elem α) (fixed : Option Nat)
    (offsets : Bool) (xs : List α)
    (hx : ∀ x ∈ xs, SizeExact (fun _ => e.bitsizeOf 0 x) (fun w => e.write w x)) :
    SizeExact (fun p => ArrayDef.zserioBitsize ⟨e.packable md, true, fixed⟩ xs offsets p)
      (fun w => ArrayDef.zserioWrite ⟨e.packable md, true, fixed⟩ w xs offsets) :=
  array_size_exact ⟨e.packable md, true, fixed⟩ offsets xs (packedSize_packable hx)
    (fun h => by cases h)

theorem intKind_const {md : Mode} {α : Type} {e : Elem α} {dflt : α} {valid : α → Prop}
    (h : IntKind md e dflt valid) (hc : e.isBitsizeofConstant = true) (x y : α) (p q : Nat) :
    e.bitsizeOf p x = e.bitsizeOf q y := by
  cases h <;> first | rfl | (exact absurd hc (by simp [varuint16Elem, varuint32Elem, varuint64Elem,
    varuintElem, varsizeElem, varint16Elem, varint32Elem, varint64Elem, varintElem, varuElem,
    variElem]))

theorem plainKind_const {α : Type} {e : Elem α} {dflt : α} {valid : α → Prop}
    (h : PlainKind e dflt valid) (hc : e.isBitsizeofConstant = true) (x y : α) (p q : Nat) :
    e.bitsizeOf p x = e.bitsizeOf q y := by
  cases h <;> first | rfl | (exact absurd hc (by simp [bytesElem, externElem]))

/-- **C16 (partial)** in particular for every element type of the run-time library except `string`,
packed or not.  Missing: `string`, for which the property is false
(`C16_string_array_violated`). -/
theorem C16_array_sizes_all_types_partial (md : Mode) {α : Type} {e : Elem α} {dflt : α}
    {valid : α → Prop} (hk : IntKind md e dflt valid ∨ PlainKind e dflt valid) (packed : Bool)
    (fixed : Option Nat) (offsets : Bool) (xs : List α) (hx : ∀ x ∈ xs, valid x) :
    SizeExact (fun p => ArrayDef.zserioBitsize ⟨e.packable md, packed, fixed⟩ xs offsets p)
      (fun w => ArrayDef.zserioWrite ⟨e.packable md, packed, fixed⟩ w xs offsets) := by
  have hsz : ∀ x ∈ xs, ∃ n, (∀ p, e.bitsizeOf p x = .ok n) ∧ Emits (fun w => e.write w x) n := by
    intro x h
    rcases hk with hk | hk
    · exact (hk.good (hx x h)).2
    · exact (hk.good (hx x h)).2
  cases packed with
  | false =>
    refine C16_unpacked_size_exact (e.packable md) fixed offsets xs (fun x h => ?_) ?_
    · obtain ⟨n, h1, h2⟩ := hsz x h
      exact sizeExact_of_emits h1 h2
    · intro hc x _ y _ p q
      rcases hk with hk | hk
      · exact intKind_const hk hc x y p q
      · exact plainKind_const hk hc x y p q
  | true =>
    refine C16_packed_size_exact md e fixed offsets xs (fun x h => ?_)
    obtain ⟨n, h1, h2⟩ := hsz x h
    exact sizeExact_of_emits (fun _ => h1 0) h2

example : ∀ x ∈ [(5 : Nat), 7, 9], x < 2 ^ 31 := by decide
example : ArrayDef.zserioBitsize ⟨varsizeElem.packable .debug, true, none⟩ [300, 301, 302] false 3 =
    .ok (8 + 7 + 16 + 2 * 2) := by decide +kernel

/-- **C16, violated for strings**: `StringArrayTrait::bitsize_of` adds the number of bytes of the
string to the size of its length field, not the number of bits (`string_array_trait.rs` line 22).
The size of *every* string array is too small by 7 bits per byte of content. -/
theorem C16_string_array_violated (md : Mode) (fixed : Option Nat) (xs : List String)
    (hlen : LengthFits fixed xs.length) (hx : ∀ s ∈ xs, s.utf8ByteSize < 2 ^ 31) (w : Writer) :
    ∃ w' n, ArrayDef.zserioWrite ⟨stringElem.packable md, false, fixed⟩ w xs false = .ok w' ∧
      ArrayDef.zserioBitsize ⟨stringElem.packable md, false, fixed⟩ xs false w.bits.length = .ok n ∧
      w'.bits.length = w.bits.length + n + 7 * (xs.map String.utf8ByteSize).sum := by
  have hbytes : ∀ s : String, s.utf8ByteSize = (strBytes s).length := fun s => by
    rw [← String.size_toByteArray]; rfl
  -- one element
  have hel : ∀ s ∈ xs, ∃ k, (∀ p, stringElem.bitsizeOf p s = .ok k) ∧
      Emits (fun w => stringElem.write w s) (k + 7 * s.utf8ByteSize) := by
    intro s hs
    have hlt := hx s hs
    rw [hbytes] at hlt
    obtain ⟨k, a1, a2, a3, a4, a5, a6, a7, a8⟩ := varsize_all hlt
    have e : asU32 (strBytes s).length = (strBytes s).length := Nat.mod_eq_of_lt (by omega)
    refine ⟨(strBytes s).length + k * 8, fun p => ?_, fun before =>
      ⟨varuintBits (strBytes s).length k 5 ++ bytesBits (strBytes s), ?_, ?_⟩⟩
    · simp only [stringElem, e, a5, Res.ok_bind, Res.pure_eq]
    · simp only [stringElem, writeString, e, a6, Res.ok_bind, writeBytes_eq]
      simp [Writer.append]
    · rw [hbytes]; simp only [List.length_append, a7, bytesBits_length]; omega
  -- the loop
  have hloop : ∀ (ys : List String), (∀ s ∈ ys, s ∈ xs) → ∀ (w : Writer) (q : Nat), ∃ w' n,
      ArrayDef.writeAll (stringElem.packable md) false w ys = .ok w' ∧
      ArrayDef.bitsizeAll (stringElem.packable md) false q ys = .ok (q + n) ∧
      w'.bits.length = w.bits.length + n + 7 * (ys.map String.utf8ByteSize).sum := by
    intro ys
    induction ys with
    | nil => intro _ w q; exact ⟨w, 0, rfl, rfl, by simp⟩
    | cons s ys ih =>
      intro hmem w q
      obtain ⟨k, hk, hem⟩ := hel s (hmem s (List.mem_cons_self ..))
      obtain ⟨bits, hw, hl⟩ := hem w.bits
      obtain ⟨w', n, h1, h2, h3⟩ := ih (fun t ht => hmem t (List.mem_cons_of_mem _ ht))
        ⟨w.bits ++ bits⟩ (q + k)
      refine ⟨w', k + n, ?_, ?_, ?_⟩
      · simp only [ArrayDef.writeAll, alignElemWriter, Bool.false_eq_true, if_false, Res.pure_eq,
          Res.ok_bind]
        rw [show (stringElem.packable md).write w s = .ok ⟨w.bits ++ bits⟩ from hw]
        exact h1
      · simp only [ArrayDef.bitsizeAll, alignElemBitsize, Bool.false_eq_true, if_false, Res.pure_eq,
          Res.ok_bind]
        rw [show (stringElem.packable md).bitsizeOf q s = .ok k from hk q]
        simp only [Res.ok_bind]
        rw [h2, Nat.add_assoc]
      · simp only [List.length_append, List.map_cons, List.sum_cons] at h3 ⊢
        omega
  -- the whole array
  have hwl : ∃ w1, ArrayDef.writeLength ⟨stringElem.packable md, false, fixed⟩ w xs = .ok w1 := by
    unfold ArrayDef.writeLength LengthFits at *
    cases fixed with
    | some n => simp only at hlen ⊢; exact ⟨w, by rw [if_pos hlen]; rfl⟩
    | none =>
      simp only at hlen ⊢
      obtain ⟨k, _, _, _, _, _, h6, _⟩ := varsize_all hlen
      exact ⟨_, by rw [asU32, Nat.mod_eq_of_lt (by omega)]; exact h6 w⟩
  obtain ⟨w1, hw1⟩ := hwl
  obtain ⟨hl1, hl2⟩ := arrayLength_size hw1
  obtain ⟨w', n, h1, h2, h3⟩ := hloop xs (fun _ h => h) w1 w1.bits.length
  refine ⟨w', w1.bits.length - w.bits.length + n, ?_, ?_, by omega⟩
  · unfold ArrayDef.zserioWrite ArrayDef.writeElements
    rw [hw1, Res.ok_bind]
    cases xs with
    | nil => simpa [ArrayDef.writeAll] using h1
    | cons s xs => simpa using h1
  · unfold ArrayDef.zserioBitsize
    rw [hl1, Res.ok_bind]
    have : ArrayDef.bitsizeElements ⟨stringElem.packable md, false, fixed⟩ xs false w1.bits.length =
        .ok (w1.bits.length + n) := by
      cases xs with
      | nil => simpa [ArrayDef.bitsizeAll, ArrayDef.bitsizeElements] using h2
      | cons s xs =>
        unfold ArrayDef.bitsizeElements
        simpa [Elem.packable, stringElem] using h2
    rw [this]
    simp only [Res.ok_bind, Res.pure_eq]
    congr 1; omega

example : (["ab", "c"].map String.utf8ByteSize).sum = 3 := by decide

/-! ## C19: delta width -/

/-- Neighbours in a list have the distance stated by `deltas`. -/
theorem deltas_getElem (us : List Nat) (i : Nat) (h : i + 1 < us.length) :
    absDiff us[i] us[i + 1] ∈ deltas us := by
  induction us generalizing i with
  | nil => simp at h
  | cons a us ih =>
    cases us with
    | nil => simp at h
    | cons b us =>
      cases i with
      | zero => simp [deltas]
      | succ i =>
        have := ih i (by simpa using h)
        simp only [deltas, List.getElem_cons_succ] at this ⊢
        exact List.mem_cons_of_mem _ this

/-- **C19** After `init` over any elements: whenever packing is active, the bit count fits the 6-bit
descriptor field, every difference of neighbours (as 64-bit numbers) is representable as a signed
number of one bit more, and the count is the least one for which this holds. -/
theorem C19_delta_width_suffices {α : Type} (e : Elem α) (xs : List α) (us ss : List Nat)
    (c : DeltaContext) (hin : Inits e xs us ss) (hc : DeltaContext.new.initAll e xs = .ok c)
    (hp : c.isPacked = true) :
    c.maxBitNumber < 2 ^ DeltaContext.maxBitNumberBits ∧
    (∀ i (h : i + 1 < us.length),
      -(2 ^ c.maxBitNumber : Int) < (us[i + 1] : Int) - us[i] ∧
        (us[i + 1] : Int) - us[i] < 2 ^ c.maxBitNumber) ∧
    (∀ m, (∀ i (h : i + 1 < us.length),
      -(2 ^ m : Int) < (us[i + 1] : Int) - us[i] ∧ (us[i + 1] : Int) - us[i] < 2 ^ m) →
      c.maxBitNumber ≤ m) := by
  have hne : xs ≠ [] := by
    rintro rfl
    simp only [DeltaContext.initAll, Res.ok.injEq] at hc
    subst hc
    simp [DeltaContext.new] at hp
  obtain ⟨c', hc', hi⟩ := DeltaContext.initAll_new hin hne
  rw [hc] at hc'
  cases hc'
  rw [hi.packed] at hp
  simp only [Bool.and_eq_true, decide_eq_true_eq] at hp
  refine ⟨by show _ < 64; omega, fun i h => ?_, fun m hm => ?_⟩
  · have := absDiff_lt.1 (hi.fits hp.2 _ (deltas_getElem us i h))
    have hc : ((2 ^ c.maxBitNumber : Nat) : Int) = 2 ^ c.maxBitNumber := by simp
    omega
  · rcases hi.attained with h0 | ⟨d, hd, hl⟩
    · omega
    · refine hl.2 m ?_
      have hmem : ∀ (us : List Nat), d ∈ deltas us → (∀ i (h : i + 1 < us.length),
          -(2 ^ m : Int) < (us[i + 1] : Int) - us[i] ∧ (us[i + 1] : Int) - us[i] < 2 ^ m) →
          d < 2 ^ m := by
        intro us
        induction us with
        | nil => simp [deltas]
        | cons a us ih =>
          cases us with
          | nil => simp [deltas]
          | cons b us =>
            intro hd hb
            simp only [deltas, List.mem_cons] at hd
            rcases hd with rfl | hd
            · have := hb 0 (by simp)
              simp only [List.getElem_cons_zero, Nat.zero_add, List.getElem_cons_succ] at this
              rw [absDiff_lt]
              have hc : ((2 ^ m : Nat) : Int) = 2 ^ m := by simp
              omega
            · refine ih hd (fun i h => ?_)
              have := hb (i + 1) (by simpa using h)
              simpa using this
      exact hmem us hd hm

example : ∃ c, DeltaContext.new.initAll (uintElem 32 32) [100, 90, 105] = .ok c ∧
    c.isPacked = true ∧ c.maxBitNumber = 4 := ⟨_, by rfl, by decide, by decide⟩

/-! ## C17, C20: packed integer arrays -/

/-- No two neighbours lie, as `u64` numbers, on different sides of 2^63. -/
def OneSided {α : Type} (e : Elem α) (xs : List α) : Prop :=
  ∀ x y u v, [x, y] <:+: xs → e.toU64 x = .ok u → e.toU64 y = .ok v → (u < 2 ^ 63 ↔ v < 2 ^ 63)

/-- The integer types for which overflow is impossible. -/
inductive NarrowKind (md : Mode) : {α : Type} → Elem α → α → (α → Prop) → Prop
  | uint (width numBits : Nat) (h : numBits ≤ width) (h64 : width ≤ 64) (h63 : numBits ≤ 63) :
      NarrowKind md (uintElem width numBits) 0 (fun v => v < 2 ^ numBits)
  | int (width numBits : Nat) (h1 : 1 ≤ numBits) (h : numBits ≤ width) (h64 : width ≤ 64)
      (h63 : numBits ≤ 63) :
      NarrowKind md (intElem width numBits) 0
        (fun v => -(2 ^ (numBits - 1) : Int) ≤ v ∧ v < 2 ^ (numBits - 1))
  | varuint16 : NarrowKind md varuint16Elem 0 (fun v => v < 2 ^ 15)
  | varuint32 : NarrowKind md varuint32Elem 0 (fun v => v < 2 ^ 29)
  | varuint64 : NarrowKind md varuint64Elem 0 (fun v => v < 2 ^ 57)
  | varsize : NarrowKind md varsizeElem 0 (fun v => v < 2 ^ 31)
  | varint16 : NarrowKind md (varint16Elem md) 0 (fun v => -(2 ^ 14) < v ∧ v < 2 ^ 14)
  | varint32 : NarrowKind md (varint32Elem md) 0 (fun v => -(2 ^ 28) < v ∧ v < 2 ^ 28)
  | varint64 : NarrowKind md (varint64Elem md) 0 (fun v => -(2 ^ 56) < v ∧ v < 2 ^ 56)

theorem NarrowKind.isInt {md : Mode} {α : Type} {e : Elem α} {dflt : α} {valid : α → Prop}
    (h : NarrowKind md e dflt valid) : IntKind md e dflt valid := by
  cases h with
  | uint w n h h64 _ => exact .uint w n h h64
  | int w n h1 h h64 _ => exact .int w n h1 h h64
  | varuint16 => exact .varuint16
  | varuint32 => exact .varuint32
  | varuint64 => exact .varuint64
  | varsize => exact .varsize
  | varint16 => exact .varint16
  | varint32 => exact .varint32
  | varint64 => exact .varint64

/-- Values of narrow types are small, or close to 2^64. -/
theorem NarrowKind.small {md : Mode} {α : Type} {e : Elem α} {dflt : α} {valid : α → Prop}
    (h : NarrowKind md e dflt valid) {x : α} {u : Nat} (hx : valid x) (hu : e.toU64 x = .ok u) :
    (¬ (∃ y v, valid y ∧ e.toU64 y = .ok v ∧ 2 ^ 63 ≤ v) ∧ u < 2 ^ 63) ∨
      (u < 2 ^ 62 ∨ (2 ^ 64 - 2 ^ 62 ≤ u ∧ u < 2 ^ 64)) := by
  have hsigned : ∀ v : Int, -(2 ^ 62) ≤ v → v < 2 ^ 62 →
      asU64 v < 2 ^ 62 ∨ (2 ^ 64 - 2 ^ 62 ≤ asU64 v ∧ asU64 v < 2 ^ 64) := by
    intro v h1 h2
    unfold asU64
    by_cases h : 0 ≤ v
    · rw [Int.emod_eq_of_lt h (by omega)]; omega
    · have : v % 2 ^ 64 = v + 2 ^ 64 := by
        rw [← Int.add_emod_right, Int.emod_eq_of_lt (by omega) (by omega)]
      rw [this]; omega
  cases h with
  | uint w n h h64 h63 =>
    have hp : (2 : Nat) ^ n ≤ 2 ^ 63 := Nat.pow_le_pow_right (by decide) h63
    left
    cases hu
    refine ⟨?_, by omega⟩
    rintro ⟨y, v, hy, hv, h⟩
    cases hv
    omega
  | int w n h1 h h64 h63 =>
    right
    cases hu
    have : (2 : Nat) ^ (n - 1) ≤ 2 ^ 62 := Nat.pow_le_pow_right (by decide) (by omega)
    have hc : ((2 ^ (n - 1) : Nat) : Int) = 2 ^ (n - 1) := by simp
    exact hsigned x (by omega) (by omega)
  | varuint16 => right; left; cases hu; omega
  | varuint32 => right; left; cases hu; omega
  | varuint64 => right; left; cases hu; omega
  | varsize => right; left; cases hu; omega
  | varint16 => right; cases hu; exact hsigned x (by omega) (by omega)
  | varint32 => right; cases hu; exact hsigned x (by omega) (by omega)
  | varint64 => right; cases hu; exact hsigned x (by omega) (by omega)

theorem safeSteps_of {α : Type} {md : Mode} {e : Elem α} {xs : List α} {us : List Nat}
    (hn : DeltaContext.Nums e xs us)
    (h : ∀ x y u v, [x, y] <:+: xs → e.toU64 x = .ok u → e.toU64 y = .ok v →
      absDiff u v < 2 ^ 62 → Safe md u v) : DeltaContext.SafeSteps md us := by
  induction hn with
  | nil => trivial
  | @cons x xs u us hu hn ih =>
    cases hn with
    | nil => trivial
    | @cons y ys v vs hv hn =>
      refine ⟨h x y u v ⟨[], ys, rfl⟩ hu hv, ih (fun a b p q hab => ?_)⟩
      obtain ⟨s, t, hst⟩ := hab
      exact h a b p q ⟨x :: s, t, by rw [← hst]; rfl⟩

/-- The condition under which packed arrays of integers are handled: release build, or a narrow
type, or neighbours on one side. -/
theorem packedRT_int {md : Mode} {α : Type} {e : Elem α} {dflt : α} {valid : α → Prop}
    (hk : IntKind md e dflt valid) (xs : List α) (hx : ∀ x ∈ xs, valid x)
    (hs : md = .release ∨ NarrowKind md e dflt valid ∨ OneSided e xs) :
    PackedRT (e.packable md) dflt xs := by
  refine packedRT_packable (fun x h => (hk.good (hx x h)).1) (fun us hn => ?_)
  refine safeSteps_of hn (fun x y u v hxy hu hv hd => ?_)
  have hmem : x ∈ xs ∧ y ∈ xs := by
    obtain ⟨s, t, rfl⟩ := hxy
    simp
  rcases hs with rfl | hs | hs
  · exact .inl rfl
  · right
    obtain ⟨d1, d2⟩ := absDiff_lt.1 hd
    have hx1 := hs.small (hx x hmem.1) hu
    have hy1 := hs.small (hx y hmem.2) hv
    rcases hx1 with ⟨hno, h1⟩ | h1
    · have : v < 2 ^ 63 := by
        by_cases h : v < 2 ^ 63
        · exact h
        · exact absurd ⟨y, v, hx y hmem.2, hv, by omega⟩ hno
      omega
    · rcases hy1 with ⟨hno, h2⟩ | h2
      · have : u < 2 ^ 63 := by
          by_cases h : u < 2 ^ 63
          · exact h
          · exact absurd ⟨x, u, hx x hmem.1, hu, by omega⟩ hno
        omega
      · omega
  · exact .inr (hs x y u v hxy hu hv)

/-- **C17 (partial)** A packed array of in-range integers of any packable integer type is read back
exactly.  In release builds this holds for all values; in debug builds for all values of types of at
most 63 bits, and for 64-bit types when no two neighbours lie on different sides of 2^63.  Missing:
the remaining lists of 64-bit integers in debug builds, where writing panics
(`C20_packed_overflow_violated`), and `varint` elements `i64::MIN` (`C02_varint_min_violated`). -/
theorem C17_packed_integers_round_trip_partial (md : Mode) {α : Type} {e : Elem α} {dflt : α}
    {valid : α → Prop} (hk : IntKind md e dflt valid) (fixed : Option Nat) (offsets : Bool)
    (minCap chunk : Nat) (xs : List α) (hlen : LengthFits fixed xs.length)
    (hx : ∀ x ∈ xs, valid x)
    (hs : md = .release ∨ NarrowKind md e dflt valid ∨ OneSided e xs) :
    RoundTrips (fun w => ArrayDef.zserioWrite ⟨e.packable md, true, fixed⟩ w xs offsets)
      (fun r => ArrayDef.readField ⟨e.packable md, true, fixed⟩ minCap chunk dflt offsets r) xs :=
  array_round_trip ⟨e.packable md, true, fixed⟩ minCap chunk dflt offsets xs hlen
    (packedRT_int hk xs hx hs)

example : IntKind .debug (intElem 32 17) 0
    (fun v => -(2 ^ (17 - 1) : Int) ≤ v ∧ v < 2 ^ (17 - 1)) ∧
    ∀ x ∈ [(-65536 : Int), 0, 65535, -3], -(2 ^ (17 - 1) : Int) ≤ x ∧ x < 2 ^ (17 - 1) :=
  ⟨.int 32 17 (by decide) (by decide) (by decide), by decide⟩
example : OneSided (uintElem 64 64) [2 ^ 63, 2 ^ 63 + 5] := by
  intro x y u v h hu hv
  obtain ⟨s, t, h⟩ := h
  have hx : x ∈ s ++ [x, y] ++ t := by simp
  have hy : y ∈ s ++ [x, y] ++ t := by simp
  rw [h] at hx hy
  cases hu; cases hv
  simp only [List.mem_cons, List.not_mem_nil, or_false] at hx hy
  omega
example : ArrayDef.zserioWrite ⟨(uintElem 16 16).packable .debug, true, some 3⟩ ⟨[]⟩ [10, 8, 9]
    false = .ok ⟨true :: natBits 6 2 ++ natBits 16 10 ++ natBits 3 6 ++ natBits 3 1⟩ := by
  decide +kernel

/-- **C20 (partial)** Writing a packed array of in-range integers succeeds: always in release builds;
in debug builds for types of at most 63 bits and for lists whose neighbours lie on one side of 2^63.
Missing: the lists of `C20_packed_overflow_violated`. -/
theorem C20_packed_write_succeeds_partial (md : Mode) {α : Type} {e : Elem α} {dflt : α}
    {valid : α → Prop} (hk : IntKind md e dflt valid) (fixed : Option Nat) (offsets : Bool)
    (xs : List α) (hlen : LengthFits fixed xs.length) (hx : ∀ x ∈ xs, valid x)
    (hs : md = .release ∨ NarrowKind md e dflt valid ∨ OneSided e xs) (w : Writer) :
    ∃ w', ArrayDef.zserioWrite ⟨e.packable md, true, fixed⟩ w xs offsets = .ok w' := by
  obtain ⟨bits, h, _⟩ := C17_packed_integers_round_trip_partial md hk fixed offsets 0 0 xs hlen hx hs
    w.bits
  exact ⟨_, h⟩

/-- **C20, violated**: in debug builds packed arrays of 64-bit integers panic when neighbours lie on
different sides of 2^63 and packing is chosen: `uint64` values 2^63 - 1, 2^63, and `int64` values
`i64::MIN`, `i64::MAX`. -/
theorem C20_packed_overflow_violated :
    ArrayDef.zserioWrite ⟨(uintElem 64 64).packable .debug, true, none⟩ ⟨[]⟩ [2 ^ 63 - 1, 2 ^ 63]
      false = .panic ∧
    ArrayDef.zserioWrite ⟨varuintElem.packable .debug, true, none⟩ ⟨[]⟩ [2 ^ 63 - 1, 2 ^ 63] false
      = .panic ∧
    ArrayDef.zserioWrite ⟨(intElem 64 64).packable .debug, true, none⟩ ⟨[]⟩
      [-(2 ^ 63), 2 ^ 63 - 1] false = .panic := by
  refine ⟨?_, ?_, ?_⟩ <;> decide +kernel

/-! ## C18: packing overhead -/

theorem bitsizeAll_sum {α : Type} {md : Mode} {e : Elem α} {xs : List α} {us ss : List Nat}
    (h : Inits e xs us ss) (hp : ∀ x ∈ xs, ∀ p, e.bitsizeOf p x = e.bitsizeOf 0 x) (pos : Nat) :
    ArrayDef.bitsizeAll (e.packable md) false pos xs = .ok (pos + ss.sum) := by
  induction h generalizing pos with
  | nil => rfl
  | @cons x xs u us s ss hs hu h64 h ih =>
    simp only [ArrayDef.bitsizeAll, alignElemBitsize, Bool.false_eq_true, if_false, Res.pure_eq,
      Res.ok_bind]
    rw [show (e.packable md).bitsizeOf pos x = .ok s from by
      show e.bitsizeOf pos x = _; rw [hp x (List.mem_cons_self ..), hs]]
    simp only [Res.ok_bind]
    rw [ih (fun y hy => hp y (List.mem_cons_of_mem _ hy))]
    simp only [List.sum_cons]; congr 1; omega

/-- **C18 (partial)** Without element alignment: writing a non-empty array packed takes at most one
bit more than writing it unpacked, and if delta packing is chosen (the first bit after the length is
1) it takes fewer bits than the unpacked form with its one-bit descriptor.  This holds for every
element type whose sizes are exact.  Missing: arrays with indexed offsets, whose elements are aligned
one by one; there the property is false (`C18_aligned_violated`). -/
theorem C18_packing_overhead_partial (md : Mode) {α : Type} (e : Elem α) (fixed : Option Nat)
    (xs : List α) (hne : xs ≠ [])
    (hsz : ∀ x ∈ xs, ∃ n, (∀ p, e.bitsizeOf p x = .ok n) ∧ Emits (fun w => e.write w x) n)
    (hu : ∀ x ∈ xs, ∃ u, u < 2 ^ 64 ∧ e.toU64 x = .ok u)
    (w header packed unpacked : Writer)
    (hh : ArrayDef.writeLength ⟨e.packable md, true, fixed⟩ w xs = .ok header)
    (hp : ArrayDef.zserioWrite ⟨e.packable md, true, fixed⟩ w xs false = .ok packed)
    (hn : ArrayDef.zserioWrite ⟨e.packable md, false, fixed⟩ w xs false = .ok unpacked) :
    packed.bits.length ≤ unpacked.bits.length + 1 ∧
    (packed.bits[header.bits.length]? = some true →
      packed.bits.length < unpacked.bits.length + 1) := by
  obtain ⟨us, ss, hin⟩ : ∃ us ss, Inits e xs us ss := by
    clear hne hh hp hn
    induction xs with
    | nil => exact ⟨[], [], .nil⟩
    | cons x xs ih =>
      obtain ⟨us, ss, h⟩ := ih (fun y hy => hsz y (List.mem_cons_of_mem _ hy))
        (fun y hy => hu y (List.mem_cons_of_mem _ hy))
      obtain ⟨n, h1, _⟩ := hsz x (List.mem_cons_self ..)
      obtain ⟨u, h2, h3⟩ := hu x (List.mem_cons_self ..)
      exact ⟨_, _, .cons (h1 0) h3 h2 h⟩
  have hpos : ∀ x ∈ xs, ∀ p, e.bitsizeOf p x = e.bitsizeOf 0 x := by
    intro x hx p
    obtain ⟨n, h1, _⟩ := hsz x hx
    rw [h1 p, h1 0]
  cases hin with
  | nil => exact absurd rfl hne
  | @cons x xs u us s ss hs1 hu1 h64 hin =>
  have hin' : Inits e (x :: xs) (u :: us) (s :: ss) := .cons hs1 hu1 h64 hin
  obtain ⟨c, f, total, hc, hi, hf, hfm, htot, hyes, hno⟩ :=
    packed_total (md := md) hin' header.bits.length
  have hinit : ArrayDef.initAll (e.packable md) (e.packable md).createContext (x :: xs) =
      .ok (.mk [] (some c)) := by
    show ArrayDef.initAll (e.packable md) (.mk [] (some DeltaContext.new)) (x :: xs) = _
    rw [initAll_packable, hc]; rfl
  -- the unpacked length
  have hun : unpacked.bits.length = header.bits.length + (s + ss.sum) := by
    unfold ArrayDef.zserioWrite at hn
    rw [show ArrayDef.writeLength ⟨e.packable md, false, fixed⟩ w (x :: xs) = .ok header from hh,
      Res.ok_bind] at hn
    simp only [ArrayDef.writeElements, List.isEmpty_cons, Bool.false_eq_true, if_false] at hn
    have h1 := (bitsizeAll_writeAll (e.packable md) false (x :: xs) (fun y hy => by
      obtain ⟨n, h1, h2⟩ := hsz y hy
      exact sizeExact_of_emits h1 h2) _ _ hn).1
    rw [bitsizeAll_sum hin' hpos] at h1
    have := Res.ok.inj h1
    simp only [List.sum_cons] at this
    omega
  -- the packed length
  unfold ArrayDef.zserioWrite at hp
  rw [hh, Res.ok_bind] at hp
  simp only [ArrayDef.writeElements, List.isEmpty_cons, Bool.false_eq_true, if_false, if_true,
    hinit, Res.ok_bind] at hp
  obtain ⟨sim, hstart, hstep⟩ := packedSize_packable (md := md) (e := e) (xs := x :: xs)
    (fun y hy => by
      obtain ⟨n, h1, h2⟩ := hsz y hy
      exact sizeExact_of_emits (fun _ => h1 0) h2)
  have hpk := (bitsizePackedAll_writePackedAll hstep false _ _ _ (hstart _ hinit) _ _ hp).1
  rw [htot] at hpk
  have hpk := Res.ok.inj hpk
  -- the first bit
  obtain ⟨bits, hb1, hb2⟩ := writePackedAll_appends (md := md) (e := e) (fun y hy => by
    obtain ⟨n, _, h2⟩ := hsz y hy; exact ⟨n, h2⟩) (s' := packed) (before := header.bits) hp
  have hb2 := hb2 (by simp) hi.processing
  rw [← hf] at hb2
  refine ⟨?_, fun hbit => ?_⟩
  · cases hk : f.isPacked with
    | true => have := hyes hk; omega
    | false => have := hno hk; omega
  · have hk : f.isPacked = true := by
      rw [hb1] at hbit
      simp only at hbit
      rw [List.getElem?_append_right (Nat.le_refl _), Nat.sub_self, ← List.head?_eq_getElem?,
        hb2] at hbit
      exact Option.some.inj hbit
    have := hyes hk
    omega

example : ArrayDef.zserioWrite ⟨(uintElem 8 8).packable .debug, true, some 3⟩ ⟨[]⟩ [1, 255, 3]
      false = .ok ⟨false :: natBits 8 1 ++ natBits 8 255 ++ natBits 8 3⟩ ∧
    ArrayDef.zserioWrite ⟨(uintElem 8 8).packable .debug, false, some 3⟩ ⟨[]⟩ [1, 255, 3] false =
      .ok ⟨natBits 8 1 ++ natBits 8 255 ++ natBits 8 3⟩ := by
  constructor <;> decide +kernel

/-- **C18, violated with element alignment**: the one-bit descriptor before the first element of a
packed array with indexed offsets costs a whole byte, since the second element is aligned. -/
theorem C18_aligned_violated :
    ∃ packed unpacked : Writer,
      ArrayDef.zserioWrite ⟨(uintElem 8 8).packable .debug, true, some 2⟩ ⟨[]⟩ [1, 255] true =
        .ok packed ∧
      ArrayDef.zserioWrite ⟨(uintElem 8 8).packable .debug, false, some 2⟩ ⟨[]⟩ [1, 255] true =
        .ok unpacked ∧
      packed.bits.length = unpacked.bits.length + 8 := by
  refine ⟨⟨false :: natBits 8 1 ++ List.replicate 7 false ++ natBits 8 255⟩,
    ⟨natBits 8 1 ++ natBits 8 255⟩, ?_, ?_, ?_⟩ <;> decide +kernel

/-! ## C21: packed arrays of non-integers -/

/-- **C21, violated (bool)**: what a packed `bool` array reads back as.  From eight elements on,
everything after the first element becomes `false`; shorter arrays are kept. -/
theorem C21_packed_bool_violated (md : Mode) (fixed : Option Nat) (minCap chunk : Nat)
    (x : Bool) (xs : List Bool) (hlen : LengthFits fixed (x :: xs).length) :
    RoundTrips (fun w => ArrayDef.zserioWrite ⟨boolElem.packable md, true, fixed⟩ w (x :: xs) false)
      (fun r => ArrayDef.readField ⟨boolElem.packable md, true, fixed⟩ minCap chunk false false r)
      (if 7 ≤ xs.length then x :: List.replicate xs.length false else x :: xs) := by
  have := blind_array (md := md) (e := boolElem) (dflt := false) (lost := false)
    ⟨fun _ => rfl, rfl⟩ minCap chunk fixed x xs (List.replicate xs.length 1) hlen
    (fun y _ => ((PlainKind.bool).good trivial).1)
    (by
      rw [List.map_replicate]
      exact List.map_eq_replicate_iff.2 (fun _ _ => rfl)) ⟨1, rfl⟩
  simpa [Nat.lt_iff_add_one_le] using this

/-- **C21, violated (float32, float64)**: in a packed array of floats with two or more elements,
everything after the first becomes 0. -/
theorem C21_packed_float_violated (md : Mode) (fixed : Option Nat) (minCap chunk : Nat) :
    (∀ (x y : UInt32) (xs : List UInt32), LengthFits fixed (x :: y :: xs).length →
      RoundTrips
        (fun w => ArrayDef.zserioWrite ⟨float32Elem.packable md, true, fixed⟩ w (x :: y :: xs) false)
        (fun r => ArrayDef.readField ⟨float32Elem.packable md, true, fixed⟩ minCap chunk 0 false r)
        (x :: List.replicate (xs.length + 1) 0)) ∧
    (∀ (x y : UInt64) (xs : List UInt64), LengthFits fixed (x :: y :: xs).length →
      RoundTrips
        (fun w => ArrayDef.zserioWrite ⟨float64Elem.packable md, true, fixed⟩ w (x :: y :: xs) false)
        (fun r => ArrayDef.readField ⟨float64Elem.packable md, true, fixed⟩ minCap chunk 0 false r)
        (x :: List.replicate (xs.length + 1) 0)) := by
  constructor
  · intro x y xs hlen
    have := blind_array (md := md) (e := float32Elem) (dflt := 0) (lost := 0)
      ⟨fun _ => rfl, rfl⟩ minCap chunk fixed x (y :: xs) (List.replicate (xs.length + 1) 32) hlen
      (fun y _ => ((PlainKind.float32).good trivial).1)
      (by
        rw [List.map_replicate]
        exact List.map_eq_replicate_iff.2 (fun _ _ => rfl)) ⟨32, rfl⟩
    rw [if_pos (by simp; omega)] at this
    exact this
  · intro x y xs hlen
    have := blind_array (md := md) (e := float64Elem) (dflt := 0) (lost := 0)
      ⟨fun _ => rfl, rfl⟩ minCap chunk fixed x (y :: xs) (List.replicate (xs.length + 1) 64) hlen
      (fun y _ => ((PlainKind.float64).good trivial).1)
      (by
        rw [List.map_replicate]
        exact List.map_eq_replicate_iff.2 (fun _ _ => rfl)) ⟨64, rfl⟩
    rw [if_pos (by simp; omega)] at this
    exact this

theorem stringElem_sizes {xs : List String} (hx : ∀ s ∈ xs, s.utf8ByteSize < 2 ^ 31) :
    ∃ ss : List Nat, xs.map (stringElem.bitsizeOf 0) = ss.map .ok ∧ 8 * xs.length ≤ ss.sum := by
  induction xs with
  | nil => exact ⟨[], rfl, by simp⟩
  | cons s xs ih =>
    obtain ⟨ss, h1, h2⟩ := ih (fun t ht => hx t (List.mem_cons_of_mem _ ht))
    have hlt := hx s (List.mem_cons_self ..)
    have hb : s.utf8ByteSize = (strBytes s).length := by rw [← String.size_toByteArray]; rfl
    rw [hb] at hlt
    obtain ⟨k, a1, a2, a3, a4, a5, a6, a7, a8⟩ := varsize_all hlt
    have e : asU32 (strBytes s).length = (strBytes s).length := Nat.mod_eq_of_lt (by omega)
    refine ⟨((strBytes s).length + k * 8) :: ss, ?_, ?_⟩
    · rw [List.map_cons, h1, List.map_cons]
      simp only [stringElem, e, a5, Res.ok_bind, Res.pure_eq]
    · simp only [List.length_cons, List.sum_cons]; omega

/-- **C21, violated (string)**: in a packed array of strings with two or more elements, everything
after the first becomes the empty string. -/
theorem C21_packed_string_violated (md : Mode) (fixed : Option Nat) (minCap chunk : Nat)
    (x y : String) (xs : List String) (hlen : LengthFits fixed (x :: y :: xs).length)
    (hx : ∀ s ∈ x :: y :: xs, s.utf8ByteSize < 2 ^ 31) :
    RoundTrips
      (fun w => ArrayDef.zserioWrite ⟨stringElem.packable md, true, fixed⟩ w (x :: y :: xs) false)
      (fun r => ArrayDef.readField ⟨stringElem.packable md, true, fixed⟩ minCap chunk "" false r)
      (x :: List.replicate (xs.length + 1) "") := by
  obtain ⟨ss, h1, h2⟩ := stringElem_sizes (fun s hs => hx s (List.mem_cons_of_mem _ hs))
  obtain ⟨s0, h3, _⟩ := stringElem_sizes (xs := [x]) (by simpa using hx x (by simp))
  have := blind_array (md := md) (e := stringElem) (dflt := "") (lost := "")
    ⟨fun _ => rfl, rfl⟩ minCap chunk fixed x (y :: xs) ss hlen
    (fun s hs => AnyKind.string.roundTrips (md := md) (hx s hs)) h1
    (by cases s0 with
      | nil => simp at h3
      | cons a s0 => exact ⟨a, by simpa using (List.cons.inj h3).1⟩)
  rw [if_pos (by simp at h2; omega)] at this
  exact this

/-- **C21, violated (bytes, extern)**: writing a non-empty packed array of `bytes` or `extern`
elements never succeeds; with a fixed length it panics (`todo`/`panic!` in `to_u64`). -/
theorem C21_packed_buffers_violated (md : Mode) (offsets : Bool) (w : Writer) :
    (∀ fixed (x : BytesType) xs w', ArrayDef.zserioWrite ⟨bytesElem.packable md, true, fixed⟩ w
      (x :: xs) offsets ≠ .ok w') ∧
    (∀ fixed (x : ExternType) xs w', ArrayDef.zserioWrite ⟨externElem.packable md, true, fixed⟩ w
      (x :: xs) offsets ≠ .ok w') ∧
    ArrayDef.zserioWrite ⟨bytesElem.packable md, true, some 1⟩ w [⟨0, []⟩] offsets = .panic ∧
    ArrayDef.zserioWrite ⟨externElem.packable md, true, some 1⟩ w [⟨0, []⟩] offsets = .panic := by
  have hgen : ∀ {α : Type} (e : Elem α) (hp : ∀ x, e.toU64 x = .panic) (x : α) (xs : List α) c,
      ArrayDef.initAll (e.packable md) (e.packable md).createContext (x :: xs) ≠ .ok c := by
    intro α e hp x xs c h
    obtain ⟨n, h1, _⟩ := Res.bind_eq_ok.1 h
    simp only [Elem.packable, DeltaContext.init, hp] at h1
    cases hb : e.bitsizeOf 0 x <;> rw [hb] at h1 <;> cases h1
  refine ⟨?_, ?_, ?_, ?_⟩
  · intro fixed x xs w' h
    obtain ⟨w1, _, h⟩ := Res.bind_eq_ok.1 h
    obtain ⟨c, h, _⟩ := Res.bind_eq_ok.1 h
    exact hgen bytesElem (fun _ => rfl) x xs c h
  · intro fixed x xs w' h
    obtain ⟨w1, _, h⟩ := Res.bind_eq_ok.1 h
    obtain ⟨c, h, _⟩ := Res.bind_eq_ok.1 h
    exact hgen externElem (fun _ => rfl) x xs c h
  · have h : bytesElem.bitsizeOf 0 ⟨0, []⟩ = .ok 8 := by decide +kernel
    simp only [ArrayDef.zserioWrite, ArrayDef.writeLength, ArrayDef.writeElements, List.length_cons,
      List.length_nil, Nat.zero_add, if_true, Res.pure_eq, Res.ok_bind, List.isEmpty_cons,
      Bool.false_eq_true, if_false, ArrayDef.initAll, Elem.packable, DeltaContext.init, h,
      show ∀ x, bytesElem.toU64 x = .panic from fun _ => rfl, Res.panic_bind]
    rfl
  · have h : externElem.bitsizeOf 0 ⟨0, []⟩ = .ok 8 := by decide +kernel
    simp only [ArrayDef.zserioWrite, ArrayDef.writeLength, ArrayDef.writeElements, List.length_cons,
      List.length_nil, Nat.zero_add, if_true, Res.pure_eq, Res.ok_bind, List.isEmpty_cons,
      Bool.false_eq_true, if_false, ArrayDef.initAll, Elem.packable, DeltaContext.init, h,
      show ∀ x, externElem.toU64 x = .panic from fun _ => rfl, Res.panic_bind]
    rfl

/-- **C21 (partial)** A packed array of at most one element that round-trips is read back, whatever
the element type; so is a packed `bool` array of at most seven elements
(`C21_packed_bool_violated`).  Missing: longer arrays, for which the property is false. -/
theorem C21_packed_singletons_partial (md : Mode) (fixed : Option Nat) (minCap chunk : Nat) :
    (∀ (x : UInt32), LengthFits fixed 1 →
      RoundTrips (fun w => ArrayDef.zserioWrite ⟨float32Elem.packable md, true, fixed⟩ w [x] false)
        (fun r => ArrayDef.readField ⟨float32Elem.packable md, true, fixed⟩ minCap chunk 0 false r)
        [x]) ∧
    (∀ (x : UInt64), LengthFits fixed 1 →
      RoundTrips (fun w => ArrayDef.zserioWrite ⟨float64Elem.packable md, true, fixed⟩ w [x] false)
        (fun r => ArrayDef.readField ⟨float64Elem.packable md, true, fixed⟩ minCap chunk 0 false r)
        [x]) ∧
    (∀ (x : String), x.utf8ByteSize < 2 ^ 31 → LengthFits fixed 1 →
      RoundTrips (fun w => ArrayDef.zserioWrite ⟨stringElem.packable md, true, fixed⟩ w [x] false)
        (fun r => ArrayDef.readField ⟨stringElem.packable md, true, fixed⟩ minCap chunk "" false r)
        [x]) := by
  refine ⟨fun x hlen => ?_, fun x hlen => ?_, fun x hx hlen => ?_⟩
  · exact blind_array (md := md) (e := float32Elem) (dflt := 0) (lost := 0)
      ⟨fun _ => rfl, rfl⟩ minCap chunk fixed x [] [] hlen
      (fun y _ => ((PlainKind.float32).good trivial).1) rfl ⟨32, rfl⟩
  · exact blind_array (md := md) (e := float64Elem) (dflt := 0) (lost := 0)
      ⟨fun _ => rfl, rfl⟩ minCap chunk fixed x [] [] hlen
      (fun y _ => ((PlainKind.float64).good trivial).1) rfl ⟨64, rfl⟩
  · obtain ⟨s0, h3, _⟩ := stringElem_sizes (xs := [x]) (by simpa using hx)
    exact blind_array (md := md) (e := stringElem) (dflt := "") (lost := "")
      ⟨fun _ => rfl, rfl⟩ minCap chunk fixed x [] [] hlen
      (fun s hs => AnyKind.string.roundTrips (md := md) (by
        rw [List.mem_singleton] at hs; subst hs; exact hx)) rfl
      (by cases s0 with
        | nil => simp at h3
        | cons a s0 => exact ⟨a, by simpa using (List.cons.inj h3).1⟩)

example : LengthFits (some 9) [true, true, true, true, true, true, true, true, true].length := rfl
/-- The shortest loss: eight `true` values are stored as the descriptor and a single bit. -/
example : ArrayDef.zserioWrite ⟨boolElem.packable .debug, true, some 8⟩ ⟨[]⟩
    (List.replicate 8 true) false = .ok ⟨true :: natBits 6 0 ++ [true]⟩ := by decide +kernel

/-! ## C22: space -/

/-- **C22** Before the first element is decoded a fresh vector has room for at most the chunk and at
most the claimed length (or the smallest non-empty allocation `minCap` of `Vec`, if that is more);
nothing is allocated when either is 0. -/
theorem C22_preallocation_bounded {α : Type} (minCap chunk claimed : Nat) :
    (ArrayDef.prepare minCap chunk (Vec.new : Vec α) claimed).capacity ≤
      max minCap (min claimed chunk) ∧
    (min claimed chunk = 0 → (ArrayDef.prepare minCap chunk (Vec.new : Vec α) claimed).capacity = 0) ∧
    min claimed chunk ≤ (ArrayDef.prepare minCap chunk (Vec.new : Vec α) claimed).capacity := by
  unfold ArrayDef.prepare Vec.reserve Vec.clear Vec.new
  simp only [List.length_nil, Nat.zero_add]
  split <;> simp <;> omega

/-- **C22** After reading an array the space is at most the preallocation or twice the number of
elements actually decoded, and exactly the claimed number of elements was decoded. -/
theorem C22_growth_bounded {α : Type} (a : ArrayDef α) (minCap chunk claimed : Nat) (dflt : α)
    (offsets : Bool) (r r' : Reader) (v : Vec α)
    (h : a.zserioRead minCap chunk dflt r Vec.new claimed offsets = .ok (v, r')) :
    v.items.length = claimed ∧
      v.capacity ≤ max (max minCap (min claimed chunk)) (2 * claimed) := by
  have hp := C22_preallocation_bounded (α := α) minCap chunk claimed
  have hi := prepare_items (α := α) minCap chunk claimed
  have hl := congrArg List.length hi
  simp only [List.length_nil] at hl
  unfold ArrayDef.zserioRead at h
  simp only at h
  split at h
  · obtain ⟨h1, h2⟩ := readPackedAll_capacity (by omega) h
    constructor <;> omega
  · obtain ⟨h1, h2⟩ := readAll_capacity (by omega) h
    constructor <;> omega

/-- **C22** What is decoded does not depend on the chunk setting (nor on the allocator). -/
theorem C22_result_independent_of_chunk {α : Type} (a : ArrayDef α) (m1 m2 chunk1 chunk2 : Nat)
    (dflt : α) (offsets : Bool) (r : Reader) :
    a.readField m1 chunk1 dflt offsets r = a.readField m2 chunk2 dflt offsets r := by
  unfold ArrayDef.readField
  congr 1; funext p
  unfold ArrayDef.zserioRead
  simp only
  split
  · exact readPackedAll_items _ _ _ _ _ _ _ _ _ (by rw [prepare_items, prepare_items]) _
  · exact readAll_items _ _ _ _ _ _ _ _ (by rw [prepare_items, prepare_items]) _

example : (ArrayDef.prepare 4 1000 (Vec.new : Vec Nat) 2147483647).capacity = 1000 := by
  decide +kernel
example : ∃ v r', ArrayDef.zserioRead ⟨(uintElem 8 4).packable .debug, false, none⟩ 4 1000 0
    ⟨0, [true, false, true, false, true, true, true, true]⟩ Vec.new 2 false = .ok (v, r') ∧
    v.items = [10, 15] := ⟨_, _, rfl, rfl⟩

/-! ## C12, C13 for arrays -/

/-- **C12 (partial, arrays)** Reading an unpacked array never panics if reading an element does not;
with or without a stored length, whatever the input.  Missing: packed arrays, where the property is
false (`C12_packed_array_violated`). -/
theorem C12_unpacked_arrays_never_panic_partial {α : Type} (t : ArrayTrait α) (dflt : α)
    (ht : NeverPanics (fun r => t.read r dflt)) (fixed : Option Nat) (offsets : Bool)
    (minCap chunk : Nat) :
    NeverPanics (fun r => ArrayDef.readField ⟨t, false, fixed⟩ minCap chunk dflt offsets r) := by
  intro r
  refine Res.bind_ne_panic ?_ (fun p _ => Res.bind_ne_panic ?_ (fun _ _ => by simp))
  · unfold ArrayDef.zserioReadArrayLength
    cases fixed with
    | some n => simp
    | none => exact (C12_scalar_readers_never_panic_partial (fun _ => 0)).2.2.2.2.2.1 r
  · exact readAll_ne_panic ht minCap offsets _ _ _

example : NeverPanics (fun r => (varuintElem.packable .debug).read r 0) :=
  NeverPanics.readSizedUint 9

/-- **C12, violated (packed arrays)**: input that ends inside the packing descriptor panics: any
packed array of any element type on any input that ends right after the length. -/
theorem C12_packed_array_violated {α : Type} (md : Mode) (e : Elem α) (dflt : α) (minCap chunk n : Nat)
    (pos : Nat) :
    ArrayDef.readField ⟨e.packable md, true, some (n + 1)⟩ minCap chunk dflt false ⟨pos, []⟩ =
      .panic := by
  rfl

/-- **C13** A reader of an array whose element reader is local reads the same array with any other
continuation of the input, and consumes exactly what it used: packed or not, aligned or not, for
every element type of the library. -/
theorem C13_array_readers_local (md : Mode) {α : Type} {e : Elem α} {dflt : α} {valid : α → Prop}
    (hk : AnyKind md e dflt valid) (packed : Bool) (fixed : Option Nat) (offsets : Bool)
    (minCap chunk : Nat) :
    Local (fun r => ArrayDef.readField ⟨e.packable md, packed, fixed⟩ minCap chunk dflt offsets r) :=
  Local.arrayField ⟨e.packable md, packed, fixed⟩
    (by cases packed with
      | false => exact hk.isLocal
      | true => exact Local.packable md hk.isLocal) minCap chunk dflt offsets

/-- **C13** No proper prefix of an encoded array is accepted: every unpacked array, and every packed
integer array covered by `C17_packed_integers_round_trip_partial`. -/
theorem C13_array_truncation (md : Mode) {α : Type} {e : Elem α} {dflt : α} {valid : α → Prop}
    (fixed : Option Nat) (offsets : Bool) (minCap chunk : Nat) (xs : List α)
    (hlen : LengthFits fixed xs.length) (hx : ∀ x ∈ xs, valid x) :
    (AnyKind md e dflt valid → RejectsTruncation
      (fun w => ArrayDef.zserioWrite ⟨e.packable md, false, fixed⟩ w xs offsets)
      (fun r => ArrayDef.readField ⟨e.packable md, false, fixed⟩ minCap chunk dflt offsets r)) ∧
    (IntKind md e dflt valid → (md = .release ∨ NarrowKind md e dflt valid ∨ OneSided e xs) →
      RejectsTruncation
      (fun w => ArrayDef.zserioWrite ⟨e.packable md, true, fixed⟩ w xs offsets)
      (fun r => ArrayDef.readField ⟨e.packable md, true, fixed⟩ minCap chunk dflt offsets r)) :=
  ⟨fun hk => rejectsTruncation_of_local
    (C15_unpacked_arrays_all_types md hk fixed offsets minCap chunk xs hlen hx)
    (C13_array_readers_local md hk false fixed offsets minCap chunk),
   fun hk hs => rejectsTruncation_of_local
    (C17_packed_integers_round_trip_partial md hk fixed offsets minCap chunk xs hlen hx hs)
    (C13_array_readers_local md (.int hk) true fixed offsets minCap chunk)⟩

example : AnyKind .debug stringElem "" (fun s => s.utf8ByteSize < 2 ^ 31) := .string

/-! ## C43: arrays of a wrong length -/

/-- **C43 (partial)** An array that does not have its fixed length, or whose length does not fit into
the length header, is not written.  Missing: 2^32 elements and more, for which the property is false
(`C43_long_array_violated`). -/
theorem C43_wrong_length_refused_partial {α : Type} (t : ArrayTrait α) (packed : Bool)
    (fixed : Option Nat) (offsets : Bool) (xs : List α) (w : Writer)
    (hlen : ¬ LengthFits fixed xs.length) (h32 : xs.length < 2 ^ 32) :
    Refused (ArrayDef.zserioWrite ⟨t, packed, fixed⟩ w xs offsets) := by
  intro w' h
  unfold ArrayDef.zserioWrite ArrayDef.writeLength at h
  cases fixed with
  | some n =>
    simp only [if_neg (show ¬ n = xs.length from hlen)] at h
    cases h
  | none =>
    obtain ⟨w1, h1, _⟩ := Res.bind_eq_ok.1 h
    simp only [asU32, Nat.mod_eq_of_lt h32] at h1
    exact (C03_out_of_range_refused_partial .debug w).2.2.2.1 xs.length
      (Nat.le_of_not_lt (fun h => hlen h)) w1 h1

example : ¬ LengthFits (some 3) [1, 2].length := fun h => by cases h

/-- The bits of a list of booleans. -/
theorem writeAll_bool (md : Mode) (bs : List Bool) (w : Writer) :
    ArrayDef.writeAll (boolElem.packable md) false w bs = .ok ⟨w.bits ++ bs⟩ := by
  induction bs generalizing w with
  | nil => simp [ArrayDef.writeAll]
  | cons b bs ih =>
    simp only [ArrayDef.writeAll, alignElemWriter, Bool.false_eq_true, if_false, Res.pure_eq,
      Res.ok_bind]
    rw [show (boolElem.packable md).write w b = .ok ⟨w.bits ++ [b]⟩ from rfl, Res.ok_bind, ih]
    simp

/-- **C43 violated** An array of `n ≥ 2^32` booleans is written with the length `n mod 2^32` in front
(when that is below 2^31), and only that many elements are read back; the others stay unread. -/
theorem C43_long_array_violated (md : Mode) (minCap chunk : Nat) (bs : List Bool)
    (hn : 2 ^ 32 ≤ bs.length) (h31 : bs.length % 2 ^ 32 < 2 ^ 31) :
    ¬ LengthFits none bs.length ∧
    ∀ before : List Bool, ∃ header,
      ArrayDef.zserioWrite ⟨boolElem.packable md, false, none⟩ ⟨before⟩ bs false =
        .ok ⟨before ++ header ++ bs⟩ ∧
      ∀ after, ArrayDef.readField ⟨boolElem.packable md, false, none⟩ minCap chunk false false
        ⟨before.length, header ++ bs ++ after⟩ =
        .ok (bs.take (bs.length % 2 ^ 32),
          ⟨before.length + header.length + bs.length % 2 ^ 32,
            bs.drop (bs.length % 2 ^ 32) ++ after⟩) := by
  refine ⟨fun h => ?_, fun before => ?_⟩
  · have : bs.length < 2 ^ 31 := h
    omega
  · obtain ⟨header, h1, h2⟩ := C01_varuint_round_trip.2.2.2.2 _ h31 before
    simp only at h1
    have hlt : bs.length % 2 ^ 32 ≤ bs.length := Nat.mod_le _ _
    refine ⟨header, ?_, fun after => ?_⟩
    · unfold ArrayDef.zserioWrite ArrayDef.writeLength ArrayDef.writeElements
      simp only [asU32]
      rw [h1, Res.ok_bind, if_neg (by
        cases bs with
        | nil => simp at hn
        | cons _ _ => simp)]
      simp only [Bool.false_eq_true, if_false]
      rw [writeAll_bool]
    · have hrt := C15_unpacked_arrays_all_types md (AnyKind.plain .bool)
        (some (bs.take (bs.length % 2 ^ 32)).length) false minCap chunk
        (bs.take (bs.length % 2 ^ 32)) rfl (fun _ _ => trivial) (before ++ header)
      obtain ⟨bits, w1, r1⟩ := hrt
      have w2 : ArrayDef.zserioWrite ⟨boolElem.packable md, false,
          some (bs.take (bs.length % 2 ^ 32)).length⟩ ⟨before ++ header⟩
          (bs.take (bs.length % 2 ^ 32)) false =
          .ok ⟨before ++ header ++ bs.take (bs.length % 2 ^ 32)⟩ := by
        unfold ArrayDef.zserioWrite ArrayDef.writeLength ArrayDef.writeElements
        simp only [if_true, Res.pure_eq, Res.ok_bind]
        split
        · rename_i h
          rw [List.isEmpty_iff.1 h, List.append_nil]
        · simp only [Bool.false_eq_true, if_false]
          rw [writeAll_bool]
      have hb : bits = bs.take (bs.length % 2 ^ 32) := by
        simp only at w1
        rw [w2] at w1
        simp only [Res.ok.injEq, Writer.mk.injEq] at w1
        exact (List.append_cancel_left w1).symm
      have r2 := r1 (bs.drop (bs.length % 2 ^ 32) ++ after)
      rw [hb, ← List.append_assoc, List.take_append_drop] at r2
      simp only [ArrayDef.readField, ArrayDef.zserioReadArrayLength] at r2 ⊢
      rw [List.append_assoc, h2 (bs ++ after)]
      simp only [Res.pure_eq, Res.ok_bind, List.length_append, List.length_take,
        Nat.min_eq_left hlt] at r2 ⊢
      exact r2

example : 2 ^ 32 ≤ (List.replicate (2 ^ 32 + 5) true).length ∧
    (List.replicate (2 ^ 32 + 5) true).length % 2 ^ 32 < 2 ^ 31 := by
  rw [List.length_replicate]; decide

end Zs
