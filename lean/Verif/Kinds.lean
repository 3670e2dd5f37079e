import Verif.ArrayLemmas
import Verif.PropsStream

/-!
# The element types and their documented value ranges

`IntKind` and `PlainKind` list the array traits of the run-time library together with the default
value of the Rust type and the set of values the zserio type documents.  The theorems below give the
facts on single elements that the array properties need.
-/

namespace Zs

open Spec

/-- The integer element types, `T::default()` and their ranges.  `width` is the size of the Rust
type; the generator chooses one with `numBits ≤ width` (`generator/types.rs`).  `varint` stands for
the values above `i64::MIN` (see `C02_varint_min_violated`). -/
inductive IntKind (md : Mode) : {α : Type} → Elem α → α → (α → Prop) → Prop
  | uint (width numBits : Nat) (h : numBits ≤ width) (h64 : width ≤ 64) :
      IntKind md (uintElem width numBits) 0 (fun v => v < 2 ^ numBits)
  | int (width numBits : Nat) (h1 : 1 ≤ numBits) (h : numBits ≤ width) (h64 : width ≤ 64) :
      IntKind md (intElem width numBits) 0
        (fun v => -(2 ^ (numBits - 1) : Int) ≤ v ∧ v < 2 ^ (numBits - 1))
  | varuint16 : IntKind md varuint16Elem 0 (fun v => v < 2 ^ 15)
  | varuint32 : IntKind md varuint32Elem 0 (fun v => v < 2 ^ 29)
  | varuint64 : IntKind md varuint64Elem 0 (fun v => v < 2 ^ 57)
  | varuint : IntKind md varuintElem 0 (fun v => v < 2 ^ 64)
  | varsize : IntKind md varsizeElem 0 (fun v => v < 2 ^ 31)
  | varint16 : IntKind md (varint16Elem md) 0 (fun v => -(2 ^ 14) < v ∧ v < 2 ^ 14)
  | varint32 : IntKind md (varint32Elem md) 0 (fun v => -(2 ^ 28) < v ∧ v < 2 ^ 28)
  | varint64 : IntKind md (varint64Elem md) 0 (fun v => -(2 ^ 56) < v ∧ v < 2 ^ 56)
  | varint : IntKind md (varintElem md) 0 (fun v => -(2 ^ 63) < v ∧ v < 2 ^ 63)

/-- All other element types of the run-time library but `string` (whose size function is wrong).
`float16` values are those that are images of half-precision numbers. -/
inductive PlainKind : {α : Type} → Elem α → α → (α → Prop) → Prop
  | bool : PlainKind boolElem false (fun _ => True)
  | float16 (fromF32 : UInt32 → UInt16) (toF32 : UInt16 → UInt32) :
      PlainKind (float16Elem fromF32 toF32) 0 (fun v => toF32 (fromF32 v) = v)
  | float32 : PlainKind float32Elem 0 (fun _ => True)
  | float64 : PlainKind float64Elem 0 (fun _ => True)
  | bytes : PlainKind bytesElem ⟨0, []⟩ (fun b => b.byteSize = b.dataBlob.length ∧
      b.byteSize < 2 ^ 31)
  | extern : PlainKind externElem ⟨0, []⟩ WellFormedExtern

/-- Every element type with the values its documentation allows. -/
inductive AnyKind (md : Mode) : {α : Type} → Elem α → α → (α → Prop) → Prop
  | int {α : Type} {e : Elem α} {dflt : α} {valid : α → Prop} (h : IntKind md e dflt valid) :
      AnyKind md e dflt valid
  | plain {α : Type} {e : Elem α} {dflt : α} {valid : α → Prop} (h : PlainKind e dflt valid) :
      AnyKind md e dflt valid
  | string : AnyKind md stringElem "" (fun s => s.utf8ByteSize < 2 ^ 31)

/-! ## Facts on single elements -/

theorem sizeExact_of_emits {size : Nat → Res Nat} {write : Writer → Res Writer} {n : Nat}
    (hs : ∀ p, size p = .ok n) (h : Emits write n) : SizeExact size write := by
  intro w w' hw
  obtain ⟨bits, h1, h2⟩ := h w.bits
  rw [show (⟨w.bits⟩ : Writer) = w from rfl, hw] at h1
  cases h1
  exact ⟨n, hs _, by simp [h2]⟩

/-- Bit fields: a value that fits is unchanged by the cast to the Rust type. -/
theorem RoundTrips.map {α β : Type} {write : Writer → Res Writer} {read : Reader → Res (α × Reader)}
    {v : α} (f : α → β) (h : RoundTrips write read v) :
    RoundTrips write (fun r => read r >>= fun x => .ok (f x.1, x.2)) (f v) := by
  intro before
  obtain ⟨bits, h1, h2⟩ := h before
  exact ⟨bits, h1, fun after => by simp only [h2 after, Res.ok_bind]⟩

/-- What `to_u64` gives, and that `from_u64` undoes it. -/
theorem wrapSigned_asU64 {n : Nat} {v : Int} (hn : 1 ≤ n) (h64 : n ≤ 64)
    (h1 : -(2 ^ (n - 1) : Int) ≤ v) (h2 : v < 2 ^ (n - 1)) :
    wrapSigned n ((asU64 v : Nat) : Int) = v := by
  have e : ((asU64 v : Nat) : Int) = v % 2 ^ 64 := by
    unfold asU64; exact Int.toNat_of_nonneg (Int.emod_nonneg _ (by decide))
  have hd : (2 ^ n : Int) ∣ 2 ^ 64 := ⟨2 ^ (64 - n), by rw [← Int.pow_add]; congr 1; omega⟩
  have h : wrapSigned n ((asU64 v : Nat) : Int) = wrapSigned n v := by
    unfold wrapSigned
    rw [e, Int.emod_emod_of_dvd v hd]
  rw [h, wrapSigned_eq hn h1 h2]

theorem asU64_lt (v : Int) : asU64 v < 2 ^ 64 := by
  unfold asU64
  have := Int.emod_lt_of_pos v (b := 2 ^ 64) (by decide)
  have := Int.emod_nonneg v (b := 2 ^ 64) (by decide)
  omega

/-- In-range integers round-trip, have an exact size, and survive the conversion to `u64`. -/
theorem IntKind.good {md : Mode} {α : Type} {e : Elem α} {dflt : α} {valid : α → Prop}
    (h : IntKind md e dflt valid) {v : α} (hv : valid v) :
    ElemGood e dflt v ∧ ∃ n, (∀ p, e.bitsizeOf p v = .ok n) ∧ Emits (fun w => e.write w v) n := by
  have mk : ∀ {α : Type} {e : Elem α} {dflt v : α} {n : Nat}, (∀ p, e.bitsizeOf p v = .ok n) →
      Emits (fun w => e.write w v) n → RoundTrips (fun w => e.write w v) (fun r => e.read r dflt) v →
      (∃ u, u < 2 ^ 64 ∧ e.toU64 v = .ok u ∧ e.fromU64 u = .ok v) →
      ElemGood e dflt v ∧ ∃ n, (∀ p, e.bitsizeOf p v = .ok n) ∧ Emits (fun w => e.write w v) n :=
    fun h1 h2 h3 h4 => ⟨⟨⟨_, h1 0⟩, h3, h4⟩, _, h1, h2⟩
  have ofMin : ∀ {m : Nat} {cap : Nat → Nat → Nat} {x : Nat} {size : Res Nat}
      {write : Writer → Res Writer}, ExactMinimal m cap x size write →
      ∃ n, size = .ok n ∧ Emits write n :=
    fun ⟨k, h1, _, _, h2, _⟩ => ⟨_, h1, h2⟩
  cases h with
  | uint width n h h64 =>
    have hw : v < 2 ^ width := Nat.lt_of_lt_of_le hv (Nat.pow_le_pow_right (by decide) h)
    have hw64 : v < 2 ^ 64 := Nat.lt_of_lt_of_le hw (Nat.pow_le_pow_right (by decide) h64)
    obtain ⟨h1, h2⟩ := C06_fixed_width_round_trip.1 n v (by omega) hv
    refine mk (fun _ => rfl) h2 ?_ ⟨v, hw64, rfl, ?_⟩
    · have := RoundTrips.map (· % 2 ^ width) h1
      rwa [Nat.mod_eq_of_lt hw] at this
    · simp only [uintElem]; rw [Nat.mod_eq_of_lt hw]
  | int width n hn h h64 =>
    have hp : (2 : Int) ^ (n - 1) ≤ 2 ^ (width - 1) := by
      have : (2 : Nat) ^ (n - 1) ≤ 2 ^ (width - 1) := Nat.pow_le_pow_right (by decide) (by omega)
      have h1 : ((2 ^ (n - 1) : Nat) : Int) = 2 ^ (n - 1) := by simp
      have h2 : ((2 ^ (width - 1) : Nat) : Int) = 2 ^ (width - 1) := by simp
      omega
    obtain ⟨hv1, hv2⟩ := hv
    obtain ⟨h1, h2⟩ := C06_fixed_width_round_trip.2.1 n v hn (by omega) hv1 hv2
    refine mk (fun _ => rfl) h2 ?_ ⟨asU64 v, asU64_lt v, rfl, ?_⟩
    · have := RoundTrips.map (wrapSigned width) h1
      rwa [wrapSigned_eq (by omega) (by omega) (by omega)] at this
    · simp only [intElem]; rw [wrapSigned_asU64 (by omega) h64 (by omega) (by omega)]
  | varuint16 =>
    obtain ⟨n, h1, h2⟩ := ofMin (C04_varuint_sizes_exact_minimal.1 v hv)
    exact mk (fun _ => h1) h2 (C01_varuint_round_trip.1 v hv) ⟨v, by omega, rfl, by
      show Res.ok (v % 2 ^ 16) = _; rw [Nat.mod_eq_of_lt (by omega)]⟩
  | varuint32 =>
    obtain ⟨n, h1, h2⟩ := ofMin (C04_varuint_sizes_exact_minimal.2.1 v hv)
    exact mk (fun _ => h1) h2 (C01_varuint_round_trip.2.1 v hv) ⟨v, by omega, rfl, by
      show Res.ok (v % 2 ^ 32) = _; rw [Nat.mod_eq_of_lt (by omega)]⟩
  | varuint64 =>
    obtain ⟨n, h1, h2⟩ := ofMin (C04_varuint_sizes_exact_minimal.2.2.1 v hv)
    exact mk (fun _ => h1) h2 (C01_varuint_round_trip.2.2.1 v hv) ⟨v, by omega, rfl, by
      show Res.ok (v % 2 ^ 64) = _; rw [Nat.mod_eq_of_lt (by omega)]⟩
  | varuint =>
    obtain ⟨n, h1, h2⟩ := ofMin (C04_varuint_sizes_exact_minimal.2.2.2.1 v hv)
    exact mk (fun _ => h1) h2 (C01_varuint_round_trip.2.2.2.1 v hv) ⟨v, by omega, rfl, by
      show Res.ok (v % 2 ^ 64) = _; rw [Nat.mod_eq_of_lt (by omega)]⟩
  | varsize =>
    obtain ⟨n, h1, h2⟩ := ofMin (C04_varuint_sizes_exact_minimal.2.2.2.2 v hv)
    exact mk (fun _ => h1) h2 (C01_varuint_round_trip.2.2.2.2 v hv) ⟨v, by omega, rfl, by
      show Res.ok (v % 2 ^ 32) = _; rw [Nat.mod_eq_of_lt (by omega)]⟩
  | varint16 =>
    obtain ⟨n, h1, h2⟩ := ofMin ((C04_varint_sizes_exact_minimal md).1 v (by omega))
    exact mk (fun _ => h1) h2 ((C02_varint_round_trip_partial md).1 v hv.1 hv.2)
      ⟨asU64 v, asU64_lt v, rfl, by
        show Res.ok (wrapSigned 16 _) = _
        rw [wrapSigned_asU64 (by omega) (by omega) (by omega) (by omega)]⟩
  | varint32 =>
    obtain ⟨n, h1, h2⟩ := ofMin ((C04_varint_sizes_exact_minimal md).2.1 v (by omega))
    exact mk (fun _ => h1) h2 ((C02_varint_round_trip_partial md).2.1 v hv.1 hv.2)
      ⟨asU64 v, asU64_lt v, rfl, by
        show Res.ok (wrapSigned 32 _) = _
        rw [wrapSigned_asU64 (by omega) (by omega) (by omega) (by omega)]⟩
  | varint64 =>
    obtain ⟨n, h1, h2⟩ := ofMin ((C04_varint_sizes_exact_minimal md).2.2.1 v (by omega))
    exact mk (fun _ => h1) h2 ((C02_varint_round_trip_partial md).2.2.1 v hv.1 hv.2)
      ⟨asU64 v, asU64_lt v, rfl, by
        show Res.ok (wrapSigned 64 _) = _
        rw [wrapSigned_asU64 (by omega) (by omega) (by omega) (by omega)]⟩
  | varint =>
    obtain ⟨n, h1, h2⟩ := ofMin ((C04_varint_sizes_exact_minimal md).2.2.2 v (by omega))
    exact mk (fun _ => h1) h2 ((C02_varint_round_trip_partial md).2.2.2 v hv.1 hv.2)
      ⟨asU64 v, asU64_lt v, rfl, by
        show Res.ok (wrapSigned 64 _) = _
        rw [wrapSigned_asU64 (by omega) (by omega) (by omega) (by omega)]⟩

theorem writeBytes_emits (bs : List UInt8) : Emits (writeBytes · bs) (8 * bs.length) := by
  intro before
  exact ⟨bytesBits bs, writeBytes_eq _ _, by rw [bytesBits_length]; omega⟩

/-- The other element types round-trip and have an exact size. -/
theorem PlainKind.good {α : Type} {e : Elem α} {dflt : α} {valid : α → Prop}
    (h : PlainKind e dflt valid) {v : α} (hv : valid v) :
    RoundTrips (fun w => e.write w v) (fun r => e.read r dflt) v ∧
    ∃ n, (∀ p, e.bitsizeOf p v = .ok n) ∧ Emits (fun w => e.write w v) n := by
  cases h with
  | bool =>
    refine ⟨fun before => ⟨[v], rfl, fun after => rfl⟩, 1, fun _ => rfl, fun before =>
      ⟨[v], rfl, rfl⟩⟩
  | float16 fromF32 toF32 =>
    refine ⟨?_, 16, fun _ => rfl, ?_⟩
    · have := (C40_floats_keep_bits fromF32 toF32).2.2 (fromF32 v) (by rw [hv])
      rwa [hv] at this
    · have := writeBytes_emits (beBytes 2 (fromF32 v).toNat)
      rwa [beBytes_length] at this
  | float32 =>
    refine ⟨(C40_floats_keep_bits (fun _ => 0) (fun _ => 0)).1 v, 32, fun _ => rfl, ?_⟩
    have := writeBytes_emits (beBytes 4 v.toNat)
    rwa [beBytes_length] at this
  | float64 =>
    refine ⟨(C40_floats_keep_bits (fun _ => 0) (fun _ => 0)).2.1 v, 64, fun _ => rfl, ?_⟩
    have := writeBytes_emits (beBytes 8 v.toNat)
    rwa [beBytes_length] at this
  | bytes =>
    obtain ⟨h1, n, h2, h3⟩ := C10_bytes_round_trip v hv.1 hv.2
    exact ⟨h1, n, fun _ => h2, h3⟩
  | extern =>
    obtain ⟨h1, n, h2, h3⟩ := C11_extern_round_trip v hv
    exact ⟨h1, n, fun _ => h2, h3⟩

theorem AnyKind.roundTrips {md : Mode} {α : Type} {e : Elem α} {dflt : α} {valid : α → Prop}
    (h : AnyKind md e dflt valid) {v : α} (hv : valid v) :
    RoundTrips (fun w => e.write w v) (fun r => e.read r dflt) v := by
  cases h with
  | int h => exact (h.good hv).1.rt
  | plain h => exact (h.good hv).1
  | string => exact (C09_string_round_trip v hv).1

end Zs
