import Verif.ScalarLemmas
import Verif.TopLevel

/-!
# Properties C01 – C14, C23, C34, C40, C42: scalars and streams

Every theorem is followed by an `example` showing a concrete case that meets its hypotheses.
-/

namespace Zs

open Spec

/-! ## C01 -/

/-- **C01** Every value in the documented range (`limits.rs`) of each unsigned variable-length type
is read back exactly, whatever was written before and whatever follows. -/
theorem C01_varuint_round_trip :
    (∀ v < 2 ^ 15, RoundTrips (writeVaruint16 · v) readVaruint16 v) ∧
    (∀ v < 2 ^ 29, RoundTrips (writeVaruint32 · v) readVaruint32 v) ∧
    (∀ v < 2 ^ 57, RoundTrips (writeVaruint64 · v) readVaruint64 v) ∧
    (∀ v < 2 ^ 64, RoundTrips (writeVaruint · v) readVaruint v) ∧
    (∀ v < 2 ^ 31, RoundTrips (writeVarsize · v) readVarsize v) := by
  refine ⟨fun v hv => ?_, fun v hv => ?_, fun v hv => ?_, fun v hv => ?_, fun v hv => ?_⟩
  · obtain ⟨k, _, _, _, _, _, a6, _, a8⟩ :=
      varuint_all (m := 2) (v := v) (by decide) (by decide) (by rw [cap2]; omega)
    refine roundTrips_of_bits _ a6 (fun pos after => ?_)
    unfold readVaruint16
    rw [a8]
    simp only [Res.ok_bind, Res.pure_eq]
    rw [Nat.mod_eq_of_lt (by omega)]
  · obtain ⟨k, _, _, _, _, _, a6, _, a8⟩ :=
      varuint_all (m := 4) (v := v) (by decide) (by decide) (by rw [cap4]; omega)
    refine roundTrips_of_bits _ a6 (fun pos after => ?_)
    unfold readVaruint32
    rw [a8]
    simp only [Res.ok_bind, Res.pure_eq]
    rw [Nat.mod_eq_of_lt (by omega)]
  · obtain ⟨k, _, _, _, _, _, a6, _, a8⟩ :=
      varuint_all (m := 8) (v := v) (by decide) (by decide) (by rw [cap8]; omega)
    exact roundTrips_of_bits _ a6 a8
  · obtain ⟨k, _, _, _, _, _, a6, _, a8⟩ :=
      varuint_all (m := 9) (v := v) (by decide) (by decide) (by rw [cap9]; omega)
    exact roundTrips_of_bits _ a6 a8
  · obtain ⟨k, _, _, _, _, _, a6, _, a8⟩ := varsize_all hv
    exact roundTrips_of_bits _ a6 a8

example : RoundTrips (writeVaruint · (2 ^ 64 - 1)) readVaruint (2 ^ 64 - 1) :=
  C01_varuint_round_trip.2.2.2.1 _ (by decide)
example : writeVaruint16 ⟨[true]⟩ 0x1234 =
    .ok ⟨[true] ++ bytesBits [0x92, 0x34]⟩ := by decide +kernel

/-! ## C02 -/

theorem wrapSigned_eq {n : Nat} {v : Int} (hn : 1 ≤ n) (h1 : -(2 ^ (n - 1) : Int) ≤ v)
    (h2 : v < 2 ^ (n - 1)) : wrapSigned n v = v := by
  obtain ⟨m, rfl⟩ : ∃ m, n = m + 1 := ⟨n - 1, by omega⟩
  simp only [Nat.add_sub_cancel] at h1 h2
  have hp : (0 : Int) < 2 ^ m := Int.pow_pos (by decide)
  have e : (2 : Int) ^ (m + 1) = 2 * 2 ^ m := by rw [Int.pow_succ]; omega
  have e' : (2 : Nat) ^ (m + 1) = 2 * 2 ^ m := by rw [Nat.pow_succ]; omega
  have ec : ((2 ^ m : Nat) : Int) = 2 ^ m := by simp
  unfold wrapSigned signExtend
  rw [e, e']
  by_cases h : 0 ≤ v
  · rw [Int.emod_eq_of_lt h (by omega), if_pos (by omega)]
    omega
  · have : v % (2 * 2 ^ m) = v + 2 * 2 ^ m := by
      rw [← Int.add_emod_right, Int.emod_eq_of_lt (by omega) (by omega)]
    rw [this, if_neg (by omega)]
    omega

/-- **C02 (partial)** Every value in the documented range of each signed variable-length type is
read back exactly, in debug and release builds; missing: `i64::MIN`, the documented `MIN_VARINT`,
for which the property is false (see `C02_varint_min_violated`). -/
theorem C02_varint_round_trip_partial (md : Mode) :
    (∀ v : Int, -(2 ^ 14) < v → v < 2 ^ 14 → RoundTrips (writeVarint16 md · v) readVarint16 v) ∧
    (∀ v : Int, -(2 ^ 28) < v → v < 2 ^ 28 → RoundTrips (writeVarint32 md · v) readVarint32 v) ∧
    (∀ v : Int, -(2 ^ 56) < v → v < 2 ^ 56 → RoundTrips (writeVarint64 md · v) readVarint64 v) ∧
    (∀ v : Int, -(2 ^ 63) < v → v < 2 ^ 63 → RoundTrips (writeVarint md · v) readVarint v) := by
  refine ⟨fun v h1 h2 => ?_, fun v h1 h2 => ?_, fun v h1 h2 => ?_, fun v h1 h2 => ?_⟩
  · obtain ⟨k, _, _, _, _, _, a6, _, a8⟩ :=
      varint_all md (m := 2) (v := v) (by decide) (by decide) (by rw [caps2]; omega)
    refine roundTrips_of_bits _ a6 (fun pos after => ?_)
    unfold readVarint16
    rw [a8]
    simp only [Res.ok_bind, Res.pure_eq]
    rw [wrapSigned_eq (by decide) (by omega) (by omega)]
  · obtain ⟨k, _, _, _, _, _, a6, _, a8⟩ :=
      varint_all md (m := 4) (v := v) (by decide) (by decide) (by rw [caps4]; omega)
    refine roundTrips_of_bits _ a6 (fun pos after => ?_)
    unfold readVarint32
    rw [a8]
    simp only [Res.ok_bind, Res.pure_eq]
    rw [wrapSigned_eq (by decide) (by omega) (by omega)]
  · obtain ⟨k, _, _, _, _, _, a6, _, a8⟩ :=
      varint_all md (m := 8) (v := v) (by decide) (by decide) (by rw [caps8]; omega)
    exact roundTrips_of_bits _ a6 a8
  · obtain ⟨k, _, _, _, _, _, a6, _, a8⟩ :=
      varint_all md (m := 9) (v := v) (by decide) (by decide) (by rw [caps9]; omega)
    exact roundTrips_of_bits _ a6 a8

example : RoundTrips (writeVarint32 .debug · (-(2 ^ 28) + 1)) readVarint32 (-(2 ^ 28) + 1) :=
  (C02_varint_round_trip_partial .debug).2.1 _ (by decide) (by decide)

/-- **C02, violated for `i64::MIN`** (`limits.rs` documents it as `MIN_VARINT`): a debug build
panics; a release build writes the single byte `0x80`, which reads back as 0. -/
theorem C02_varint_min_violated :
    (∀ w, writeVarint .debug w (-(2 ^ 63)) = .panic) ∧
    (∀ w, writeVarint .release w (-(2 ^ 63)) = .ok (w.append (bytesBits [0x80]))) ∧
    (∀ pos after, readVarint ⟨pos, bytesBits [0x80] ++ after⟩ = .ok (0, ⟨pos + 8, after⟩)) ∧
    (∀ md, ¬ RoundTrips (writeVarint md · (-(2 ^ 63))) readVarint (-(2 ^ 63))) := by
  have hd : ∀ w, writeVarint .debug w (-(2 ^ 63)) = .panic := fun w => rfl
  have hr : ∀ w, writeVarint .release w (-(2 ^ 63)) = .ok (w.append (bytesBits [0x80])) := by
    intro w
    have e : signedBitsize .release (-(2 ^ 63)) 9 = .ok 8 := by
      show signedBitsizeLoop (-(2 ^ 63)) 9 1 _ = _
      rw [signedBitsizeLoop]; rfl
    unfold writeVarint writeVarintType
    rw [e]
    rfl
  have hx : ∀ pos after, readVarint ⟨pos, bytesBits [0x80] ++ after⟩
      = .ok (0, ⟨pos + 8, after⟩) := by
    intro pos after
    unfold readVarint
    have := readSizedInt_varintBits (neg := true) (v := 0) (k := 1) (m := 9) (by decide)
      (by decide) (by decide) (by decide) pos after
    have e : varintBits true 0 1 9 = bytesBits [0x80] := by decide
    rw [e] at this
    exact this
  refine ⟨hd, hr, hx, ?_⟩
  intro md h
  obtain ⟨bits, h1, h2⟩ := h []
  cases md with
  | debug => simp only [hd] at h1; cases h1
  | release =>
    simp only [hr] at h1
    have hb : bytesBits [0x80] = bits := by
      have := congrArg Writer.bits (Res.ok.inj h1)
      simpa [Writer.append] using this
    have h3 := h2 []
    rw [← hb, hx] at h3
    have := congrArg Prod.fst (Res.ok.inj h3)
    simp at this

/-! ## C03 -/

theorem writeVaruintType_refused {m v : Nat} (h2 : 2 ≤ m) (h9 : m ≤ 9) (hv : capacity m m ≤ v)
    (w : Writer) : Refused (writeVaruintType w v m) := by
  unfold writeVaruintType
  rw [unsignedBitsize_err h2 h9 hv]
  intro a h
  cases h

theorem writeVarintType_refused (md : Mode) {m : Nat} {v : Int} (h2 : 2 ≤ m) (h9 : m ≤ 9)
    (hv : capacitySigned m m ≤ v.natAbs) (hmin : v ≠ -2 ^ 63) (w : Writer) :
    Refused (writeVarintType md w v m) := by
  unfold writeVarintType
  rw [signedBitsize_err md h2 h9 hmin hv]
  intro a h
  simp only [bind_ite] at h
  obtain ⟨_, _, h⟩ := Res.bind_eq_ok.1 h
  cases h

/-- **C03** A value outside the range of its type is never written: the call errs or panics.  (For
`varint64` the value `i64::MIN` is treated separately, see `C03_varint64_min_violated`; `varuint`
and `varint` have no other out-of-range values.) -/
theorem C03_out_of_range_refused_partial (md : Mode) (w : Writer) :
    (∀ v : Nat, 2 ^ 15 ≤ v → Refused (writeVaruint16 w v)) ∧
    (∀ v : Nat, 2 ^ 29 ≤ v → Refused (writeVaruint32 w v)) ∧
    (∀ v : Nat, 2 ^ 57 ≤ v → Refused (writeVaruint64 w v)) ∧
    (∀ v : Nat, 2 ^ 31 ≤ v → Refused (writeVarsize w v)) ∧
    (∀ v : Int, -(2 ^ 63) < v → (v ≤ -(2 ^ 14) ∨ 2 ^ 14 ≤ v) → Refused (writeVarint16 md w v)) ∧
    (∀ v : Int, -(2 ^ 63) < v → (v ≤ -(2 ^ 28) ∨ 2 ^ 28 ≤ v) → Refused (writeVarint32 md w v)) ∧
    (∀ v : Int, -(2 ^ 63) < v → (v ≤ -(2 ^ 56) ∨ 2 ^ 56 ≤ v) → Refused (writeVarint64 md w v)) := by
  refine ⟨fun v h => writeVaruintType_refused (by decide) (by decide) (by rw [cap2]; omega) w,
    fun v h => writeVaruintType_refused (by decide) (by decide) (by rw [cap4]; omega) w,
    fun v h => writeVaruintType_refused (by decide) (by decide) (by rw [cap8]; omega) w,
    fun v h => ?_,
    fun v h0 h => writeVarintType_refused md (by decide) (by decide) (by rw [caps2]; omega)
      (by omega) w,
    fun v h0 h => writeVarintType_refused md (by decide) (by decide) (by rw [caps4]; omega)
      (by omega) w,
    fun v h0 h => writeVarintType_refused md (by decide) (by decide) (by rw [caps8]; omega)
      (by omega) w⟩
  have : maxVarsize = 2 ^ 31 - 1 := rfl
  unfold writeVarsize
  rw [if_neg (by omega)]
  intro a h
  cases h

example : Refused (writeVaruint16 ⟨[]⟩ 32768) :=
  (C03_out_of_range_refused_partial .debug ⟨[]⟩).1 _ (by decide)

/-- **C03, violated**: in a release build `varint64` accepts the out-of-range value `i64::MIN` and
stores 0 (the byte `0x80`) in its place. -/
theorem C03_varint64_min_violated :
    (∀ w, writeVarint64 .release w (-(2 ^ 63)) = .ok (w.append (bytesBits [0x80]))) ∧
    (∀ pos after, readVarint64 ⟨pos, bytesBits [0x80] ++ after⟩ = .ok (0, ⟨pos + 8, after⟩)) := by
  constructor
  · intro w
    have e : signedBitsize .release (-(2 ^ 63)) 8 = .ok 8 := by
      show signedBitsizeLoop (-(2 ^ 63)) 8 1 _ = _
      rw [signedBitsizeLoop]; rfl
    unfold writeVarint64 writeVarintType
    rw [e]
    rfl
  · intro pos after
    have := readSizedInt_varintBits (neg := true) (v := 0) (k := 1) (m := 8) (by decide)
      (by decide) (by decide) (by decide) pos after
    have e : varintBits true 0 1 8 = bytesBits [0x80] := by decide
    rw [e] at this
    exact this

/-! ## C04 -/

/-- A size function is exact and minimal for an unsigned type of at most `maxBytes` bytes. -/
def ExactMinimal (maxBytes : Nat) (capacity : Nat → Nat → Nat) (magnitude : Nat)
    (size : Res Nat) (write : Writer → Res Writer) : Prop :=
  ∃ bytes, size = .ok (8 * bytes) ∧ 1 ≤ bytes ∧ bytes ≤ maxBytes ∧ Emits write (8 * bytes) ∧
    magnitude < capacity maxBytes bytes ∧
    ∀ fewer, 1 ≤ fewer → fewer < bytes → capacity maxBytes fewer ≤ magnitude

/-- **C04** The size functions of the unsigned variable-length types return exactly the number of
bits written, in whole bytes, at most the maximum, and the least number of bytes that holds the
value. -/
theorem C04_varuint_sizes_exact_minimal :
    (∀ v < 2 ^ 15, ExactMinimal 2 capacity v (varuint16Bitsize v) (writeVaruint16 · v)) ∧
    (∀ v < 2 ^ 29, ExactMinimal 4 capacity v (varuint32Bitsize v) (writeVaruint32 · v)) ∧
    (∀ v < 2 ^ 57, ExactMinimal 8 capacity v (varuint64Bitsize v) (writeVaruint64 · v)) ∧
    (∀ v < 2 ^ 64, ExactMinimal 9 capacity v (varuintBitsize v) (writeVaruint · v)) ∧
    (∀ v < 2 ^ 31, ExactMinimal 5 capacity v (varsizeBitsize v) (writeVarsize · v)) := by
  have key : ∀ {m v : Nat}, 2 ≤ m → m ≤ 9 → v < capacity m m →
      ExactMinimal m capacity v (unsignedBitsize v m) (writeVaruintType · v m) := by
    intro m v h2 h9 hv
    obtain ⟨k, a1, a2, a3, a4, a5, a6, a7, _⟩ := varuint_all h2 h9 hv
    refine ⟨k, by rw [a5, Nat.mul_comm], a1, a2, ?_, a3, a4⟩
    rw [Nat.mul_comm, ← a7]
    exact emits_of_bits _ a6
  refine ⟨fun v hv => key (by decide) (by decide) (by rw [cap2]; omega),
    fun v hv => key (by decide) (by decide) (by rw [cap4]; omega),
    fun v hv => key (by decide) (by decide) (by rw [cap8]; omega),
    fun v hv => key (by decide) (by decide) (by rw [cap9]; omega), fun v hv => ?_⟩
  obtain ⟨k, a1, a2, a3, a4, a5, a6, a7, _⟩ := varsize_all hv
  refine ⟨k, by rw [a5, Nat.mul_comm], a1, a2, ?_, a3, a4⟩
  rw [Nat.mul_comm, ← a7]
  exact emits_of_bits _ a6

/-- **C04** The same for the signed types (their magnitude decides). -/
theorem C04_varint_sizes_exact_minimal (md : Mode) :
    (∀ v : Int, v.natAbs < 2 ^ 14 →
      ExactMinimal 2 capacitySigned v.natAbs (varint16Bitsize md v) (writeVarint16 md · v)) ∧
    (∀ v : Int, v.natAbs < 2 ^ 28 →
      ExactMinimal 4 capacitySigned v.natAbs (varint32Bitsize md v) (writeVarint32 md · v)) ∧
    (∀ v : Int, v.natAbs < 2 ^ 56 →
      ExactMinimal 8 capacitySigned v.natAbs (varint64Bitsize md v) (writeVarint64 md · v)) ∧
    (∀ v : Int, v.natAbs < 2 ^ 63 →
      ExactMinimal 9 capacitySigned v.natAbs (varintBitsize md v) (writeVarint md · v)) := by
  have key : ∀ {m : Nat} {v : Int}, 2 ≤ m → m ≤ 9 → v.natAbs < capacitySigned m m →
      ExactMinimal m capacitySigned v.natAbs (signedBitsize md v m) (writeVarintType md · v m) := by
    intro m v h2 h9 hv
    obtain ⟨k, a1, a2, a3, a4, a5, a6, a7, _⟩ := varint_all md h2 h9 hv
    refine ⟨k, by rw [a5, Nat.mul_comm], a1, a2, ?_, a3, a4⟩
    rw [Nat.mul_comm, ← a7]
    exact emits_of_bits _ a6
  exact ⟨fun v hv => key (by decide) (by decide) (by rw [caps2]; omega),
    fun v hv => key (by decide) (by decide) (by rw [caps4]; omega),
    fun v hv => key (by decide) (by decide) (by rw [caps8]; omega),
    fun v hv => key (by decide) (by decide) (by rw [caps9]; omega)⟩

example : ExactMinimal 2 capacity 200 (varuint16Bitsize 200) (writeVaruint16 · 200) :=
  C04_varuint_sizes_exact_minimal.1 200 (by decide)
example : varuint16Bitsize 127 = .ok 8 ∧ varuint16Bitsize 128 = .ok 16 := by
  decide +kernel

theorem ExactMinimal.mono {m a b : Nat} {cap : Nat → Nat → Nat} {sa sb : Nat}
    {wa wb : Writer → Res Writer} (ha : ExactMinimal m cap a (.ok sa) wa)
    (hb : ExactMinimal m cap b (.ok sb) wb) (hab : a ≤ b) : sa ≤ sb := by
  obtain ⟨k, e1, h1, _, _, h4, h5⟩ := ha
  obtain ⟨l, e2, g1, _, _, g4, g5⟩ := hb
  cases e1
  cases e2
  by_cases h : l < k
  · have := h5 l g1 h
    omega
  · omega

/-- **C04** Sizes never decrease when the (magnitude of the) value grows. -/
theorem C04_sizes_monotone (md : Mode) :
    (∀ a b sa sb : Nat, a ≤ b → b < 2 ^ 64 → varuintBitsize a = .ok sa → varuintBitsize b = .ok sb →
      sa ≤ sb) ∧
    (∀ a b sa sb : Nat, a ≤ b → b < 2 ^ 57 → varuint64Bitsize a = .ok sa →
      varuint64Bitsize b = .ok sb → sa ≤ sb) ∧
    (∀ a b sa sb : Nat, a ≤ b → b < 2 ^ 29 → varuint32Bitsize a = .ok sa →
      varuint32Bitsize b = .ok sb → sa ≤ sb) ∧
    (∀ a b sa sb : Nat, a ≤ b → b < 2 ^ 15 → varuint16Bitsize a = .ok sa →
      varuint16Bitsize b = .ok sb → sa ≤ sb) ∧
    (∀ a b sa sb : Nat, a ≤ b → b < 2 ^ 31 → varsizeBitsize a = .ok sa →
      varsizeBitsize b = .ok sb → sa ≤ sb) ∧
    (∀ (a b : Int) (sa sb : Nat), a.natAbs ≤ b.natAbs → b.natAbs < 2 ^ 63 →
      varintBitsize md a = .ok sa → varintBitsize md b = .ok sb → sa ≤ sb) ∧
    (∀ (a b : Int) (sa sb : Nat), a.natAbs ≤ b.natAbs → b.natAbs < 2 ^ 56 →
      varint64Bitsize md a = .ok sa → varint64Bitsize md b = .ok sb → sa ≤ sb) ∧
    (∀ (a b : Int) (sa sb : Nat), a.natAbs ≤ b.natAbs → b.natAbs < 2 ^ 28 →
      varint32Bitsize md a = .ok sa → varint32Bitsize md b = .ok sb → sa ≤ sb) ∧
    (∀ (a b : Int) (sa sb : Nat), a.natAbs ≤ b.natAbs → b.natAbs < 2 ^ 14 →
      varint16Bitsize md a = .ok sa → varint16Bitsize md b = .ok sb → sa ≤ sb) := by
  obtain ⟨u1, u2, u3, u4, u5⟩ := C04_varuint_sizes_exact_minimal
  obtain ⟨s1, s2, s3, s4⟩ := C04_varint_sizes_exact_minimal md
  refine ⟨?_, ?_, ?_, ?_, ?_, ?_, ?_, ?_, ?_⟩ <;> intro a b sa sb hab hb ea eb
  · exact ExactMinimal.mono (ea ▸ u4 a (by omega)) (eb ▸ u4 b hb) hab
  · exact ExactMinimal.mono (ea ▸ u3 a (by omega)) (eb ▸ u3 b hb) hab
  · exact ExactMinimal.mono (ea ▸ u2 a (by omega)) (eb ▸ u2 b hb) hab
  · exact ExactMinimal.mono (ea ▸ u1 a (by omega)) (eb ▸ u1 b hb) hab
  · exact ExactMinimal.mono (ea ▸ u5 a (by omega)) (eb ▸ u5 b hb) hab
  · exact ExactMinimal.mono (ea ▸ s4 a (by omega)) (eb ▸ s4 b hb) hab
  · exact ExactMinimal.mono (ea ▸ s3 a (by omega)) (eb ▸ s3 b hb) hab
  · exact ExactMinimal.mono (ea ▸ s2 a (by omega)) (eb ▸ s2 b hb) hab
  · exact ExactMinimal.mono (ea ▸ s1 a (by omega)) (eb ▸ s1 b hb) hab

/-! ## C05 -/

/-- `n` is the least number of bytes whose capacity exceeds `x`. -/
def LeastBytes (cap : Nat → Nat) (x n : Nat) : Prop :=
  1 ≤ n ∧ x < cap n ∧ ∀ fewer, 1 ≤ fewer → fewer < n → cap fewer ≤ x

/-- **C05** The bytes written for an unsigned variable-length integer are those of the zserio
layout `layoutVaruint`, in the least possible number of bytes. -/
theorem C05_varuint_layout :
    (∀ v < 2 ^ 15, ∃ n, LeastBytes (capacity 2) v n ∧
      EmitsBytes (writeVaruint16 · v) ((layoutVaruint 2 n v).map UInt8.ofNat)) ∧
    (∀ v < 2 ^ 29, ∃ n, LeastBytes (capacity 4) v n ∧
      EmitsBytes (writeVaruint32 · v) ((layoutVaruint 4 n v).map UInt8.ofNat)) ∧
    (∀ v < 2 ^ 57, ∃ n, LeastBytes (capacity 8) v n ∧
      EmitsBytes (writeVaruint64 · v) ((layoutVaruint 8 n v).map UInt8.ofNat)) ∧
    (∀ v < 2 ^ 64, ∃ n, LeastBytes (capacity 9) v n ∧
      EmitsBytes (writeVaruint · v) ((layoutVaruint 9 n v).map UInt8.ofNat)) ∧
    (∀ v < 2 ^ 31, ∃ n, LeastBytes (capacity 5) v n ∧
      EmitsBytes (writeVarsize · v) ((layoutVaruint 5 n v).map UInt8.ofNat)) := by
  have key : ∀ {m v : Nat}, 2 ≤ m → m ≤ 9 → v < capacity m m → ∃ n, LeastBytes (capacity m) v n ∧
      EmitsBytes (writeVaruintType · v m) ((layoutVaruint m n v).map UInt8.ofNat) := by
    intro m v h2 h9 hv
    obtain ⟨k, a1, a2, a3, a4, a5, a6, a7, _⟩ := varuint_all h2 h9 hv
    refine ⟨k, ⟨a1, a3, a4⟩, fun before => ?_⟩
    simp only [a6, varuintBits_layout a1]; rfl
  refine ⟨fun v hv => key (by decide) (by decide) (by rw [cap2]; omega),
    fun v hv => key (by decide) (by decide) (by rw [cap4]; omega),
    fun v hv => key (by decide) (by decide) (by rw [cap8]; omega),
    fun v hv => key (by decide) (by decide) (by rw [cap9]; omega), fun v hv => ?_⟩
  obtain ⟨k, a1, a2, a3, a4, a5, a6, a7, _⟩ := varsize_all hv
  refine ⟨k, ⟨a1, a3, a4⟩, fun before => ?_⟩
  simp only [a6, varuintBits_layout a1]; rfl

/-- **C05** The bytes written for a signed variable-length integer: sign, flag and 6 bits first. -/
theorem C05_varint_layout (md : Mode) :
    (∀ v : Int, v.natAbs < 2 ^ 14 → ∃ n, LeastBytes (capacitySigned 2) v.natAbs n ∧
      EmitsBytes (writeVarint16 md · v)
        ((layoutVarint 2 n (decide (v < 0)) v.natAbs).map UInt8.ofNat)) ∧
    (∀ v : Int, v.natAbs < 2 ^ 28 → ∃ n, LeastBytes (capacitySigned 4) v.natAbs n ∧
      EmitsBytes (writeVarint32 md · v)
        ((layoutVarint 4 n (decide (v < 0)) v.natAbs).map UInt8.ofNat)) ∧
    (∀ v : Int, v.natAbs < 2 ^ 56 → ∃ n, LeastBytes (capacitySigned 8) v.natAbs n ∧
      EmitsBytes (writeVarint64 md · v)
        ((layoutVarint 8 n (decide (v < 0)) v.natAbs).map UInt8.ofNat)) ∧
    (∀ v : Int, v.natAbs < 2 ^ 63 → ∃ n, LeastBytes (capacitySigned 9) v.natAbs n ∧
      EmitsBytes (writeVarint md · v)
        ((layoutVarint 9 n (decide (v < 0)) v.natAbs).map UInt8.ofNat)) := by
  have key : ∀ {m : Nat} {v : Int}, 2 ≤ m → m ≤ 9 → v.natAbs < capacitySigned m m →
      ∃ n, LeastBytes (capacitySigned m) v.natAbs n ∧ EmitsBytes (writeVarintType md · v m)
        ((layoutVarint m n (decide (v < 0)) v.natAbs).map UInt8.ofNat) := by
    intro m v h2 h9 hv
    obtain ⟨k, a1, a2, a3, a4, a5, a6, a7, _⟩ := varint_all md h2 h9 hv
    refine ⟨k, ⟨a1, a3, a4⟩, fun before => ?_⟩
    simp only [a6, varintBits_layout h2 a1 a3]; rfl
  exact ⟨fun v hv => key (by decide) (by decide) (by rw [caps2]; omega),
    fun v hv => key (by decide) (by decide) (by rw [caps4]; omega),
    fun v hv => key (by decide) (by decide) (by rw [caps8]; omega),
    fun v hv => key (by decide) (by decide) (by rw [caps9]; omega)⟩

example : layoutVaruint 2 2 0x7fff = [0xff, 0xff] ∧ layoutVaruint 4 2 300 = [0x82, 0x2c] := by decide
example : layoutVarint 4 2 true 300 = [0xc2, 0x2c] ∧ layoutVarint 4 1 true 5 = [0x85] := by decide

/-! ## C06 -/

/-- **C06** Fixed-width integers of every width up to 64 are read back exactly and take exactly
their width in bits. -/
theorem C06_fixed_width_round_trip :
    (∀ n v : Nat, n ≤ 64 → v < 2 ^ n →
      RoundTrips (writeUnsignedBits · v n) (readUnsignedBits · n) v ∧
      Emits (writeUnsignedBits · v n) n) ∧
    (∀ (n : Nat) (v : Int), 1 ≤ n → n ≤ 64 → -(2 ^ (n - 1) : Int) ≤ v → v < 2 ^ (n - 1) →
      RoundTrips (writeSignedBits · v n) (readSignedBits · n) v ∧
      Emits (writeSignedBits · v n) n) ∧
    (∀ n v : Nat, n ∈ [8, 16, 32, 64] → v < 2 ^ n →
      RoundTrips (writeUint n · v) (readUint n) v ∧ Emits (writeUint n · v) n) ∧
    (∀ (n : Nat) (v : Int), n ∈ [8, 16, 32, 64] → -(2 ^ (n - 1) : Int) ≤ v → v < 2 ^ (n - 1) →
      RoundTrips (writeInt n · v) (readInt n) v ∧ Emits (writeInt n · v) n) := by
  refine ⟨fun n v h hv => ?_, fun n v h0 h h1 h2 => ?_, fun n v h hv => ?_, fun n v h h1 h2 => ?_⟩
  · have hw : ∀ w, writeUnsignedBits w v n = .ok (w.append (natBits n v)) := by
      intro w
      rw [writeUnsignedBits, if_neg (by omega), Writer.writeUnsigned, if_neg (by omega)]
    refine ⟨roundTrips_of_bits _ hw (fun pos after => ?_), ?_⟩
    · rw [readUnsignedBits, if_neg (by omega), natBits_length]
      exact Reader.readUnsigned_append h hv pos after
    · have := emits_of_bits _ hw; rwa [natBits_length] at this
  · have hw : ∀ w, writeSignedBits w v n = .ok (w.append (natBits n (asU64 v))) := by
      intro w
      rw [writeSignedBits, if_neg (by omega), Writer.writeSigned, if_neg (by omega)]
    refine ⟨roundTrips_of_bits _ hw (fun pos after => ?_), ?_⟩
    · rw [readSignedBits, if_neg (by omega), natBits_length]
      exact Reader.readSigned_append h0 h h h1 h2 pos after
    · have := emits_of_bits _ hw; rwa [natBits_length] at this
  · have hn : n ≤ 64 := by simp at h; omega
    have hw : ∀ w, writeUint n w v = .ok (w.append (natBits n v)) := by
      intro w
      rw [writeUint, writeUnsignedBits, if_neg (by omega), Writer.writeUnsigned, if_neg (by omega)]
    refine ⟨roundTrips_of_bits _ hw (fun pos after => ?_), ?_⟩
    · rw [natBits_length]
      exact Reader.readUnsigned_append (Nat.le_refl n) hv pos after
    · have := emits_of_bits _ hw; rwa [natBits_length] at this
  · have hn : n ≤ 64 ∧ 0 < n := by simp at h; omega
    have hw : ∀ w, writeInt n w v = .ok (w.append (natBits n (asU64 v))) := by
      intro w
      rw [writeInt, Writer.writeSigned, if_neg (by omega)]
    refine ⟨roundTrips_of_bits _ hw (fun pos after => ?_), ?_⟩
    · rw [natBits_length]
      exact Reader.readSigned_append hn.2 hn.1 (Nat.le_refl n) h1 h2 pos after
    · have := emits_of_bits _ hw; rwa [natBits_length] at this

example : RoundTrips (writeSignedBits · (-3) 3) (readSignedBits · 3) (-3) :=
  (C06_fixed_width_round_trip.2.1 3 (-3) (by decide) (by decide) (by decide) (by decide)).1

/-! ## C07 -/

theorem bitLengthByte_spec : ∀ x : Fin 256,
    bitLengthByte[x.val]? = some (if x.val = 0 then 0 else Nat.log2 x.val + 1) := by decide +kernel

theorem isBitLength_small {x : Nat} :
    IsBitLength x (if x = 0 then 0 else Nat.log2 x + 1) := by
  by_cases h0 : x = 0
  · subst h0; exact ⟨by simp, by simp⟩
  · rw [if_neg h0]
    refine ⟨Nat.lt_log2_self, fun m hm => ?_⟩
    have := (Nat.log2_lt h0).2 hm
    omega

theorem isBitLength_shift {x s k : Nat} (h : IsBitLength (x >>> s) k) (hx : 2 ^ s ≤ x) :
    IsBitLength x (s + k) := by
  rw [Nat.shiftRight_eq_div_pow] at h
  have hp : 0 < 2 ^ s := Nat.pow_pos (by decide)
  refine ⟨?_, fun m hm => ?_⟩
  · have := (Nat.div_lt_iff_lt_mul hp).1 h.1
    rwa [← Nat.pow_add, Nat.add_comm] at this
  · have hsm : s ≤ m := by
      by_cases hc : s ≤ m
      · exact hc
      · have : 2 ^ m ≤ 2 ^ s := Nat.pow_le_pow_right (by decide) (by omega)
        omega
    have := h.2 (m - s) (by
      rw [Nat.div_lt_iff_lt_mul hp, ← Nat.pow_add]
      rwa [Nat.sub_add_cancel hsm])
    omega

theorem bitLength_spec {x : Nat} (hx : x < 2 ^ 64) :
    ∃ n, bitLength (x : Int) = .ok n ∧ IsBitLength x n := by
  have h8 : ∀ (x n : Nat), x < 2 ^ 8 → ∃ k, (match bitLengthByte[x]? with
      | some k => Res.ok (n + k)
      | none => .panic) = .ok (n + k) ∧ IsBitLength x k := by
    intro x n hx
    refine ⟨_, ?_, isBitLength_small⟩
    rw [bitLengthByte_spec ⟨x, by omega⟩]
  have h16 : ∀ (x n : Nat), x < 2 ^ 16 → ∃ k, (
      let (x, n) := if x ≥ 1 <<< 8 then (x >>> 8, n + 8) else (x, n)
      match bitLengthByte[x]? with
      | some k => Res.ok (n + k)
      | none => .panic) = .ok (n + k) ∧ IsBitLength x k := by
    intro x n hx
    by_cases h : x ≥ 1 <<< 8
    · obtain ⟨k, e, hk⟩ := h8 (x >>> 8) (n + 8) (by rw [Nat.shiftRight_eq_div_pow]; omega)
      refine ⟨8 + k, ?_, isBitLength_shift hk h⟩
      simp only [if_pos h]
      rw [e, Nat.add_assoc]
    · obtain ⟨k, e, hk⟩ := h8 x n (by simp at h; omega)
      refine ⟨k, ?_, hk⟩
      simp only [if_neg h]
      rw [e]
  have h32 : ∀ (x n : Nat), x < 2 ^ 32 → ∃ k, (
      let (x, n) := if x ≥ 1 <<< 16 then (x >>> 16, n + 16) else (x, n)
      let (x, n) := if x ≥ 1 <<< 8 then (x >>> 8, n + 8) else (x, n)
      match bitLengthByte[x]? with
      | some k => Res.ok (n + k)
      | none => .panic) = .ok (n + k) ∧ IsBitLength x k := by
    intro x n hx
    by_cases h : x ≥ 1 <<< 16
    · obtain ⟨k, e, hk⟩ := h16 (x >>> 16) (n + 16) (by rw [Nat.shiftRight_eq_div_pow]; omega)
      refine ⟨16 + k, ?_, isBitLength_shift hk h⟩
      simp only [if_pos h]
      simp only at e
      rw [e, Nat.add_assoc]
    · obtain ⟨k, e, hk⟩ := h16 x n (by simp at h; omega)
      refine ⟨k, ?_, hk⟩
      simp only [if_neg h]
      exact e
  unfold bitLength
  rw [if_neg (by omega), Int.toNat_natCast]
  by_cases h : x ≥ 1 <<< 32
  · obtain ⟨k, e, hk⟩ := h32 (x >>> 32) 32 (by rw [Nat.shiftRight_eq_div_pow]; omega)
    refine ⟨32 + k, ?_, isBitLength_shift hk h⟩
    simp only [if_pos h]
    exact e
  · obtain ⟨k, e, hk⟩ := h32 x 0 (by simp at h; omega)
    refine ⟨k, ?_, hk⟩
    simp only [if_neg h]
    simp only [Nat.zero_add] at e ⊢
    exact e

/-- **C07** `bit_length(v)` is the least `n` with `v < 2^n`; `numbits(v)` is 0 for 0, 1 for 1, and
otherwise the least `n` such that `n` bits can number `v` values; neither panics on a `u64`. -/
theorem C07_bit_length_numbits :
    (∀ v : Nat, v < 2 ^ 64 → ∃ n, bitLength (v : Int) = .ok n ∧ v < 2 ^ n ∧
      ∀ m, v < 2 ^ m → n ≤ m) ∧
    (∀ v : Nat, v < 2 ^ 64 → ∃ n, numbits (v : Int) = .ok n ∧
      (v = 0 → n = 0) ∧ (v = 1 → n = 1) ∧
      (2 ≤ v → v ≤ 2 ^ n ∧ ∀ m, v ≤ 2 ^ m → n ≤ m)) := by
  refine ⟨fun v hv => ?_, fun v hv => ?_⟩
  · obtain ⟨n, e, h⟩ := bitLength_spec hv
    exact ⟨n, e, h.1, h.2⟩
  · by_cases h0 : v = 0
    · subst h0
      exact ⟨0, rfl, fun _ => rfl, by omega, by omega⟩
    · by_cases h1 : v = 1
      · subst h1
        exact ⟨1, rfl, by omega, fun _ => rfl, by omega⟩
      · obtain ⟨n, e, h⟩ := bitLength_spec (x := v - 1) (by omega)
        refine ⟨n, ?_, by omega, by omega, fun h2 => ⟨?_, fun m hm => h.2 m (by omega)⟩⟩
        · unfold numbits
          rw [if_neg (by omega), if_neg (by omega), ← e]
          congr 1; omega
        · have := h.1; omega

example : bitLength 255 = .ok 8 ∧ bitLength (2 ^ 40) = .ok 41 ∧ numbits 257 = .ok 9 := by decide

/-! ## C08 -/

/-- **C08** For every alignment and position, writer, reader and size function move to the next
multiple of the alignment, by the same number of bits, which is the least possible; the padding is
zero and reading continues with what follows the padding. -/
theorem C08_alignment (a : Nat) (ha : 1 ≤ a) (before : List Bool) :
    ∃ pad, pad < a ∧ a ∣ before.length + pad ∧
      (∀ fewer, a ∣ before.length + fewer → pad ≤ fewer) ∧
      alignWriter ⟨before⟩ a = .ok ⟨before ++ List.replicate pad false⟩ ∧
      alignBitsize before.length a = .ok pad ∧
      ∀ padding after, padding.length = pad →
        alignReader ⟨before.length, padding ++ after⟩ a = .ok ⟨before.length + pad, after⟩ := by
  have hmod := Nat.mod_lt before.length (show 0 < a by omega)
  have hdm := Nat.div_add_mod before.length a
  refine ⟨(a - before.length % a) % a, Nat.mod_lt _ (by omega), ?_, ?_, ?_, ?_, ?_⟩
  · by_cases h : before.length % a = 0
    · rw [h, Nat.sub_zero, Nat.mod_self, Nat.add_zero]; exact Nat.dvd_of_mod_eq_zero h
    · rw [Nat.mod_eq_of_lt (by omega)]
      refine ⟨before.length / a + 1, ?_⟩
      rw [Nat.mul_add]; omega
  · intro fewer hf
    by_cases h : before.length % a = 0
    · rw [h, Nat.sub_zero, Nat.mod_self]; omega
    · rw [Nat.mod_eq_of_lt (by omega)]
      by_cases hc : a ≤ before.length % a + fewer
      · omega
      · have h1 := Nat.mod_eq_zero_of_dvd hf
        rw [Nat.add_mod, Nat.mod_eq_of_lt (show fewer < a by omega), Nat.mod_eq_of_lt (by omega)]
          at h1
        omega
  · unfold alignWriter; rw [if_neg (by omega)]; rfl
  · unfold alignBitsize; rw [if_neg (by omega)]
  · intro padding after hp
    unfold alignReader; rw [if_neg (by omega)]
    show Reader.skip ⟨before.length, padding ++ after⟩ ((a - before.length % a) % a) = _
    rw [← hp, Reader.skip, if_neg (by simp)]
    simp [Reader.advance]

example : alignWriter ⟨[true, false, true]⟩ 8 = .ok ⟨[true, false, true] ++ List.replicate 5 false⟩ := by
  decide

/-- **C08** `align_to` (used nowhere in the read/write path): the next multiple, for every nonzero
position; at position 0 a debug build panics. -/
theorem C08_align_to (md : Mode) (a p : Nat) (ha : 1 ≤ a) (hp : 1 ≤ p) :
    ∃ q, alignTo md a p = .ok q ∧ a ∣ q ∧ p ≤ q ∧ q < p + a ∧
    alignTo .debug a 0 = .panic := by
  refine ⟨((p - 1) / a + 1) * a, ?_, Nat.dvd_mul_left _ _, ?_, ?_, ?_⟩
  · unfold alignTo; rw [if_neg (by omega), if_neg (by omega)]
  · have h1 := Nat.div_add_mod (p - 1) a
    have h2 := Nat.mod_lt (p - 1) (show 0 < a by omega)
    rw [Nat.add_mul, Nat.mul_comm]; omega
  · have h1 := Nat.div_add_mod (p - 1) a
    rw [Nat.add_mul, Nat.mul_comm]; omega
  · unfold alignTo; rw [if_neg (by omega)]; rfl

example : alignTo .debug 8 13 = .ok 16 := by decide

/-! ## C09 -/

/-- The bits `write_string` emits, and everything about them. -/
theorem string_all {s : String} (hs : (strBytes s).length < 2 ^ 31) :
    ∃ bits, (∀ w, writeString w s = .ok (w.append bits)) ∧ bitsizeString s = .ok bits.length ∧
      ∀ pos after, readString ⟨pos, bits ++ after⟩ = .ok (s, ⟨pos + bits.length, after⟩) := by
  obtain ⟨k, a1, a2, a3, a4, a5, a6, a7, a8⟩ := varsize_all hs
  refine ⟨varuintBits (strBytes s).length k 5 ++ bytesBits (strBytes s), fun w => ?_, ?_,
    fun pos after => ?_⟩
  · unfold writeString
    have e : asU32 (strBytes s).length = (strBytes s).length := Nat.mod_eq_of_lt (by omega)
    simp only [e, a6, Res.ok_bind, writeBytes_eq]
    simp [Writer.append]
  · unfold bitsizeString
    have : unsignedBitsize (strBytes s).length 5 = .ok (k * 8) := a5
    rw [this]
    simp [a7, bytesBits_length]
  · unfold readString
    rw [List.append_assoc, a8]
    simp only [Res.unwrap_ok, Res.ok_bind]
    rw [if_neg (by simp [Reader.remaining, bytesBits_length]), Reader.readU8Slice_append]
    simp only [Res.ok_bind, strOfBytes_strBytes, Res.pure_eq]
    congr 3
    simp [bytesBits_length]; omega

/-- **C09** Every string shorter than 2^31 bytes reads back, and takes exactly
`bitsize_string` bits. -/
theorem C09_string_round_trip (s : String) (hs : s.utf8ByteSize < 2 ^ 31) :
    RoundTrips (writeString · s) readString s ∧
    ∃ n, bitsizeString s = .ok n ∧ Emits (writeString · s) n := by
  obtain ⟨bits, h1, h2, h3⟩ := string_all (s := s) (by
    have : s.utf8ByteSize = (strBytes s).length := by
      rw [← String.size_toByteArray]; rfl
    omega)
  exact ⟨roundTrips_of_bits _ h1 h3, bits.length, h2, emits_of_bits _ h1⟩

example : RoundTrips (writeString · "zserio") readString "zserio" :=
  (C09_string_round_trip "zserio" (by decide)).1

/-! ## C10 -/

theorem bytesType_all {b : BytesType} (h1 : b.byteSize = b.dataBlob.length)
    (h2 : b.byteSize < 2 ^ 31) :
    ∃ bits, (∀ w, writeBytesType w b = .ok (w.append bits)) ∧ bitsizeOfBytes b = .ok bits.length ∧
      ∀ pos after, readBytesType ⟨pos, bits ++ after⟩ = .ok (b, ⟨pos + bits.length, after⟩) := by
  obtain ⟨k, a1, a2, a3, a4, a5, a6, a7, a8⟩ := varsize_all h2
  refine ⟨varuintBits b.byteSize k 5 ++ bytesBits b.dataBlob, fun w => ?_, ?_, fun pos after => ?_⟩
  · unfold writeBytesType
    rw [a6, Res.ok_bind, writeBytes_eq]
    simp [Writer.append]
  · unfold bitsizeOfBytes
    rw [a5]
    simp only [Res.unwrap_ok, Res.ok_bind, Res.pure_eq, List.length_append, a7, bytesBits_length]
    rw [h1]
  · unfold readBytesType
    rw [List.append_assoc, a8]
    simp only [Res.ok_bind]
    rw [h1, readBytes_append]
    simp only [Res.ok_bind, Res.pure_eq]
    congr 2
    · obtain ⟨n, blob⟩ := b; simp only at h1; simp [h1]
    · simp [bytesBits_length]; omega

/-- **C10** A `bytes` value whose `byte_size` is its blob's length reads back and takes exactly
`bitsize_of_bytes` bits. -/
theorem C10_bytes_round_trip (b : BytesType) (h1 : b.byteSize = b.dataBlob.length)
    (h2 : b.byteSize < 2 ^ 31) :
    RoundTrips (writeBytesType · b) readBytesType b ∧
    ∃ n, bitsizeOfBytes b = .ok n ∧ Emits (writeBytesType · b) n := by
  obtain ⟨bits, g1, g2, g3⟩ := bytesType_all h1 h2
  exact ⟨roundTrips_of_bits _ g1 g3, bits.length, g2, emits_of_bits _ g1⟩

example : RoundTrips (writeBytesType · ⟨3, [1, 2, 255]⟩) readBytesType ⟨3, [1, 2, 255]⟩ :=
  (C10_bytes_round_trip ⟨3, [1, 2, 255]⟩ rfl (by decide)).1

/-! ## C11 -/

/-- A proper `extern` value: the blob has exactly the bytes needed and the unused low bits of the
last byte are zero. -/
def WellFormedExtern (e : ExternType) : Prop :=
  e.bitSize < 2 ^ 31 ∧ e.dataBlob.length = (e.bitSize + 7) / 8 ∧
  ∀ last, e.dataBlob.getLast? = some last → e.bitSize % 8 ≠ 0 →
    last.toNat % 2 ^ (8 - e.bitSize % 8) = 0

theorem extern_all {e : ExternType} (he : WellFormedExtern e) :
    ∃ bits, (∀ w, writeExternType w e = .ok (w.append bits)) ∧ bitsizeOfExtern e = .ok bits.length ∧
      ∀ pos after, readExternType ⟨pos, bits ++ after⟩ = .ok (e, ⟨pos + bits.length, after⟩) := by
  obtain ⟨n, blob⟩ := e
  obtain ⟨h1, h2, h3⟩ := he
  simp only at h1 h2 h3
  obtain ⟨k, a1, a2, a3, a4, a5, a6, a7, a8⟩ := varsize_all h1
  by_cases hr : n % 8 = 0
  · have hlen : blob.length = n / 8 := by omega
    refine ⟨varuintBits n k 5 ++ bytesBits blob, fun w => ?_, ?_, fun pos after => ?_⟩
    · unfold writeExternType
      rw [a6, Res.ok_bind]
      simp only
      rw [if_neg (by omega), writeBytes_eq, Res.ok_bind, if_neg (by omega), ← hlen, List.take_length]
      simp [Writer.append]
    · unfold bitsizeOfExtern
      rw [a5]
      simp [a7, bytesBits_length]
      omega
    · unfold readExternType
      rw [List.append_assoc, a8]
      simp only [Res.ok_bind]
      rw [← hlen, readBytes_append]
      simp only [Res.ok_bind]
      rw [if_neg (by omega)]
      simp only [Res.pure_eq]
      congr 3
      simp [bytesBits_length]; omega
  · -- a last, partial byte
    have hlen : blob.length = n / 8 + 1 := by omega
    obtain ⟨full, last, rfl⟩ : ∃ full last, blob = full ++ [last] :=
      ⟨blob.dropLast, blob.getLast (by intro h; rw [h] at hlen; simp at hlen),
        (List.dropLast_concat_getLast _).symm⟩
    have hfull : full.length = n / 8 := by simpa using hlen
    have hz := h3 last (by simp) hr
    have hlt : last.toNat >>> (8 - n % 8) < 2 ^ (n % 8) := by
      rw [Nat.shiftRight_eq_div_pow, Nat.div_lt_iff_lt_mul (Nat.pow_pos (by decide)), ← Nat.pow_add,
        (by omega : n % 8 + (8 - n % 8) = 8)]
      exact last.toNat_lt
    have hback : UInt8.ofNat ((last.toNat >>> (8 - n % 8)) <<< (8 - n % 8)) = last := by
      rw [Nat.shiftRight_eq_div_pow, Nat.shiftLeft_eq, Nat.div_mul_cancel (Nat.dvd_of_mod_eq_zero hz)]
      simp
    refine ⟨varuintBits n k 5 ++ (bytesBits full ++ natBits (n % 8) (last.toNat >>> (8 - n % 8))),
      fun w => ?_, ?_, fun pos after => ?_⟩
    · unfold writeExternType
      rw [a6, Res.ok_bind]
      simp only
      rw [if_neg (by omega), writeBytes_eq, Res.ok_bind, if_pos hr, ← hfull, List.take_left]
      simp only [List.getLast?_append, List.getLast?_singleton, Option.some_or,
        Writer.writeUnsigned]
      rw [if_neg (by omega)]
      simp [Writer.append]
    · unfold bitsizeOfExtern
      rw [a5]
      simp [a7, bytesBits_length, natBits_length]
      omega
    · unfold readExternType
      rw [List.append_assoc, a8]
      simp only [Res.ok_bind]
      rw [← hfull, List.append_assoc, readBytes_append]
      simp only [Res.ok_bind]
      rw [if_pos hr, Reader.readUnsigned_append (by omega) hlt]
      simp only [Res.unwrap_ok, Res.ok_bind, Res.pure_eq, hback]
      congr 3
      simp [bytesBits_length, natBits_length]; omega

/-- **C11** Every well-formed `extern` value reads back and takes exactly `bitsize_of_extern`
bits. -/
theorem C11_extern_round_trip (e : ExternType) (he : WellFormedExtern e) :
    RoundTrips (writeExternType · e) readExternType e ∧
    ∃ n, bitsizeOfExtern e = .ok n ∧ Emits (writeExternType · e) n := by
  obtain ⟨bits, g1, g2, g3⟩ := extern_all he
  exact ⟨roundTrips_of_bits _ g1 g3, bits.length, g2, emits_of_bits _ g1⟩

example : WellFormedExtern ⟨11, [0xab, 0x60]⟩ := by
  refine ⟨by decide, by decide, ?_⟩
  intro last h _
  simp at h
  subst h
  decide

/-- A remark on C11: nothing but the blob's length is checked, so an `extern` value with set unused
bits is silently normalised: `⟨3, [0xff]⟩` is written and read back as `⟨3, [0xe0]⟩`. -/
theorem C11_unused_bits_are_dropped :
    ∃ bits, (∀ w, writeExternType w ⟨3, [0xff]⟩ = .ok (w.append bits)) ∧
      ∀ pos after, readExternType ⟨pos, bits ++ after⟩
        = .ok (⟨3, [0xe0]⟩, ⟨pos + bits.length, after⟩) := by
  obtain ⟨k, a1, a2, a3, a4, a5, a6, a7, a8⟩ := varsize_all (v := 3) (by decide)
  refine ⟨varuintBits 3 k 5 ++ natBits 3 7, fun w => ?_, fun pos after => ?_⟩
  · unfold writeExternType
    rw [a6, Res.ok_bind]
    simp [writeBytes, Writer.writeUnsigned, Writer.append]
  · unfold readExternType
    rw [List.append_assoc, a8]
    simp only [Res.ok_bind]
    have h0 := readBytes_append [] (pos + (varuintBits 3 k 5).length) (natBits 3 7 ++ after)
    simp only [bytesBits, List.flatMap_nil, List.nil_append, List.length_nil] at h0
    rw [show (3 : Nat) / 8 = 0 from rfl, h0]
    simp only [Res.ok_bind]
    rw [if_pos (by decide), Reader.readUnsigned_append (by decide) (by decide)]
    simp only [Res.unwrap_ok, Res.ok_bind, Res.pure_eq]
    congr 3
    simp [natBits_length]; omega

end Zs
