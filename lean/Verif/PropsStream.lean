import Verif.PropsScalar

/-!
# Properties C12, C13 (scalar readers), C14, C23, C34, C40, C42
-/

namespace Zs

open Spec

/-! ## C12: panics on corrupt input -/

theorem NeverPanics.readFloat (n : Nat) {α : Type} (f : List UInt8 → α) :
    NeverPanics (fun r => Zs.readBytes r n >>= fun x =>
      if x.1.length = n then (.ok (f x.1, x.2) : Res (α × Reader)) else .err .dataError) :=
  fun r => Res.bind_ne_panic (NeverPanics.readBytes n r) (fun a _ => by split <;> simp)

/-- **C12 (partial)** No scalar reader except those for strings and extern values (and bit widths
above 64, and signed numbers of no bits) panics, whatever the input.  Missing: `string` and `extern`, for which the property is
false (`C12_string_extern_panic_violated`). -/
theorem C12_scalar_readers_never_panic_partial (toF32 : UInt16 → UInt32) :
    (∀ n ≤ 64, NeverPanics (readUnsignedBits · n)) ∧
    (∀ n ≤ 64, 1 ≤ n → NeverPanics (readSignedBits · n)) ∧
    (∀ n, NeverPanics (readUint n)) ∧ (∀ n, 1 ≤ n → NeverPanics (readInt n)) ∧
    NeverPanics Reader.readBool ∧
    NeverPanics readVarsize ∧ NeverPanics readVaruint16 ∧ NeverPanics readVaruint32 ∧
    NeverPanics readVaruint64 ∧ NeverPanics readVaruint ∧
    NeverPanics readVarint16 ∧ NeverPanics readVarint32 ∧
    NeverPanics readVarint64 ∧ NeverPanics readVarint ∧
    NeverPanics readBytesType ∧
    NeverPanics (readFloat16 toF32) ∧ NeverPanics readFloat32 ∧ NeverPanics readFloat64 := by
  refine ⟨fun n hn r => ?_, fun n hn _ r => ?_, fun n => NeverPanics.readUnsigned n n,
    fun n _ => NeverPanics.readSigned n n, NeverPanics.readBool, NeverPanics.readVarsize,
    NeverPanics.map (· % 2 ^ 16) (NeverPanics.readSizedUint 2),
    NeverPanics.map (· % 2 ^ 32) (NeverPanics.readSizedUint 4),
    NeverPanics.readSizedUint 8, NeverPanics.readSizedUint 9,
    NeverPanics.map (wrapSigned 16) (NeverPanics.readSizedInt 2),
    NeverPanics.map (wrapSigned 32) (NeverPanics.readSizedInt 4),
    NeverPanics.readSizedInt 8, NeverPanics.readSizedInt 9, fun r => ?_,
    NeverPanics.readFloat 2 (fun bs => toF32 (UInt16.ofNat (ofBeBytes bs))),
    NeverPanics.readFloat 4 (fun bs => UInt32.ofNat (ofBeBytes bs)),
    NeverPanics.readFloat 8 (fun bs => UInt64.ofNat (ofBeBytes bs))⟩
  · show readUnsignedBits r n ≠ _
    rw [readUnsignedBits, if_neg (by omega)]; exact NeverPanics.readUnsigned n 64 r
  · show readSignedBits r n ≠ _
    rw [readSignedBits, if_neg (by omega)]; exact NeverPanics.readSigned n 64 r
  · exact Res.bind_ne_panic (NeverPanics.readVarsize r) (fun a _ =>
      Res.bind_ne_panic (NeverPanics.readBytes a.1 a.2) (fun b _ => by simp))

example : readVaruint (Reader.ofBytes [0xff, 0x80]) = .err .eof := by decide +kernel

/-- **C12, violated**: reading a string panics on the empty input; reading an extern value panics
when the data ends inside its last partial byte. -/
theorem C12_string_extern_panic_violated :
    fromBytes readString [] = .panic ∧
    fromBytes readExternType [0x03] = .panic ∧
    ¬ NeverPanics readString ∧ ¬ NeverPanics readExternType := by
  refine ⟨by decide +kernel, by decide +kernel, fun h => h (Reader.ofBytes []) (by decide +kernel),
    fun h => h (Reader.ofBytes [0x03]) (by decide +kernel)⟩

/-- **C12** exactly when `read_string` panics: when the length field cannot be read. -/
theorem C12_string_panics_iff (r : Reader) :
    readString r = .panic ↔ ∃ e, readVarsize r = .err e := by
  unfold readString
  cases h : readVarsize r with
  | ok x =>
    simp only [Res.unwrap_ok, Res.ok_bind]
    constructor
    · intro hp
      exfalso
      revert hp
      split
      · simp
      · refine Res.bind_ne_panic ?_ (fun a _ => Res.bind_ne_panic ?_ (fun _ _ => by simp))
        · unfold Reader.readU8Slice; split <;> simp
        · unfold strOfBytes; split <;> simp
    · rintro ⟨e, he⟩; cases he
  | err e => simp
  | panic => exact absurd h (NeverPanics.readVarsize r)

example : ∃ e, readVarsize (Reader.ofBytes [0x80]) = .err e := ⟨.eof, by decide +kernel⟩

/-! ## C13: truncation -/

theorem Local.readString : Local readString := by
  refine Local.bind (Local.unwrap Local.readVarsize) (g := fun n r =>
    if r.remaining < n * 8 then .err .ioError
    else do
      let (buffer, r) ← r.readU8Slice n
      let s ← strOfBytes buffer
      .ok (s, r)) (fun n => ?_)
  intro r v r' h
  simp only at h
  split at h
  · cases h
  · have hl : Local (fun r => r.readU8Slice n >>= fun x =>
        strOfBytes x.1 >>= fun s => (.ok (s, x.2) : Res (String × Reader))) :=
      Local.bind (Local.readU8Slice n) (fun b => Local.lift (strOfBytes b) (fun s => Local.pure s))
    obtain ⟨used, e, p, k⟩ := hl r v r' h
    refine ⟨used, e, p, fun after => ?_⟩
    have h2 := k after
    have hlen : ¬ (used ++ after).length < n * 8 := by
      intro hc
      simp only [Reader.readU8Slice] at h2
      rw [if_pos hc] at h2
      cases h2
    show (if Reader.remaining ⟨r.pos, used ++ after⟩ < n * 8 then _ else _) = _
    rw [if_neg (show ¬ Reader.remaining ⟨r.pos, used ++ after⟩ < n * 8 from hlen)]
    exact h2

theorem Local.readBytesType : Local readBytesType :=
  Local.bind Local.readVarsize (fun n => Local.map (fun blob => (⟨n, blob⟩ : BytesType))
    (Local.readBytes n))

theorem Local.readExternType : Local readExternType := by
  refine Local.bind Local.readVarsize (g := fun n r => do
    let (externBytes, r) ← Zs.readBytes r (n / 8)
    if n % 8 ≠ 0 then do
      let (lastByte, r) ← (r.readUnsigned (n % 8) 8).unwrap
      .ok ((⟨n, externBytes ++ [UInt8.ofNat (lastByte <<< (8 - n % 8))]⟩ : ExternType), r)
    else .ok ((⟨n, externBytes⟩ : ExternType), r)) (fun n => ?_)
  refine Local.bind (Local.readBytes (n / 8)) (g := fun externBytes r =>
    if n % 8 ≠ 0 then do
      let (lastByte, r) ← (r.readUnsigned (n % 8) 8).unwrap
      .ok ((⟨n, externBytes ++ [UInt8.ofNat (lastByte <<< (8 - n % 8))]⟩ : ExternType), r)
    else .ok ((⟨n, externBytes⟩ : ExternType), r)) (fun bs => ?_)
  exact Local.ite
    (Local.map (fun b => (⟨n, bs ++ [UInt8.ofNat (b <<< (8 - n % 8))]⟩ : ExternType))
      (Local.unwrap (Local.readUnsigned (n % 8) 8)))
    (Local.pure _)

theorem Local.readFloat (n : Nat) {α : Type} (f : List UInt8 → α) :
    Local (fun r => Zs.readBytes r n >>= fun x =>
      if x.1.length = n then (.ok (f x.1, x.2) : Res (α × Reader)) else .err .dataError) :=
  Local.bind (Local.readBytes n) (g := fun bs r =>
    if bs.length = n then (.ok (f bs, r) : Res (α × Reader)) else .err .dataError)
    (fun bs => Local.ite (Local.pure _) (Local.err _))

theorem Local.readUnsignedBits (n : Nat) : Local (readUnsignedBits · n) := by
  unfold Zs.readUnsignedBits
  exact Local.ite Local.panic (Local.readUnsigned n 64)

theorem Local.readSignedBits (n : Nat) : Local (readSignedBits · n) := by
  unfold Zs.readSignedBits
  exact Local.ite Local.panic (Local.readSigned n 64)

/-- Every scalar reader uses a prefix of its input and nothing else. -/
theorem C13_scalar_readers_local (toF32 : UInt16 → UInt32) :
    (∀ n, Local (readUnsignedBits · n)) ∧ (∀ n, Local (readSignedBits · n)) ∧
    (∀ n, Local (readUint n)) ∧ (∀ n, Local (readInt n)) ∧ Local Reader.readBool ∧
    Local readVarsize ∧ Local readVaruint16 ∧ Local readVaruint32 ∧ Local readVaruint64 ∧
    Local readVaruint ∧ Local readVarint16 ∧ Local readVarint32 ∧ Local readVarint64 ∧
    Local readVarint ∧ Local readString ∧ Local readBytesType ∧ Local readExternType ∧
    Local (readFloat16 toF32) ∧ Local readFloat32 ∧ Local readFloat64 :=
  ⟨Local.readUnsignedBits, Local.readSignedBits, fun n => Local.readUnsigned n n,
    fun n => Local.readSigned n n, Local.readBool, Local.readVarsize,
    Local.map (· % 2 ^ 16) (Local.readSizedUint (by decide)),
    Local.map (· % 2 ^ 32) (Local.readSizedUint (by decide)),
    Local.readSizedUint (by decide), Local.readSizedUint (by decide),
    Local.map (wrapSigned 16) (Local.readSizedInt 2),
    Local.map (wrapSigned 32) (Local.readSizedInt 4),
    Local.readSizedInt 8, Local.readSizedInt 9, Local.readString, Local.readBytesType,
    Local.readExternType,
    Local.readFloat 2 (fun bs => toF32 (UInt16.ofNat (ofBeBytes bs))),
    Local.readFloat 4 (fun bs => UInt32.ofNat (ofBeBytes bs)),
    Local.readFloat 8 (fun bs => UInt64.ofNat (ofBeBytes bs))⟩

/-- **C13** (scalars) No proper prefix of the encoding of a scalar is accepted. -/
theorem C13_scalar_truncation (md : Mode) :
    (∀ v < 2 ^ 15, RejectsTruncation (writeVaruint16 · v) readVaruint16) ∧
    (∀ v < 2 ^ 29, RejectsTruncation (writeVaruint32 · v) readVaruint32) ∧
    (∀ v < 2 ^ 57, RejectsTruncation (writeVaruint64 · v) readVaruint64) ∧
    (∀ v < 2 ^ 64, RejectsTruncation (writeVaruint · v) readVaruint) ∧
    (∀ v < 2 ^ 31, RejectsTruncation (writeVarsize · v) readVarsize) ∧
    (∀ v : Int, -(2 ^ 14) < v → v < 2 ^ 14 →
      RejectsTruncation (writeVarint16 md · v) readVarint16) ∧
    (∀ v : Int, -(2 ^ 28) < v → v < 2 ^ 28 →
      RejectsTruncation (writeVarint32 md · v) readVarint32) ∧
    (∀ v : Int, -(2 ^ 56) < v → v < 2 ^ 56 →
      RejectsTruncation (writeVarint64 md · v) readVarint64) ∧
    (∀ v : Int, -(2 ^ 63) < v → v < 2 ^ 63 → RejectsTruncation (writeVarint md · v) readVarint) ∧
    (∀ n v, n ≤ 64 → v < 2 ^ n →
      RejectsTruncation (writeUnsignedBits · v n) (readUnsignedBits · n)) ∧
    (∀ n (v : Int), 1 ≤ n → n ≤ 64 → -(2 ^ (n - 1) : Int) ≤ v → v < 2 ^ (n - 1) →
      RejectsTruncation (writeSignedBits · v n) (readSignedBits · n)) ∧
    (∀ s : String, s.utf8ByteSize < 2 ^ 31 → RejectsTruncation (writeString · s) readString) ∧
    (∀ b : BytesType, b.byteSize = b.dataBlob.length → b.byteSize < 2 ^ 31 →
      RejectsTruncation (writeBytesType · b) readBytesType) ∧
    (∀ e : ExternType, WellFormedExtern e →
      RejectsTruncation (writeExternType · e) readExternType) := by
  obtain ⟨u1, u2, u3, u4, u5⟩ := C01_varuint_round_trip
  obtain ⟨s1, s2, s3, s4⟩ := C02_varint_round_trip_partial md
  obtain ⟨l1, l2, _, _, _, l3, l4, l5, l6, l7, l8, l9, l10, l11, l12, l13, l14, _⟩ :=
    C13_scalar_readers_local (fun _ => 0)
  exact ⟨fun v hv => rejectsTruncation_of_local (u1 v hv) l4,
    fun v hv => rejectsTruncation_of_local (u2 v hv) l5,
    fun v hv => rejectsTruncation_of_local (u3 v hv) l6,
    fun v hv => rejectsTruncation_of_local (u4 v hv) l7,
    fun v hv => rejectsTruncation_of_local (u5 v hv) l3,
    fun v h1 h2 => rejectsTruncation_of_local (s1 v h1 h2) l8,
    fun v h1 h2 => rejectsTruncation_of_local (s2 v h1 h2) l9,
    fun v h1 h2 => rejectsTruncation_of_local (s3 v h1 h2) l10,
    fun v h1 h2 => rejectsTruncation_of_local (s4 v h1 h2) l11,
    fun n v h1 h2 => rejectsTruncation_of_local (C06_fixed_width_round_trip.1 n v h1 h2).1 (l1 n),
    fun n v h1 h2 h3 h4 =>
      rejectsTruncation_of_local (C06_fixed_width_round_trip.2.1 n v h1 h2 h3 h4).1 (l2 n),
    fun s hs => rejectsTruncation_of_local (C09_string_round_trip s hs).1 l12,
    fun b h1 h2 => rejectsTruncation_of_local (C10_bytes_round_trip b h1 h2).1 l13,
    fun e he => rejectsTruncation_of_local (C11_extern_round_trip e he).1 l14⟩

example : RejectsTruncation (writeString · "abc") readString :=
  (C13_scalar_truncation .debug).2.2.2.2.2.2.2.2.2.2.2.1 "abc" (by decide)

/-! ## C14: to_bytes and from_bytes -/

theorem bytesBits_takeBytes (n : Nat) (bs : List Bool) (h : bs.length = n * 8) :
    bytesBits (Reader.takeBytes n bs) = bs := by
  induction n generalizing bs with
  | zero =>
    have : bs = [] := List.length_eq_zero_iff.1 (by omega)
    subst this; rfl
  | succ n ih =>
    have hl : (bs.take 8).length = 8 := by simp; omega
    have h1 := natBits_ofBits (bs.take 8)
    have h2 := ofBits_lt (bs.take 8)
    rw [hl] at h1 h2
    show natBits 8 (UInt8.ofNat (ofBits (bs.take 8))).toNat ++ bytesBits _ = _
    rw [ih (bs.drop 8) (by simp; omega), uint8_ofNat_toNat h2, h1, List.take_append_drop]

theorem takeBytes_length (n : Nat) (bs : List Bool) : (Reader.takeBytes n bs).length = n := by
  induction n generalizing bs with
  | zero => rfl
  | succ n ih => simp [Reader.takeBytes, ih]

/-- **C14** For every value that round-trips on bit streams: `to_bytes` returns the bits written,
completed by fewer than 8 zero bits; `from_bytes` gives the value back, whatever bytes are appended
to the encoding. -/
theorem C14_to_bytes_from_bytes {α : Type} (write : Writer → Res Writer)
    (read : Reader → Res (α × Reader)) (v : α) (h : RoundTrips write read v) :
    ∃ bits bytes pad, write Writer.new = .ok ⟨bits⟩ ∧ toBytes write = .ok bytes ∧
      pad < 8 ∧ bytesBits bytes = bits ++ List.replicate pad false ∧
      bytes.length = (bits.length + 7) / 8 ∧
      ∀ trailing : List UInt8, fromBytes read (bytes ++ trailing) = .ok v := by
  obtain ⟨bits, hw, hr⟩ := h []
  have hb : bytesBits (Writer.close ⟨bits⟩).data
      = bits ++ List.replicate ((8 - bits.length % 8) % 8) false := by
    apply bytesBits_takeBytes
    simp only [Writer.close, List.length_append, List.length_replicate]
    omega
  refine ⟨bits, (Writer.close ⟨bits⟩).data, (8 - bits.length % 8) % 8, ?_, ?_,
    Nat.mod_lt _ (by decide), hb, ?_, fun trailing => ?_⟩
  · exact hw
  · unfold toBytes
    have : write Writer.new = .ok ⟨bits⟩ := hw
    rw [this]; rfl
  · unfold Writer.data
    rw [takeBytes_length]
    simp only [Writer.close, List.length_append, List.length_replicate]
    omega
  · unfold fromBytes Reader.ofBytes
    rw [bytesBits_append, hb, List.append_assoc]
    have := hr (List.replicate ((8 - bits.length % 8) % 8) false ++ bytesBits trailing)
    simp only [List.length_nil, Nat.zero_add] at this
    rw [this]
    rfl

example : toBytes (writeUnsignedBits · 5 3) = .ok [0xa0] := by decide +kernel
example : ∀ trailing, ∃ bytes, toBytes (writeUnsignedBits · 5 3) = .ok bytes ∧
    fromBytes (readUnsignedBits · 3) (bytes ++ trailing) = .ok 5 := fun trailing => by
  obtain ⟨_, bytes, _, _, h, _, _, _, h2⟩ := C14_to_bytes_from_bytes _ _ _
    (C06_fixed_width_round_trip.1 3 5 (by decide) (by decide)).1
  exact ⟨bytes, h, h2 trailing⟩

/-- **C14** `to_writer` and `from_reader` deliver and consume the same bytes as `to_bytes` and
`from_bytes`. -/
theorem C14_to_writer_from_reader {α : Type} (write : Writer → Res Writer)
    (read : Reader → Res (α × Reader)) (v : α) (h : RoundTrips write read v) (out : List UInt8) :
    ∃ bytes, toBytes write = .ok bytes ∧ toWriter out write = .ok (out ++ bytes) ∧
      fromReader read bytes = .ok v := by
  obtain ⟨bits, bytes, pad, h1, h2, _, _, _, h6⟩ := C14_to_bytes_from_bytes write read v h
  refine ⟨bytes, h2, ?_, ?_⟩
  · unfold toBytes at h2; unfold toWriter
    rw [h1] at h2 ⊢
    have : (Writer.close ⟨bits⟩).data = bytes := Res.ok.inj h2
    simp [this]
  · have := h6 []
    rwa [List.append_nil] at this

example : toWriter [1, 2] (writeUint 16 · 258) = .ok [1, 2, 1, 2] := by decide +kernel

/-! ## C23: sequences -/

/-- A value of any type together with how it is written and read. -/
structure Item where
  {α : Type}
  write : Writer → Res Writer
  read : Reader → Res (α × Reader)
  value : α

/-- Write the items one after another. -/
def writeItems : List Item → Writer → Res Writer
  | [], w => .ok w
  | i :: is, w => i.write w >>= writeItems is

/-- Reading the items one after another from `r` gives each its value and ends at `r'`. -/
def ReadsBack : List Item → Reader → Reader → Prop
  | [], r, r' => r' = r
  | i :: is, r, r' => ∃ r1, i.read r = .ok (i.value, r1) ∧ ReadsBack is r1 r'

/-- **C23** Any sequence of values of any mixture of round-tripping types, written one after another
into one stream, is read back in the same order with the same values and nothing is left over. -/
theorem C23_sequences_round_trip (items : List Item)
    (h : ∀ i ∈ items, RoundTrips i.write i.read i.value) (before : List Bool) :
    ∃ bits, writeItems items ⟨before⟩ = .ok ⟨before ++ bits⟩ ∧
      ∀ after, ReadsBack items ⟨before.length, bits ++ after⟩
        ⟨before.length + bits.length, after⟩ := by
  induction items generalizing before with
  | nil => exact ⟨[], by simp [writeItems], fun after => by simp [ReadsBack]⟩
  | cons i is ih =>
    obtain ⟨b1, w1, r1⟩ := h i (by simp) before
    obtain ⟨b2, w2, r2⟩ := ih (fun j hj => h j (by simp [hj])) (before ++ b1)
    refine ⟨b1 ++ b2, by simp [writeItems, w1, w2], fun after => ?_⟩
    refine ⟨⟨before.length + b1.length, b2 ++ after⟩, ?_, ?_⟩
    · have := r1 (b2 ++ after)
      rwa [← List.append_assoc] at this
    · have := r2 after
      simp only [List.length_append] at this
      rw [List.length_append, ← Nat.add_assoc]
      exact this

example : ∀ i ∈ [Item.mk (writeVaruint · 300) readVaruint 300,
    Item.mk (writeString · "x") readString "x"], RoundTrips i.write i.read i.value := by
  intro i hi
  simp only [List.mem_cons, List.not_mem_nil, or_false] at hi
  rcases hi with rfl | rfl
  · exact C01_varuint_round_trip.2.2.2.1 300 (by decide)
  · exact (C09_string_round_trip "x" (by decide)).1

/-! ## C34: injectivity -/

/-- **C34** For a type with a reader and a writer: two different round-tripping values written at
the same place give different bits, and neither encoding is a prefix of the other. -/
theorem C34_encodings_prefix_free {α : Type} (write : α → Writer → Res Writer)
    (read : Reader → Res (α × Reader)) (a b : α) (hab : a ≠ b)
    (ha : RoundTrips (write a) read a) (hb : RoundTrips (write b) read b)
    (before bitsA bitsB : List Bool) (hA : write a ⟨before⟩ = .ok ⟨before ++ bitsA⟩)
    (hB : write b ⟨before⟩ = .ok ⟨before ++ bitsB⟩) :
    bitsA ≠ bitsB ∧ ¬ bitsA <+: bitsB ∧ ¬ bitsB <+: bitsA := by
  have key : ∀ (x y : α) (bx b' : List Bool), RoundTrips (write x) read x →
      RoundTrips (write y) read y → write x ⟨before⟩ = .ok ⟨before ++ bx⟩ →
      write y ⟨before⟩ = .ok ⟨before ++ b'⟩ → bx <+: b' → x = y := by
    intro x y bx b' hx hy ex ey ⟨t, ht⟩
    obtain ⟨cx, wx, rx⟩ := hx before
    obtain ⟨cy, wy, ry⟩ := hy before
    have h1 : cx = bx := by
      rw [ex] at wx
      exact (List.append_cancel_left (congrArg Writer.bits (Res.ok.inj wx))).symm
    have h2 : cy = b' := by
      rw [ey] at wy
      exact (List.append_cancel_left (congrArg Writer.bits (Res.ok.inj wy))).symm
    subst h1 h2
    have e1 := rx t
    have e2 := ry []
    rw [ht] at e1
    rw [List.append_nil, e1] at e2
    exact congrArg Prod.fst (Res.ok.inj e2)
  refine ⟨fun h => hab ?_, fun h => hab ?_, fun h => hab ?_⟩
  · exact key a b bitsA bitsB ha hb hA hB (h ▸ List.prefix_refl _)
  · exact key a b bitsA bitsB ha hb hA hB h
  · exact (key b a bitsB bitsA hb ha hB hA h).symm

example : RoundTrips (writeVaruint · 5) readVaruint 5 ∧ RoundTrips (writeVaruint · 500) readVaruint 500
    ∧ (5 : Nat) ≠ 500 :=
  ⟨C01_varuint_round_trip.2.2.2.1 5 (by decide), C01_varuint_round_trip.2.2.2.1 500 (by decide),
    by decide⟩

/-! ## C40: floats -/

theorem beBytes_length (n v : Nat) : (beBytes n v).length = n := by
  induction n with
  | zero => rfl
  | succ n ih => simp [beBytes, ih]

theorem ofBeBytes_foldl (bs : List UInt8) (a : Nat) :
    bs.foldl (fun acc b => acc * 256 + b.toNat) a = a * 256 ^ bs.length + ofBeBytes bs := by
  induction bs generalizing a with
  | nil => simp [ofBeBytes]
  | cons b bs ih =>
    have h : ofBeBytes (b :: bs) = b.toNat * 256 ^ bs.length + ofBeBytes bs := by
      rw [← ih, ofBeBytes, List.foldl_cons, Nat.zero_mul, Nat.zero_add]
    rw [List.foldl_cons, ih, h, List.length_cons, Nat.pow_succ, Nat.add_mul, Nat.mul_assoc,
      Nat.add_assoc, Nat.mul_comm 256]

theorem ofBeBytes_beBytes (n v : Nat) : ofBeBytes (beBytes n v) = v % 256 ^ n := by
  induction n with
  | zero => simp [beBytes, ofBeBytes, Nat.mod_one]
  | succ n ih =>
    rw [beBytes, ofBeBytes, List.foldl_cons, ofBeBytes_foldl, ih, beBytes_length, Nat.zero_mul,
      Nat.zero_add, Nat.shiftRight_eq_div_pow, Nat.pow_mul]
    have : (UInt8.ofNat (v / (2 ^ 8) ^ n)).toNat = v / 256 ^ n % 256 := by
      simp [UInt8.toNat_ofNat']
    rw [this, Nat.pow_succ, Nat.mod_mul, Nat.mul_comm (256 ^ n), Nat.add_comm]

/-- **C40** Every 32- and 64-bit pattern reads back unchanged.  For `float16`, every half-precision
number `h` for which the `half` crate's conversions satisfy `from_f32(to_f32(h)) = h` reads back
unchanged. -/
theorem C40_floats_keep_bits (fromF32 : UInt32 → UInt16) (toF32 : UInt16 → UInt32) :
    (∀ v : UInt32, RoundTrips (writeFloat32 · v) readFloat32 v) ∧
    (∀ v : UInt64, RoundTrips (writeFloat64 · v) readFloat64 v) ∧
    (∀ h : UInt16, fromF32 (toF32 h) = h →
      RoundTrips (writeFloat16 fromF32 · (toF32 h)) (readFloat16 toF32) (toF32 h)) := by
  have key : ∀ {α : Type} (n x : Nat) (f : Nat → α) (v : α), f (x % 256 ^ n) = v →
      RoundTrips (writeBytes · (beBytes n x))
        (fun r => readBytes r n >>= fun y =>
          if y.1.length = n then (.ok (f (ofBeBytes y.1), y.2) : Res (α × Reader))
          else .err .dataError) v := by
    intro α n x f v hv
    refine roundTrips_of_bits (bytesBits (beBytes n x)) (fun w => writeBytes_eq w _)
      (fun pos after => ?_)
    have := readBytes_append (beBytes n x) pos after
    rw [beBytes_length] at this
    rw [this]
    simp only [Res.ok_bind]
    rw [if_pos (beBytes_length n x), ofBeBytes_beBytes, hv, bytesBits_length, beBytes_length]
  refine ⟨fun v => ?_, fun v => ?_, fun h hh => ?_⟩
  · exact key 4 v.toNat UInt32.ofNat v (by
      rw [Nat.mod_eq_of_lt (by exact v.toNat_lt)]; simp)
  · exact key 8 v.toNat UInt64.ofNat v (by
      rw [Nat.mod_eq_of_lt (by exact v.toNat_lt)]; simp)
  · have := key 2 h.toNat (fun x => toF32 (UInt16.ofNat x)) (toF32 h) (by
      rw [Nat.mod_eq_of_lt (by exact h.toNat_lt)]; simp)
    unfold writeFloat16
    rw [hh]
    exact this

example : RoundTrips (writeFloat32 · 0x7fc00001) readFloat32 0x7fc00001 :=
  (C40_floats_keep_bits (fun _ => 0) (fun _ => 0)).1 _

/-! ## C42: lengths in the input -/

/-- **C42 (partial)** `read_varsize` accepts exactly the byte strings that are one complete
encoding, and returns the number they denote modulo 2^32; hence the number itself whenever that
number is below 2^32 — in particular for every number of the type's documented range.  Missing: the
5-byte encodings of numbers from 2^32 on, see `C42_varsize_truncates_violated`. -/
theorem C42_read_varsize_denotes_partial (r r' : Reader) (n : Nat) :
    (readVarsize r = .ok (n, r') ↔
      ∃ bytes v, r.rest = bytesBits bytes ++ r'.rest ∧ r'.pos = r.pos + bytes.length * 8 ∧
        denote 5 0 bytes = some v ∧ n = v % 2 ^ 32) ∧
    (∀ bytes v after, denote 5 0 bytes = some v → v < 2 ^ 32 →
      readVarsize ⟨r.pos, bytesBits bytes ++ after⟩
        = .ok (v, ⟨r.pos + bytes.length * 8, after⟩)) := by
  have key : ∀ (r r' : Reader) (n : Nat), readVarsize r = .ok (n, r') ↔
      ∃ bytes v, r.rest = bytesBits bytes ++ r'.rest ∧ r'.pos = r.pos + bytes.length * 8 ∧
        denote 5 0 bytes = some v ∧ n = v % 2 ^ 32 := by
    intro r r' n
    unfold readVarsize
    rw [Res.bind_eq_ok]
    constructor
    · rintro ⟨⟨v, r1⟩, h1, h2⟩
      cases h2
      obtain ⟨bs, e1, e2, e3⟩ := (readSizedUint_iff (by decide)).1 h1
      exact ⟨bs, v, e1, e2, e3, rfl⟩
    · rintro ⟨bs, v, e1, e2, e3, rfl⟩
      exact ⟨(v, r'), (readSizedUint_iff (by decide)).2 ⟨bs, e1, e2, e3⟩, rfl⟩
  refine ⟨key r r' n, fun bytes v after hd hv => ?_⟩
  exact (key _ _ _).2 ⟨bytes, v, rfl, rfl, hd, (Nat.mod_eq_of_lt hv).symm⟩

example : denote 5 0 [0x81, 0x00] = some 128 := by decide

/-- **C42, violated**: the bytes `88 80 80 80 05` denote 2^32 + 5 but `read_varsize` returns 5, so
a length of more than four billion is silently replaced by 5. -/
theorem C42_varsize_truncates_violated :
    denote 5 0 [0x88, 0x80, 0x80, 0x80, 0x05] = some (2 ^ 32 + 5) ∧
    fromBytes readVarsize [0x88, 0x80, 0x80, 0x80, 0x05] = .ok 5 := by
  constructor <;> decide +kernel

end Zs
