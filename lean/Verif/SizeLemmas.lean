import Verif.SizeSpec
import Verif.SchemaPack

/-!
# Sizes of builtin types

Whatever the value is: if it can be written then its size is computed and is the number of bits
written.
-/

namespace Zs

open Spec

theorem Val.consistent_of_mem {xs : List Val} (h : Val.AllConsistent xs) :
    ∀ x ∈ xs, x.Consistent := by
  induction xs with
  | nil => intro x hx; cases hx
  | cons y ys ih =>
    intro x hx
    rw [Val.AllConsistent] at h
    cases hx with
    | head => exact h.1
    | tail _ hx => exact ih h.2 x hx

/-- Whenever writing succeeds it adds `n` bits. -/
def Adds (write : Writer → Res Writer) (n : Nat) : Prop :=
  ∀ w w', write w = .ok w' → w'.bits.length = w.bits.length + n

theorem sizeExact_of_adds {size : Nat → Res Nat} {write : Writer → Res Writer} {n : Nat}
    (hs : ∀ p, size p = .ok n) (h : Adds write n) : SizeExact size write :=
  fun w w' hw => ⟨n, hs _, h w w' hw⟩

theorem Adds.writeUnsigned (v n k : Nat) : Adds (fun w => w.writeUnsigned v n k) n := by
  intro w w' h
  simp only [Writer.writeUnsigned] at h
  split at h
  · cases h
  · cases h; simp [Writer.append]

theorem Adds.writeSigned (v : Int) (n k : Nat) : Adds (fun w => w.writeSigned v n k) n := by
  intro w w' h
  simp only [Writer.writeSigned] at h
  split at h
  · cases h
  · cases h; simp [Writer.append]

theorem Adds.writeUnsignedBits (v n : Nat) : Adds (fun w => writeUnsignedBits w v n) n := by
  intro w w' h
  simp only [Zs.writeUnsignedBits] at h
  split at h
  · cases h
  · exact Adds.writeUnsigned v n 64 w w' h

theorem Adds.writeSignedBits (v : Int) (n : Nat) : Adds (fun w => writeSignedBits w v n) n := by
  intro w w' h
  simp only [Zs.writeSignedBits] at h
  split at h
  · cases h
  · exact Adds.writeSigned v n 64 w w' h

theorem Adds.writeBool (b : Bool) : Adds (fun w => w.writeBool b) 1 := by
  intro w w' h
  simp only [Writer.writeBool] at h
  cases h; simp [Writer.append]

theorem Adds.writeBytes (bs : List UInt8) : Adds (fun w => writeBytes w bs) (bs.length * 8) := by
  intro w w' h
  simp only [writeBytes_eq] at h
  cases h
  simp [Writer.append, bytesBits_length]

theorem unsignedBitsizeLoop_bytes {v maxBytes bytes max n : Nat}
    (h : unsignedBitsizeLoop v maxBytes bytes max = .ok n) : n / 8 * 8 = n := by
  fun_induction unsignedBitsizeLoop v maxBytes bytes max with
  | case1 => cases h; omega
  | case2 => cases h
  | case3 _ _ _ _ _ ih => exact ih h
  | case4 _ _ _ _ _ ih => exact ih h

theorem signedBitsizeLoop_bytes {v : Int} {maxBytes bytes max n : Nat}
    (h : signedBitsizeLoop v maxBytes bytes max = .ok n) : n / 8 * 8 = n := by
  fun_induction signedBitsizeLoop v maxBytes bytes max with
  | case1 => cases h; omega
  | case2 => cases h
  | case3 _ _ _ _ _ ih => exact ih h
  | case4 _ _ _ _ _ ih => exact ih h

theorem Adds.writeVaruintLoop (v k m : Nat) (is : List Nat) :
    Adds (fun w => writeVaruintLoop v k m is w) (is.length * 8) := by
  induction is with
  | nil => intro w w' h; simp only [Zs.writeVaruintLoop] at h; cases h; rfl
  | cons i is ih =>
    intro w w' h
    simp only [Zs.writeVaruintLoop] at h
    obtain ⟨w1, h1, h⟩ := Res.bind_eq_ok.1 h
    have := ih _ _ h
    have := Adds.writeUnsigned _ _ _ _ _ h1
    simp only [List.length_cons]; omega

theorem Adds.writeVarintLoop (neg : Bool) (v k m : Nat) (is : List Nat) :
    Adds (fun w => writeVarintLoop neg v k m is w) (is.length * 8) := by
  induction is with
  | nil => intro w w' h; simp only [Zs.writeVarintLoop] at h; cases h; rfl
  | cons i is ih =>
    intro w w' h
    simp only [Zs.writeVarintLoop] at h
    obtain ⟨w1, h1, h⟩ := Res.bind_eq_ok.1 h
    have := ih _ _ h
    have := Adds.writeUnsigned _ _ _ _ _ h1
    simp only [List.length_cons]; omega

/-- Unsigned variable-length integers. -/
theorem varuint_size (v m : Nat) :
    SizeExact (fun _ => unsignedBitsize v m) (fun w => writeVaruintType w v m) := by
  intro w w' h
  simp only [writeVaruintType] at h
  cases hs : unsignedBitsize v m with
  | ok n =>
    rw [hs] at h
    simp only [Res.unwrap_ok, Res.ok_bind] at h
    refine ⟨n, rfl, ?_⟩
    have := Adds.writeVaruintLoop _ _ _ _ _ _ h
    have hn := unsignedBitsizeLoop_bytes hs
    simp only [List.length_range, hn] at this
    exact this
  | err e => rw [hs] at h; cases h
  | panic => rw [hs] at h; cases h

/-- Signed variable-length integers. -/
theorem varint_size (md : Mode) (v : Int) (m : Nat) :
    SizeExact (fun _ => signedBitsize md v m) (fun w => writeVarintType md w v m) := by
  intro w w' h
  change writeVarintType md w v m = _ at h
  unfold writeVarintType at h
  have key : ∀ a, (signedBitsize md v m >>= fun bitsize =>
      writeVarintLoop (decide (v < 0)) a (bitsize / 8) m (List.range (bitsize / 8)) w) = .ok w' →
      ∃ n, signedBitsize md v m = .ok n ∧ w'.bits.length = w.bits.length + n := by
    intro a h
    obtain ⟨n, hs, h⟩ := Res.bind_eq_ok.1 h
    refine ⟨n, hs, ?_⟩
    have := Adds.writeVarintLoop _ _ _ _ _ _ _ h
    have hn : n / 8 * 8 = n := by
      unfold signedBitsize at hs
      split at hs
      · obtain ⟨b, hb, hs⟩ := Res.bind_eq_ok.1 hs
        exact signedBitsizeLoop_bytes hs
      · exact signedBitsizeLoop_bytes hs
    simp only [List.length_range, hn] at this
    exact this
  split at h
  · obtain ⟨a, ha, h⟩ := Res.bind_eq_ok.1 h
    exact key a h
  · exact key _ h

theorem varsize_size (v : Nat) : SizeExact (fun _ => varsizeBitsize v) (fun w => writeVarsize w v) := by
  intro w w' h
  simp only [writeVarsize] at h
  split at h
  · exact varuint_size v 5 _ _ h
  · cases h

theorem sizeExact_unwrap {size : Nat → Res Nat} {write : Writer → Res Writer}
    (h : SizeExact size write) : SizeExact (fun p => (size p).unwrap) write := by
  intro w w' hw
  obtain ⟨n, h1, h2⟩ := h w w' hw
  exact ⟨n, by simp [h1], h2⟩

theorem bytes_size {b : BytesType} (h : b.byteSize = b.dataBlob.length) :
    SizeExact (fun _ => bitsizeOfBytes b) (fun w => writeBytesType w b) := by
  intro w w' hw
  simp only [writeBytesType] at hw
  obtain ⟨w1, h1, hw⟩ := Res.bind_eq_ok.1 hw
  obtain ⟨n, hn, hl⟩ := varsize_size _ _ _ h1
  have := Adds.writeBytes _ _ _ hw
  refine ⟨n + b.byteSize * 8, by simp [bitsizeOfBytes, hn], by rw [h]; omega⟩

theorem extern_size (e : ExternType) :
    SizeExact (fun _ => bitsizeOfExtern e) (fun w => writeExternType w e) := by
  intro w w' hw
  simp only [writeExternType] at hw
  obtain ⟨w1, h1, hw⟩ := Res.bind_eq_ok.1 hw
  obtain ⟨n, hn, hl⟩ := varsize_size _ _ _ h1
  refine ⟨n + e.bitSize, by simp [bitsizeOfExtern, hn], ?_⟩
  split at hw
  · cases hw
  rename_i hlen
  obtain ⟨w2, h2, hw⟩ := Res.bind_eq_ok.1 hw
  have hb := Adds.writeBytes _ _ _ h2
  rw [List.length_take, Nat.min_eq_left (by omega)] at hb
  split at hw
  · split at hw
    · cases hw
    · have := Adds.writeUnsigned _ _ _ _ _ hw
      omega
  · cases hw; omega

theorem string_size {s : String} (h : (strBytes s).length < 2 ^ 32) :
    SizeExact (fun _ => bitsizeString s) (fun w => writeString w s) := by
  intro w w' hw
  simp only [writeString] at hw
  obtain ⟨w1, h1, hw⟩ := Res.bind_eq_ok.1 hw
  rw [show asU32 (strBytes s).length = (strBytes s).length from Nat.mod_eq_of_lt h] at h1
  obtain ⟨n, hn, hl⟩ := varsize_size _ _ _ h1
  have := Adds.writeBytes _ _ _ hw
  change unsignedBitsize _ 5 = _ at hn
  exact ⟨n + (strBytes s).length * 8, by simp [bitsizeString, hn], by omega⟩

theorem float64_adds (v : UInt64) : Adds (fun w => writeFloat64 w v) 64 := by
  have := Adds.writeBytes (beBytes 8 v.toNat)
  rw [beBytes_length] at this
  exact this

theorem float32_adds (v : UInt32) : Adds (fun w => writeFloat32 w v) 32 := by
  have := Adds.writeBytes (beBytes 4 v.toNat)
  rw [beBytes_length] at this
  exact this

theorem float16_adds (f : UInt32 → UInt16) (v : UInt32) : Adds (fun w => writeFloat16 f w v) 16 := by
  have := Adds.writeBytes (beBytes 2 (f v).toNat)
  rw [beBytes_length] at this
  exact this

namespace Scalar

/-- Fields of builtin types. -/
theorem size_field {cfg : Cfg} {env : Env} {s : Scalar} {v : Val} (hs : s.FieldSized)
    (hv : v.Consistent) :
    SizeExact (fun _ => s.bitsize cfg v) (fun w => s.write cfg env v w) := by
  have hno : ∀ {size : Nat → Res Nat}, SizeExact size (fun _ => .panic) := by
    intro size w w' h; cases h
  cases s with
  | bytes | extern | bitsDyn _ | intsDyn _ => exact absurd hs id
  | string => cases v with
    | str x => exact sizeExact_unwrap (string_size (by rw [Val.Consistent] at hv; exact hv))
    | _ => exact hno
  | bool => cases v with
    | bool x => exact sizeExact_of_adds (fun _ => rfl) (Adds.writeBool x)
    | _ => exact hno
  | float16 => cases v with
    | f32 x => exact sizeExact_of_adds (fun _ => rfl) (float16_adds cfg.fromF32 x)
    | _ => exact hno
  | float32 => cases v with
    | f32 x => exact sizeExact_of_adds (fun _ => rfl) (float32_adds x)
    | _ => exact hno
  | float64 => cases v with
    | f64 x => exact sizeExact_of_adds (fun _ => rfl) (float64_adds x)
    | _ => exact hno
  | uint n => cases v with
    | nat x => exact sizeExact_of_adds (fun _ => rfl) (Adds.writeUnsignedBits x n)
    | _ => exact hno
  | bits n => cases v with
    | nat x => exact sizeExact_of_adds (fun _ => rfl) (Adds.writeUnsignedBits x n)
    | _ => exact hno
  | int n => cases v with
    | int x => exact sizeExact_of_adds (fun _ => rfl) (Adds.writeSigned x n n)
    | _ => exact hno
  | ints n => cases v with
    | int x => exact sizeExact_of_adds (fun _ => rfl) (Adds.writeSignedBits x n)
    | _ => exact hno
  | varuint16 => cases v with
    | nat x => exact sizeExact_unwrap (varuint_size x 2)
    | _ => exact hno
  | varuint32 => cases v with
    | nat x => exact sizeExact_unwrap (varuint_size x 4)
    | _ => exact hno
  | varuint64 => cases v with
    | nat x => exact sizeExact_unwrap (varuint_size x 8)
    | _ => exact hno
  | varuint => cases v with
    | nat x => exact sizeExact_unwrap (varuint_size x 9)
    | _ => exact hno
  | varsize => cases v with
    | nat x => exact sizeExact_unwrap (varsize_size x)
    | _ => exact hno
  | varint16 => cases v with
    | int x => exact sizeExact_unwrap (varint_size cfg.md x 2)
    | _ => exact hno
  | varint32 => cases v with
    | int x => exact sizeExact_unwrap (varint_size cfg.md x 4)
    | _ => exact hno
  | varint64 => cases v with
    | int x => exact sizeExact_unwrap (varint_size cfg.md x 8)
    | _ => exact hno
  | varint => cases v with
    | int x => exact sizeExact_unwrap (varint_size cfg.md x 9)
    | _ => exact hno

/-- Elements of arrays of builtin types. -/
theorem size_elem {cfg : Cfg} {env : Env} {s : Scalar} {v : Val} (hs : s.ElemSized)
    (hv : v.Consistent) :
    SizeExact (fun p => (s.elem cfg env).bitsizeOf p v) (fun w => (s.elem cfg env).write w v) := by
  have hno : ∀ {size : Nat → Res Nat}, SizeExact size (fun _ => .panic) := by
    intro size w w' h; cases h
  cases s with
  | string => exact absurd hs id
  | bytes => cases v with
    | bytes x => exact bytes_size (by rw [Val.Consistent] at hv; exact hv)
    | _ => exact hno
  | extern => cases v with
    | extern x => exact extern_size x
    | _ => exact hno
  | bool => cases v with
    | bool x => exact sizeExact_of_adds (fun _ => rfl) (Adds.writeBool x)
    | _ => exact hno
  | float16 => cases v with
    | f32 x => exact sizeExact_of_adds (fun _ => rfl) (float16_adds cfg.fromF32 x)
    | _ => exact hno
  | float32 => cases v with
    | f32 x => exact sizeExact_of_adds (fun _ => rfl) (float32_adds x)
    | _ => exact hno
  | float64 => cases v with
    | f64 x => exact sizeExact_of_adds (fun _ => rfl) (float64_adds x)
    | _ => exact hno
  | uint n => cases v with
    | nat x => exact sizeExact_of_adds (fun _ => rfl) (Adds.writeUnsignedBits x n)
    | _ => exact hno
  | bits n => cases v with
    | nat x => exact sizeExact_of_adds (fun _ => rfl) (Adds.writeUnsignedBits x n)
    | _ => exact hno
  | bitsDyn n => cases v with
    | nat x => exact sizeExact_of_adds (fun _ => rfl) (Adds.writeUnsignedBits x (n env % 256))
    | _ => exact hno
  | int n => cases v with
    | int x => exact sizeExact_of_adds (fun _ => rfl) (Adds.writeSignedBits x n)
    | _ => exact hno
  | ints n => cases v with
    | int x => exact sizeExact_of_adds (fun _ => rfl) (Adds.writeSignedBits x n)
    | _ => exact hno
  | intsDyn n => cases v with
    | int x => exact sizeExact_of_adds (fun _ => rfl) (Adds.writeSignedBits x (n env % 256))
    | _ => exact hno
  | varuint16 => cases v with
    | nat x => exact varuint_size x 2
    | _ => exact hno
  | varuint32 => cases v with
    | nat x => exact varuint_size x 4
    | _ => exact hno
  | varuint64 => cases v with
    | nat x => exact varuint_size x 8
    | _ => exact hno
  | varuint => cases v with
    | nat x => exact varuint_size x 9
    | _ => exact hno
  | varsize => cases v with
    | nat x => exact varsize_size x
    | _ => exact hno
  | varint16 => cases v with
    | int x => exact varint_size cfg.md x 2
    | _ => exact hno
  | varint32 => cases v with
    | int x => exact varint_size cfg.md x 4
    | _ => exact hno
  | varint64 => cases v with
    | int x => exact varint_size cfg.md x 8
    | _ => exact hno
  | varint => cases v with
    | int x => exact varint_size cfg.md x 9
    | _ => exact hno

/-- The size of an element does not depend on its position. -/
theorem elem_position {cfg : Cfg} {env : Env} (s : Scalar) (v : Val) (p q : Nat) :
    (s.elem cfg env).bitsizeOf p v = (s.elem cfg env).bitsizeOf q v := by
  cases s <;> cases v <;> rfl

/-- Constant sizes are constant. -/
theorem elem_const {cfg : Cfg} {env : Env} (s : Scalar)
    (hc : (s.elem cfg env).isBitsizeofConstant = true) (x y : Val) (p q m n : Nat)
    (hx : (s.elem cfg env).bitsizeOf p x = .ok m) (hy : (s.elem cfg env).bitsizeOf q y = .ok n) :
    m = n := by
  cases s <;> first | (cases hc; done) | skip
  all_goals cases x <;> first | (cases hx; done) | skip
  all_goals cases y <;> first | (cases hy; done) | skip
  all_goals (cases hx; cases hy; rfl)

end Scalar

end Zs
