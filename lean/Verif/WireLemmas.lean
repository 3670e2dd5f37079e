import Verif.Wire
import Verif.SchemaScalar

/-!
# Lemmas: how builtin types are written
-/

namespace Zs

open Spec

/-! ## Binary digits -/

theorem binary_succ (n : Nat) (v : Int) :
    binary (n + 1) v = decide (v / 2 ^ n % 2 = 1) :: binary n v := by
  simp [binary, List.range_succ]

theorem binary_length (n : Nat) (v : Int) : (binary n v).length = n := by simp [binary]

theorem natBits_binary (n v : Nat) : natBits n v = binary n (v : Int) := by
  induction n with
  | zero => rfl
  | succ n ih =>
    rw [natBits, binary_succ, ih, Nat.testBit_eq_decide_div_mod_eq]
    congr 1
    have : ((v : Int) / 2 ^ n % 2) = ((v / 2 ^ n % 2 : Nat) : Int) := by simp
    rw [this]
    congr 1
    exact propext (by omega)

/-- Numbers that agree modulo `2^64` have the same lowest digits. -/
theorem binary_congr {n : Nat} (hn : n ≤ 64) {a b : Int} (h : a % 2 ^ 64 = b % 2 ^ 64) :
    binary n a = binary n b := by
  induction n with
  | zero => rfl
  | succ n ih =>
    rw [binary_succ, binary_succ, ih (by omega)]
    congr 2
    have hk : (2 : Int) ^ 64 = 2 ^ n * (2 * 2 ^ (63 - n)) := by
      rw [← Int.mul_assoc, ← Int.pow_succ, ← Int.pow_add]
      congr 1; omega
    have key : ∀ x : Int, x / 2 ^ n % 2 = (x % 2 ^ 64) / 2 ^ n % 2 := by
      intro x
      have h1 := Int.mul_ediv_add_emod x (2 ^ 64)
      have e : x = x % 2 ^ 64 + 2 ^ n * (2 * 2 ^ (63 - n) * (x / 2 ^ 64)) := by
        rw [← Int.mul_assoc, ← hk]; omega
      have hp : (2 : Int) ^ n ≠ 0 := Int.ne_of_gt (Int.pow_pos (by decide))
      generalize hy : x % 2 ^ 64 = y at e ⊢
      rw [e, Int.add_mul_ediv_left _ _ hp, Int.mul_assoc, Int.add_mul_emod_self_left]
    rw [key a, key b, h]

theorem natBits_asU64 {n : Nat} (hn : n ≤ 64) (v : Int) : natBits n (asU64 v) = binary n v := by
  rw [natBits_binary]
  refine binary_congr hn ?_
  unfold asU64
  rw [Int.toNat_of_nonneg (Int.emod_nonneg _ (by decide)), Int.emod_emod_of_dvd _ (Int.dvd_refl _)]

theorem bytesBits_binary (bs : List UInt8) : bytesBits bs = binaryBytes bs := by
  unfold bytesBits binaryBytes
  congr 1; funext b; exact natBits_binary 8 _

theorem binary_append (a b : Nat) (v : Int) : binary (a + b) v = binary a (v / 2 ^ b) ++ binary b v := by
  induction a with
  | zero => simp [binary]
  | succ a ih =>
    rw [Nat.add_right_comm, binary_succ, ih, binary_succ, List.cons_append]
    congr 2
    rw [Int.ediv_ediv_of_nonneg (Int.le_of_lt (Int.pow_pos (by decide))), ← Int.pow_add,
      Nat.add_comm b a]

/-! ## Writers -/

/-- Whenever the writer succeeds it appends bits that satisfy `p`. -/
def WritesAs (write : Writer → Res Writer) (p : List Bool → Prop) : Prop :=
  ∀ w w', write w = .ok w' → ∃ bits, w'.bits = w.bits ++ bits ∧ p bits

theorem WritesAs.of_append {write : Writer → Res Writer} {p : List Bool → Prop} {bits : List Bool}
    (h : ∀ w, write w = .ok (w.append bits)) (hp : p bits) : WritesAs write p := by
  intro w w' hw
  rw [h w] at hw
  cases hw
  exact ⟨bits, rfl, hp⟩

theorem writesAs_unsigned {v n : Nat} : WritesAs (fun w => writeUnsignedBits w v n)
    (· = binary n v) := by
  intro w w' h
  simp only [writeUnsignedBits, Writer.writeUnsigned] at h
  split at h
  · cases h
  · cases h; exact ⟨_, rfl, natBits_binary n v⟩

theorem writesAs_signed {v : Int} {n : Nat} : WritesAs (fun w => writeSignedBits w v n)
    (· = binary n v) := by
  intro w w' h
  simp only [writeSignedBits, Writer.writeSigned] at h
  split at h
  · cases h
  · rename_i hn; cases h; exact ⟨_, rfl, natBits_asU64 (by omega) v⟩

theorem writesAs_int {v : Int} {n : Nat} (hn : n ≤ 64) : WritesAs (fun w => writeInt n w v)
    (· = binary n v) := by
  intro w w' h
  simp only [writeInt, Writer.writeSigned] at h
  split at h
  · cases h
  · cases h; exact ⟨_, rfl, natBits_asU64 hn v⟩

theorem binary_byte (b : Nat) : binary 8 ((UInt8.ofNat b).toNat : Int) = binary 8 (b : Int) := by
  rw [UInt8.toNat_ofNat']
  have : ∀ n ≤ 8, binary n ((b % 2 ^ 8 : Nat) : Int) = binary n (b : Int) := by
    intro n hn
    induction n with
    | zero => rfl
    | succ n ih =>
      rw [binary_succ, binary_succ, ih (by omega)]
      congr 1
      refine decide_eq_decide.2 ?_
      have : n = 0 ∨ n = 1 ∨ n = 2 ∨ n = 3 ∨ n = 4 ∨ n = 5 ∨ n = 6 ∨ n = 7 := by omega
      rcases this with rfl | rfl | rfl | rfl | rfl | rfl | rfl | rfl <;> omega
  exact this 8 (Nat.le_refl _)

theorem bytes_flatMap (l : List Nat) :
    bytesBits (l.map UInt8.ofNat) = l.flatMap (fun (b : Nat) => binary 8 b) := by
  induction l with
  | nil => rfl
  | cons b l ih =>
    have e : bytesBits ((b :: l).map UInt8.ofNat) =
        natBits 8 (UInt8.ofNat b).toNat ++ bytesBits (l.map UInt8.ofNat) := rfl
    rw [e, ih, List.flatMap_cons, natBits_binary, binary_byte]

theorem bytesBits_beBytes (n v : Nat) : bytesBits (beBytes n v) = binary (8 * n) (v : Int) := by
  induction n with
  | zero => rfl
  | succ n ih =>
    have e : bytesBits (beBytes (n + 1) v) =
        natBits 8 (UInt8.ofNat (v >>> (8 * n))).toNat ++ bytesBits (beBytes n v) := rfl
    rw [e, ih, natBits_binary, binary_byte, Nat.mul_succ, Nat.add_comm _ 8, binary_append]
    congr 2
    rw [Nat.shiftRight_eq_div_pow]; simp

theorem writesAs_bytes (bs : List UInt8) : WritesAs (fun w => writeBytes w bs)
    (· = binaryBytes bs) := .of_append (fun w => writeBytes_eq w bs) (bytesBits_binary bs)

theorem writesAs_be {n v : Nat} : WritesAs (fun w => writeBytes w (beBytes n v))
    (· = binary (8 * n) v) := .of_append (fun w => writeBytes_eq w _) (bytesBits_beBytes n v)

theorem writesAs_varuint {m v : Nat} (h2 : 2 ≤ m) (h9 : m ≤ 9) (hv : v < capacity m m) :
    WritesAs (fun w => writeVaruintType w v m) (IsVaruint m v) := by
  obtain ⟨k, a1, a2, a3, a4, _, a6, _, _⟩ := varuint_all h2 h9 hv
  refine .of_append a6 ⟨by omega, k, a2, ⟨a1, by simpa using a3, by simpa using a4⟩, ?_⟩
  rw [varuintBits_layout a1, bytes_flatMap]; rfl

theorem writesAs_varsize {v : Nat} (hv : v < 2 ^ 31) :
    WritesAs (fun w => writeVarsize w v) (IsVaruint 5 v) := by
  obtain ⟨k, a1, a2, a3, a4, _, a6, _, _⟩ := varsize_all hv
  refine .of_append a6 ⟨by omega, k, a2, ⟨a1, by simpa using a3, by simpa using a4⟩, ?_⟩
  rw [varuintBits_layout a1, bytes_flatMap]; rfl

theorem writesAs_varint (md : Mode) {m : Nat} {v : Int} (h2 : 2 ≤ m) (h9 : m ≤ 9)
    (hv : v.natAbs < capacitySigned m m) :
    WritesAs (fun w => writeVarintType md w v m) (IsVarint m v) := by
  obtain ⟨k, a1, a2, a3, a4, _, a6, _, _⟩ := varint_all md h2 h9 hv
  refine .of_append a6 ⟨k, a2, ⟨a1, a3, a4⟩, ?_⟩
  rw [varintBits_layout h2 a1 a3, bytes_flatMap]

theorem WritesAs.bind {a b : Writer → Res Writer} {p q : List Bool → Prop} (ha : WritesAs a p)
    (hb : WritesAs b q) : WritesAs (fun w => a w >>= b) (fun out => ∃ x, p x ∧ ∃ y, q y ∧ out = x ++ y) := by
  intro w w' h
  obtain ⟨w1, h1, h2⟩ := Res.bind_eq_ok.1 h
  obtain ⟨x, e1, hx⟩ := ha _ _ h1
  obtain ⟨y, e2, hy⟩ := hb _ _ h2
  exact ⟨x ++ y, by rw [e2, e1, List.append_assoc], x, hx, y, hy, rfl⟩

theorem WritesAs.mono {a : Writer → Res Writer} {p q : List Bool → Prop} (ha : WritesAs a p)
    (h : ∀ out, p out → q out) : WritesAs a q := by
  intro w w' hw
  obtain ⟨x, e, hx⟩ := ha _ _ hw
  exact ⟨x, e, h x hx⟩

theorem writesAs_bool (b : Bool) : WritesAs (fun w => w.writeBool b) (· = [b]) := by
  intro w w' h
  simp only [Writer.writeBool] at h
  cases h
  exact ⟨_, rfl, rfl⟩

theorem writesAs_string {s : String} (hs : s.utf8ByteSize < 2 ^ 31) :
    WritesAs (fun w => writeString w s) (fun out => ∃ size, IsVaruint 5 s.utf8ByteSize size ∧
      out = size ++ binaryBytes s.toByteArray.data.toList) := by
  have hl : s.utf8ByteSize = (strBytes s).length := by rw [← String.size_toByteArray]; rfl
  have e : asU32 (strBytes s).length = s.utf8ByteSize := by
    rw [← hl]; exact Nat.mod_eq_of_lt (by omega)
  have key := (writesAs_varsize hs).bind (writesAs_bytes (strBytes s))
  unfold writeString
  simp only [e]
  refine key.mono ?_
  rintro out ⟨x, hx, y, rfl, rfl⟩
  exact ⟨x, hx, rfl⟩

theorem writesAs_bytesType {b : BytesType} (h1 : b.byteSize = b.dataBlob.length)
    (h2 : b.byteSize < 2 ^ 31) :
    WritesAs (fun w => writeBytesType w b) (fun out => ∃ size, IsVaruint 5 b.dataBlob.length size ∧
      out = size ++ binaryBytes b.dataBlob) := by
  refine ((writesAs_varsize h2).bind (writesAs_bytes b.dataBlob)).mono ?_
  rintro out ⟨x, hx, y, rfl, rfl⟩
  rw [h1] at hx
  exact ⟨x, hx, rfl⟩

theorem binaryBytes_length (bs : List UInt8) : (binaryBytes bs).length = 8 * bs.length := by
  rw [← bytesBits_binary, bytesBits_length, Nat.mul_comm]

theorem binaryBytes_append (a b : List UInt8) :
    binaryBytes (a ++ b) = binaryBytes a ++ binaryBytes b := by simp [binaryBytes]

theorem writesAs_extern {e : ExternType} (he : WellFormedExtern e) :
    WritesAs (fun w => writeExternType w e) (fun out => ∃ size, IsVaruint 5 e.bitSize size ∧
      out = size ++ (binaryBytes e.dataBlob).take e.bitSize) := by
  obtain ⟨n, blob⟩ := e
  obtain ⟨h1, h2, _⟩ := he
  simp only at h1 h2
  intro w w' h
  show ∃ bits, w'.bits = w.bits ++ bits ∧ ∃ size, IsVaruint 5 n size ∧
    bits = size ++ (binaryBytes blob).take n
  unfold writeExternType at h
  obtain ⟨w1, hw1, h⟩ := Res.bind_eq_ok.1 h
  obtain ⟨x, e1, hx⟩ := writesAs_varsize h1 _ _ hw1
  simp only at h
  rw [if_neg (by omega)] at h
  obtain ⟨w2, hw2, h⟩ := Res.bind_eq_ok.1 h
  rw [writeBytes_eq] at hw2
  cases hw2
  by_cases hr : n % 8 = 0
  · rw [if_neg (by omega)] at h
    cases h
    refine ⟨x ++ binaryBytes blob, ?_, x, hx, ?_⟩
    · have : blob.take (n / 8) = blob := List.take_of_length_le (by omega)
      simp [Writer.append, e1, this, bytesBits_binary]
    · rw [List.take_of_length_le (by rw [binaryBytes_length]; omega)]
  · rw [if_pos hr] at h
    have hlen : blob.length = n / 8 + 1 := by omega
    obtain ⟨full, last, rfl⟩ : ∃ full last, blob = full ++ [last] :=
      ⟨blob.dropLast, blob.getLast (by intro h; rw [h] at hlen; simp at hlen),
        (List.dropLast_concat_getLast _).symm⟩
    have hfull : full.length = n / 8 := by simpa using hlen
    simp only [List.getLast?_append, List.getLast?_singleton, Option.some_or,
      Writer.writeUnsigned] at h
    rw [if_neg (by omega), ← hfull, List.take_left] at h
    cases h
    refine ⟨x ++ (binaryBytes full ++ natBits (n % 8) (last.toNat >>> (8 - n % 8))), ?_, x, hx, ?_⟩
    · simp [Writer.append, e1, bytesBits_binary]
    · rw [binaryBytes_append, List.take_append, List.take_of_length_le (by
        rw [binaryBytes_length]; omega), binaryBytes_length, natBits_binary]
      congr 2
      have e2 : binaryBytes [last] = binary (n % 8 + (8 - n % 8)) last.toNat := by
        rw [(by omega : n % 8 + (8 - n % 8) = 8)]; simp [binaryBytes]
      rw [e2, binary_append, List.take_append_of_le_length (by rw [binary_length]; omega),
        List.take_of_length_le (by rw [binary_length]; omega), Nat.shiftRight_eq_div_pow]
      simp

/-! ## Builtin types -/

/-- What the value of a builtin type looks like outside of packed arrays. -/
def Scalar.PlainWire (cfg : Cfg) (s : Scalar) (env : Env) (v : Val) (out : List Bool) : Prop :=
  match v.number with
  | .some x => s.NumberWire env x out
  | .none => s.OtherWire cfg v out

theorem capacitySigned_eqs : capacitySigned 2 2 = 2 ^ 14 ∧ capacitySigned 4 4 = 2 ^ 28 ∧
    capacitySigned 8 8 = 2 ^ 56 ∧ capacitySigned 9 9 = 2 ^ 63 := by decide

theorem capacity_eqs : capacity 2 2 = 2 ^ 15 ∧ capacity 4 4 = 2 ^ 29 ∧
    capacity 8 8 = 2 ^ 57 ∧ capacity 9 9 = 2 ^ 64 := by decide

namespace Scalar

theorem writesAs {cfg : Cfg} {s : Scalar} {env : Env} {v : Val} (hw : s.WidthOk)
    (hv : s.InRange cfg env v) :
    WritesAs (fun w => s.write cfg env v w) (s.PlainWire cfg env v) := by
  have hw8 : ∀ n, n ∈ [8, 16, 32, 64] → 1 ≤ n ∧ n ≤ 64 := by
    intro n h; simp only [List.mem_cons, List.not_mem_nil, or_false] at h; omega
  have hu := capacity_eqs
  have hsg := capacitySigned_eqs
  cases s with
  | bool =>
    cases v <;> first | exact absurd hv id | skip
    exact writesAs_bool _
  | string =>
    cases v <;> first | exact absurd hv id | skip
    exact writesAs_string hv
  | bytes =>
    cases v <;> first | exact absurd hv id | skip
    exact writesAs_bytesType hv.1 hv.2
  | extern =>
    cases v <;> first | exact absurd hv id | skip
    exact writesAs_extern hv
  | float16 =>
    cases v <;> first | exact absurd hv id | skip
    exact writesAs_be
  | float32 =>
    cases v <;> first | exact absurd hv id | skip
    exact writesAs_be
  | float64 =>
    cases v <;> first | exact absurd hv id | skip
    exact writesAs_be
  | uint n =>
    cases v <;> first | exact absurd hv id | skip
    exact writesAs_unsigned
  | int n =>
    cases v <;> first | exact absurd hv id | skip
    exact writesAs_int (hw8 n hw).2
  | bits n =>
    cases v <;> first | exact absurd hv id | skip
    exact writesAs_unsigned
  | ints n =>
    cases v <;> first | exact absurd hv id | skip
    exact writesAs_signed
  | bitsDyn len =>
    cases v <;> first | exact absurd hv id | skip
    have h : len env % 256 = len env := Nat.mod_eq_of_lt (by have := hv.1; omega)
    simp only [write, h]
    exact writesAs_unsigned
  | intsDyn len =>
    cases v <;> first | exact absurd hv id | skip
    have h : len env % 256 = len env := Nat.mod_eq_of_lt (by have := hv.2.1; omega)
    simp only [write, h]
    exact writesAs_signed
  | varuint16 =>
    cases v <;> first | exact absurd hv id | skip
    exact writesAs_varuint (by decide) (by decide) (hu.1 ▸ hv)
  | varuint32 =>
    cases v <;> first | exact absurd hv id | skip
    exact writesAs_varuint (by decide) (by decide) (hu.2.1 ▸ hv)
  | varuint64 =>
    cases v <;> first | exact absurd hv id | skip
    exact writesAs_varuint (by decide) (by decide) (hu.2.2.1 ▸ hv)
  | varuint =>
    cases v <;> first | exact absurd hv id | skip
    exact writesAs_varuint (by decide) (by decide) (hu.2.2.2 ▸ hv)
  | varsize =>
    cases v <;> first | exact absurd hv id | skip
    exact writesAs_varsize hv
  | varint16 =>
    cases v <;> first | exact absurd hv id | skip
    refine writesAs_varint cfg.md (by decide) (by decide) ?_
    rw [hsg.1]; have h1 := hv.1; have h2 := hv.2; omega
  | varint32 =>
    cases v <;> first | exact absurd hv id | skip
    refine writesAs_varint cfg.md (by decide) (by decide) ?_
    rw [hsg.2.1]; have h1 := hv.1; have h2 := hv.2; omega
  | varint64 =>
    cases v <;> first | exact absurd hv id | skip
    refine writesAs_varint cfg.md (by decide) (by decide) ?_
    rw [hsg.2.2.1]; have h1 := hv.1; have h2 := hv.2; omega
  | varint =>
    cases v <;> first | exact absurd hv id | skip
    refine writesAs_varint cfg.md (by decide) (by decide) ?_
    rw [hsg.2.2.2]; have h1 := hv.1; have h2 := hv.2; omega

/-- As an array element. -/
theorem elem_writesAs {cfg : Cfg} {s : Scalar} {env : Env} {v : Val} (hw : s.WidthOk)
    (hv : s.InRange cfg env v) :
    WritesAs (fun w => (s.elem cfg env).write w v) (s.PlainWire cfg env v) := by
  cases s with
  | uint n =>
    cases v <;> first | exact absurd hv id | skip
    exact writesAs_unsigned
  | int n =>
    cases v <;> first | exact absurd hv id | skip
    exact writesAs_signed
  | _ =>
    have := writesAs hw hv
    cases v <;> first | exact absurd hv id | exact this

/-- The number that is packed. -/
theorem toU64_number {cfg : Cfg} {s : Scalar} {env : Env} {v : Val} (hp : s.isPackable = true)
    (hv : s.InRange cfg env v) : ∃ x u, v.number = .some x ∧ (s.elem cfg env).toU64 v = .ok u ∧
      (u : Int) % 2 ^ 64 = x % 2 ^ 64 := by
  have hi : ∀ i : Int, ((asU64 i : Nat) : Int) % 2 ^ 64 = i % 2 ^ 64 := by
    intro i
    unfold asU64
    rw [Int.toNat_of_nonneg (Int.emod_nonneg _ (by decide)), Int.emod_emod_of_dvd _ (Int.dvd_refl _)]
  cases s <;> first | cases hp; done | skip
  all_goals
    cases v <;> first | exact absurd hv id | skip
    first
    | exact ⟨_, _, rfl, rfl, rfl⟩
    | exact ⟨_, _, rfl, rfl, hi _⟩

end Scalar

end Zs
