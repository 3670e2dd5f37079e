import Verif.Runtime
import Verif.BitLemmas
import Verif.Spec

/-! # Lemmas about variable-length integers (helpers) -/

namespace Zs
open Spec

theorem max_step7 {b : Nat} (h1 : 1 ≤ b) (h2 : b ≤ 8) :
    shl64 (2 ^ (7 * b) - 1) 7 ||| 0xff = 2 ^ (7 * (b + 1)) - 1 := by
  rcases (by omega : b = 1 ∨ b = 2 ∨ b = 3 ∨ b = 4 ∨ b = 5 ∨ b = 6 ∨ b = 7 ∨ b = 8) with
    h | h | h | h | h | h | h | h <;> subst h <;> decide

theorem max_step8 {b : Nat} (h1 : 1 ≤ b) (h2 : b ≤ 8) :
    shl64 (2 ^ (7 * b) - 1) 8 ||| 0xff = 2 ^ (7 * (b + 1) + 1) - 1 := by
  rcases (by omega : b = 1 ∨ b = 2 ∨ b = 3 ∨ b = 4 ∨ b = 5 ∨ b = 6 ∨ b = 7 ∨ b = 8) with
    h | h | h | h | h | h | h | h <;> subst h <;> decide

theorem maxs_step7 {b : Nat} (h1 : 1 ≤ b) (h2 : b ≤ 8) :
    shl64 (2 ^ (7 * b - 1) - 1) 7 ||| 0xff = 2 ^ (7 * (b + 1) - 1) - 1 := by
  rcases (by omega : b = 1 ∨ b = 2 ∨ b = 3 ∨ b = 4 ∨ b = 5 ∨ b = 6 ∨ b = 7 ∨ b = 8) with
    h | h | h | h | h | h | h | h <;> subst h <;> decide

theorem maxs_step8 {b : Nat} (h1 : 1 ≤ b) (h2 : b ≤ 8) :
    shl64 (2 ^ (7 * b - 1) - 1) 8 ||| 0xff = 2 ^ (7 * (b + 1)) - 1 := by
  rcases (by omega : b = 1 ∨ b = 2 ∨ b = 3 ∨ b = 4 ∨ b = 5 ∨ b = 6 ∨ b = 7 ∨ b = 8) with
    h | h | h | h | h | h | h | h <;> subst h <;> decide

/-- What the size loop computes: the first length whose capacity exceeds `v`. -/
theorem unsignedBitsizeLoop_spec (v m : Nat) (hm : m ≤ 9) :
    ∀ (d b : Nat), m - b = d → 1 ≤ b → b ≤ m →
      (v < capacity m m → ∃ k, unsignedBitsizeLoop v m b (capacity m b - 1) = .ok (k * 8) ∧
        b ≤ k ∧ k ≤ m ∧ v < capacity m k ∧ ∀ j, b ≤ j → j < k → capacity m j ≤ v) ∧
      (capacity m m ≤ v → unsignedBitsizeLoop v m b (capacity m b - 1) = .err .dataError ∨
        ∃ k, b ≤ k ∧ k < m ∧ v < capacity m k) := by
  intro d
  induction d with
  | zero =>
    intro b hd h1 h2
    have : b = m := by omega
    subst this
    have hpos : 0 < capacity b b := by unfold capacity; split <;> exact Nat.pow_pos (by decide)
    constructor
    · intro hv
      refine ⟨b, ?_, Nat.le_refl _, Nat.le_refl _, hv, by omega⟩
      rw [unsignedBitsizeLoop, if_pos (by omega)]
    · intro hv
      left
      rw [unsignedBitsizeLoop, if_neg (by omega), if_pos (by omega)]
  | succ d ih =>
    intro b hd h1 h2
    have hb : capacity m b = 2 ^ (7 * b) := by unfold capacity; rw [if_neg (by omega)]
    have hpos : 0 < capacity m b := by rw [hb]; exact Nat.pow_pos (by decide)
    have hbm : b < m := by omega
    have hd' : m - (b + 1) = d := by omega
    have hstep : ∀ hv : capacity m b ≤ v,
        unsignedBitsizeLoop v m b (capacity m b - 1)
          = unsignedBitsizeLoop v m (b + 1) (capacity m (b + 1) - 1) := by
      intro hv
      conv => lhs; rw [unsignedBitsizeLoop]
      rw [if_neg (by omega), if_neg (by omega)]
      split
      · next he =>
        rw [hb, max_step8 h1 (by omega)]; unfold capacity; rw [if_pos he]
      · next he =>
        rw [hb, max_step7 h1 (by omega)]; unfold capacity; rw [if_neg he]
    by_cases hv : v < capacity m b
    · have h0 : unsignedBitsizeLoop v m b (capacity m b - 1) = .ok (b * 8) := by
        rw [unsignedBitsizeLoop, if_pos (by omega)]
      exact ⟨fun _ => ⟨b, h0, Nat.le_refl _, h2, hv, by omega⟩,
        fun _ => .inr ⟨b, Nat.le_refl _, hbm, hv⟩⟩
    · rw [hstep (by omega)]
      obtain ⟨ih1, ih2⟩ := ih (b + 1) hd' (Nat.le_add_left 1 b) hbm
      constructor
      · intro h
        obtain ⟨k, hk, h3, h4, h5, h6⟩ := ih1 h
        refine ⟨k, hk, by omega, h4, h5, ?_⟩
        intro j hj hjk
        by_cases hjb : j = b
        · subst hjb; omega
        · exact h6 j (by omega) hjk
      · intro h
        rcases ih2 h with h' | ⟨k, h3, h4, h5⟩
        · exact .inl h'
        · exact .inr ⟨k, by omega, h4, h5⟩

theorem capacity_mono {m a b : Nat} (hab : a ≤ b) (hb : b ≤ m) : capacity m a ≤ capacity m b := by
  unfold capacity
  split <;> split <;> first | omega | (apply Nat.pow_le_pow_right (by decide); omega)

/-- `unsigned_bitsize` for a value that fits. -/
theorem unsignedBitsize_ok {v m : Nat} (h1 : 2 ≤ m) (h9 : m ≤ 9) (hv : v < capacity m m) :
    ∃ k, unsignedBitsize v m = .ok (k * 8) ∧ 1 ≤ k ∧ k ≤ m ∧ v < capacity m k ∧
      ∀ j, 1 ≤ j → j < k → capacity m j ≤ v := by
  have hc : capacity m 1 - 1 = (1 <<< 7) - 1 := by unfold capacity; rw [if_neg (by omega)]; rfl
  have := (unsignedBitsizeLoop_spec v m h9 (m - 1) 1 rfl (by omega) (by omega)).1 hv
  rw [hc] at this
  exact this

theorem unsignedBitsize_err {v m : Nat} (h1 : 2 ≤ m) (h9 : m ≤ 9) (hv : capacity m m ≤ v) :
    unsignedBitsize v m = .err .dataError := by
  have hc : capacity m 1 - 1 = (1 <<< 7) - 1 := by unfold capacity; rw [if_neg (by omega)]; rfl
  have := (unsignedBitsizeLoop_spec v m h9 (m - 1) 1 rfl (by omega) (by omega)).2 hv
  rw [hc] at this
  rcases this with h | ⟨k, _, h4, h5⟩
  · exact h
  · have := capacity_mono (m := m) (Nat.le_of_lt h4) (Nat.le_refl m)
    omega

/-! ### Writer loop -/

theorem writeVaruintLoop_eq (v k m : Nat) (is : List Nat) (w : Writer) :
    writeVaruintLoop v k m is w
      = .ok (w.append (is.flatMap (fun i => natBits 8 (varuintByte v k m i)))) := by
  induction is generalizing w with
  | nil => simp [writeVaruintLoop, Writer.append]
  | cons i is ih =>
    simp [writeVaruintLoop, Writer.writeUnsigned, ih, Writer.append]

theorem writeVarintLoop_eq (neg : Bool) (v k m : Nat) (is : List Nat) (w : Writer) :
    writeVarintLoop neg v k m is w
      = .ok (w.append (is.flatMap (fun i => natBits 8 (varintByte neg v k m i)))) := by
  induction is generalizing w with
  | nil => simp [writeVarintLoop, Writer.append]
  | cons i is ih =>
    simp [writeVarintLoop, Writer.writeUnsigned, ih, Writer.append]

/-- The bits emitted for `v` in `k` bytes. -/
def varuintBits (v k m : Nat) : List Bool :=
  (List.range k).flatMap (fun i => natBits 8 (varuintByte v k m i))

def varintBits (neg : Bool) (v k m : Nat) : List Bool :=
  (List.range k).flatMap (fun i => natBits 8 (varintByte neg v k m i))

theorem flatMap_bits_length (is : List Nat) (f : Nat → Nat) :
    (is.flatMap (fun i => natBits 8 (f i))).length = is.length * 8 := by
  induction is with
  | nil => rfl
  | cons i is ih => simp [ih]; omega

theorem varuintBits_length (v k m : Nat) : (varuintBits v k m).length = k * 8 := by
  rw [varuintBits, flatMap_bits_length, List.length_range]

theorem varintBits_length (neg : Bool) (v k m : Nat) : (varintBits neg v k m).length = k * 8 := by
  rw [varintBits, flatMap_bits_length, List.length_range]

theorem writeVaruintType_ok {v m : Nat} (h1 : 2 ≤ m) (h9 : m ≤ 9) (hv : v < capacity m m) :
    ∃ k, unsignedBitsize v m = .ok (k * 8) ∧ 1 ≤ k ∧ k ≤ m ∧ v < capacity m k ∧
      (∀ j, 1 ≤ j → j < k → capacity m j ≤ v) ∧
      ∀ w, writeVaruintType w v m = .ok (w.append (varuintBits v k m)) := by
  obtain ⟨k, hk, hk1, hk2, hk3, hk4⟩ := unsignedBitsize_ok h1 h9 hv
  refine ⟨k, hk, hk1, hk2, hk3, hk4, fun w => ?_⟩
  simp [writeVaruintType, hk, writeVaruintLoop_eq, varuintBits]

/-! ### The bytes by arithmetic -/

theorem or_add_of_lt {a b k : Nat} (hb : b < 2 ^ k) : (a <<< k) ||| b = a * 2 ^ k + b := by
  rw [← Nat.shiftLeft_add_eq_or_of_lt hb, Nat.shiftLeft_eq]

theorem or80 {b : Nat} (hb : b < 128) : 0x80 ||| b = 128 + b := by
  have := @or_add_of_lt 1 b 7 hb
  simpa using this

theorem or40 {b : Nat} (hb : b < 64) : 0x40 ||| b = 64 + b := by
  have := @or_add_of_lt 1 b 6 hb
  simpa using this

theorem orC0 {b : Nat} (hb : b < 64) : 0xc0 ||| b = 192 + b := by
  have := @or_add_of_lt 3 b 6 hb
  simpa using this

theorem and7f (x : Nat) : x &&& 0x7f = x % 128 := Nat.and_two_pow_sub_one_eq_mod x 7
theorem and3f (x : Nat) : x &&& 0x3f = x % 64 := Nat.and_two_pow_sub_one_eq_mod x 6
theorem andff (x : Nat) : x &&& 0xff = x % 256 := Nat.and_two_pow_sub_one_eq_mod x 8

/-- Amount by which the value has been shifted when byte `i` of `k` is emitted. -/
def shiftAt (k m i : Nat) : Nat :=
  if k = m ∧ i + 1 < k then 7 * (k - (i + 1)) + 1 else 7 * (k - (i + 1))

theorem varuintByte_next {v k m i : Nat} (hi : i + 1 < k) :
    varuintByte v k m i = 128 + v / 2 ^ shiftAt k m i % 128 := by
  have h : i < k - 1 := by omega
  simp only [varuintByte, h, decide_true, if_true, Bool.and_true, beq_iff_eq]
  have e : (0xff >>> (8 - (8 - 1))) = 0x7f := rfl
  rw [e, and7f, Nat.zero_or, or80 (Nat.mod_lt _ (by decide)), Nat.shiftRight_eq_div_pow, shiftAt,
    Nat.mul_comm 7]
  by_cases hk : k = m
  · subst hk; simp [hi]
  · simp [hk]

theorem varuintByte_last {v k m : Nat} (hk : 1 ≤ k) :
    varuintByte v k m (k - 1) = if k = m then v % 256 else v % 128 := by
  have h : ¬ (k - 1 < k - 1) := by omega
  have h2 : k - (k - 1 + 1) = 0 := by omega
  simp only [varuintByte, h, decide_false, h2]
  by_cases hkm : k = m
  · simp [hkm, andff]
  · simp [hkm, and7f]

theorem varuintByte_lt {v k m i : Nat} (hi : i < k) : varuintByte v k m i < 256 := by
  by_cases h : i + 1 < k
  · rw [varuintByte_next h]; omega
  · have : i = k - 1 := by omega
    subst this
    rw [varuintByte_last (by omega)]
    split <;> omega

/-! ### Reader loop -/

theorem and_two_pow_ne (b i : Nat) : ((b &&& 2 ^ i) != 0) = b.testBit i := by
  cases h : b.testBit i
  · have : b &&& 2 ^ i = 0 := by
      apply Nat.eq_of_testBit_eq
      intro j
      rw [Nat.testBit_and, Nat.testBit_two_pow, Nat.zero_testBit]
      by_cases hj : i = j
      · subst hj; simp [h]
      · simp [hj]
    simp [this]
  · have : b &&& 2 ^ i ≠ 0 := by
      intro h0
      have := congrArg (fun x => x.testBit i) h0
      simp [Nat.testBit_and, Nat.testBit_two_pow, h] at this
    simp [this]

theorem and80_ne {b : Nat} (hb : b < 256) : ((b &&& 0x80) != 0) = decide (128 ≤ b) := by
  rw [show (0x80 : Nat) = 2 ^ 7 from rfl, and_two_pow_ne, Nat.testBit_eq_decide_div_mod_eq]
  congr 1
  apply propext
  omega

theorem and40_ne {b : Nat} : ((b &&& 0x40) != 0) = decide (64 ≤ b % 128) := by
  rw [show (0x40 : Nat) = 2 ^ 6 from rfl, and_two_pow_ne, Nat.testBit_eq_decide_div_mod_eq]
  congr 1
  apply propext
  omega

theorem join_bits (v s k : Nat) : ((v / 2 ^ (s + k)) <<< k) ||| (v / 2 ^ s % 2 ^ k) = v / 2 ^ s := by
  rw [or_add_of_lt (Nat.mod_lt _ (Nat.pow_pos (by decide))), Nat.pow_add, ← Nat.div_div_eq_div_mul]
  have := Nat.div_add_mod (v / 2 ^ s) (2 ^ k)
  rw [Nat.mul_comm]
  exact this

theorem readByte {x max : Nat} (hx : x < 256) (hmax : 8 ≤ max) (pos : Nat) (post : List Bool) :
    Reader.readUnsigned ⟨pos, natBits 8 x ++ post⟩ 8 max = .ok (x, ⟨pos + 8, post⟩) :=
  Reader.readUnsigned_append hmax hx pos post

/-- The bits of bytes `i .. k-1`. -/
def bitsFrom (v k m i : Nat) : List Bool :=
  (List.range' i (k - i)).flatMap (fun j => natBits 8 (varuintByte v k m j))

theorem bitsFrom_step {v k m i : Nat} (hi : i < k) :
    bitsFrom v k m i = natBits 8 (varuintByte v k m i) ++ bitsFrom v k m (i + 1) := by
  unfold bitsFrom
  obtain ⟨d, hd⟩ : ∃ d, k - i = d + 1 := ⟨k - i - 1, by omega⟩
  have hd2 : k - (i + 1) = d := by omega
  rw [hd, hd2, List.range'_succ]
  rfl

theorem bitsFrom_end (v k m : Nat) : bitsFrom v k m k = [] := by
  unfold bitsFrom; simp

theorem varuintBits_eq (v k m : Nat) : varuintBits v k m = bitsFrom v k m 0 := by
  unfold varuintBits bitsFrom; rw [List.range_eq_range']; rfl

/-- The tail of `read_sized_uint` after the loop. -/
def finishUint (x : Nat × Bool × Reader) : Res (Nat × Reader) :=
  if x.2.1 then do
    let (b, r) ← x.2.2.readUnsigned 8 64
    pure ((x.1 <<< 8) ||| b, r)
  else pure (x.1, x.2.2)

theorem shiftAt_last (k m : Nat) (hk : 1 ≤ k) : shiftAt k m (k - 1) = 0 := by
  unfold shiftAt; rw [if_neg (by omega)]; omega

theorem readLoop_spec {v k m : Nat} (hkm : k ≤ m) (after : List Bool) :
    ∀ (n i pos : Nat), n + i + 2 = m → i < k →
      (readSizedUintLoop n (v / 2 ^ shiftAt k m i) (decide (i + 1 < k))
          ⟨pos, bitsFrom v k m (i + 1) ++ after⟩ >>= finishUint)
        = .ok (v, ⟨pos + (k - (i + 1)) * 8, after⟩) := by
  have hdone : ∀ (n i pos : Nat), i + 1 = k →
      (readSizedUintLoop n (v / 2 ^ shiftAt k m i) (decide (i + 1 < k))
          ⟨pos, bitsFrom v k m (i + 1) ++ after⟩ >>= finishUint)
        = .ok (v, ⟨pos + (k - (i + 1)) * 8, after⟩) := by
    intro n i pos hi
    have e : shiftAt k m i = 0 := by
      have := shiftAt_last k m (by omega)
      rwa [← hi, Nat.add_sub_cancel, hi] at this
    have h1 : decide (i + 1 < k) = false := by simp; omega
    rw [e, h1, hi, bitsFrom_end]
    cases n <;> simp [readSizedUintLoop, finishUint]
  intro n
  induction n with
  | zero =>
    intro i pos hn hi
    by_cases hlast : i + 1 = k
    · exact hdone 0 i pos hlast
    · have hk : k = m := by omega
      have hik : i + 1 = k - 1 := by omega
      have h1 : decide (i + 1 < k) = true := by simp; omega
      have hb : varuintByte v k m (i + 1) = v % 256 := by
        rw [hik, varuintByte_last (by omega), if_pos hk]
      have hs : shiftAt k m i = 0 + 8 := by
        unfold shiftAt; rw [if_pos (by omega)]; omega
      rw [h1, bitsFrom_step (by omega), hb, hs]
      simp only [readSizedUintLoop, Res.ok_bind, finishUint, List.append_assoc]
      rw [readByte (by omega) (by decide)]
      have hj := join_bits v 0 8
      simp only [Nat.pow_zero, Nat.div_one] at hj
      simp only [if_true, Res.ok_bind, Res.pure_eq]
      rw [hj, (by omega : i + 1 + 1 = k), bitsFrom_end, (by omega : k - (i + 1) = 1)]
      rfl
  | succ n ih =>
    intro i pos hn hi
    by_cases hlast : i + 1 = k
    · exact hdone (n + 1) i pos hlast
    · have h1 : decide (i + 1 < k) = true := by simp; omega
      rw [h1, bitsFrom_step (by omega)]
      have hlt := varuintByte_lt (v := v) (k := k) (m := m) (i := i + 1) (by omega)
      simp only [readSizedUintLoop, List.append_assoc]
      rw [readByte hlt (by decide)]
      simp only [Bool.not_true, Bool.false_eq_true, if_false, Res.ok_bind]
      have hval : ((v / 2 ^ shiftAt k m i) <<< 7) ||| (varuintByte v k m (i + 1) &&& 0x7f)
          = v / 2 ^ shiftAt k m (i + 1) := by
        rw [and7f]
        by_cases h2 : i + 2 < k
        · have hs : shiftAt k m i = shiftAt k m (i + 1) + 7 := by
            unfold shiftAt
            by_cases hkm : k = m
            · rw [if_pos (by omega), if_pos (by omega)]; omega
            · rw [if_neg (by omega), if_neg (by omega)]; omega
          rw [varuintByte_next h2, hs]
          have : (128 + v / 2 ^ shiftAt k m (i + 1) % 128) % 128
              = v / 2 ^ shiftAt k m (i + 1) % 2 ^ 7 := by omega
          rw [this, join_bits]
        · have hik : i + 1 = k - 1 := by omega
          have hs : shiftAt k m i = 0 + 7 := by
            unfold shiftAt; rw [if_neg (by omega)]; omega
          rw [hik, varuintByte_last (by omega), if_neg (by omega), shiftAt_last k m (by omega), hs]
          have := join_bits v 0 7
          simp only [Nat.pow_zero, Nat.div_one] at this ⊢
          rw [(by omega : v % 128 % 128 = v % 2 ^ 7), this]
      have hnext : ((varuintByte v k m (i + 1) &&& 0x80) != 0) = decide (i + 1 + 1 < k) := by
        rw [and80_ne hlt]
        by_cases h2 : i + 2 < k
        · rw [varuintByte_next h2]; simp; omega
        · rw [(by omega : i + 1 = k - 1), varuintByte_last (by omega), if_neg (by omega)]
          simp
          omega
      rw [hval, hnext, ih (i + 1) (pos + 8) (by omega) (by omega)]
      congr 3
      omega

theorem readSizedUint_eq (r : Reader) (m : Nat) :
    readSizedUint r m = (r.readUnsigned 8 64 >>= fun x =>
      readSizedUintLoop (m - 2) (x.1 &&& 0x7f) ((x.1 &&& 0x80) != 0) x.2 >>= finishUint) := rfl

theorem readSizedUint_varuintBits {v k m : Nat} (hm : 2 ≤ m) (hk : 1 ≤ k) (hkm : k ≤ m)
    (hv : v < capacity m k) (pos : Nat) (after : List Bool) :
    readSizedUint ⟨pos, varuintBits v k m ++ after⟩ m = .ok (v, ⟨pos + k * 8, after⟩) := by
  have hlt := varuintByte_lt (v := v) (k := k) (m := m) (i := 0) (by omega)
  rw [varuintBits_eq, bitsFrom_step (by omega), readSizedUint_eq, List.append_assoc,
    readByte hlt (by decide), Res.ok_bind]
  have hval : (varuintByte v k m 0 &&& 0x7f) = v / 2 ^ shiftAt k m 0 := by
    rw [and7f]
    by_cases h1 : 0 + 1 < k
    · rw [varuintByte_next h1]
      have : v / 2 ^ shiftAt k m 0 < 128 := by
        rw [Nat.div_lt_iff_lt_mul (Nat.pow_pos (by decide)), show (128 : Nat) = 2 ^ 7 from rfl,
          ← Nat.pow_add]
        refine Nat.lt_of_lt_of_le hv ?_
        unfold capacity shiftAt
        by_cases hkm' : k = m
        · rw [if_pos hkm', if_pos (by omega)]
          exact Nat.pow_le_pow_right (by decide) (by omega)
        · rw [if_neg hkm', if_neg (by omega)]
          exact Nat.pow_le_pow_right (by decide) (by omega)
      generalize v / 2 ^ shiftAt k m 0 = y at *
      omega
    · have : k = 1 := by omega
      subst this
      have hvv : v < 128 := by
        unfold capacity at hv; rw [if_neg (by omega)] at hv; simpa using hv
      rw [varuintByte_last (k := 1) (by omega), if_neg (by omega)]
      have : shiftAt 1 m 0 = 0 := shiftAt_last 1 m (by omega)
      rw [this]; simp; omega
  have hnext : ((varuintByte v k m 0 &&& 0x80) != 0) = decide (0 + 1 < k) := by
    rw [and80_ne hlt]
    by_cases h2 : 0 + 1 < k
    · rw [varuintByte_next h2]; simp; omega
    · have : k = 1 := by omega
      subst this
      rw [varuintByte_last (k := 1) (by omega), if_neg (by omega)]
      simp
      omega
  rw [hval, hnext]
  have := readLoop_spec (v := v) hkm after (m - 2) 0 (pos + 8) (by omega) (by omega)
  rw [this]
  congr 3
  omega

/-! ### Signed -/

theorem readUnsigned_8_64 (r : Reader) : r.readUnsigned 8 8 = r.readUnsigned 8 64 := by
  simp [Reader.readUnsigned]

theorem readSizedIntLoop_eq (n value : Nat) (h : Bool) (r : Reader) :
    readSizedIntLoop n value h r = readSizedUintLoop n value h r := by
  induction n generalizing value h r with
  | zero => rfl
  | succ n ih =>
    simp only [readSizedIntLoop, readSizedUintLoop, readUnsigned_8_64, ih]

theorem varintByte_succ {neg : Bool} {v k m i : Nat} (hi : 1 ≤ i) :
    varintByte neg v k m i = varuintByte v k m i := by
  have : (i == 0) = false := by simp; omega
  simp only [varintByte, varuintByte, this, Bool.false_eq_true, if_false]
  rfl

theorem varintBits_eq (neg : Bool) {v k m : Nat} (hk : 1 ≤ k) :
    varintBits neg v k m = natBits 8 (varintByte neg v k m 0) ++ bitsFrom v k m 1 := by
  obtain ⟨d, rfl⟩ : ∃ d, k = d + 1 := ⟨k - 1, by omega⟩
  unfold varintBits bitsFrom
  rw [List.range_eq_range', List.range'_succ, List.flatMap_cons]
  congr 1
  simp only [Nat.zero_add, Nat.add_sub_cancel]
  have : ∀ l : List Nat, (∀ i ∈ l, 1 ≤ i) →
      l.flatMap (fun i => natBits 8 (varintByte neg v (d + 1) m i))
        = l.flatMap (fun i => natBits 8 (varuintByte v (d + 1) m i)) := by
    intro l
    induction l with
    | nil => intro _; rfl
    | cons a l ih =>
      intro h
      simp only [List.flatMap_cons]
      rw [varintByte_succ (h a (by simp)), ih (fun i hi => h i (by simp [hi]))]
  apply this
  intro i hi
  rw [List.mem_range'] at hi
  omega

theorem varintByte_zero {neg : Bool} {v k m : Nat} (hk : 1 ≤ k) (hkm : k = 1 → m ≠ 1) :
    varintByte neg v k m 0
      = (if neg then 128 else 0) + (if 1 < k then 64 + v / 2 ^ shiftAt k m 0 % 64 else v % 64) := by
  by_cases h1 : 1 < k
  · have h : 0 < k - 1 := by omega
    simp only [varintByte, h, decide_true, if_true, Bool.and_true, beq_iff_eq, h1]
    have e : (0xff >>> (8 - (8 - 1 - 1))) = 0x3f := rfl
    have e2 : (1 <<< (8 - 1 - 1)) = 0x40 := rfl
    rw [e, e2, and3f, Nat.shiftRight_eq_div_pow, shiftAt]
    have hs : (2 ^ (if k = m then (k - (0 + 1)) * 7 + 1 else (k - (0 + 1)) * 7))
        = 2 ^ (if k = m ∧ 0 + 1 < k then 7 * (k - (0 + 1)) + 1 else 7 * (k - (0 + 1))) := by
      rw [Nat.mul_comm 7]
      by_cases hk : k = m
      · subst hk; simp [h1]
      · simp [hk]
    rw [hs]
    cases neg
    · simp only [Bool.false_eq_true, if_false, Nat.zero_or, Nat.zero_add]
      rw [or40 (Nat.mod_lt _ (by decide))]
    · simp only [if_true, Nat.zero_or]
      rw [show (0x80 ||| 0x40 : Nat) = 0xc0 from rfl, orC0 (Nat.mod_lt _ (by decide))]
      omega
  · have hk1 : k = 1 := by omega
    subst hk1
    have hm := hkm rfl
    have hm' : (1 == m) = false := by simp; omega
    simp only [varintByte, hm', Nat.sub_self, Nat.lt_irrefl, decide_false, Bool.false_eq_true,
      if_false, Bool.and_false]
    cases neg
    · simp [and3f]
    · simp [and3f]
      have := @or_add_of_lt 1 (v % 64) 7 (by omega)
      simpa using this

theorem signedBitsizeLoop_spec (v : Int) (m : Nat) (hm : m ≤ 9) :
    ∀ (d b : Nat), m - b = d → 1 ≤ b → b ≤ m →
      (v < capacitySigned m m →
        ∃ k, signedBitsizeLoop v m b (capacitySigned m b - 1) = .ok (k * 8) ∧
        b ≤ k ∧ k ≤ m ∧ v < capacitySigned m k ∧ ∀ j, b ≤ j → j < k → capacitySigned m j ≤ v) ∧
      (capacitySigned m m ≤ v →
        signedBitsizeLoop v m b (capacitySigned m b - 1) = .err .dataError ∨
        ∃ k, b ≤ k ∧ k < m ∧ v < capacitySigned m k) := by
  intro d
  induction d with
  | zero =>
    intro b hd h1 h2
    have : b = m := by omega
    subst this
    have hpos : 0 < capacitySigned b b := by
      unfold capacitySigned; split <;> exact Nat.pow_pos (by decide)
    constructor
    · intro hv
      refine ⟨b, ?_, Nat.le_refl _, Nat.le_refl _, hv, by omega⟩
      rw [signedBitsizeLoop, if_pos (by omega)]
    · intro hv
      left
      rw [signedBitsizeLoop, if_neg (by omega), if_pos (by omega)]
  | succ d ih =>
    intro b hd h1 h2
    have hb : capacitySigned m b = 2 ^ (7 * b - 1) := by
      unfold capacitySigned; rw [if_neg (by omega)]
    have hpos : 0 < capacitySigned m b := by rw [hb]; exact Nat.pow_pos (by decide)
    have hbm : b < m := by omega
    have hd' : m - (b + 1) = d := by omega
    have hstep : ∀ hv : (capacitySigned m b : Int) ≤ v,
        signedBitsizeLoop v m b (capacitySigned m b - 1)
          = signedBitsizeLoop v m (b + 1) (capacitySigned m (b + 1) - 1) := by
      intro hv
      conv => lhs; rw [signedBitsizeLoop]
      rw [if_neg (by omega), if_neg (by omega)]
      split
      · next he =>
        rw [hb, maxs_step8 h1 (by omega)]; unfold capacitySigned; rw [if_pos he]
      · next he =>
        rw [hb, maxs_step7 h1 (by omega)]; unfold capacitySigned; rw [if_neg he]
    by_cases hv : v < capacitySigned m b
    · have h0 : signedBitsizeLoop v m b (capacitySigned m b - 1) = .ok (b * 8) := by
        rw [signedBitsizeLoop, if_pos (by omega)]
      exact ⟨fun _ => ⟨b, h0, Nat.le_refl _, h2, hv, by omega⟩,
        fun _ => .inr ⟨b, Nat.le_refl _, hbm, hv⟩⟩
    · rw [hstep (by omega)]
      obtain ⟨ih1, ih2⟩ := ih (b + 1) hd' (Nat.le_add_left 1 b) hbm
      constructor
      · intro h
        obtain ⟨k, hk, h3, h4, h5, h6⟩ := ih1 h
        refine ⟨k, hk, by omega, h4, h5, ?_⟩
        intro j hj hjk
        by_cases hjb : j = b
        · subst hjb; omega
        · exact h6 j (by omega) hjk
      · intro h
        rcases ih2 h with h' | ⟨k, h3, h4, h5⟩
        · exact .inl h'
        · exact .inr ⟨k, by omega, h4, h5⟩

theorem capacitySigned_mono {m a b : Nat} (hab : a ≤ b) (hb : b ≤ m) :
    capacitySigned m a ≤ capacitySigned m b := by
  unfold capacitySigned
  split <;> split <;> first | omega | (apply Nat.pow_le_pow_right (by decide); omega)

/-- The `if v < 0 { -v }` steps succeed with the magnitude unless `v = i64::MIN`. -/
theorem absI64 (md : Mode) {v : Int} (hmin : v ≠ -2 ^ 63) :
    (if v < 0 then negI64 md v else pure v) = .ok (v.natAbs : Int) := by
  split
  · unfold negI64; rw [if_neg hmin]; congr 1; omega
  · simp; omega

theorem bind_ite {α β : Type} {p : Prop} [Decidable p] {x y : Res α} {f : α → Res β} :
    (if p then x >>= f else y >>= f) = (if p then x else y) >>= f := by
  split <;> rfl

theorem signedBitsize_ok (md : Mode) {v : Int} {m : Nat} (h1 : 2 ≤ m) (h9 : m ≤ 9)
    (hmin : v ≠ -2 ^ 63) (hv : v.natAbs < capacitySigned m m) :
    ∃ k, signedBitsize md v m = .ok (k * 8) ∧ 1 ≤ k ∧ k ≤ m ∧ v.natAbs < capacitySigned m k ∧
      ∀ j, 1 ≤ j → j < k → capacitySigned m j ≤ v.natAbs := by
  have hc : capacitySigned m 1 - 1 = (1 <<< 6) - 1 := by
    unfold capacitySigned; rw [if_neg (by omega)]; rfl
  have := (signedBitsizeLoop_spec (v.natAbs : Int) m h9 (m - 1) 1 rfl (by omega) (by omega)).1
    (by omega)
  rw [hc] at this
  obtain ⟨k, hk, h3, h4, h5, h6⟩ := this
  refine ⟨k, ?_, h3, h4, by omega, ?_⟩
  · unfold signedBitsize; simp only [bind_ite]; rw [absI64 md hmin]; exact hk
  · intro j hj hjk
    have := h6 j hj hjk
    omega

theorem signedBitsize_err (md : Mode) {v : Int} {m : Nat} (h1 : 2 ≤ m) (h9 : m ≤ 9)
    (hmin : v ≠ -2 ^ 63) (hv : capacitySigned m m ≤ v.natAbs) :
    signedBitsize md v m = .err .dataError := by
  have hc : capacitySigned m 1 - 1 = (1 <<< 6) - 1 := by
    unfold capacitySigned; rw [if_neg (by omega)]; rfl
  have := (signedBitsizeLoop_spec (v.natAbs : Int) m h9 (m - 1) 1 rfl (by omega) (by omega)).2
    (by omega)
  rw [hc] at this
  unfold signedBitsize; simp only [bind_ite]; rw [absI64 md hmin]
  rcases this with h | ⟨k, _, h4, h5⟩
  · exact h
  · have := capacitySigned_mono (m := m) (Nat.le_of_lt h4) (Nat.le_refl m)
    omega

theorem asU64_natAbs {v : Int} (h1 : -2 ^ 63 < v) (h2 : v < 2 ^ 63) :
    asU64 (v.natAbs : Int) = v.natAbs := by
  unfold asU64
  rw [Int.emod_eq_of_lt (by omega) (by omega)]
  omega

theorem writeVarintType_ok (md : Mode) {v : Int} {m : Nat} (h1 : 2 ≤ m) (h9 : m ≤ 9)
    (hlo : -2 ^ 63 < v) (hhi : v < 2 ^ 63) (hv : v.natAbs < capacitySigned m m) :
    ∃ k, signedBitsize md v m = .ok (k * 8) ∧ 1 ≤ k ∧ k ≤ m ∧ v.natAbs < capacitySigned m k ∧
      (∀ j, 1 ≤ j → j < k → capacitySigned m j ≤ v.natAbs) ∧
      ∀ w, writeVarintType md w v m
        = .ok (w.append (varintBits (decide (v < 0)) v.natAbs k m)) := by
  obtain ⟨k, hk, hk1, hk2, hk3, hk4⟩ := signedBitsize_ok md h1 h9 (by omega) hv
  refine ⟨k, hk, hk1, hk2, hk3, hk4, fun w => ?_⟩
  have habs : (if v < 0 then (do let n ← negI64 md v; pure (asU64 n)) else pure (asU64 v))
      = Res.ok v.natAbs := by
    split
    · unfold negI64; rw [if_neg (by omega)]
      simp only [Res.ok_bind, Res.pure_eq]
      rw [← asU64_natAbs hlo hhi]; congr 2; omega
    · rw [← asU64_natAbs hlo hhi]
      simp only [Res.pure_eq]; congr 2; omega
  unfold writeVarintType
  simp only [bind_ite]
  rw [habs]
  simp [hk, writeVarintLoop_eq, varintBits]

theorem readSizedInt_varintBits {neg : Bool} {v k m : Nat} (hm : 2 ≤ m) (hk : 1 ≤ k) (hkm : k ≤ m)
    (hv : v < capacitySigned m k) (pos : Nat) (after : List Bool) :
    readSizedInt ⟨pos, varintBits neg v k m ++ after⟩ m
      = .ok (if neg then -(v : Int) else v, ⟨pos + k * 8, after⟩) := by
  have hb0 := varintByte_zero (neg := neg) (v := v) (k := k) (m := m) hk (by omega)
  have hy : 1 < k → v / 2 ^ shiftAt k m 0 < 64 := by
    intro h2
    rw [Nat.div_lt_iff_lt_mul (Nat.pow_pos (by decide)), show (64 : Nat) = 2 ^ 6 from rfl,
      ← Nat.pow_add]
    refine Nat.lt_of_lt_of_le hv ?_
    unfold capacitySigned shiftAt
    by_cases hkm' : k = m
    · rw [if_pos hkm', if_pos (by omega)]
      exact Nat.pow_le_pow_right (by decide) (by omega)
    · rw [if_neg hkm', if_neg (by omega)]
      exact Nat.pow_le_pow_right (by decide) (by omega)
  have hx : ¬ 1 < k → v < 64 ∧ shiftAt k m 0 = 0 := by
    intro h2
    have : k = 1 := by omega
    subst this
    refine ⟨?_, shiftAt_last 1 m (by omega)⟩
    unfold capacitySigned at hv; rw [if_neg (by omega)] at hv; simpa using hv
  obtain ⟨y, hyd⟩ : ∃ y, v / 2 ^ shiftAt k m 0 = y := ⟨_, rfl⟩
  have hb : varintByte neg v k m 0
      = (if neg then 128 else 0) + (if 1 < k then 64 else 0) + y ∧ y < 64 := by
    rw [hb0]
    by_cases h2 : 1 < k
    · have := hy h2
      rw [if_pos h2, if_pos h2, hyd]
      omega
    · obtain ⟨h3, h4⟩ := hx h2
      rw [h4, Nat.pow_zero, Nat.div_one] at hyd
      rw [if_neg h2, if_neg h2, ← hyd]
      omega
  clear hy hx hb0
  obtain ⟨hb0, hy⟩ := hb
  have hlt : varintByte neg v k m 0 < 256 := by
    rw [hb0]; split <;> split <;> omega
  have hneg : ((varintByte neg v k m 0 &&& 0x80) != 0) = neg := by
    rw [and80_ne hlt, hb0]
    cases neg <;> simp <;> split <;> omega
  have hnext : ((varintByte neg v k m 0 &&& 0x40) != 0) = decide (0 + 1 < k) := by
    rw [and40_ne, hb0]
    congr 1
    apply propext
    split <;> split <;> omega
  have hval : (varintByte neg v k m 0 &&& 0x3f) = v / 2 ^ shiftAt k m 0 := by
    rw [and3f, hb0, hyd]
    split <;> split <;> omega
  have hloop := readLoop_spec (v := v) hkm after (m - 2) 0 (pos + 8) (by omega) (by omega)
  rw [varintBits_eq neg hk, List.append_assoc]
  unfold readSizedInt
  rw [readByte hlt (by decide)]
  simp only [Res.ok_bind, hval, hnext, hneg, readSizedIntLoop_eq]
  rw [Nat.zero_add] at hloop
  -- the loop ends normally, with the value that `finishUint` completes
  cases hl : readSizedUintLoop (m - 2) (v / 2 ^ shiftAt k m 0) (decide (0 + 1 < k))
      ⟨pos + 8, bitsFrom v k m 1 ++ after⟩ with
  | err e => rw [hl] at hloop; cases hloop
  | panic => rw [hl] at hloop; cases hloop
  | ok x =>
    obtain ⟨value, hasNext, r⟩ := x
    rw [hl] at hloop
    simp only [Res.ok_bind, finishUint] at hloop ⊢
    cases hasNext with
    | false =>
      simp only [Bool.false_eq_true, if_false, Res.pure_eq, Res.ok_bind, Res.ok.injEq,
        Prod.mk.injEq] at hloop ⊢
      obtain ⟨h1, h2⟩ := hloop
      subst h1 h2
      simp only [true_and, Reader.mk.injEq, and_true]
      omega
    | true =>
      simp only [if_true, readUnsigned_8_64, Res.pure_eq] at hloop ⊢
      cases hr : r.readUnsigned 8 64 with
      | err e => rw [hr] at hloop; cases hloop
      | panic => rw [hr] at hloop; cases hloop
      | ok y =>
        rw [hr] at hloop
        simp only [Res.ok_bind, Res.ok.injEq, Prod.mk.injEq] at hloop ⊢
        obtain ⟨h1, h2⟩ := hloop
        rw [h1, h2]
        simp only [true_and, Reader.mk.injEq, and_true]
        omega

end Zs
