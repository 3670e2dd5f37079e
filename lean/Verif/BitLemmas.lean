import Verif.Base

/-! # Lemmas about bit lists (helpers) -/

namespace Zs

@[simp] theorem natBits_length (n v : Nat) : (natBits n v).length = n := by
  induction n with
  | zero => rfl
  | succ n ih => simp [natBits, ih]

theorem ofBits_foldl (bs : List Bool) (a : Nat) :
    bs.foldl (fun acc b => 2 * acc + b.toNat) a = a * 2 ^ bs.length + ofBits bs := by
  induction bs generalizing a with
  | nil => simp [ofBits]
  | cons b bs ih =>
    simp only [List.foldl_cons, ofBits, List.length_cons]
    rw [ih, ih (2 * 0 + b.toNat)]
    rw [Nat.pow_succ]
    simp only [Nat.mul_zero, Nat.zero_add, Nat.add_mul]
    rw [Nat.mul_comm 2 a, Nat.mul_assoc, Nat.mul_comm 2]
    omega

theorem ofBits_cons (b : Bool) (bs : List Bool) :
    ofBits (b :: bs) = b.toNat * 2 ^ bs.length + ofBits bs := by
  rw [ofBits, List.foldl_cons, ofBits_foldl]; simp

@[simp] theorem ofBits_nil : ofBits [] = 0 := rfl

theorem ofBits_append (a b : List Bool) :
    ofBits (a ++ b) = ofBits a * 2 ^ b.length + ofBits b := by
  rw [ofBits, List.foldl_append, ofBits_foldl]; rfl

theorem ofBits_lt (bs : List Bool) : ofBits bs < 2 ^ bs.length := by
  induction bs with
  | nil => simp
  | cons b bs ih =>
    rw [ofBits_cons, List.length_cons, Nat.pow_succ]
    cases b <;> simp <;> omega

theorem ofBits_natBits (n v : Nat) : ofBits (natBits n v) = v % 2 ^ n := by
  induction n with
  | zero => simp [natBits, Nat.mod_one]
  | succ n ih =>
    rw [natBits, ofBits_cons, ih, natBits_length, Nat.mod_pow_succ, Nat.testBit_eq_decide_div_mod_eq]
    have : v / 2 ^ n % 2 < 2 := Nat.mod_lt _ (by decide)
    rcases (by omega : v / 2 ^ n % 2 = 0 ∨ v / 2 ^ n % 2 = 1) with h | h <;>
      simp [h] <;> omega

theorem natBits_ofBits (bs : List Bool) : natBits bs.length (ofBits bs) = bs := by
  have key : ∀ (bs : List Bool) (k : Nat), natBits bs.length (k * 2 ^ bs.length + ofBits bs) = bs := by
    intro bs
    induction bs with
    | nil => intro k; rfl
    | cons b bs ih =>
      intro k
      rw [List.length_cons, natBits, ofBits_cons]
      have hlt := ofBits_lt bs
      have e : k * 2 ^ (bs.length + 1) + (b.toNat * 2 ^ bs.length + ofBits bs)
          = (2 * k + b.toNat) * 2 ^ bs.length + ofBits bs := by
        rw [Nat.pow_succ, Nat.add_mul, Nat.mul_comm (2 ^ bs.length) 2, ← Nat.mul_assoc,
          Nat.mul_comm k 2]
        omega
      rw [e, ih]
      congr 1
      rw [Nat.testBit_eq_decide_div_mod_eq]
      have : ((2 * k + b.toNat) * 2 ^ bs.length + ofBits bs) / 2 ^ bs.length = 2 * k + b.toNat := by
        rw [Nat.mul_comm, Nat.mul_add_div (Nat.pow_pos (by decide)), Nat.div_eq_of_lt hlt]; rfl
      rw [this]
      cases b <;> simp <;> omega
  simpa using key bs 0

/-- Bits only depend on the value modulo `2^n`. -/
theorem natBits_mod (n v : Nat) : natBits n (v % 2 ^ n) = natBits n v := by
  have h := natBits_ofBits (natBits n v)
  rw [natBits_length, ofBits_natBits] at h
  exact h

theorem natBits_congr {n a b : Nat} (h : a % 2 ^ n = b % 2 ^ n) : natBits n a = natBits n b := by
  rw [← natBits_mod n a, h, natBits_mod]

theorem natBits_inj {n a b : Nat} (ha : a < 2 ^ n) (hb : b < 2 ^ n)
    (h : natBits n a = natBits n b) : a = b := by
  have := congrArg ofBits h
  rwa [ofBits_natBits, ofBits_natBits, Nat.mod_eq_of_lt ha, Nat.mod_eq_of_lt hb] at this

/-! ## Reading back what was written -/

theorem Reader.readUnsigned_append {n max v : Nat} (hn : n ≤ max) (hv : v < 2 ^ n)
    (pos : Nat) (post : List Bool) :
    Reader.readUnsigned ⟨pos, natBits n v ++ post⟩ n max = .ok (v, ⟨pos + n, post⟩) := by
  have hl := natBits_length n v
  simp only [Reader.readUnsigned, Reader.advance]
  rw [if_neg (by omega), if_neg (by simp)]
  rw [List.take_append_of_le_length (by omega), List.take_of_length_le (by omega),
    List.drop_append_of_le_length (by omega), List.drop_of_length_le (by omega),
    ofBits_natBits, Nat.mod_eq_of_lt hv]
  rfl

theorem signExtend_asU64 {n : Nat} {v : Int} (hn : 0 < n) (h64 : n ≤ 64)
    (h1 : -(2 ^ (n - 1) : Int) ≤ v) (h2 : v < 2 ^ (n - 1)) :
    signExtend n (asU64 v % 2 ^ n) = v := by
  obtain ⟨m, rfl⟩ : ∃ m, n = m + 1 := ⟨n - 1, by omega⟩
  simp only [Nat.add_sub_cancel] at h1 h2
  have hp : (2 : Int) ^ (m + 1) = 2 * 2 ^ m := by rw [Int.pow_succ, Int.mul_comm]
  have hpn : (2 : Nat) ^ (m + 1) = 2 * 2 ^ m := by rw [Nat.pow_succ, Nat.mul_comm]
  have hcast : ((2 ^ m : Nat) : Int) = 2 ^ m := by push_cast; rfl
  have hdvd : (2 : Int) ^ (m + 1) ∣ 2 ^ 64 := by
    obtain ⟨k, hk⟩ := Nat.exists_eq_add_of_le h64
    exact ⟨2 ^ k, by rw [hk, Int.pow_add]⟩
  have hpos : (0 : Int) < 2 ^ m := by exact Int.pow_pos (by decide)
  -- the residue
  have hres : ((asU64 v % 2 ^ (m + 1) : Nat) : Int) = v % 2 ^ (m + 1) := by
    unfold asU64
    rw [Int.natCast_emod, Int.toNat_of_nonneg (Int.emod_nonneg _ (by decide))]
    have : ((2 ^ (m + 1) : Nat) : Int) = 2 ^ (m + 1) := by push_cast; rfl
    rw [this, Int.emod_emod_of_dvd _ hdvd]
  generalize asU64 v % 2 ^ (m + 1) = u at hres
  unfold signExtend
  rw [hpn]
  generalize hP : (2 ^ m : Nat) = P at *
  rw [← hcast] at h1 h2 hpos hp
  rw [hp] at hres ⊢
  by_cases hneg : v < 0
  · have : v % (2 * (P : Int)) = v + 2 * P := by
      rw [← Int.add_emod_right, Int.emod_eq_of_lt] <;> omega
    rw [if_neg (by omega)]; omega
  · have : v % (2 * (P : Int)) = v := by
      rw [Int.emod_eq_of_lt] <;> omega
    rw [if_pos (by omega)]; omega

theorem Reader.readSigned_append {n max : Nat} {v : Int} (hn0 : 0 < n) (h64 : n ≤ 64) (hn : n ≤ max)
    (h1 : -(2 ^ (n - 1) : Int) ≤ v) (h2 : v < 2 ^ (n - 1))
    (pos : Nat) (post : List Bool) :
    Reader.readSigned ⟨pos, natBits n (asU64 v) ++ post⟩ n max = .ok (v, ⟨pos + n, post⟩) := by
  have hl := natBits_length n (asU64 v)
  simp only [Reader.readSigned, Reader.advance]
  rw [if_neg (by omega), if_neg (by simp)]
  rw [List.take_append_of_le_length (by omega), List.take_of_length_le (by omega),
    List.drop_append_of_le_length (by omega), List.drop_of_length_le (by omega),
    ofBits_natBits, signExtend_asU64 hn0 h64 h1 h2]
  rfl

/-! ## Bytes -/

@[simp] theorem bytesBits_nil : bytesBits [] = [] := rfl

@[simp] theorem bytesBits_cons (b : UInt8) (bs : List UInt8) :
    bytesBits (b :: bs) = natBits 8 b.toNat ++ bytesBits bs := rfl

theorem bytesBits_append (a b : List UInt8) : bytesBits (a ++ b) = bytesBits a ++ bytesBits b := by
  simp [bytesBits]

theorem bytesBits_length (bs : List UInt8) : (bytesBits bs).length = bs.length * 8 := by
  induction bs with
  | nil => rfl
  | cons b bs ih => simp [ih]; omega

theorem takeBytes_bytesBits (bs : List UInt8) (post : List Bool) :
    Reader.takeBytes bs.length (bytesBits bs ++ post) = bs := by
  induction bs with
  | nil => rfl
  | cons b bs ih =>
    have hl := natBits_length 8 b.toNat
    simp only [List.length_cons, Reader.takeBytes, bytesBits_cons, List.append_assoc]
    rw [List.take_append_of_le_length (by omega), List.take_of_length_le (by omega),
      List.drop_append_of_le_length (by omega), List.drop_of_length_le (by omega),
      ofBits_natBits, List.nil_append, ih, Nat.mod_eq_of_lt b.toNat_lt]
    simp

theorem Reader.readU8Slice_append (bs : List UInt8) (pos : Nat) (post : List Bool) :
    Reader.readU8Slice ⟨pos, bytesBits bs ++ post⟩ bs.length
      = .ok (bs, ⟨pos + bs.length * 8, post⟩) := by
  have hl := bytesBits_length bs
  simp only [Reader.readU8Slice, Reader.advance]
  rw [if_neg (by simp; omega), takeBytes_bytesBits,
    List.drop_append_of_le_length (by omega), List.drop_of_length_le (by omega)]
  rfl

end Zs
