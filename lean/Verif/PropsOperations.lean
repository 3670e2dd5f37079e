import Verif.PropsCompiler
import Verif.ExprValueSpec

/-!
# Properties of the operators of constant expressions (C35)

`PropsCompiler.lean` says what the arithmetic operators yield for values that are known; this file does so for
comparisons, bit operations, signs and logical operators.
-/

namespace Zs

open Spec

variable {fo : FloatOps}

namespace Spec

/-- The number has the bit `k` set (two's complement). -/
def HasBit (v : Int) (k : Nat) : Prop := v / 2 ^ k % 2 = 1

/-- When a bit is set in the result of `&`, `|`, `^`. -/
def bitRule : BitOp → Prop → Prop → Prop
  | .and, p, q => p ∧ q
  | .or, p, q => p ∨ q
  | .xor, p, q => ¬(p ↔ q)
  | _, _, _ => False

/-- Comparisons of floating-point numbers; `<=` is not the negation of `>`, there are NaNs. -/
def floatSays (fo : FloatOps) : CmpOp → fo.F → fo.F → Bool
  | .eq, x, y => fo.eq x y
  | .ne, x, y => !fo.eq x y
  | .lt, x, y => fo.lt x y
  | .le, x, y => fo.le x y
  | .gt, x, y => fo.lt y x
  | .ge, x, y => fo.le y x

end Spec

/-! ## Bits -/

theorem getLsbD_ofInt (n k : Nat) (v : Int) (hk : k < n) :
    (BitVec.ofInt n v).getLsbD k = true ↔ HasBit v k := by
  have hsplit : (2 : Int) ^ n = 2 ^ k * 2 ^ (n - k) := by rw [← Int.pow_add]; congr 1; omega
  have hk0 : (0 : Int) < 2 ^ k := Int.pow_pos (by decide)
  have hn0 : (0 : Int) < 2 ^ n := Int.pow_pos (by decide)
  have hm : (2 : Int) ∣ 2 ^ (n - k) := by
    obtain ⟨m, hm⟩ : ∃ m, n - k = m + 1 := ⟨n - k - 1, by omega⟩
    rw [hm, Int.pow_succ]; exact Int.dvd_mul_left _ _
  rw [← BitVec.testBit_toNat, Nat.testBit_eq_decide_div_mod_eq, decide_eq_true_iff, BitVec.toNat_ofInt, HasBit]
  have hc : ((2 ^ n : Nat) : Int) = 2 ^ n := by simp
  have hnn : 0 ≤ v % 2 ^ n := Int.emod_nonneg _ (by omega)
  have key : v % 2 ^ n / 2 ^ k % 2 = v / 2 ^ k % 2 := by
    have h1 : v % 2 ^ n = v - 2 ^ k * (2 ^ (n - k) * (v / 2 ^ n)) := by
      rw [Int.emod_def, ← Int.mul_assoc, ← hsplit]
    rw [h1, Int.sub_eq_add_neg, ← Int.mul_neg, Int.add_mul_ediv_left _ _ (by omega)]
    obtain ⟨c, hc⟩ := hm
    rw [hc, Int.mul_assoc, ← Int.mul_neg, Int.add_mul_emod_self_left]
  rw [hc, ← key]
  constructor
  · intro h
    have : ((v % 2 ^ n).toNat : Int) / 2 ^ k % 2 = 1 := by exact_mod_cast h
    rwa [Int.toNat_of_nonneg hnn] at this
  · intro h
    rw [← Int.toNat_of_nonneg hnn] at h
    exact_mod_cast h

theorem bitwise_bits (op : BitVec 128 → BitVec 128 → BitVec 128) (x y : Int) (k : Nat) (hk : k < 128) :
    HasBit (bitwise op x y) k ↔ (op (BitVec.ofInt 128 x) (BitVec.ofInt 128 y)).getLsbD k = true := by
  rw [← getLsbD_ofInt 128 k _ hk, bitwise, BitVec.ofInt_toInt]

/-- C35: the value of a bit operation on values that are known: `&`, `|` and `^` work bit by bit, `>>` divides and
rounds down, `<<` multiplies and keeps the lowest 32 bits, and shifts by other amounts than 0 to 31 are refused. -/
theorem C35_bits (sc : EScope fo.F) (op : BitOp) (a b : Expr fo.F) (x y : Int)
    (ha : a.evaluate .debug sc = .ok (.int x, true)) (hb : b.evaluate .debug sc = .ok (.int y, true))
    (hx : -2 ^ 31 ≤ x ∧ x < 2 ^ 31) (hy : -2 ^ 31 ≤ y ∧ y < 2 ^ 31) :
    (op = .and ∨ op = .or ∨ op = .xor → ∃ z, (Expr.bit op a b).evaluate .debug sc = .ok (.int z, true) ∧
      -2 ^ 31 ≤ z ∧ z < 2 ^ 31 ∧ ∀ k, k < 32 → (HasBit z k ↔ bitRule op (HasBit x k) (HasBit y k))) ∧
    (op = .shr → 0 ≤ y ∧ y < 32 → (Expr.bit op a b).evaluate .debug sc = .ok (.int (x / 2 ^ y.toNat), true)) ∧
    (op = .shl → 0 ≤ y ∧ y < 32 → ∃ z, (Expr.bit op a b).evaluate .debug sc = .ok (.int z, true) ∧
      -2 ^ 31 ≤ z ∧ z < 2 ^ 31 ∧ (2 : Int) ^ 32 ∣ x * 2 ^ y.toNat - z) ∧
    (op = .shl ∨ op = .shr → ¬(0 ≤ y ∧ y < 32) → (Expr.bit op a b).evaluate .debug sc = .panic) := by
  have hi : ∀ z, IntTy.i32.Contains z ↔ -2 ^ 31 ≤ z ∧ z < 2 ^ 31 := by
    intro z
    simp only [IntTy.Contains, IntTy.min, IntTy.max, IntTy.i32]
    simp
    omega
  have hev : (Expr.bit op a b).evaluate .debug sc = (BitOp.compile op .debug x y).bind fun z => .ok (.int z, true) := by
    simp only [Expr.evaluate, ha, hb, Res.ok_bind, evalBit, Bool.and_self]
    cases BitOp.compile op .debug x y <;> rfl
  rw [hev]
  refine ⟨?_, ?_, ?_, ?_⟩
  · obtain ⟨h1, h2, h3⟩ := bitwise_contains x y ((hi x).2 hx) ((hi y).2 hy)
    rintro (rfl | rfl | rfl)
    · refine ⟨bitwise (· &&& ·) x y, rfl, ((hi _).1 h1).1, ((hi _).1 h1).2, fun k hk => ?_⟩
      rw [bitwise_bits _ _ _ _ (by omega), BitVec.getLsbD_and, Bool.and_eq_true, getLsbD_ofInt _ _ _ (by omega),
        getLsbD_ofInt _ _ _ (by omega)]
      rfl
    · refine ⟨bitwise (· ||| ·) x y, rfl, ((hi _).1 h2).1, ((hi _).1 h2).2, fun k hk => ?_⟩
      rw [bitwise_bits _ _ _ _ (by omega), BitVec.getLsbD_or, Bool.or_eq_true, getLsbD_ofInt _ _ _ (by omega),
        getLsbD_ofInt _ _ _ (by omega)]
      rfl
    · refine ⟨bitwise (· ^^^ ·) x y, rfl, ((hi _).1 h3).1, ((hi _).1 h3).2, fun k hk => ?_⟩
      rw [bitwise_bits _ _ _ _ (by omega), BitVec.getLsbD_xor, bitRule, ← getLsbD_ofInt 128 k x (by omega),
        ← getLsbD_ofInt 128 k y (by omega)]
      cases (BitVec.ofInt 128 x).getLsbD k <;> cases (BitVec.ofInt 128 y).getLsbD k <;> simp
  · rintro rfl h
    simp only [BitOp.compile, if_pos h]
    rfl
  · rintro rfl h
    simp only [BitOp.compile, if_pos h]
    refine ⟨_, rfl, ?_⟩
    simp only [IntTy.wrap, IntTy.min, IntTy.i32]
    simp
    generalize x * 2 ^ y.toNat = w
    omega
  · rintro (rfl | rfl) h <;> simp only [BitOp.compile, if_neg h] <;> rfl

-- `-6 & 12` is 8, and `-7 >> 1` is -4
example : (Expr.bit .and (.intLit (-6)) (.intLit 12) : Expr tenths.F).evaluate .debug (noNames _) =
      .ok (.int 8, true) ∧
    (Expr.bit .shr (.intLit (-7)) (.intLit 1) : Expr tenths.F).evaluate .debug (noNames _) =
      .ok (.int (-4), true) := ⟨by rfl, by rfl⟩

private theorem beqD {α : Type} [DecidableEq α] (x y : α) : (x == y) = decide (x = y) := by
  by_cases h : x = y <;> simp [h]

/-- C35: comparisons of values that are known: of integers, of floating-point numbers, and of texts, which can only
be equal or not. -/
theorem C35_comparisons (md : Mode) (sc : EScope fo.F) (op : CmpOp) (a b : Expr fo.F) :
    (∀ x y, a.evaluate md sc = .ok (.int x, true) → b.evaluate md sc = .ok (.int y, true) →
      (Expr.cmp op a b).evaluate md sc = .ok (.bool (decide (CmpOp.Says op x y)), true)) ∧
    (∀ x y, a.evaluate md sc = .ok (.float x, true) → b.evaluate md sc = .ok (.float y, true) →
      (Expr.cmp op a b).evaluate md sc = .ok (.bool (floatSays fo op x y), true)) ∧
    (∀ x y, a.evaluate md sc = .ok (.str x, true) → b.evaluate md sc = .ok (.str y, true) →
      (Expr.cmp op a b).evaluate md sc =
        if op = .eq then .ok (.bool (decide (x = y)), true)
        else if op = .ne then .ok (.bool (decide (x ≠ y)), true)
        else .panic) := by
  refine ⟨fun x y ha hb => ?_, fun x y ha hb => ?_, fun x y ha hb => ?_⟩
  · simp only [Expr.evaluate, ha, hb, Res.ok_bind, evalCmp, if_true, Bool.and_self]
    cases op <;>
      simp [CmpOp.onInt, CmpOp.Says, Pure.pure, bne, beqD]
    by_cases h : x = y <;> simp [h]
  · simp only [Expr.evaluate, ha, hb, Res.ok_bind, evalCmp, Bool.and_self]
    cases op <;> rfl
  · simp only [Expr.evaluate, ha, hb, Res.ok_bind, evalCmp]
    cases op <;> simp [Pure.pure, bne, beqD, Bind.bind, Res.bind]

-- `3 >= 3`, `"a" != "b"`
example : (Expr.cmp .ge (.intLit 3) (.intLit 3) : Expr tenths.F).evaluate .debug (noNames _) =
      .ok (.bool true, true) ∧
    (Expr.cmp .ne (.strLit "a") (.strLit "b") : Expr tenths.F).evaluate .debug (noNames _) =
      .ok (.bool true, true) := ⟨by rfl, by rfl⟩

/-- C35: signs, negation and the logical operators, for values that are known. -/
theorem C35_signs (md : Mode) (sc : EScope fo.F) (a b : Expr fo.F) :
    (∀ x, a.evaluate md sc = .ok (.int x, true) → x ≠ -2 ^ 31 →
      (Expr.neg a).evaluate md sc = .ok (.int (-x), true)) ∧
    (a.evaluate .debug sc = .ok (.int (-2 ^ 31), true) → (Expr.neg a).evaluate .debug sc = .panic) ∧
    (∀ x, a.evaluate md sc = .ok (.float x, true) → (Expr.neg a).evaluate md sc = .ok (.float (fo.neg x), true)) ∧
    (∀ x, a.evaluate md sc = .ok (.int x, true) → (Expr.plus a).evaluate md sc = .ok (.int x, true)) ∧
    (∀ x, a.evaluate md sc = .ok (.float x, true) → (Expr.plus a).evaluate md sc = .ok (.float x, true)) ∧
    (∀ p, a.evaluate md sc = .ok (.bool p, true) →
      (Expr.not a).evaluate md sc = .ok (.bool (decide ¬p = true), true)) ∧
    (∀ p q, a.evaluate md sc = .ok (.bool p, true) → b.evaluate md sc = .ok (.bool q, true) →
      (Expr.logic .and a b).evaluate md sc = .ok (.bool (decide (p = true ∧ q = true)), true) ∧
      (Expr.logic .or a b).evaluate md sc = .ok (.bool (decide (p = true ∨ q = true)), true)) := by
  refine ⟨fun x h hx => ?_, fun h => ?_, fun x h => ?_, fun x h => ?_, fun x h => ?_, fun p h => ?_,
    fun p q hp hq => ⟨?_, ?_⟩⟩
  · have : x ≠ IntTy.i32.min := by simpa [IntTy.i32, IntTy.min] using hx
    simp [Expr.evaluate, h, evalNeg, this]
  · simp only [Expr.evaluate, h, Res.ok_bind]
    rfl
  · simp [Expr.evaluate, h, evalNeg]
  · simp [Expr.evaluate, h]
  · simp [Expr.evaluate, h]
  · simp [Expr.evaluate, h]
  · simp only [Expr.evaluate, hp, hq, Res.ok_bind, evalLogic]
    cases p <;> cases q <;> rfl
  · simp only [Expr.evaluate, hp, hq, Res.ok_bind, evalLogic]
    cases p <;> cases q <;> rfl

-- `-(2.5)`, `!true || true`
example : (Expr.neg (.floatLit (25 : Int)) : Expr tenths.F).evaluate .debug (noNames _) =
      .ok (.float (-25 : Int), true) ∧
    (Expr.logic .or (.not (.boolLit true)) (.boolLit true) : Expr tenths.F).evaluate .debug (noNames _) =
      .ok (.bool true, true) := ⟨by rfl, by rfl⟩

end Zs
