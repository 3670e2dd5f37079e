import Verif.ExprValueSpec
import Verif.ExprTypeMain
import Verif.ExprLemmas
import Verif.PropsScalar

/-!
# Lemmas on the values of generated expressions

Ranges of the operations; the types that Rust infers; the induction over schema expressions.
-/

namespace Zs

open Spec

variable {fo : FloatOps} {md : Mode} {sc : TScope} {O : Type} {w : World fo.F O}

/-! ## Ranges -/

theorem ints_width {t : RTy} {i : IntTy} (h : t.ints = some i) : 8 ≤ i.width ∧ i.width ≤ 64 := by
  cases t <;> simp only [RTy.ints, reduceCtorEq, Option.ite_none_right_eq_some, Option.some.injEq] at h
  · obtain ⟨h1, rfl⟩ := h
    exact h1
  · subst h; decide

theorem hasTy_int {t : RTy} {v : Int} : HasTy w t (.int v) ↔ t.Holds v := by
  cases t <;> simp [HasTy, RTy.Holds, RTy.ints]

theorem holds_integer {t : RTy} {v : Int} (h : t.Holds v) : t.Integer := by
  obtain ⟨i, hi, _⟩ := h
  cases t <;> simp_all [RTy.ints, RTy.Integer]

theorem contains_signed {i : IntTy} {v : Int} (hs : i.signed = true) (hw : 1 ≤ i.width) :
    i.Contains v ↔ -2 ^ (i.width - 1) ≤ v ∧ v < 2 ^ (i.width - 1) := by
  simp only [IntTy.Contains, IntTy.min, IntTy.max, hs, if_true]; omega

theorem contains_unsigned {i : IntTy} {v : Int} (hs : i.signed = false) :
    i.Contains v ↔ 0 ≤ v ∧ v < 2 ^ i.width := by
  simp only [IntTy.Contains, IntTy.min, IntTy.max, hs, Bool.false_eq_true, if_false]; omega

theorem pow_bound {n : Nat} (h : n ≤ 64) : (2 : Int) ^ n ≤ 2 ^ 64 := by
  exact_mod_cast Nat.pow_le_pow_right (n := 2) (by omega) h

/-- The operations on bits stay in the type. -/
theorem bits_holds {t : RTy} {x y v : Int} {op : BitOp} (hx : t.Holds x) (hy : t.Holds y)
    (hop : ¬(op = .shl ∨ op = .shr)) (hv : BitOp.result op x y = some v) : t.Holds v := by
  obtain ⟨i, hi, hx⟩ := hx
  obtain ⟨j, hj, hy⟩ := hy
  cases hi.symm.trans hj
  refine ⟨i, hi, ?_⟩
  obtain ⟨w8, w64⟩ := ints_width hi
  have hp := pow_bound w64
  cases hs : i.signed with
  | true =>
    have w1 : 1 ≤ i.width := by omega
    have hp' := pow_bound (show i.width - 1 ≤ 64 by omega)
    have hpp : (2 : Int) ^ i.width = 2 ^ (i.width - 1) * 2 := by
      conv => lhs; rw [show i.width = (i.width - 1) + 1 by omega, Int.pow_succ]
    have ext : ∀ z, i.Contains z → BitVec.ofInt 128 z = (BitVec.ofInt i.width z).signExtend 128 := by
      intro z hz
      rw [contains_signed hs w1] at hz
      unfold BitVec.signExtend
      congr 1
      rw [BitVec.toInt_ofInt, Int.bmod_eq_of_le]
      · push_cast; omega
      · push_cast; omega
    have res : ∀ z : BitVec i.width, i.Contains (z.signExtend 128).toInt := by
      intro z
      rw [contains_signed hs w1, BitVec.toInt_signExtend_of_le (by omega)]
      have h1 := BitVec.le_toInt z
      have h2 := BitVec.toInt_lt (x := z)
      omega
    cases op <;> simp only [BitOp.result, Option.some.injEq, ext x hx, ext y hy] at hv
    · rw [← hv, ← BitVec.signExtend_and]; exact res _
    · rw [← hv, ← BitVec.signExtend_or]; exact res _
    · rw [← hv, ← BitVec.signExtend_xor]; exact res _
    · simp at hop
    · simp at hop
  | false =>
    have ext : ∀ z, i.Contains z → BitVec.ofInt 128 z = (BitVec.ofInt i.width z).setWidth 128 := by
      intro z hz
      rw [contains_unsigned hs] at hz
      apply BitVec.eq_of_toNat_eq
      obtain ⟨n, rfl⟩ := Int.eq_ofNat_of_zero_le hz.1
      have hn : n < 2 ^ i.width := by exact_mod_cast hz.2
      have hp2 : 2 ^ i.width ≤ 2 ^ 64 := Nat.pow_le_pow_right (by omega) w64
      simp only [BitVec.ofInt_natCast, BitVec.toNat_ofNat, BitVec.toNat_setWidth]
      rw [Nat.mod_eq_of_lt hn]
    have res : ∀ z : BitVec i.width, i.Contains (z.setWidth 128).toInt := by
      intro z
      rw [contains_unsigned hs]
      have h1 := z.isLt
      have hp2 : 2 ^ i.width ≤ 2 ^ 64 := Nat.pow_le_pow_right (by omega) w64
      rw [BitVec.toInt_eq_toNat_of_lt, BitVec.toNat_setWidth, Nat.mod_eq_of_lt]
      · refine ⟨by omega, by exact_mod_cast h1⟩
      · omega
      · rw [BitVec.toNat_setWidth, Nat.mod_eq_of_lt] <;> omega
    cases op <;> simp only [BitOp.result, Option.some.injEq, ext x hx, ext y hy] at hv
    · rw [← hv, ← BitVec.setWidth_and]; exact res _
    · rw [← hv, ← BitVec.setWidth_or]; exact res _
    · rw [← hv, ← BitVec.setWidth_xor]; exact res _
    · simp at hop
    · simp at hop

/-- One bit of an integer. -/
theorem and_single {x : Int} {k : Nat} (hk : k < 64) :
    ((BitVec.ofInt 128 x &&& BitVec.ofInt 128 (2 ^ k)).toInt = 0) ↔ ¬ x / 2 ^ k % 2 = 1 := by
  have e : BitVec.ofInt 128 (2 ^ k) = BitVec.twoPow 128 k := by
    apply BitVec.eq_of_toNat_eq
    have : (2 : Int) ^ k = ((2 ^ k : Nat) : Int) := by push_cast; rfl
    rw [this, BitVec.ofInt_natCast, BitVec.toNat_ofNat, BitVec.toNat_twoPow]
  have hp : (0 : Int) < 2 ^ k := Int.pow_pos (by omega)
  have hq : x % 2 ^ 128 / 2 ^ k % 2 = x / 2 ^ k % 2 := by
    have h128 : (2 : Int) ^ 128 = 2 ^ k * (2 * 2 ^ (127 - k)) := by
      rw [show (2 : Int) * 2 ^ (127 - k) = 2 ^ (127 - k + 1) by rw [Int.pow_succ]; omega, ← Int.pow_add]
      congr 1
      omega
    rw [Int.emod_def x, h128, Int.mul_assoc, Int.sub_eq_add_neg, ← Int.mul_neg,
      Int.add_mul_ediv_left _ _ (by omega), Int.mul_assoc, ← Int.mul_neg, Int.add_mul_emod_self_left]
  have hbit : (BitVec.ofInt 128 x).getLsbD k = true ↔ x / 2 ^ k % 2 = 1 := by
    rw [← hq, BitVec.getLsbD, BitVec.toNat_ofInt, Nat.testBit_eq_decide_div_mod_eq, decide_eq_true_iff]
    have hn : 0 ≤ x % 2 ^ 128 := Int.emod_nonneg _ (by decide)
    obtain ⟨n, hn⟩ := Int.eq_ofNat_of_zero_le hn
    rw [show ((2 ^ 128 : Nat) : Int) = 2 ^ 128 from rfl, hn, Int.toNat_natCast]
    have h2 : ((n : Int) / 2 ^ k) = ((n / 2 ^ k : Nat) : Int) := by
      rw [Int.natCast_ediv, Int.natCast_pow]; rfl
    rw [h2]
    omega
  rw [e, BitVec.and_twoPow, ← hbit]
  cases (BitVec.ofInt 128 x).getLsbD k with
  | false => simp
  | true =>
    simp only [if_true, not_true_eq_false, iff_false]
    intro h
    have h0 : (BitVec.twoPow 128 k) = 0#128 := BitVec.eq_of_toInt_eq (by rw [h]; rfl)
    have := congrArg BitVec.toNat h0
    rw [BitVec.toNat_twoPow, Nat.mod_eq_of_lt (Nat.pow_lt_pow_right (by omega) (by omega))] at this
    have hp : 0 < 2 ^ k := Nat.pow_pos (by omega)
    simp at this

theorem singleBit_some {v : Int} {k : Nat} (h : singleBit v = some k) : v = 2 ^ k ∧ k < 64 := by
  unfold singleBit at h
  have h1 := List.find?_some h
  have h2 := List.mem_of_find?_eq_some h
  simp at h1 h2
  exact ⟨h1, h2⟩

theorem numbits_bitsFor {v : Int} (h0 : 0 ≤ v) (h : v < 2 ^ 64) :
    Zs.numbits v = .ok (bitsFor v.toNat) ∧ bitsFor v.toNat ≤ 64 := by
  obtain ⟨n, rfl⟩ := Int.eq_ofNat_of_zero_le h0
  have hn : n < 2 ^ 64 := by exact_mod_cast h
  obtain ⟨k, hk, k0, k1, k2⟩ := C07_bit_length_numbits.2 n hn
  rw [Int.toNat_natCast]
  have e : k = bitsFor n := by
    unfold bitsFor
    split
    · rcases (show n = 0 ∨ n = 1 by omega) with rfl | rfl
      · exact k0 rfl
      · exact k1 rfl
    · obtain ⟨h1, h2⟩ := k2 (by omega)
      apply Nat.le_antisymm
      · apply h2
        have := Nat.lt_log2_self (n := n - 1)
        omega
      · have h3 : n - 1 < 2 ^ k := by omega
        have := (Nat.log2_lt (by omega)).2 h3
        omega
  refine ⟨by rw [hk, e], ?_⟩
  rw [← e]
  by_cases h2 : 2 ≤ n
  · exact (k2 h2).2 64 (by omega)
  · rcases (show n = 0 ∨ n = 1 by omega) with rfl | rfl
    · rw [k0 rfl]; omega
    · rw [k1 rfl]; omega

theorem shr_holds {t : RTy} {x : Int} (n : Nat) (h : t.Holds x) : t.Holds (x / 2 ^ n) := by
  obtain ⟨i, hi, h⟩ := h
  refine ⟨i, hi, ?_⟩
  obtain ⟨w8, w64⟩ := ints_width hi
  have hp : (1 : Int) ≤ 2 ^ n := by
    have := Nat.one_le_two_pow (n := n); exact_mod_cast this
  have key : ∀ a b : Int, 0 ≤ a → -a ≤ x → x < b → 0 < b → -a ≤ x / 2 ^ n ∧ x / 2 ^ n < b := by
    intro a b ha h1 h2 hb
    constructor
    · rw [Int.le_ediv_iff_mul_le (by omega)]
      have : a * 1 ≤ a * 2 ^ n := Int.mul_le_mul_of_nonneg_left hp ha
      rw [Int.neg_mul]; omega
    · rw [Int.ediv_lt_iff_lt_mul (by omega)]
      have : b * 1 ≤ b * 2 ^ n := Int.mul_le_mul_of_nonneg_left hp (by omega)
      omega
  cases hs : i.signed with
  | true =>
    have hq : (0 : Int) < 2 ^ (i.width - 1) := Int.pow_pos (by omega)
    rw [contains_signed hs (by omega)] at h ⊢
    exact key _ _ (by omega) h.1 h.2 hq
  | false =>
    have hq : (0 : Int) < 2 ^ i.width := Int.pow_pos (by omega)
    rw [contains_unsigned hs] at h ⊢
    have := key 0 _ (by omega) (by omega) h.2 hq
    omega

/-! ## The types that Rust infers -/

/-- Two types of an expression: equal, or both integers, or both floats. -/
def Akin (s t : RTy) : Prop := s = t ∨ (s.Integer ∧ t.Integer) ∨ ∃ m n, s = .float m ∧ t = .float n

theorem typed_akin {Γ : RScope fo.F} : ∀ (x : RExpr fo.F) {s t : RTy}, Typed Γ x s → Typed Γ x t → Akin s t
  | .atom (.int _), _, _, h, h' => .inr (.inl ⟨h, h'⟩)
  | .atom (.bool _), _, _, h, h' => .inl (h.trans h'.symm)
  | .atom (.str _), _, _, h, h' => .inl (h.trans h'.symm)
  | .atom (.float f), _, _, h, h' => by
    simp only [Typed] at h h'
    cases hp : fo.printsInteger f with
    | some _ =>
      simp only [hp] at h h'
      exact .inr (.inl ⟨h, h'⟩)
    | none =>
      simp only [hp] at h h'
      obtain ⟨m, hm⟩ := h
      obtain ⟨n, hn⟩ := h'
      exact .inr (.inr ⟨m, n, hm, hn⟩)
  | .atom (.name _), _, _, h, h' => .inl (Option.some.inj (h.symm.trans h'))
  | .atom (.item _ _), _, _, h, h' => .inl (Option.some.inj (h.symm.trans h'))
  | .atom .index, _, _, h, h' => .inl (Option.some.inj (h.symm.trans h'))
  | .paren e, _, _, h, h' => typed_akin e (by simpa only [Typed] using h) (by simpa only [Typed] using h')
  | .call x, s, t, h, h' => by
    cases x with
    | atom a =>
      cases a <;> simp only [Typed] at h h'
      exact .inl (Option.some.inj (h.symm.trans h'))
    | field e m =>
      simp only [Typed] at h h'
      obtain ⟨u, hu, h⟩ := h
      obtain ⟨u', hu', h'⟩ := h'
      rcases typed_akin e hu hu' with rfl | ⟨a, b⟩ | ⟨_, _, rfl, rfl⟩
      · exact .inl (Option.some.inj (h.symm.trans h'))
      · simp only [methodTy] at h h'
        by_cases hm : m = "clone"
        · rw [if_pos hm] at h h'
          cases h; cases h'
          exact .inr (.inl ⟨a, b⟩)
        · rw [if_neg hm] at h
          cases u <;> simp_all [RTy.Integer]
      · simp only [methodTy] at h h'
        by_cases hm : m = "clone"
        · rw [if_pos hm] at h h'
          cases h; cases h'
          exact .inr (.inr ⟨_, _, rfl, rfl⟩)
        · rw [if_neg hm] at h
          cases h
    | _ => simp only [Typed] at h
  | .apply _ _, _, _, h, h' => .inl (h.2.1.trans h'.2.1.symm)
  | .field e n, s, t, h, h' => by
    simp only [Typed] at h h'
    obtain ⟨i, hi, h⟩ := h
    obtain ⟨i', hi', h'⟩ := h'
    rcases typed_akin e hi hi' with e | ⟨a, _⟩ | ⟨m, n, e, _⟩
    · cases e
      exact .inl (Option.some.inj (h.symm.trans h'))
    · exact a.elim
    · cases e
  | .elem e i, _, _, h, h' => by
    simp only [Typed] at h h'
    rcases typed_akin e h.1 h'.1 with e | ⟨a, _⟩ | ⟨m, n, e, _⟩
    · cases e
      exact .inl rfl
    · exact a.elim
    · cases e
  | .cast _ _, _, _, h, h' => by
    simp only [Typed] at h h'
    exact .inl (Option.some.inj (h.1.symm.trans h'.1))
  | .neg e, _, _, h, h' => by simp only [Typed] at h h'; exact typed_akin e h.1 h'.1
  | .not e, _, _, h, h' => by simp only [Typed] at h h'; exact typed_akin e h.1 h'.1
  | .bin (.arith _) a _, _, _, h, h' => by simp only [Typed] at h h'; exact typed_akin a h.1 h'.1
  | .bin (.bit op) a _, _, _, h, h' => by
    simp only [Typed] at h h'
    split at h
    · rename_i hop
      rw [if_pos hop] at h'
      exact typed_akin a h.1 h'.1
    · rename_i hop
      rw [if_neg hop] at h'
      exact typed_akin a h.1 h'.1
  | .bin (.cmp _) _ _, _, _, h, h' => by simp only [Typed] at h h'; exact .inl (h.1.trans h'.1.symm)
  | .bin (.logic _) _ _, _, _, h, h' => by simp only [Typed] at h h'; exact .inl (h.1.trans h'.1.symm)
  | .ite _ a _, _, _, h, h' => by simp only [Typed] at h h'; exact typed_akin a h.2.1 h'.2.1
  | .concat _ _, _, _, h, h' => by simp only [Typed] at h h'; exact .inl (h.1.trans h'.1.symm)

theorem akin_integer {s t : RTy} (h : Akin s t) (hs : s.Integer) : t.Integer := by
  rcases h with rfl | ⟨_, h⟩ | ⟨m, n, rfl, _⟩
  · exact hs
  · exact h
  · exact hs.elim

theorem akin_number {s t : RTy} (h : Akin s t) (hs : s.Number) : t.Number := by
  rcases h with rfl | ⟨_, h⟩ | ⟨m, n, rfl, rfl⟩
  · exact hs
  · exact integer_number h
  · trivial

theorem infers_other {Γ : RScope fo.F} {x : RExpr fo.F} {s t : RTy} (h : Typed Γ x s) (hs : ¬ s.Integer) :
    Infers Γ x t s :=
  ⟨h, fun h' => absurd (akin_integer (typed_akin x h' h) trivial) hs⟩

theorem infers_target {Γ : RScope fo.F} {x : RExpr fo.F} {t : RTy} (h : Typed Γ x t) : Infers Γ x t t :=
  ⟨h, fun _ => .inr rfl⟩

/-- Rust finds a type. -/
theorem infers_some {Γ : RScope fo.F} {x : RExpr fo.F} (t : RTy) {s : RTy} (h : Typed Γ x s) :
    ∃ u, Infers Γ x t u ∧ Akin s u := by
  by_cases h' : Typed Γ x (.int ⟨true, 32⟩)
  · exact ⟨_, ⟨h', fun _ => .inl rfl⟩, typed_akin x h h'⟩
  · exact ⟨s, ⟨h, fun h'' => absurd h'' h'⟩, .inl rfl⟩

/-- Rust finds a type before a cast. -/
theorem infers_cast {Γ : RScope fo.F} {x : RExpr fo.F} {s t : RTy} (h : Typed Γ x s) (hc : s.CanCast t) :
    ∃ u, Infers Γ x t u ∧ u.CanCast t := by
  by_cases ht : Typed Γ x t
  · exact ⟨t, infers_target ht, .inl rfl⟩
  · obtain ⟨u, hu, ha⟩ := infers_some t h
    refine ⟨u, hu, ?_⟩
    rcases hc with rfl | ⟨h1, h2⟩ | ⟨h1, h2⟩
    · exact absurd h ht
    · exact .inr (.inl ⟨akin_number ha h1, h2⟩)
    · rcases ha with rfl | ⟨ha, _⟩ | ⟨m, n, rfl, _⟩
      · exact .inr (.inr ⟨h1, h2⟩)
      · rcases h1 with rfl | ⟨_, rfl⟩ <;> exact ha.elim
      · rcases h1 with h1 | ⟨_, h1⟩ <;> cases h1

theorem infersBoth_some {Γ : RScope fo.F} {op : CmpOp} {a b : RExpr fo.F} {s t : RTy} (ha : Typed Γ a s)
    (hb : Typed Γ b t) (h : s.Comparable op t) : ∃ u v, InfersBoth Γ op a b u v := by
  by_cases h' : Typed Γ a (.int ⟨true, 32⟩) ∧ Typed Γ b (.int ⟨true, 32⟩)
  · exact ⟨_, _, h'.1, h'.2, by simp [RTy.Comparable], fun _ _ => ⟨rfl, rfl⟩⟩
  · exact ⟨s, t, ha, hb, h, fun h1 h2 => absurd ⟨h1, h2⟩ h'⟩

/-! ## Sequences -/

theorem then_iff {p : Res (Datum fo.F O) → Prop} {k : Datum fo.F O → Res (Datum fo.F O) → Prop}
    {v : Datum fo.F O} (h : ∀ o, p o ↔ o = .ok v) (o : Res (Datum fo.F O)) : Then p k o ↔ k v o := by
  unfold Then
  constructor
  · rintro ⟨r, hr, hk⟩
    rw [(h r).1 hr] at hk
    exact hk
  · intro hk
    exact ⟨.ok v, (h _).2 rfl, hk⟩

theorem provided_some {o : Option RTy} {v : Option (Datum fo.F O)} {t : RTy} {x : Datum fo.F O}
    (h : Provided w o v) (ht : o = some t) (hx : v = some x) : HasTy w t x := by
  subst ht; subst hx
  obtain ⟨y, hy, h⟩ := h
  cases hy
  exact h

/-! ## Names -/

/-- The type of a path is the one of its symbol. -/
theorem typed_symbol (e : Expr fo.F) (s : Symb) (hs : e.symbol sc = some s) (c : CVal fo.F) (r : Bool)
    (he : e.evaluate md sc.erase = .ok (c, r)) (t : RTy) (ht : Typed (rscope sc) (code md sc e) t) :
    symbTy s = some t := by
  cases e <;> simp only [Expr.symbol, reduceCtorEq] at hs
  case ident n => simpa [code, Expr.tree, Typed, rscope, hs] using ht
  case dot e n =>
    simp only [Expr.evaluate] at he
    obtain ⟨⟨c0, r0⟩, h0, he⟩ := Res.bind_eq_ok.1 he
    obtain ⟨s0, hs0, hs⟩ := Option.bind_eq_some_iff.1 hs
    have hc := evaluate_symbol e s0 hs0 c0 r0 h0
    split at hs
    · rename_i id hid
      rw [hid] at hc
      subst hc
      simp only [code, Expr.tree, h0, ZTy.sym, SymTy.dummy, Typed] at ht
      obtain ⟨id', ht, hm⟩ := ht
      have := typed_symbol e s0 hs0 _ _ h0 (.object id') ht
      have hid' : id' = id := by
        simp only [symbTy, hid, valueTy] at this
        split at this <;> simp at this
        · exact this.symm
        · exact this.symm
      subst hid'
      simpa [rscope, hs] using hm
    · cases hs

/-- A compound is no enum or bitmask. -/
theorem item_none {e : Expr fo.F} {r : Bool} (n : String)
    (he : e.evaluate md sc.erase = .ok (.compound, r)) : (rscope sc).item e n = none := by
  simp only [rscope]
  cases hs : e.symbol sc with
  | none => rfl
  | some s =>
    have := evaluate_symbol e s hs _ _ he
    obtain ⟨ty, shape⟩ := s
    cases ty <;> simp only [ZTy.sym, SymTy.dummy, reduceCtorEq] at this ⊢

theorem symbTy_string {s : Symb} {t : RTy} (h : s.ty.sym = .string) (ht : symbTy s = some t) :
    ¬ t.Integer := by
  obtain ⟨ty, shape⟩ := s
  cases ty <;> simp only [ZTy.sym, reduceCtorEq] at h
  · split at h <;> cases h
  · cases shape <;> simp only [symbTy, valueTy, Option.map_some, Option.some.injEq, reduceCtorEq] at ht <;>
      subst ht <;> exact id

theorem dummy_str {s : SymTy} {x : String} (h : s.dummy fo = .str x) : s = .string := by
  cases s <;> simp [SymTy.dummy] at h ⊢

end Zs
