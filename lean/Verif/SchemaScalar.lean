import Verif.SchemaSpec
import Verif.PropsArray

/-!
# Lemmas on builtin types in schemas
-/

namespace Zs

open Spec

/-! ## Lifting to `Val` -/

theorem RoundTrips.readAs {α : Type} {write : Writer → Res Writer} {read : Reader → Res (α × Reader)}
    {v : α} (inj : α → Val) (h : RoundTrips write read v) :
    RoundTrips write (Scalar.readAs inj read) (inj v) := RoundTrips.map inj h

theorem RoundTrips.lift {α : Type} {e : Elem α} {inj : α → Val} {proj : Val → Option α} {dflt v : α}
    (hp : proj (inj v) = some v) (hd : proj (inj dflt) = some dflt)
    (h : RoundTrips (fun w => e.write w v) (fun r => e.read r dflt) v) :
    RoundTrips (fun w => (e.lift inj proj dflt).write w (inj v))
      (fun r => (e.lift inj proj dflt).read r (inj dflt)) (inj v) := by
  have := RoundTrips.map inj h
  simp only [Elem.lift, hp, hd, Option.getD_some]
  exact this

theorem ElemGood.lift {α : Type} {e : Elem α} {inj : α → Val} {proj : Val → Option α} {dflt v : α}
    (hp : proj (inj v) = some v) (hd : proj (inj dflt) = some dflt) (h : ElemGood e dflt v) :
    ElemGood (e.lift inj proj dflt) (inj dflt) (inj v) := by
  obtain ⟨hs, hrt, u, h64, h1, h2⟩ := h
  refine ⟨?_, RoundTrips.lift hp hd hrt, u, h64, ?_, ?_⟩
  · simp only [Elem.lift, hp]; exact hs
  · simp only [Elem.lift, hp]; exact h1
  · simp only [Elem.lift, h2, Res.ok_bind, Res.pure_eq]

namespace Scalar

/-- In-range integers are good elements. -/
theorem good {cfg : Cfg} {env : Env} {s : Scalar} {v : Val} (hp : s.isPackable = true)
    (hw : s.WidthOk) (hv : s.InRange cfg env v) : ElemGood (s.elem cfg env) s.dflt v := by
  have hw8 : ∀ n, n ∈ [8, 16, 32, 64] → 1 ≤ n ∧ n ≤ 64 := by
    intro n h; simp only [List.mem_cons, List.not_mem_nil, or_false] at h; omega
  cases s with
  | bool => cases hp
  | string => cases hp
  | bytes => cases hp
  | extern => cases hp
  | float16 => cases hp
  | float32 => cases hp
  | float64 => cases hp
  | uint n =>
    cases v <;> first | exact absurd hv id | skip
    exact ElemGood.lift rfl rfl ((IntKind.uint (md := .debug) n n (Nat.le_refl _)
      (hw8 n hw).2).good hv).1
  | int n =>
    cases v <;> first | exact absurd hv id | skip
    exact ElemGood.lift rfl rfl ((IntKind.int (md := .debug) n n (hw8 n hw).1 (Nat.le_refl _)
      (hw8 n hw).2).good hv).1
  | bits n =>
    cases v <;> first | exact absurd hv id | skip
    exact ElemGood.lift rfl rfl ((IntKind.uint (md := .debug) 64 n hw.2 (by decide)).good hv).1
  | ints n =>
    cases v <;> first | exact absurd hv id | skip
    exact ElemGood.lift rfl rfl ((IntKind.int (md := .debug) 64 n hw.1 hw.2 (by decide)).good hv).1
  | bitsDyn len =>
    cases v <;> first | exact absurd hv id | skip
    have h : len env % 256 = len env := Nat.mod_eq_of_lt (by have := hv.1; omega)
    have := ((IntKind.uint (md := .debug) 64 (len env) hv.1 (by decide)).good hv.2).1
    rw [← h] at this
    exact ElemGood.lift rfl rfl this
  | intsDyn len =>
    cases v <;> first | exact absurd hv id | skip
    have h : len env % 256 = len env := Nat.mod_eq_of_lt (by have := hv.2.1; omega)
    have := ((IntKind.int (md := .debug) 64 (len env) hv.1 hv.2.1 (by decide)).good hv.2.2).1
    rw [← h] at this
    exact ElemGood.lift rfl rfl this
  | varuint16 =>
    cases v <;> first | exact absurd hv id | skip
    exact ElemGood.lift rfl rfl ((IntKind.varuint16 (md := .debug)).good hv).1
  | varuint32 =>
    cases v <;> first | exact absurd hv id | skip
    exact ElemGood.lift rfl rfl ((IntKind.varuint32 (md := .debug)).good hv).1
  | varuint64 =>
    cases v <;> first | exact absurd hv id | skip
    exact ElemGood.lift rfl rfl ((IntKind.varuint64 (md := .debug)).good hv).1
  | varuint =>
    cases v <;> first | exact absurd hv id | skip
    exact ElemGood.lift rfl rfl ((IntKind.varuint (md := .debug)).good hv).1
  | varsize =>
    cases v <;> first | exact absurd hv id | skip
    exact ElemGood.lift rfl rfl ((IntKind.varsize (md := .debug)).good hv).1
  | varint16 =>
    cases v <;> first | exact absurd hv id | skip
    exact ElemGood.lift rfl rfl ((IntKind.varint16 (md := cfg.md)).good hv).1
  | varint32 =>
    cases v <;> first | exact absurd hv id | skip
    exact ElemGood.lift rfl rfl ((IntKind.varint32 (md := cfg.md)).good hv).1
  | varint64 =>
    cases v <;> first | exact absurd hv id | skip
    exact ElemGood.lift rfl rfl ((IntKind.varint64 (md := cfg.md)).good hv).1
  | varint =>
    cases v <;> first | exact absurd hv id | skip
    exact ElemGood.lift rfl rfl ((IntKind.varint (md := cfg.md)).good hv).1

/-- In-range values round-trip as array elements. -/
theorem elem_roundTrips {cfg : Cfg} {env : Env} {s : Scalar} {v : Val} (hw : s.WidthOk)
    (hv : s.InRange cfg env v) :
    RoundTrips (fun w => (s.elem cfg env).write w v) (fun r => (s.elem cfg env).read r s.dflt) v := by
  by_cases hp : s.isPackable = true
  · exact (good hp hw hv).rt
  cases s with
  | bool =>
    cases v <;> first | exact absurd hv id | skip
    exact RoundTrips.lift rfl rfl (PlainKind.bool.good trivial).1
  | string =>
    cases v <;> first | exact absurd hv id | skip
    exact RoundTrips.lift rfl rfl (AnyKind.roundTrips (md := .debug) .string hv)
  | bytes =>
    cases v <;> first | exact absurd hv id | skip
    exact RoundTrips.lift rfl rfl (PlainKind.bytes.good hv).1
  | extern =>
    cases v <;> first | exact absurd hv id | skip
    exact RoundTrips.lift rfl rfl (PlainKind.extern.good hv).1
  | float16 =>
    cases v <;> first | exact absurd hv id | skip
    exact RoundTrips.lift rfl rfl ((PlainKind.float16 cfg.fromF32 cfg.toF32).good hv).1
  | float32 =>
    cases v <;> first | exact absurd hv id | skip
    exact RoundTrips.lift rfl rfl (PlainKind.float32.good trivial).1
  | float64 =>
    cases v <;> first | exact absurd hv id | skip
    exact RoundTrips.lift rfl rfl (PlainKind.float64.good trivial).1
  | _ => exact absurd rfl hp

/-- In-range values round-trip as fields. -/
theorem roundTrips {cfg : Cfg} {env : Env} {s : Scalar} {v : Val} (hw : s.WidthOk)
    (hv : s.InRange cfg env v) :
    RoundTrips (fun w => s.write cfg env v w) (fun r => s.read cfg env r) v := by
  cases s with
  | bool =>
    cases v <;> first | exact absurd hv id | skip
    exact RoundTrips.readAs .bool (PlainKind.bool.good trivial).1
  | string =>
    cases v <;> first | exact absurd hv id | skip
    exact RoundTrips.readAs .str (C09_string_round_trip _ hv).1
  | bytes =>
    cases v <;> first | exact absurd hv id | skip
    exact RoundTrips.readAs .bytes (C10_bytes_round_trip _ hv.1 hv.2).1
  | extern =>
    cases v <;> first | exact absurd hv id | skip
    exact RoundTrips.readAs .extern (C11_extern_round_trip _ hv).1
  | float16 =>
    cases v <;> first | exact absurd hv id | skip
    exact RoundTrips.readAs .f32 ((PlainKind.float16 cfg.fromF32 cfg.toF32).good hv).1
  | float32 =>
    cases v <;> first | exact absurd hv id | skip
    exact RoundTrips.readAs .f32 (PlainKind.float32.good trivial).1
  | float64 =>
    cases v <;> first | exact absurd hv id | skip
    exact RoundTrips.readAs .f64 (PlainKind.float64.good trivial).1
  | uint n =>
    cases v <;> first | exact absurd hv id | skip
    exact RoundTrips.readAs .nat (C06_fixed_width_round_trip.2.2.1 n _ hw hv).1
  | int n =>
    cases v <;> first | exact absurd hv id | skip
    exact RoundTrips.readAs .int (C06_fixed_width_round_trip.2.2.2 n _ hw hv.1 hv.2).1
  | bits n =>
    cases v <;> first | exact absurd hv id | skip
    exact RoundTrips.readAs .nat (C06_fixed_width_round_trip.1 n _ hw.2 hv).1
  | ints n =>
    cases v <;> first | exact absurd hv id | skip
    exact RoundTrips.readAs .int (C06_fixed_width_round_trip.2.1 n _ hw.1 hw.2 hv.1 hv.2).1
  | bitsDyn len =>
    cases v <;> first | exact absurd hv id | skip
    have h : len env % 256 = len env := Nat.mod_eq_of_lt (by have := hv.1; omega)
    have := (C06_fixed_width_round_trip.1 (len env) _ hv.1 hv.2).1
    rw [← h] at this
    exact RoundTrips.readAs .nat this
  | intsDyn len =>
    cases v <;> first | exact absurd hv id | skip
    have h : len env % 256 = len env := Nat.mod_eq_of_lt (by have := hv.2.1; omega)
    have := (C06_fixed_width_round_trip.2.1 (len env) _ hv.1 hv.2.1 hv.2.2.1 hv.2.2.2).1
    rw [← h] at this
    exact RoundTrips.readAs .int this
  | varuint16 =>
    cases v <;> first | exact absurd hv id | skip
    exact RoundTrips.readAs .nat (C01_varuint_round_trip.1 _ hv)
  | varuint32 =>
    cases v <;> first | exact absurd hv id | skip
    exact RoundTrips.readAs .nat (C01_varuint_round_trip.2.1 _ hv)
  | varuint64 =>
    cases v <;> first | exact absurd hv id | skip
    exact RoundTrips.readAs .nat (C01_varuint_round_trip.2.2.1 _ hv)
  | varuint =>
    cases v <;> first | exact absurd hv id | skip
    exact RoundTrips.readAs .nat (C01_varuint_round_trip.2.2.2.1 _ hv)
  | varsize =>
    cases v <;> first | exact absurd hv id | skip
    exact RoundTrips.readAs .nat (C01_varuint_round_trip.2.2.2.2 _ hv)
  | varint16 =>
    cases v <;> first | exact absurd hv id | skip
    exact RoundTrips.readAs .int ((C02_varint_round_trip_partial cfg.md).1 _ hv.1 hv.2)
  | varint32 =>
    cases v <;> first | exact absurd hv id | skip
    exact RoundTrips.readAs .int ((C02_varint_round_trip_partial cfg.md).2.1 _ hv.1 hv.2)
  | varint64 =>
    cases v <;> first | exact absurd hv id | skip
    exact RoundTrips.readAs .int ((C02_varint_round_trip_partial cfg.md).2.2.1 _ hv.1 hv.2)
  | varint =>
    cases v <;> first | exact absurd hv id | skip
    exact RoundTrips.readAs .int ((C02_varint_round_trip_partial cfg.md).2.2.2 _ hv.1 hv.2)

/-! ## Numbers of narrow types -/

theorem asU64_small {v : Int} (h1 : -(2 ^ 62) ≤ v) (h2 : v < 2 ^ 62) :
    asU64 v < 2 ^ 62 ∨ (2 ^ 64 - 2 ^ 62 ≤ asU64 v ∧ asU64 v < 2 ^ 64) := by
  unfold asU64
  by_cases h : 0 ≤ v
  · rw [Int.emod_eq_of_lt h (by omega)]; omega
  · have : v % 2 ^ 64 = v + 2 ^ 64 := by
      rw [← Int.add_emod_right, Int.emod_eq_of_lt (by omega) (by omega)]
    rw [this]; omega

/-- Signed types. -/
def signed : Scalar → Bool
  | .int _ | .ints _ | .varint16 | .varint32 | .varint64 => true
  | _ => false

theorem narrow_number {cfg : Cfg} {env : Env} {s : Scalar} {v : Val} {u : Nat} (hn : s.Narrow)
    (hv : s.InRange cfg env v) (hu : (s.elem cfg env).toU64 v = .ok u) :
    if s.signed then u < 2 ^ 62 ∨ (2 ^ 64 - 2 ^ 62 ≤ u ∧ u < 2 ^ 64) else u < 2 ^ 63 := by
  have hp : ∀ n : Nat, n ≤ 63 → (2 : Nat) ^ n ≤ 2 ^ 63 := fun n h =>
    Nat.pow_le_pow_right (by decide) h
  have hs : ∀ (n : Nat) (x : Int), n ≤ 63 → -(2 ^ (n - 1) : Int) ≤ x ∧ x < 2 ^ (n - 1) →
      -(2 ^ 62) ≤ x ∧ x < 2 ^ 62 := by
    intro n x h hx
    have : (2 : Nat) ^ (n - 1) ≤ 2 ^ 62 := Nat.pow_le_pow_right (by decide) (by omega)
    have hc : ((2 ^ (n - 1) : Nat) : Int) = 2 ^ (n - 1) := by simp
    omega
  have go : ∀ x : Int, -(2 ^ 62) ≤ x → x < 2 ^ 62 → (Res.ok (asU64 x) = Res.ok u) →
      u < 2 ^ 62 ∨ (2 ^ 64 - 2 ^ 62 ≤ u ∧ u < 2 ^ 64) := by
    intro x h1 h2 h; cases h; exact asU64_small h1 h2
  have gn : ∀ x : Nat, x < 2 ^ 63 → (Res.ok x = Res.ok u) → u < 2 ^ 63 := by
    intro x h1 h; cases h; exact h1
  cases s with
  | uint n =>
    cases v <;> first | exact absurd hv id | skip
    exact gn _ (Nat.lt_of_lt_of_le hv (hp n hn)) hu
  | bits n =>
    cases v <;> first | exact absurd hv id | skip
    exact gn _ (Nat.lt_of_lt_of_le hv (hp n hn)) hu
  | int n =>
    cases v <;> first | exact absurd hv id | skip
    obtain ⟨h1, h2⟩ := hs n _ hn hv; exact go _ h1 h2 hu
  | ints n =>
    cases v <;> first | exact absurd hv id | skip
    obtain ⟨h1, h2⟩ := hs n _ hn hv; exact go _ h1 h2 hu
  | varuint16 =>
    cases v <;> first | exact absurd hv id | skip
    exact gn _ (Nat.lt_of_lt_of_le hv (by decide)) hu
  | varuint32 =>
    cases v <;> first | exact absurd hv id | skip
    exact gn _ (Nat.lt_of_lt_of_le hv (by decide)) hu
  | varuint64 =>
    cases v <;> first | exact absurd hv id | skip
    exact gn _ (Nat.lt_of_lt_of_le hv (by decide)) hu
  | varsize =>
    cases v <;> first | exact absurd hv id | skip
    exact gn _ (Nat.lt_of_lt_of_le hv (by decide)) hu
  | varint16 =>
    cases v <;> first | exact absurd hv id | skip
    have h1 := hv.1
    have h2 := hv.2
    exact go _ (by omega) (by omega) hu
  | varint32 =>
    cases v <;> first | exact absurd hv id | skip
    have h1 := hv.1
    have h2 := hv.2
    exact go _ (by omega) (by omega) hu
  | varint64 =>
    cases v <;> first | exact absurd hv id | skip
    have h1 := hv.1
    have h2 := hv.2
    exact go _ (by omega) (by omega) hu
  | _ => exact absurd hn id

/-- Numbers of one type that are close are on the same side of 2^63. -/
theorem safe {cfg : Cfg} {env env' : Env} {s : Scalar} {v v' : Val} {u u' : Nat}
    (hn : cfg.md = .release ∨ s.Narrow) (hv : s.InRange cfg env v) (hv' : s.InRange cfg env' v')
    (hu : (s.elem cfg env).toU64 v = .ok u) (hu' : (s.elem cfg env').toU64 v' = .ok u')
    (hd : absDiff u u' < 2 ^ 62) : Safe cfg.md u u' := by
  rcases hn with h | hn
  · exact .inl h
  · right
    obtain ⟨d1, d2⟩ := absDiff_lt.1 hd
    have h1 := narrow_number hn hv hu
    have h2 := narrow_number hn hv' hu'
    cases hs : s.signed with
    | true => rw [hs, if_pos rfl] at h1 h2; omega
    | false => rw [hs, if_neg (by simp)] at h1 h2; omega

/-- The default of an integer type has the number 0. -/
theorem dflt_number {cfg : Cfg} {env : Env} {s : Scalar} (hp : s.isPackable = true) :
    (s.elem cfg env).toU64 s.dflt = .ok 0 := by
  cases s <;> first | (cases hp; done) | rfl

/-- The size of the default can be computed. -/
theorem dflt_size {cfg : Cfg} {env : Env} {s : Scalar} (hp : s.isPackable = true) :
    ∃ n, (s.elem cfg env).bitsizeOf 0 s.dflt = .ok n := by
  have hvar : ∀ s : Scalar, s.isPackable = true → s.WidthOk → s.InRange cfg env s.dflt →
      ∃ n, (s.elem cfg env).bitsizeOf 0 s.dflt = .ok n := fun s h1 h2 h3 => (good h1 h2 h3).size
  cases s with
  | varuint16 | varuint32 | varuint64 | varuint | varsize | varint16 | varint32 | varint64
  | varint => exact hvar _ rfl trivial (by simp [InRange, Scalar.dflt])
  | uint _ | int _ | bits _ | ints _ | bitsDyn _ | intsDyn _ => exact ⟨_, rfl⟩
  | _ => cases hp

/-! ## Conversions of enums -/

theorem ofInt_spec {cfg : Cfg} {env : Env} {s : Scalar} {x : Int} (hw : s.WidthOk)
    (hx : s.Contains x) (h63 : x < 2 ^ 63) :
    s.InRange cfg env (s.ofInt x) ∧ (s.ofInt x).asI64 = .ok x ∧ s.isPackable = true := by
  have hw8 : ∀ n, n ∈ [8, 16, 32, 64] → 1 ≤ n ∧ n ≤ 64 := by
    intro n h; simp only [List.mem_cons, List.not_mem_nil, or_false] at h; omega
  have nat : ∀ n : Nat, n ≤ 64 → 0 ≤ x → x < 2 ^ n →
      (x % 2 ^ n).toNat < 2 ^ n ∧ asI64 (x % 2 ^ n).toNat = x := by
    intro n hn h0 h1
    rw [Int.emod_eq_of_lt h0 h1]
    have hc : ((2 ^ n : Nat) : Int) = 2 ^ n := by simp
    refine ⟨by omega, ?_⟩
    rw [asI64_of_lt (by omega)]
    split <;> omega
  have signed : ∀ n : Nat, 1 ≤ n → -(2 ^ (n - 1) : Int) ≤ x ∧ x < 2 ^ (n - 1) →
      wrapSigned n x = x := fun n h1 h => wrapSigned_eq h1 h.1 h.2
  cases s <;> first | exact absurd hx id | skip
  case uint n =>
    obtain ⟨h1, h2⟩ := nat n (hw8 n hw).2 hx.1 hx.2
    exact ⟨h1, by simp only [ofInt, Val.asI64, h2], rfl⟩
  case bits n =>
    have h64 : x < 2 ^ 64 := by omega
    obtain ⟨h1, h2⟩ := nat 64 (by decide) hx.1 h64
    refine ⟨?_, by simp only [ofInt, Val.asI64, h2], rfl⟩
    show (x % 2 ^ 64).toNat < 2 ^ n
    rw [Int.emod_eq_of_lt hx.1 h64]
    have hc : ((2 ^ n : Nat) : Int) = 2 ^ n := by simp
    have h1 := hx.1
    have h2 := hx.2
    omega
  case int n =>
    have := signed n (hw8 n hw).1 hx
    exact ⟨by simp only [ofInt, this]; exact hx, by simp only [ofInt, Val.asI64, this], rfl⟩
  case ints n =>
    have hp : (2 : Int) ^ (n - 1) ≤ 2 ^ 63 := by
      have : (2 : Nat) ^ (n - 1) ≤ 2 ^ 63 := Nat.pow_le_pow_right (by decide) (by
        have := hw.2; omega)
      have hc : ((2 ^ (n - 1) : Nat) : Int) = 2 ^ (n - 1) := by simp
      omega
    have h1 := hx.1
    have : wrapSigned 64 x = x := wrapSigned_eq (by decide) (by omega) (by omega)
    exact ⟨by simp only [ofInt, this]; exact hx, by simp only [ofInt, Val.asI64, this], rfl⟩
  case varuint16 =>
    have h : 0 ≤ x ∧ x < 2 ^ 15 := hx
    obtain ⟨_, h2⟩ := nat 16 (by decide) h.1 (by omega)
    refine ⟨?_, by simp only [ofInt, Val.asI64, h2], rfl⟩
    show (x % 2 ^ 16).toNat < 2 ^ 15
    omega
  case varuint32 =>
    have h : 0 ≤ x ∧ x < 2 ^ 29 := hx
    obtain ⟨_, h2⟩ := nat 32 (by decide) h.1 (by omega)
    refine ⟨?_, by simp only [ofInt, Val.asI64, h2], rfl⟩
    show (x % 2 ^ 32).toNat < 2 ^ 29
    omega
  case varuint64 =>
    have h : 0 ≤ x ∧ x < 2 ^ 57 := hx
    obtain ⟨_, h2⟩ := nat 64 (by decide) h.1 (by omega)
    refine ⟨?_, by simp only [ofInt, Val.asI64, h2], rfl⟩
    show (x % 2 ^ 64).toNat < 2 ^ 57
    omega
  case varuint =>
    have h : 0 ≤ x ∧ x < 2 ^ 64 := hx
    obtain ⟨_, h2⟩ := nat 64 (by decide) h.1 (by omega)
    refine ⟨?_, by simp only [ofInt, Val.asI64, h2], rfl⟩
    show (x % 2 ^ 64).toNat < 2 ^ 64
    omega
  case varsize =>
    have h : 0 ≤ x ∧ x < 2 ^ 31 := hx
    obtain ⟨_, h2⟩ := nat 32 (by decide) h.1 (by omega)
    refine ⟨?_, by simp only [ofInt, Val.asI64, h2], rfl⟩
    show (x % 2 ^ 32).toNat < 2 ^ 31
    omega
  case varint16 =>
    have h : -(2 ^ 14) < x ∧ x < 2 ^ 14 := hx
    have : wrapSigned 16 x = x := wrapSigned_eq (by decide) (by omega) (by omega)
    exact ⟨by simp only [ofInt, this]; exact hx, by simp only [ofInt, Val.asI64, this], rfl⟩
  case varint32 =>
    have h : -(2 ^ 28) < x ∧ x < 2 ^ 28 := hx
    have : wrapSigned 32 x = x := wrapSigned_eq (by decide) (by omega) (by omega)
    exact ⟨by simp only [ofInt, this]; exact hx, by simp only [ofInt, Val.asI64, this], rfl⟩
  case varint64 =>
    have h : -(2 ^ 56) < x ∧ x < 2 ^ 56 := hx
    have : wrapSigned 64 x = x := wrapSigned_eq (by decide) (by omega) (by omega)
    exact ⟨by simp only [ofInt, this]; exact hx, by simp only [ofInt, Val.asI64, this], rfl⟩
  case varint =>
    have h : -(2 ^ 63) < x ∧ x < 2 ^ 63 := hx
    have : wrapSigned 64 x = x := wrapSigned_eq (by decide) (by omega) (by omega)
    exact ⟨by simp only [ofInt, this]; exact hx, by simp only [ofInt, Val.asI64, this], rfl⟩

/-- 0 is the default. -/
theorem ofInt_zero {s : Scalar} (hx : s.Contains 0) : s.ofInt 0 = s.dflt := by
  have h : ∀ n, wrapSigned n 0 = 0 := by
    intro n
    unfold wrapSigned signExtend
    have : (0 : Int) % 2 ^ n = 0 := Int.zero_emod _
    have h : 0 < 2 ^ n := Nat.pow_pos (by decide)
    rw [this, if_pos (by simp only [Int.toNat_zero]; omega)]
    rfl
  cases s <;> first | exact absurd hx id | rfl | skip
  all_goals simp [ofInt, dflt, h]

end Scalar

end Zs
