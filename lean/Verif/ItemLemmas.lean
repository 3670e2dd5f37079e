import Verif.Items
import Verif.ExprLemmas

/-!
# Values of enumeration and bitmask items: specification and lemmas (C46)
-/

namespace Zs

variable {fo : FloatOps}

/-- What the language prescribes for the items of an enumeration: an item with an expression has the
value of the expression (as given by `val`), any other item the value of the item before it plus one, the
first one 0.  `next` is the value of an item without expression. -/
inductive EnumItems (val : Expr fo.F → Int → Prop) :
    Int → List (Option (Expr fo.F)) → List Int → Prop
  | nil (next : Int) : EnumItems val next [] []
  | given (next v : Int) (e : Expr fo.F) (rest vs) (h : val e v)
    (hr : EnumItems val (v + 1) rest vs) : EnumItems val next (some e :: rest) (v :: vs)
  | implicit (next : Int) (rest vs) (hr : EnumItems val (next + 1) rest vs) :
    EnumItems val next (none :: rest) (next :: vs)

/-- The next free bit: the lowest bit above all bits of the values so far. -/
def NextFreeBit (used : List Nat) (b : Nat) : Prop :=
  ∃ k, b = 2 ^ k ∧ (∀ u ∈ used, u < 2 ^ k) ∧ ∀ j, (∀ u ∈ used, u < 2 ^ j) → k ≤ j

/-- What the language prescribes for the items of a bitmask: an item with an expression has the value of
the expression, any other item the next free bit.  `used` are the values so far. -/
inductive BitmaskItems (val : Expr fo.F → Nat → Prop) :
    List Nat → List (Option (Expr fo.F)) → List Nat → Prop
  | nil (used : List Nat) : BitmaskItems val used [] []
  | given (used : List Nat) (v : Nat) (e : Expr fo.F) (rest vs) (h : val e v)
    (hr : BitmaskItems val (v :: used) rest vs) : BitmaskItems val used (some e :: rest) (v :: vs)
  | implicit (used : List Nat) (b : Nat) (rest vs) (hb : NextFreeBit used b)
    (hr : BitmaskItems val (b :: used) rest vs) : BitmaskItems val used (none :: rest) (b :: vs)

theorem enumItemValues_spec (sc : EScope fo.F) (val : Expr fo.F → Int → Prop) 
    (items : List (Option (Expr fo.F)))
    (hval : ∀ e, some e ∈ items → ∀ v r, e.evaluate .debug sc = .ok (.int v, r) → val e v) :
    ∀ next vs, enumItemValues .debug sc next items = .ok vs → EnumItems val next items vs := by
  induction items with
  | nil => intro next vs h; simp only [enumItemValues] at h; cases h; exact .nil _
  | cons item rest ih =>
    intro next vs h
    simp only [enumItemValues] at h
    obtain ⟨v, hv, h1⟩ := Res.bind_eq_ok.1 h
    obtain ⟨next', hn, h2⟩ := Res.bind_eq_ok.1 h1
    obtain ⟨vs', hvs, h3⟩ := Res.bind_eq_ok.1 h2
    clear h h1 h2
    cases h3
    have hn' := compile_debug_ok _ _ _ _ hn
    simp only [ArithOp.exact] at hn'
    subst hn'
    have hr := ih (fun e he => hval e (by simp [he])) _ _ hvs
    cases item with
    | none => simp only at hv; cases hv; exact .implicit _ _ _ hr
    | some e =>
      simp only at hv
      obtain ⟨⟨c, r⟩, hc, hv⟩ := Res.bind_eq_ok.1 hv
      cases c <;> simp only [reduceCtorEq] at hv
      cases hv
      exact .given _ _ _ _ _ (hval e (by simp) _ _ hc) hr

theorem asU64_pow (k : Nat) (h : k < 64) : asU64 ((2 : Int) ^ k) = 2 ^ k := by
  unfold asU64
  have h1 : (2 : Nat) ^ k < 2 ^ 64 := Nat.pow_lt_pow_right (by omega) h
  have h2 : ((2 : Int) ^ k) % 2 ^ 64 = ((2 ^ k : Nat) : Int) := by
    rw [Int.emod_eq_of_lt]
    · simp
    · exact Int.le_of_lt (Int.pow_pos (by omega))
    · exact_mod_cast h1
  rw [h2]; rfl

theorem pow_le_iff (j k : Nat) : 2 ^ j < 2 ^ k ↔ j < k :=
  Nat.pow_lt_pow_iff_right (by omega)

/-- The state of the loop: `next` is the bit above all of `used`. -/
theorem bitmaskItemValues_spec (sc : EScope fo.F) (val : Expr fo.F → Nat → Prop)
    (items : List (Option (Expr fo.F)))
    (hval : ∀ e, some e ∈ items → ∀ v r, e.evaluate .debug sc = .ok (.int v, r) →
      val e (asU64 v) ∧ ∃ k, k < 31 ∧ v = 2 ^ k) :
    ∀ (used : List Nat) (k : Nat) (vs : List Nat), k < 64 →
      (∀ u ∈ used, u < 2 ^ k) → (∀ j, (∀ u ∈ used, u < 2 ^ j) → k ≤ j) →
      (∀ v ∈ vs.dropLast, v < 2 ^ 63) →
      bitmaskItemValues .debug sc (2 ^ k) items = .ok vs → BitmaskItems val used items vs := by
  induction items with
  | nil => intro used k vs _ _ _ _ h; simp only [bitmaskItemValues] at h; cases h; exact .nil _
  | cons item rest ih =>
    intro used k vs hk hused hmin hlast h
    simp only [bitmaskItemValues] at h
    obtain ⟨v, hv, h1⟩ := Res.bind_eq_ok.1 h
    obtain ⟨vs', hvs, h2⟩ := Res.bind_eq_ok.1 h1
    clear h h1
    cases h2
    -- the value is the bit `n`, not below `next`
    have hn : ∃ n, n < 64 ∧ k ≤ n ∧ v = 2 ^ n ∧
        ((item = none ∧ n = k) ∨ ∃ e, item = some e ∧ val e v) := by
      cases item with
      | none => simp only at hv; cases hv; exact ⟨k, hk, Nat.le_refl _, rfl, .inl ⟨rfl, rfl⟩⟩
      | some e =>
        simp only at hv
        obtain ⟨⟨c, r⟩, hc, hv⟩ := Res.bind_eq_ok.1 hv
        cases c <;> simp only [reduceCtorEq] at hv
        rename_i w
        obtain ⟨hw, n, hn, rfl⟩ := hval e (by simp) w r hc
        rw [asU64_pow n (by omega)] at hv hw
        split at hv
        · cases hv
        · rename_i hlt
          cases hv
          refine ⟨n, by omega, ?_, rfl, .inr ⟨e, rfl, hw⟩⟩
          have h0 : 2 ^ n ≠ 0 := by have := Nat.one_le_two_pow (n := n); omega
          have : ¬ (2 ^ n < 2 ^ k) := fun hc => hlt ⟨hc, h0⟩
          rw [pow_le_iff] at this; omega
    obtain ⟨n, hn64, hkn, rfl, hitem⟩ := hn
    have hrest : BitmaskItems val (2 ^ n :: used) rest vs' := by
      cases rest with
      | nil => simp only [bitmaskItemValues] at hvs; cases hvs; exact .nil _
      | cons item' rest' =>
        have hne : vs' ≠ [] := by
          intro hc; subst hc
          simp only [bitmaskItemValues] at hvs
          obtain ⟨_, _, h1⟩ := Res.bind_eq_ok.1 hvs
          obtain ⟨_, _, h2⟩ := Res.bind_eq_ok.1 h1
          cases h2
        obtain ⟨w, ws, rfl⟩ := List.exists_cons_of_ne_nil hne
        have hn63 : n < 63 := by
          have := hlast (2 ^ n) (by simp)
          rwa [pow_le_iff] at this
        have h0 : 2 ^ n ≠ 0 := by have := Nat.one_le_two_pow (n := n); omega
        rw [if_neg h0, Nat.mod_eq_of_lt (by
          rw [← Nat.pow_succ, pow_le_iff]; omega), ← Nat.pow_succ] at hvs
        refine ih (fun e he => hval e (by simp [he])) _ (n + 1) _ (by omega) ?_ ?_ ?_ hvs
        · intro u hu
          rcases List.mem_cons.1 hu with rfl | hu
          · rw [pow_le_iff]; omega
          · exact Nat.lt_of_lt_of_le (hused u hu) (Nat.pow_le_pow_right (by omega) (by omega))
        · intro j hj
          have := hj (2 ^ n) (by simp)
          rw [pow_le_iff] at this; omega
        · intro x hx; exact hlast x (by simp only [List.dropLast_cons_cons]; simp [hx])
    rcases hitem with ⟨rfl, rfl⟩ | ⟨e, rfl, hw⟩
    · exact .implicit _ _ _ _ ⟨n, rfl, hused, hmin⟩ hrest
    · exact .given _ _ _ _ _ hw hrest

end Zs
