import Verif.ParserSpec

/-!
# Lemmas for C79
-/

namespace Zs

open Src Spec

namespace Src

/-! ## More nested calls do no harm -/

theorem matchToken_some {t : Token} {ts us : List Token} : matchToken t ts = some us ↔ ts = t :: us := by
  cases ts with
  | nil => simp [matchToken]
  | cons u ts =>
    simp only [matchToken]
    split
    · next h => subst h; simp
    · next h => simp [h]

@[simp] theorem matchToken_self (t : Token) (ts : List Token) : matchToken t (t :: ts) = some ts := by
  simp [matchToken]

/-- The precedence of the operator behind an operand, if there is one. -/
def nextPrec : List Token → Option Nat
  | .lparen :: .rparen :: _ => some 22
  | .lbracket :: _ => some 21
  | .dot :: _ => some 20
  | .question :: _ => some 4
  | ts => (infixOp ts).map fun r => r.1.prec

/-- The loop stops. -/
def Stops (p : Nat) (ts : List Token) : Prop := ∀ q, nextPrec ts = some q → q < p

theorem Stops.mono {p q : Nat} {ts : List Token} (h : Stops p ts) (hpq : p ≤ q) : Stops q ts :=
  fun r hr => Nat.lt_of_lt_of_le (h r hr) hpq

theorem infixOp_signs (op : BinOp) (ts : List Token) (h : op = .gt → ∀ us, ts ≠ .gt :: us) :
    infixOp (binarySigns op ++ ts) = some (op, ts) := by
  cases op <;> simp [infixOp, binarySigns]
  cases ts with
  | nil => rfl
  | cons t ts =>
    cases t <;> first | rfl | exact absurd rfl (h rfl _)

theorem infixOp_some {ts us : List Token} {op : BinOp} (h : infixOp ts = some (op, us)) :
    ts = binarySigns op ++ us := by
  unfold infixOp at h
  split at h <;> simp only [Option.some.injEq, Prod.mk.injEq, reduceCtorEq] at h <;>
    (obtain ⟨rfl, rfl⟩ := h; rfl)

theorem nextPrec_infix {ts us : List Token} {op : BinOp} (h : infixOp ts = some (op, us)) :
    nextPrec ts = some op.prec := by
  have hs := infixOp_some h
  subst hs
  cases op <;> simp only [binarySigns, List.cons_append, List.nil_append, nextPrec] at h ⊢ <;> simp [h]

theorem nextPrec_none {ts : List Token} (h : infixOp ts = none) (h1 : ∀ us, ts ≠ .lparen :: .rparen :: us)
    (h2 : ∀ us, ts ≠ .lbracket :: us) (h3 : ∀ us, ts ≠ .dot :: us) (h4 : ∀ us, ts ≠ .question :: us) :
    nextPrec ts = none := by
  unfold nextPrec
  split
  · next us => exact absurd rfl (h1 us)
  · next us => exact absurd rfl (h2 us)
  · next us => exact absurd rfl (h3 us)
  · next us => exact absurd rfl (h4 us)
  · simp [h]

/-- What the loop does. -/
theorem operators_cases (n p : Nat) (e : Exp) (ts : List Token) :
    (Stops p ts ∧ operators (n + 1) p e ts = some (e, ts)) ∨
    (∃ us, ts = .lparen :: .rparen :: us ∧ p ≤ 22 ∧ operators (n + 1) p e ts = operators n p (.call e) us) ∨
    (∃ us, ts = .lbracket :: us ∧ p ≤ 21 ∧ operators (n + 1) p e ts = (expressionRec n 0 us).bind fun i =>
      (matchToken .rbracket i.2).bind fun us => operators n p (.elem e i.1) us) ∨
    (∃ x us, ts = .dot :: .id x :: us ∧ p ≤ 20 ∧ operators (n + 1) p e ts = operators n p (.dot e x) us) ∨
    (∃ us, ts = .question :: us ∧ p ≤ 4 ∧ operators (n + 1) p e ts = (expressionRec n 0 us).bind fun a =>
      (matchToken .colon a.2).bind fun us => (expressionRec n 4 us).bind fun b =>
      operators n p (.ternary e a.1 b.1) b.2) ∨
    (∃ op us, ts = binarySigns op ++ us ∧ infixOp ts = some (op, us) ∧ p ≤ op.prec ∧
      operators (n + 1) p e ts = (expressionRec n op.rightPrec us).bind fun b =>
      operators n p (.binary op e b.1) b.2) ∨
    (∃ us, ts = .dot :: us ∧ p ≤ 20 ∧ operators (n + 1) p e ts = none) := by
  by_cases h1 : ∃ us, ts = .lparen :: .rparen :: us
  · obtain ⟨us, rfl⟩ := h1
    by_cases hp : p ≤ 22
    · exact .inr (.inl ⟨us, rfl, hp, by simp [operators, hp]⟩)
    · exact .inl ⟨by intro q hq; simp only [nextPrec, Option.some.injEq] at hq; omega, by simp [operators, hp]⟩
  by_cases h2 : ∃ us, ts = .lbracket :: us
  · obtain ⟨us, rfl⟩ := h2
    by_cases hp : p ≤ 21
    · exact .inr (.inr (.inl ⟨us, rfl, hp, by simp [operators, hp]⟩))
    · exact .inl ⟨by intro q hq; simp only [nextPrec, Option.some.injEq] at hq; omega, by simp [operators, hp]⟩
  by_cases h3 : ∃ us, ts = .dot :: us
  · obtain ⟨us, rfl⟩ := h3
    by_cases hp : p ≤ 20
    · by_cases hx : ∃ x vs, us = .id x :: vs
      · obtain ⟨x, vs, rfl⟩ := hx
        exact .inr (.inr (.inr (.inl ⟨x, vs, rfl, hp, by simp [operators, hp]⟩)))
      · refine .inr (.inr (.inr (.inr (.inr (.inr ⟨us, rfl, hp, ?_⟩)))))
        simp only [operators, hp, if_true]
        split
        · next x vs => exact absurd ⟨x, vs, rfl⟩ hx
        · rfl
    · exact .inl ⟨by intro q hq; simp only [nextPrec, Option.some.injEq] at hq; omega, by simp [operators, hp]⟩
  by_cases h4 : ∃ us, ts = .question :: us
  · obtain ⟨us, rfl⟩ := h4
    by_cases hp : p ≤ 4
    · exact .inr (.inr (.inr (.inr (.inl ⟨us, rfl, hp, by simp [operators, hp]⟩))))
    · exact .inl ⟨by intro q hq; simp only [nextPrec, Option.some.injEq] at hq; omega, by simp [operators, hp]⟩
  have h1' : ∀ us, ts ≠ .lparen :: .rparen :: us := fun us h => h1 ⟨us, h⟩
  have h2' : ∀ us, ts ≠ .lbracket :: us := fun us h => h2 ⟨us, h⟩
  have h3' : ∀ us, ts ≠ .dot :: us := fun us h => h3 ⟨us, h⟩
  have h4' : ∀ us, ts ≠ .question :: us := fun us h => h4 ⟨us, h⟩
  cases hi : infixOp ts with
  | none =>
    refine .inl ⟨fun q hq => by rw [nextPrec_none hi h1' h2' h3' h4'] at hq; simp at hq, ?_⟩
    unfold operators
    split
    · exact absurd rfl (h1' _)
    · exact absurd rfl (h2' _)
    · exact absurd rfl (h3' _)
    · exact absurd rfl (h4' _)
    · simp [hi]
  | some r =>
    obtain ⟨op, us⟩ := r
    have hn := nextPrec_infix hi
    have he : operators (n + 1) p e ts = if p ≤ op.prec then (expressionRec n op.rightPrec us).bind fun b =>
          operators n p (.binary op e b.1) b.2 else some (e, ts) := by
      conv => lhs; unfold operators
      split
      · exact absurd rfl (h1' _)
      · exact absurd rfl (h2' _)
      · exact absurd rfl (h3' _)
      · exact absurd rfl (h4' _)
      · simp [hi]
    by_cases hp : p ≤ op.prec
    · exact .inr (.inr (.inr (.inr (.inr (.inl ⟨op, us, infixOp_some hi, rfl, hp, by rw [he, if_pos hp]⟩)))))
    · refine .inl ⟨?_, by rw [he, if_neg hp]⟩
      intro q hq
      rw [hn] at hq
      simp only [Option.some.injEq] at hq
      omega

theorem operators_stop {n p : Nat} {e : Exp} {ts : List Token} (h : Stops p ts) :
    operators (n + 1) p e ts = some (e, ts) := by
  rcases operators_cases n p e ts with ⟨hs, ho⟩ | ⟨us, rfl, hp, ho⟩ | ⟨us, rfl, hp, ho⟩ | ⟨x, us, rfl, hp, ho⟩ |
    ⟨us, rfl, hp, ho⟩ | ⟨op, us, hts, hi, hp, ho⟩ | ⟨us, rfl, hp, ho⟩
  · exact ho
  · have := h 22 rfl
    omega
  · have := h 21 rfl
    omega
  · have := h 20 rfl
    omega
  · have := h 4 rfl
    omega
  · have := h _ (nextPrec_infix hi)
    omega
  · have := h 20 rfl
    omega

theorem operators_infix {n p : Nat} {e : Exp} {ts us : List Token} {op : BinOp} (hi : infixOp ts = some (op, us))
    (hp : p ≤ op.prec) : operators (n + 1) p e ts = (expressionRec n op.rightPrec us).bind fun b =>
      operators n p (.binary op e b.1) b.2 := by
  have := nextPrec_infix hi
  rcases operators_cases n p e ts with ⟨hs, ho⟩ | ⟨us, rfl, hp, ho⟩ | ⟨us, rfl, hp, ho⟩ | ⟨x, us, rfl, hp, ho⟩ |
    ⟨us, rfl, hp, ho⟩ | ⟨op, us, hts, hi', hp, ho⟩ | ⟨us, rfl, hp, ho⟩
  · have := hs _ this
    omega
  · simp [infixOp] at hi
  · simp [infixOp] at hi
  · simp [infixOp] at hi
  · simp [infixOp] at hi
  · rw [hi'] at hi
    simp only [Option.some.injEq, Prod.mk.injEq] at hi
    obtain ⟨rfl, rfl⟩ := hi
    exact ho
  · simp [infixOp] at hi

/-- Every call gets shorter, so that a number of nested calls is enough. -/
theorem calls (n : Nat) :
    (∀ p ts r, expressionRec n p ts = some r →
      r.2.length < ts.length ∧ ∀ m, 2 * ts.length ≤ m → expressionRec m p ts = some r) ∧
    (∀ ts r, operand n ts = some r → r.2.length < ts.length ∧ ∀ m, 2 * ts.length ≤ m + 1 → operand m ts = some r) ∧
    (∀ p e ts r, operators n p e ts = some r →
      r.2.length ≤ ts.length ∧ ∀ m, 2 * ts.length + 1 ≤ m → operators m p e ts = some r) := by
  induction n with
  | zero => exact ⟨fun _ _ _ h => by simp [expressionRec] at h, fun _ _ h => by simp [operand] at h,
      fun _ _ _ _ h => by simp [operators] at h⟩
  | succ n ih =>
    obtain ⟨ih1, ih2, ih3⟩ := ih
    refine ⟨?_, ?_, ?_⟩
    · intro p ts r h
      simp only [expressionRec, Option.bind_eq_some_iff] at h
      obtain ⟨a, ha, hr⟩ := h
      obtain ⟨l1, m1⟩ := ih2 _ _ ha
      obtain ⟨l2, m2⟩ := ih3 _ _ _ _ hr
      refine ⟨by omega, fun m hm => ?_⟩
      obtain ⟨k, rfl⟩ : ∃ k, m = k + 1 := ⟨m - 1, by omega⟩
      simp only [expressionRec, Option.bind_eq_some_iff]
      exact ⟨a, m1 k hm, m2 k (by omega)⟩
    · intro ts r h
      cases ts with
      | nil => simp [operand] at h
      | cons t ts =>
        have key : ∀ m, 2 * (t :: ts).length ≤ m + 1 → ∃ k, m = k + 1 ∧ 2 * ts.length ≤ k := fun m hm =>
          ⟨m - 1, by simp at hm; omega, by simp at hm; omega⟩
        cases t <;> simp only [operand, prefixOp, Option.bind_eq_some_iff, Option.map_eq_some_iff, matchToken_some,
          Option.bind_none, reduceCtorEq, Option.bind_some, Option.some.injEq] at h
        case lparen =>
          obtain ⟨a, ha, us, hu, rfl⟩ := h
          obtain ⟨l1, m1⟩ := ih1 _ _ _ ha
          rw [hu] at l1
          simp only [List.length_cons] at l1 ⊢
          refine ⟨by omega, fun m hm => ?_⟩
          obtain ⟨k, rfl, hk⟩ := key m hm
          simp only [operand, Option.bind_eq_some_iff, Option.map_eq_some_iff, matchToken_some]
          exact ⟨a, m1 k hk, us, hu, rfl⟩
        case isset =>
          obtain ⟨vs, rfl, a, ha, ws, hw, b, hb, us, hu, rfl⟩ := h
          obtain ⟨l1, m1⟩ := ih1 _ _ _ ha
          obtain ⟨l2, m2⟩ := ih1 _ _ _ hb
          rw [hw] at l1
          rw [hu] at l2
          simp only [List.length_cons] at l1 l2 key ⊢
          refine ⟨by omega, fun m hm => ?_⟩
          obtain ⟨k, rfl, hk⟩ := key m hm
          simp only [operand, Option.bind_eq_some_iff, Option.map_eq_some_iff, matchToken_some]
          exact ⟨vs, rfl, a, m1 k (by omega), ws, hw, b, m2 k (by omega), us, hu, rfl⟩
        case lengthof =>
          obtain ⟨vs, rfl, a, ha, us, hu, rfl⟩ := h
          obtain ⟨l1, m1⟩ := ih1 _ _ _ ha
          rw [hu] at l1
          simp only [List.length_cons] at l1 key ⊢
          refine ⟨by omega, fun m hm => ?_⟩
          obtain ⟨k, rfl, hk⟩ := key m hm
          simp only [operand, Option.bind_eq_some_iff, Option.map_eq_some_iff, matchToken_some]
          exact ⟨vs, rfl, a, m1 k (by omega), us, hu, rfl⟩
        case valueof =>
          obtain ⟨vs, rfl, a, ha, us, hu, rfl⟩ := h
          obtain ⟨l1, m1⟩ := ih1 _ _ _ ha
          rw [hu] at l1
          simp only [List.length_cons] at l1 key ⊢
          refine ⟨by omega, fun m hm => ?_⟩
          obtain ⟨k, rfl, hk⟩ := key m hm
          simp only [operand, Option.bind_eq_some_iff, Option.map_eq_some_iff, matchToken_some]
          exact ⟨vs, rfl, a, m1 k (by omega), us, hu, rfl⟩
        case numbits =>
          obtain ⟨vs, rfl, a, ha, us, hu, rfl⟩ := h
          obtain ⟨l1, m1⟩ := ih1 _ _ _ ha
          rw [hu] at l1
          simp only [List.length_cons] at l1 key ⊢
          refine ⟨by omega, fun m hm => ?_⟩
          obtain ⟨k, rfl, hk⟩ := key m hm
          simp only [operand, Option.bind_eq_some_iff, Option.map_eq_some_iff, matchToken_some]
          exact ⟨vs, rfl, a, m1 k (by omega), us, hu, rfl⟩
        case lit | index | id =>
          subst h
          refine ⟨by simp, fun m hm => ?_⟩
          obtain ⟨k, rfl, hk⟩ := key m hm
          simp only [operand]
        all_goals
          obtain ⟨a, ha, rfl⟩ := h
          obtain ⟨l1, m1⟩ := ih1 _ _ _ ha
          simp only [List.length_cons] at l1 ⊢
          refine ⟨by omega, fun m hm => ?_⟩
          obtain ⟨k, rfl, hk⟩ := key m hm
          simp only [operand, prefixOp, Option.bind_some, Option.map_eq_some_iff]
          exact ⟨a, m1 k hk, rfl⟩
    · intro p e ts r h
      rcases operators_cases n p e ts with ⟨hs, ho⟩ | ⟨us, rfl, hp, ho⟩ | ⟨us, rfl, hp, ho⟩ | ⟨x, us, rfl, hp, ho⟩ |
        ⟨us, rfl, hp, ho⟩ | ⟨op, us, hts, hi, hp, ho⟩ |
        ⟨us, rfl, hp, ho⟩
      · rw [ho] at h
        simp only [Option.some.injEq] at h
        subst h
        refine ⟨Nat.le_refl _, fun m hm => ?_⟩
        obtain ⟨k, rfl⟩ : ∃ k, m = k + 1 := ⟨m - 1, by omega⟩
        exact operators_stop hs
      · rw [ho] at h
        obtain ⟨l1, m1⟩ := ih3 _ _ _ _ h
        simp only [List.length_cons] at l1 ⊢
        refine ⟨by omega, fun m hm => ?_⟩
        obtain ⟨k, rfl⟩ : ∃ k, m = k + 1 := ⟨m - 1, by omega⟩
        simp only [operators, hp, if_true]
        exact m1 k (by omega)
      · rw [ho] at h
        simp only [Option.bind_eq_some_iff, matchToken_some] at h
        obtain ⟨i, hi, vs, hv, h⟩ := h
        obtain ⟨l0, m0⟩ := ih1 _ _ _ hi
        obtain ⟨l1, m1⟩ := ih3 _ _ _ _ h
        rw [hv] at l0
        simp only [List.length_cons] at l0 l1 ⊢
        refine ⟨by omega, fun m hm => ?_⟩
        obtain ⟨k, rfl⟩ : ∃ k, m = k + 1 := ⟨m - 1, by omega⟩
        simp only [operators, hp, if_true, Option.bind_eq_some_iff, matchToken_some]
        exact ⟨i, m0 k (by omega), vs, hv, m1 k (by omega)⟩
      · rw [ho] at h
        obtain ⟨l1, m1⟩ := ih3 _ _ _ _ h
        simp only [List.length_cons] at l1 ⊢
        refine ⟨by omega, fun m hm => ?_⟩
        obtain ⟨k, rfl⟩ : ∃ k, m = k + 1 := ⟨m - 1, by omega⟩
        simp only [operators, hp, if_true]
        exact m1 k (by omega)
      · rw [ho] at h
        simp only [Option.bind_eq_some_iff, matchToken_some] at h
        obtain ⟨a, ha, vs, hv, b, hb, h⟩ := h
        obtain ⟨l0, m0⟩ := ih1 _ _ _ ha
        obtain ⟨l1, m1⟩ := ih1 _ _ _ hb
        obtain ⟨l2, m2⟩ := ih3 _ _ _ _ h
        rw [hv] at l0
        simp only [List.length_cons] at l0 l1 l2 ⊢
        refine ⟨by omega, fun m hm => ?_⟩
        obtain ⟨k, rfl⟩ : ∃ k, m = k + 1 := ⟨m - 1, by omega⟩
        simp only [operators, hp, if_true, Option.bind_eq_some_iff, matchToken_some]
        exact ⟨a, m0 k (by omega), vs, hv, b, m1 k (by omega), m2 k (by omega)⟩
      · rw [ho] at h
        simp only [Option.bind_eq_some_iff] at h
        obtain ⟨b, hb, h⟩ := h
        obtain ⟨l0, m0⟩ := ih1 _ _ _ hb
        obtain ⟨l1, m1⟩ := ih3 _ _ _ _ h
        have hl : us.length < ts.length := by
          rw [hts]
          cases op <;> simp [binarySigns] <;> omega
        refine ⟨by omega, fun m hm => ?_⟩
        obtain ⟨k, rfl⟩ : ∃ k, m = k + 1 := ⟨m - 1, by omega⟩
        rw [operators_infix hi hp, Option.bind_eq_some_iff]
        exact ⟨b, m0 k (by omega), m1 k (by omega)⟩
      · rw [ho] at h
        cases h

/-! ## Some number of nested calls -/

/-- `expression_rec(p)` ends. -/
def Parses (p : Nat) (ts : List Token) (r : Exp × List Token) : Prop := ∃ n, expressionRec n p ts = some r

/-- The loop ends. -/
def Loops (p : Nat) (e : Exp) (ts : List Token) (r : Exp × List Token) : Prop := ∃ n, operators n p e ts = some r

theorem Parses.enough {p : Nat} {ts : List Token} {r : Exp × List Token} (h : Parses p ts r) {m : Nat}
    (hm : 2 * ts.length ≤ m) : expressionRec m p ts = some r := by
  obtain ⟨n, h⟩ := h
  exact ((calls n).1 p ts r h).2 m hm

theorem Parses.shorter {p : Nat} {ts : List Token} {r : Exp × List Token} (h : Parses p ts r) :
    r.2.length < ts.length := by
  obtain ⟨n, h⟩ := h
  exact ((calls n).1 p ts r h).1

theorem Loops.enough {p : Nat} {e : Exp} {ts : List Token} {r : Exp × List Token} (h : Loops p e ts r) {m : Nat}
    (hm : 2 * ts.length + 1 ≤ m) : operators m p e ts = some r := by
  obtain ⟨n, h⟩ := h
  exact ((calls n).2.2 p e ts r h).2 m hm

theorem Loops.stop {p : Nat} {e : Exp} {ts : List Token} (h : Stops p ts) : Loops p e ts (e, ts) :=
  ⟨1, operators_stop h⟩

theorem Parses.of_operand {p n : Nat} {e : Exp} {ts us : List Token} {r : Exp × List Token}
    (h : operand n ts = some (e, us)) (hl : Loops p e us r) : Parses p ts r := by
  obtain ⟨l, m⟩ := (calls n).2.1 ts _ h
  simp only at l
  refine ⟨2 * ts.length + 1, ?_⟩
  simp only [expressionRec, Option.bind_eq_some_iff]
  exact ⟨(e, us), m _ (by omega), hl.enough (by omega)⟩

theorem operators_elem {n p : Nat} {e : Exp} {us : List Token} (hp : p ≤ 21) :
    operators (n + 1) p e (.lbracket :: us) = (expressionRec n 0 us).bind fun i =>
      (matchToken .rbracket i.2).bind fun us => operators n p (.elem e i.1) us := by
  simp only [operators, hp, if_true]

theorem operators_ternary {n p : Nat} {e : Exp} {us : List Token} (hp : p ≤ 4) :
    operators (n + 1) p e (.question :: us) = (expressionRec n 0 us).bind fun a =>
      (matchToken .colon a.2).bind fun us => (expressionRec n 4 us).bind fun b =>
      operators n p (.ternary e a.1 b.1) b.2 := by
  simp only [operators, hp, if_true]

theorem Loops.call {p : Nat} {e : Exp} {us : List Token} {r : Exp × List Token} (hp : p ≤ 22)
    (h : Loops p (.call e) us r) : Loops p e (.lparen :: .rparen :: us) r := by
  obtain ⟨n, h⟩ := h
  exact ⟨n + 1, by simpa [operators, hp] using h⟩

theorem Loops.dot {p : Nat} {e : Exp} {x : String} {us : List Token} {r : Exp × List Token} (hp : p ≤ 20)
    (h : Loops p (.dot e x) us r) : Loops p e (.dot :: .id x :: us) r := by
  obtain ⟨n, h⟩ := h
  exact ⟨n + 1, by simpa [operators, hp] using h⟩

theorem Loops.elem {p : Nat} {e i : Exp} {us vs : List Token} {r : Exp × List Token} (hp : p ≤ 21)
    (hi : Parses 0 us (i, .rbracket :: vs)) (h : Loops p (.elem e i) vs r) : Loops p e (.lbracket :: us) r := by
  have hl := hi.shorter
  simp only [List.length_cons] at hl
  refine ⟨2 * us.length + 2, ?_⟩
  simp only [operators_elem hp, Option.bind_eq_some_iff]
  exact ⟨_, hi.enough (by omega), vs, by simp, h.enough (by omega)⟩

theorem Loops.ternary {p : Nat} {e a b : Exp} {us vs ws : List Token} {r : Exp × List Token} (hp : p ≤ 4)
    (ha : Parses 0 us (a, .colon :: vs)) (hb : Parses 4 vs (b, ws)) (h : Loops p (.ternary e a b) ws r) :
    Loops p e (.question :: us) r := by
  have hl := ha.shorter
  have hl' := hb.shorter
  simp only [List.length_cons] at hl hl'
  refine ⟨2 * us.length + 2, ?_⟩
  simp only [operators_ternary hp, Option.bind_eq_some_iff]
  exact ⟨_, ha.enough (by omega), vs, by simp, _, hb.enough (by omega), h.enough (by omega)⟩

theorem Loops.binary {p : Nat} {op : BinOp} {e b : Exp} {ts us ws : List Token} {r : Exp × List Token}
    (hp : p ≤ op.prec) (hi : infixOp ts = some (op, us)) (hb : Parses op.rightPrec us (b, ws))
    (h : Loops p (.binary op e b) ws r) : Loops p e ts r := by
  have hl := hb.shorter
  simp only at hl
  refine ⟨2 * us.length + 2, ?_⟩
  rw [operators_infix hi hp, Option.bind_eq_some_iff]
  exact ⟨_, hb.enough (by omega), h.enough (by omega)⟩

/-! ## Precedences -/

/-- The loosest operator in whose operand the expression may be, as a precedence. -/
def low : Exp → Nat
  | .binary op _ _ => op.prec
  | .ternary _ _ _ => 4
  | _ => 15

/-- The loop behind the last operand has this precedence. -/
def tail : Exp → Nat
  | .binary op _ _ => op.rightPrec
  | .ternary _ _ _ => 4
  | .unary _ _ => 15
  | _ => 23

theorem prec_group (op : BinOp) : op.prec + group op = 14 := by cases op <;> decide

theorem right_group (op : BinOp) : op.rightPrec = op.prec + 1 := by cases op <;> rfl

theorem low_of_looseness {op : BinOp} {a : Exp} (h : looseness a ≤ 3 + group op) : op.prec ≤ low a := by
  have h1 := prec_group op
  cases a <;> simp only [low, looseness, groups, List.length_cons, List.length_nil] at * <;> try omega
  next op' _ _ =>
    have h2 := prec_group op'
    omega

theorem low_of_looseness' {op : BinOp} {a : Exp} (h : looseness a < 3 + group op) : op.rightPrec ≤ low a := by
  have h1 := prec_group op
  have h3 := right_group op
  cases a <;> simp only [low, looseness, groups, List.length_cons, List.length_nil] at * <;> try omega
  next op' _ _ =>
    have h2 := prec_group op'
    omega

theorem tail_of_looseness {op : BinOp} {a : Exp} (h : looseness a ≤ 3 + group op) : op.prec < tail a := by
  have h1 := prec_group op
  have h5 : 5 ≤ op.prec := by cases op <;> decide
  cases a <;> simp only [tail, looseness, groups, List.length_cons, List.length_nil] at * <;> try omega
  next op' _ _ =>
    have h2 := prec_group op'
    have h3 := right_group op'
    omega

theorem tail_of_looseness' {op : BinOp} {a : Exp} (h : looseness a < 3 + group op) : op.rightPrec ≤ tail a := by
  have h1 := prec_group op
  have h5 : 5 ≤ op.prec := by cases op <;> decide
  have h3 := right_group op
  cases a <;> simp only [tail, looseness, groups, List.length_cons, List.length_nil] at * <;> try omega
  next op' _ _ =>
    have h2 := prec_group op'
    have h3 := right_group op'
    omega

theorem looseness_of_tail {op : BinOp} {a : Exp} (h : op.prec < tail a) : looseness a ≤ 3 + group op := by
  have h1 := prec_group op
  cases a <;> simp only [tail, looseness, groups, List.length_cons, List.length_nil] at * <;> try omega
  next op' _ _ =>
    have h2 := prec_group op'
    have h3 := right_group op'
    omega

theorem looseness_of_low {op : BinOp} {a : Exp} (h : op.rightPrec ≤ low a) : looseness a < 3 + group op := by
  have h1 := prec_group op
  have h3 := right_group op
  have : 5 ≤ op.prec := by cases op <;> decide
  cases a <;> simp only [low, looseness, groups, List.length_cons, List.length_nil] at * <;> try omega
  next op' _ _ =>
    have h2 := prec_group op'
    omega

theorem low_le (e : Exp) : low e ≤ 15 := by
  cases e <;> simp only [low] <;> try omega
  next op _ _ => cases op <;> decide

theorem stops_far (ts : List Token) : Stops 23 ts := by
  intro q hq
  unfold nextPrec at hq
  split at hq
  · cases hq; omega
  · cases hq; omega
  · cases hq; omega
  · cases hq; omega
  · simp only [Option.map_eq_some_iff] at hq
    obtain ⟨⟨op, us⟩, _, rfl⟩ := hq
    cases op <;> simp [BinOp.prec]

theorem postfix_tail {a : Exp} (h : looseness a ≤ 1) : tail a = 23 := by
  cases a <;> simp only [tail, looseness] at * <;> omega

theorem postfix_low {a : Exp} (h : looseness a ≤ 1) : low a = 15 := by
  cases a <;> simp only [low, looseness, groups, List.length_cons, List.length_nil] at * <;> omega

theorem looseness_of_far {a : Exp} (h : 15 < tail a) : looseness a ≤ 1 := by
  cases a <;> simp only [tail, looseness] at * <;> try omega
  next op _ _ => cases op <;> simp [BinOp.rightPrec] at h

/-- The first token of an expression. -/
theorem written_head (e : Exp) (rest us : List Token) : written e ++ rest ≠ .gt :: us := by
  induction e generalizing rest with
  | call e ih | dot e _ ih => simpa [written] using ih _
  | elem e i ih _ => simpa [written] using ih _
  | binary op a b ih _ => simpa [written] using ih _
  | ternary c a b ih _ _ => simpa [written] using ih _
  | unary op e _ => cases op <;> simp [written, unarySign]
  | _ => simp [written]

/-! ## What is written is read -/

theorem stops_of_none {p : Nat} {ts : List Token} (h : nextPrec ts = none) : Stops p ts :=
  fun q hq => by rw [h] at hq; cases hq

theorem written_parses (e : Exp) : Bracketed e → ∀ p rest r, p ≤ low e → Stops (tail e) rest →
    Loops p e rest r → Parses p (written e ++ rest) r := by
  induction e with
  | paren e ih =>
    intro hb p rest r _ _ hl
    have h := ih hb 0 (.rparen :: rest) (e, .rparen :: rest) (by omega) (stops_of_none rfl) (.stop (stops_of_none rfl))
    obtain ⟨n, h⟩ := h
    refine .of_operand (n := n + 1) (e := .paren e) (us := rest) ?_ hl
    simp [written, operand, h]
  | lengthof e ih =>
    intro hb p rest r _ _ hl
    have h := ih hb 0 (.rparen :: rest) (e, .rparen :: rest) (by omega) (stops_of_none rfl) (.stop (stops_of_none rfl))
    obtain ⟨n, h⟩ := h
    refine .of_operand (n := n + 1) (e := .lengthof e) (us := rest) ?_ hl
    simp [written, operand, h]
  | valueof e ih =>
    intro hb p rest r _ _ hl
    have h := ih hb 0 (.rparen :: rest) (e, .rparen :: rest) (by omega) (stops_of_none rfl) (.stop (stops_of_none rfl))
    obtain ⟨n, h⟩ := h
    refine .of_operand (n := n + 1) (e := .valueof e) (us := rest) ?_ hl
    simp [written, operand, h]
  | numbits e ih =>
    intro hb p rest r _ _ hl
    have h := ih hb 0 (.rparen :: rest) (e, .rparen :: rest) (by omega) (stops_of_none rfl) (.stop (stops_of_none rfl))
    obtain ⟨n, h⟩ := h
    refine .of_operand (n := n + 1) (e := .numbits e) (us := rest) ?_ hl
    simp [written, operand, h]
  | isset a b iha ihb =>
    intro hb p rest r _ _ hl
    have h1 := iha hb.1 0 (.comma :: (written b ++ .rparen :: rest)) _ (by omega) (stops_of_none rfl)
      (.stop (stops_of_none rfl))
    have h2 := ihb hb.2 0 (.rparen :: rest) _ (by omega) (stops_of_none rfl) (.stop (stops_of_none rfl))
    let m := 2 * (written a ++ .comma :: (written b ++ .rparen :: rest)).length
    have e1 := h1.enough (m := m) (Nat.le_refl _)
    have e2 := h2.enough (m := m) (by simp only [m, List.length_append, List.length_cons]; omega)
    refine .of_operand (n := m + 1) (e := .isset a b) (us := rest) ?_ hl
    simp [written, operand, e1, e2]
  | lit k x =>
    intro _ p rest r _ _ hl
    exact .of_operand (n := 1) (e := .lit k x) (us := rest) (by simp [written, operand]) hl
  | index =>
    intro _ p rest r _ _ hl
    exact .of_operand (n := 1) (e := .index) (us := rest) (by simp [written, operand]) hl
  | id x =>
    intro _ p rest r _ _ hl
    exact .of_operand (n := 1) (e := .id x) (us := rest) (by simp [written, operand]) hl
  | unary op e ih =>
    intro hb p rest r _ hs hl
    have hlow : 15 ≤ low e ∧ 15 ≤ tail e := by
      have := hb.1
      cases e <;> simp only [looseness, low, tail, groups, List.length_cons, List.length_nil] at * <;> omega
    obtain ⟨n, h⟩ := ih hb.2 15 rest (e, rest) hlow.1 (hs.mono hlow.2) (.stop hs)
    refine .of_operand (n := n + 1) (e := .unary op e) (us := rest) ?_ hl
    cases op <;> simp [written, operand, unarySign, prefixOp, h]
  | call e ih =>
    intro hb p rest r hp _ hl
    simp only [low] at hp
    have := ih hb.2 p (.lparen :: .rparen :: rest) r (by rw [postfix_low hb.1]; exact hp)
      (by rw [postfix_tail hb.1]; exact stops_far _) (.call (by omega) hl)
    simpa [written] using this
  | dot e x ih =>
    intro hb p rest r hp _ hl
    simp only [low] at hp
    have := ih hb.2 p (.dot :: .id x :: rest) r (by rw [postfix_low hb.1]; exact hp)
      (by rw [postfix_tail hb.1]; exact stops_far _) (.dot (by omega) hl)
    simpa [written] using this
  | elem e i ih ihi =>
    intro hb p rest r hp _ hl
    simp only [low] at hp
    have hi := ihi hb.2.2 0 (.rbracket :: rest) _ (by omega) (stops_of_none rfl) (.stop (stops_of_none rfl))
    have := ih hb.2.1 p (.lbracket :: (written i ++ .rbracket :: rest)) r (by rw [postfix_low hb.1]; exact hp)
      (by rw [postfix_tail hb.1]; exact stops_far _) (.elem (by omega) hi hl)
    simpa [written] using this
  | binary op a b iha ihb =>
    intro hb p rest r hp hs hl
    obtain ⟨h1, h2, h3, h4⟩ := hb
    simp only [low] at hp
    simp only [tail] at hs
    have hi : infixOp (binarySigns op ++ (written b ++ rest)) = some (op, written b ++ rest) :=
      infixOp_signs op _ fun _ us h => written_head b rest us h
    have hr := ihb h4 op.rightPrec rest (b, rest) (low_of_looseness' h2) (hs.mono (tail_of_looseness' h2)) (.stop hs)
    have := iha h3 p (binarySigns op ++ (written b ++ rest)) r (Nat.le_trans hp (low_of_looseness h1))
      (fun q hq => by
        rw [nextPrec_infix hi] at hq
        cases hq
        exact tail_of_looseness h1)
      (.binary hp hi hr hl)
    simpa [written] using this
  | ternary c a b ihc iha ihb =>
    intro hb p rest r hp hs hl
    obtain ⟨h1, h2, h3, h4⟩ := hb
    simp only [low] at hp
    simp only [tail] at hs
    have hc : 4 ≤ low c ∧ 4 < tail c := by
      cases c <;> simp only [looseness, low, tail, groups, List.length_cons, List.length_nil] at * <;> try omega
      next op _ _ => cases op <;> decide
    have hb' : 4 ≤ low b ∧ 4 ≤ tail b := by
      cases b <;> simp only [low, tail] <;> try omega
      next op _ _ => cases op <;> decide
    have ha := iha h3 0 (.colon :: (written b ++ rest)) _ (by omega) (stops_of_none rfl) (.stop (stops_of_none rfl))
    have hr := ihb h4 4 rest (b, rest) hb'.1 (hs.mono hb'.2) (.stop hs)
    have := ihc h2 p (.question :: (written a ++ .colon :: (written b ++ rest))) r (by omega)
      (fun q hq => by
        simp only [nextPrec, Option.some.injEq] at hq
        omega)
      (.ternary hp ha hr hl)
    simpa [written] using this

/-! ## What is read is written -/

theorem read_sound (n : Nat) :
    (∀ p ts e rest, p ≤ 15 → expressionRec n p ts = some (e, rest) →
      ts = written e ++ rest ∧ Bracketed e ∧ p ≤ low e ∧ Stops p rest) ∧
    (∀ ts e rest, operand n ts = some (e, rest) →
      ts = written e ++ rest ∧ Bracketed e ∧ low e = 15 ∧ Stops (tail e) rest) ∧
    (∀ p a ts e rest, p ≤ 15 → Bracketed a → p ≤ low a → Stops (tail a) ts → operators n p a ts = some (e, rest) →
      written a ++ ts = written e ++ rest ∧ Bracketed e ∧ p ≤ low e ∧ Stops p rest) := by
  induction n with
  | zero => exact ⟨fun _ _ _ _ _ h => by simp [expressionRec] at h, fun _ _ _ h => by simp [operand] at h,
      fun _ _ _ _ _ _ _ _ _ h => by simp [operators] at h⟩
  | succ n ih =>
    obtain ⟨ih1, ih2, ih3⟩ := ih
    refine ⟨?_, ?_, ?_⟩
    · intro p ts e rest hp h
      simp only [expressionRec, Option.bind_eq_some_iff] at h
      obtain ⟨⟨a, us⟩, ha, hr⟩ := h
      obtain ⟨rfl, hb, hl, hs⟩ := ih2 _ _ _ ha
      exact ih3 _ _ _ _ _ hp hb (by omega) hs hr
    · intro ts e rest h
      cases ts with
      | nil => simp [operand] at h
      | cons t ts =>
        cases t <;> simp only [operand, prefixOp, Option.bind_eq_some_iff, Option.map_eq_some_iff, matchToken_some,
          Option.bind_none, reduceCtorEq, Option.bind_some, Option.some.injEq, Prod.mk.injEq] at h
        case lparen =>
          obtain ⟨⟨a, vs⟩, ha, us, hu, rfl, rfl⟩ := h
          obtain ⟨rfl, hb, _, _⟩ := ih1 _ _ _ _ (by omega) ha
          simp only at hu
          subst hu
          exact ⟨by simp [written], hb, rfl, stops_far _⟩
        case isset =>
          obtain ⟨vs, rfl, ⟨a, as⟩, ha, ws, hw, ⟨b, bs⟩, hb, us, hu, rfl, rfl⟩ := h
          obtain ⟨rfl, hba, _, _⟩ := ih1 _ _ _ _ (by omega) ha
          obtain ⟨rfl, hbb, _, _⟩ := ih1 _ _ _ _ (by omega) hb
          simp only at hu hw
          subst hu
          subst hw
          exact ⟨by simp [written], ⟨hba, hbb⟩, rfl, stops_far _⟩
        case lengthof | valueof | numbits =>
          obtain ⟨vs, rfl, ⟨a, as⟩, ha, us, hu, rfl, rfl⟩ := h
          obtain ⟨rfl, hb, _, _⟩ := ih1 _ _ _ _ (by omega) ha
          simp only at hu
          subst hu
          exact ⟨by simp [written], hb, rfl, stops_far _⟩
        case lit | index | id =>
          obtain ⟨rfl, rfl⟩ := h
          exact ⟨by simp [written], trivial, rfl, stops_far _⟩
        all_goals
          obtain ⟨⟨a, us⟩, ha, rfl, rfl⟩ := h
          obtain ⟨rfl, hb, hl, hs⟩ := ih1 _ _ _ _ (by omega) ha
          refine ⟨by simp [written, unarySign], ⟨?_, hb⟩, rfl, hs⟩
          cases a <;> simp only [looseness, low] at * <;> try omega
          next op _ _ => cases op <;> simp [BinOp.prec] at hl
    · intro p a ts e rest hp hba hla hsa h
      rcases operators_cases n p a ts with ⟨hs, ho⟩ | ⟨us, rfl, hp', ho⟩ | ⟨us, rfl, hp', ho⟩ | ⟨x, us, rfl, hp', ho⟩ |
        ⟨us, rfl, hp', ho⟩ | ⟨op, us, hts, hi, hp', ho⟩ | ⟨us, rfl, hp', ho⟩
      · rw [ho] at h
        simp only [Option.some.injEq, Prod.mk.injEq] at h
        obtain ⟨rfl, rfl⟩ := h
        exact ⟨rfl, hba, hla, hs⟩
      · rw [ho] at h
        have ht := hsa 22 rfl
        have hl := looseness_of_far (a := a) (by omega)
        have := ih3 _ (.call a) _ _ _ hp ⟨hl, hba⟩ hp (stops_far _) h
        simpa [written] using this
      · rw [ho] at h
        have ht := hsa 21 rfl
        have hl := looseness_of_far (a := a) (by omega)
        simp only [Option.bind_eq_some_iff, matchToken_some] at h
        obtain ⟨⟨i, is⟩, hi, vs, hv, h⟩ := h
        obtain ⟨rfl, hbi, _, _⟩ := ih1 _ _ _ _ (by omega) hi
        simp only at hv h
        subst hv
        have := ih3 _ (.elem a i) _ _ _ hp ⟨hl, hba, hbi⟩ hp (stops_far _) h
        simpa [written] using this
      · rw [ho] at h
        have ht := hsa 20 rfl
        have hl := looseness_of_far (a := a) (by omega)
        have := ih3 _ (.dot a x) _ _ _ hp ⟨hl, hba⟩ hp (stops_far _) h
        simpa [written] using this
      · rw [ho] at h
        have ht := hsa 4 rfl
        simp only [Option.bind_eq_some_iff, matchToken_some] at h
        obtain ⟨⟨x, xs⟩, hx, vs, hv, ⟨y, ys⟩, hy, h⟩ := h
        obtain ⟨rfl, hbx, _, _⟩ := ih1 _ _ _ _ (by omega) hx
        obtain ⟨rfl, hby, _, hsy⟩ := ih1 _ _ _ _ (by omega) hy
        simp only at hv h
        subst hv
        have hl : looseness a < 3 + groups.length := by
          clear ih1 ih2 ih3 h
          cases a <;> simp only [tail, looseness, groups, List.length_cons, List.length_nil] at * <;> try omega
          next op _ _ =>
            have h1 := prec_group op
            have h2 : 5 ≤ op.prec := by cases op <;> decide
            omega
        have := ih3 _ (.ternary a x y) _ _ _ hp ⟨hl, hba, hbx, hby⟩ hp' hsy h
        simpa [written] using this
      · rw [ho] at h
        have ht := hsa _ (nextPrec_infix hi)
        simp only [Option.bind_eq_some_iff] at h
        obtain ⟨⟨b, bs⟩, hb, h⟩ := h
        have h15 : op.rightPrec ≤ 15 := by cases op <;> decide
        obtain ⟨rfl, hbb, hlb, hsb⟩ := ih1 _ _ _ _ h15 hb
        simp only at h
        subst hts
        have := ih3 _ (.binary op a b) _ _ _ hp ⟨looseness_of_tail ht, looseness_of_low hlb, hba, hbb⟩ hp' hsb h
        simpa [written] using this
      · rw [ho] at h
        cases h

end Src

end Zs
