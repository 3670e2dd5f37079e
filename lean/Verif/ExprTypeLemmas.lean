import Verif.ExprTypeSpec

/-!
# Lemmas about the types of expressions
-/

namespace Zs

open Spec

variable {fo : FloatOps} {md : Mode} {sc : TScope}

theorem primType_rustName (n : NumName) : primType n.rustName = some (numTy n) := by
  cases n <;> rfl

theorem numTy_of_rustName {n m : NumName} (h : n.rustName = m.rustName) : numTy n = numTy m := by
  have := primType_rustName n
  rw [h, primType_rustName m] at this
  exact (Option.some.inj this).symm

theorem numTy_number (n : NumName) : (numTy n).Number := by
  cases n <;> trivial

theorem castable_of_number {t : RTy} (h : t.Number) : t.Castable := by
  cases t <;> first | trivial | exact h.elim

theorem integer_number {t : RTy} (h : t.Integer) : t.Number := by
  cases t <;> first | trivial | exact h.elim

theorem castable_of_canCast {s t : RTy} (h : s.CanCast t) (ht : t.Number) : s.Castable := by
  rcases h with rfl | ⟨h, _⟩ | ⟨rfl | ⟨id, rfl⟩, _⟩
  · exact castable_of_number ht
  · exact castable_of_number h
  · trivial
  · trivial

theorem canCast_numbers {s t : RTy} (hs : s.Number) (ht : t.Number) : s.CanCast t := .inr (.inl ⟨hs, ht⟩)

/-- The common type of two operands is one of the more definite one. -/
theorem join_allows {p : RTy → Prop} {s u : STy} (h : STy.Meets p s u) (t : RTy) :
    (s.join u).Allows t ↔ s.Allows t ∧ u.Allows t := by
  obtain ⟨w, hs, hu, _⟩ := h
  cases s <;> cases u <;> simp only [STy.join, STy.Allows, RTy.Integer] at * <;>
    first
    | exact (and_self_iff).symm
    | (obtain ⟨_, rfl⟩ := hs; obtain ⟨_, h, _⟩ := hu; cases h; done)
    | (constructor
       · rintro rfl; subst_vars; first | exact ⟨hs, rfl⟩ | exact ⟨rfl, hu⟩ | exact ⟨rfl, rfl⟩
       · exact fun h => by first | exact h.1 | exact h.2)
    | (constructor
       · rintro ⟨i, rfl, h⟩; exact ⟨trivial, i, rfl, h⟩
       · exact fun h => h.2)
    | (constructor
       · rintro ⟨i, rfl, h⟩; exact ⟨⟨i, rfl, h⟩, trivial⟩
       · exact fun h => h.1)
    | (obtain ⟨_, rfl⟩ := hu; exact hs.elim)
    | (obtain ⟨_, rfl⟩ := hs; exact hu.elim)
    | (obtain ⟨_, rfl, _⟩ := hs; obtain ⟨_, h⟩ := hu; cases h)

/-- All admitted types are of the kind, if one is. -/
theorem STy.can_integer {s : STy} (h : s.Can RTy.Integer) {t : RTy} (ht : s.Allows t) : t.Integer := by
  obtain ⟨u, hu, hp⟩ := h
  cases s <;> simp only [STy.Allows] at hu ht
  · exact ht
  · obtain ⟨i, rfl, _⟩ := ht; trivial
  · obtain ⟨w, rfl⟩ := hu; exact hp.elim
  · subst hu; subst ht; exact hp

theorem STy.can_number {s : STy} (h : s.Can RTy.Number) {t : RTy} (ht : s.Allows t) : t.Number := by
  obtain ⟨u, hu, hp⟩ := h
  cases s <;> simp only [STy.Allows] at hu ht
  · exact integer_number ht
  · obtain ⟨i, rfl, _⟩ := ht; trivial
  · obtain ⟨w, rfl⟩ := ht; trivial
  · subst hu; subst ht; exact hp

theorem STy.can_bits {s : STy} (h : s.Can RTy.Bits) {t : RTy} (ht : s.Allows t) : t.Bits := by
  obtain ⟨u, hu, hp⟩ := h
  cases s <;> simp only [STy.Allows] at hu ht
  · cases t <;> first | trivial | exact ht.elim
  · obtain ⟨i, rfl, _⟩ := ht; trivial
  · obtain ⟨w, rfl⟩ := hu; exact hp.elim
  · subst hu; subst ht; exact hp

/-- The types with a sign of an expression are the types of its negation. -/
theorem negate_allows {s : STy} (t : RTy) :
    (s.Allows t ∧ t.Negatable) ↔ (s.Can RTy.Negatable ∧ s.negate.Allows t) := by
  constructor
  · rintro ⟨h, hn⟩
    refine ⟨⟨t, h, hn⟩, ?_⟩
    cases s <;> simp only [STy.negate, STy.Allows] at *
    · cases t <;> first | exact ⟨_, rfl, hn⟩ | exact h.elim | exact hn.elim
    all_goals exact h
  · rintro ⟨⟨u, hu, hn⟩, h⟩
    cases s <;> simp only [STy.negate, STy.Allows] at *
    · obtain ⟨i, rfl, hi⟩ := h; exact ⟨trivial, hi⟩
    · obtain ⟨i, rfl, hi⟩ := h; exact ⟨⟨i, rfl, hi⟩, hi⟩
    · obtain ⟨w, rfl⟩ := h; exact ⟨⟨w, rfl⟩, trivial⟩
    · subst hu; subst h; exact ⟨rfl, hn⟩

theorem ofOption_allows {o : Option RTy} {t : RTy} : (STy.ofOption o).Allows t ↔ o = some t := by
  cases o <;> simp [STy.ofOption, STy.Allows]

theorem can_of_allows {s : STy} {t : RTy} (h : s.Allows t) : s.Can anyType := ⟨t, h, trivial⟩

/-- The value of a name is the one of the type of its symbol. -/
theorem evaluate_symbol (e : Expr fo.F) (s : Symb) (hs : e.symbol sc = some s) (c : CVal fo.F) (r : Bool)
    (he : e.evaluate md sc.erase = .ok (c, r)) : c = s.ty.sym.dummy fo := by
  cases e <;> simp only [Expr.symbol, reduceCtorEq] at hs
  case ident n =>
    simp only [Expr.evaluate, TScope.erase, hs, Option.map_some, lookup, Res.ok.injEq,
      Prod.mk.injEq] at he
    exact he.1.symm
  case dot e n =>
    simp only [Expr.evaluate] at he
    obtain ⟨⟨c0, r0⟩, h0, he⟩ := Res.bind_eq_ok.1 he
    obtain ⟨s0, hs0, hs⟩ := Option.bind_eq_some_iff.1 hs
    have := evaluate_symbol e s0 hs0 c0 r0 h0
    split at hs
    · rename_i id hid
      rw [hid] at this
      subst this
      simp only [ZTy.sym, SymTy.dummy, TScope.erase, Expr.symbol, hs0, Option.bind_some, hid, hs,
        Option.map_some, lookup, Res.pure_eq, Res.ok_bind, Res.ok.injEq, Prod.mk.injEq] at he
      exact he.1.symm
    · cases hs

/-- The type of a name is the one of its symbol. -/
theorem sort_symbol (e : Expr fo.F) (s : Symb) (hs : e.symbol sc = some s) (c : CVal fo.F) (r : Bool)
    (he : e.evaluate md sc.erase = .ok (c, r)) (t : RTy) (ht : (sort md sc e).Allows t) :
    symbTy s = some t := by
  cases e <;> simp only [Expr.symbol, reduceCtorEq] at hs
  case ident n => simpa [sort, hs, ofOption_allows] using ht
  case dot e n =>
    simp only [Expr.evaluate] at he
    obtain ⟨⟨c0, r0⟩, h0, he⟩ := Res.bind_eq_ok.1 he
    obtain ⟨s0, hs0, hs⟩ := Option.bind_eq_some_iff.1 hs
    have hc := evaluate_symbol e s0 hs0 c0 r0 h0
    split at hs
    · rename_i id hid
      rw [hid] at hc
      subst hc
      simp only [sort, h0, ZTy.sym, SymTy.dummy] at ht
      split at ht
      · rename_i id' hsort
        have := sort_symbol e s0 hs0 _ _ h0 (.object id') (by rw [hsort]; rfl)
        have hid' : id' = id := by
          simp only [symbTy, hid, valueTy] at this
          split at this <;> simp at this
          · exact this.symm
          · exact this.symm
        subst hid'
        rw [ofOption_allows, hs] at ht
        exact ht
      · exact ht.elim
    · cases hs

/-- A symbol of a numeric type whose Rust type can be cast. -/
theorem symbTy_native {s : Symb} {t : RTy} {r : NumRef} (h : symbTy s = some t) (hc : t.Castable)
    (hn : s.ty.native = some r) : t = numTy r.name := by
  obtain ⟨ty, shape⟩ := s
  cases ty <;> simp only [ZTy.native, reduceCtorEq, Option.some.injEq] at hn
  subst hn
  cases shape <;> simp only [symbTy, valueTy, Option.map_some, Option.some.injEq, reduceCtorEq] at h <;>
    subst h <;> first | rfl | exact hc.elim

theorem negate_sub {s : STy} {t : RTy} (h : s.negate.Allows t) : s.Allows t := by
  cases s <;> first | exact h | (obtain ⟨i, rfl, _⟩ := h; trivial)

theorem native_unit {α : Type} {x : Res α} {k : α → Res (Option NumRef)} {r : Option NumRef}
    (h : (x >>= k) = .ok r) : ∃ a, x = .ok a ∧ k a = .ok r := Res.bind_eq_ok.1 h

theorem nativeOf_ok {e : Expr fo.F} {r : Option NumRef} (h : e.native md sc = .ok r) :
    e.nativeOf md sc = r := by
  simp [Expr.nativeOf, h]

/-- The native type of an expression, where there is one, is the type of its code. -/
theorem sort_native (e : Expr fo.F) (c : CVal fo.F) (k : Bool) (he : e.evaluate md sc.erase = .ok (c, k))
    (r : NumRef) (hn : e.native md sc = .ok (some r)) (t : RTy) (ht : (sort md sc e).Allows t)
    (hc : t.Castable) : t = numTy r.name := by
  induction e generalizing c k r t with
  | paren e ih => exact ih c k he r hn t ht hc
  | plus e ih =>
    simp only [Expr.evaluate] at he
    obtain ⟨⟨c0, r0⟩, h0, he⟩ := Res.bind_eq_ok.1 he
    exact ih c0 r0 h0 r hn t ht hc
  | neg e ih =>
    simp only [Expr.evaluate] at he
    obtain ⟨⟨c0, r0⟩, h0, he⟩ := Res.bind_eq_ok.1 he
    exact ih c0 r0 h0 r hn t (negate_sub ht) hc
  | compl e ih =>
    simp only [Expr.evaluate] at he
    obtain ⟨⟨c0, r0⟩, h0, he⟩ := Res.bind_eq_ok.1 he
    exact ih c0 r0 h0 r hn t ht hc
  | ident n =>
    simp only [Expr.native, Res.ok.injEq] at hn
    obtain ⟨s, hs, hn⟩ := Option.bind_eq_some_iff.1 hn
    exact symbTy_native (sort_symbol (.ident n) s hs c k he t ht) hc hn
  | dot e n ih =>
    simp only [Expr.native] at hn
    obtain ⟨_, _, hn⟩ := native_unit hn
    split at hn
    · simp only [Res.ok.injEq] at hn
      obtain ⟨s, hs, hn⟩ := Option.bind_eq_some_iff.1 hn
      exact symbTy_native (sort_symbol (.dot e n) s hs c k he t ht) hc hn
    · cases hn
  | call e ih =>
    simp only [Expr.evaluate] at he
    obtain ⟨⟨c0, r0⟩, h0, he2⟩ := Res.bind_eq_ok.1 he
    simp only [Expr.native] at hn
    obtain ⟨w, hw, hn2⟩ := native_unit hn
    simp only [Res.ok.injEq] at hn2
    obtain ⟨z, hz1, hn3⟩ := Option.bind_eq_some_iff.1 hn2
    obtain ⟨s, hs, hz⟩ := Option.bind_eq_some_iff.1 hz1
    have key : funcTy s = some t → t = numTy r.name := by
      intro h
      simp only [funcTy, hz, Option.bind_some] at h
      cases z <;> simp only [ZTy.native, reduceCtorEq, Option.some.injEq] at hn3
      subst hn3
      simp only [valueTy, Option.some.injEq] at h
      exact h.symm
    cases e <;> simp only [Expr.symbol, reduceCtorEq] at hs
    case ident n =>
      simp only [sort, ofOption_allows, hs, Option.bind_some] at ht
      exact key ht
    case dot e n =>
      simp only [Expr.evaluate] at h0
      obtain ⟨⟨c1, r1⟩, h1, h0⟩ := Res.bind_eq_ok.1 h0
      obtain ⟨s0, hs0, hs⟩ := Option.bind_eq_some_iff.1 hs
      split at hs
      · rename_i id hid
        have hc1 := evaluate_symbol e s0 hs0 c1 r1 h1
        simp only [sort] at ht
        split at ht
        · rename_i id' _ hsort
          have := sort_symbol e s0 hs0 _ _ h1 (.object id') (by rw [hsort]; rfl)
          have hid' : id' = id := by
            simp only [symbTy, hid, valueTy] at this
            split at this <;> simp at this
            · exact this.symm
            · exact this.symm
          subst hid'
          rw [ofOption_allows, hs] at ht
          exact key ht
        · exact ht.elim
      · cases hs
  | lengthof e ih =>
    simp only [Expr.native] at hn
    obtain ⟨_, _, hn⟩ := native_unit hn
    cases hn
    exact ht.symm
  | numbits e ih =>
    simp only [Expr.native] at hn
    obtain ⟨_, _, hn⟩ := native_unit hn
    cases hn
    exact ht.symm
  | valueof e ih =>
    simp only [sort, nativeOf_ok hn] at ht
    exact ht.symm
  | arith op a b iha ihb =>
    simp only [sort, nativeOf_ok hn] at ht
    split at ht
    · subst ht; exact hc.elim
    · exact ht.symm
  | not e ih =>
    simp only [Expr.native] at hn
    obtain ⟨_, _, hn⟩ := native_unit hn
    cases hn
  | elem a b iha ihb | isset a b iha ihb | cmp op a b iha ihb | bit op a b iha ihb | logic op a b iha ihb =>
    simp only [Expr.native] at hn
    obtain ⟨_, _, hn⟩ := native_unit hn
    obtain ⟨_, _, hn⟩ := native_unit hn
    cases hn
  | tern a b d iha ihb ihd =>
    simp only [Expr.native] at hn
    obtain ⟨_, _, hn⟩ := native_unit hn
    obtain ⟨_, _, hn⟩ := native_unit hn
    obtain ⟨_, _, hn⟩ := native_unit hn
    cases hn
  | intLit | boolLit | strLit | floatLit | index => cases hn

end Zs
