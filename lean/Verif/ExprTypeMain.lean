import Verif.ExprTypeLemmas

/-!
# Expressions that fit together are the ones with a type
-/

namespace Zs

open Spec

variable {fo : FloatOps} {md : Mode} {sc : TScope}

/-- The types of `e` are what `Coherent` and `sort` say. -/
def Types (md : Mode) (sc : TScope) (e : Expr fo.F) : Prop :=
  ∀ t, Typed (rscope sc) (code md sc e) t ↔ Coherent md sc e ∧ (sort md sc e).Allows t

theorem types_meet {p : RTy → Prop} {a b : Expr fo.F} (ha : Types md sc a) (hb : Types md sc b) (t : RTy)
    (hp : ∀ u, (sort md sc a).Allows u → (sort md sc b).Allows u → (p t ↔ p u) ∨ ¬ (sort md sc a).Allows t ∨
      ¬ (sort md sc b).Allows t) :
    (Typed (rscope sc) (code md sc a) t ∧ Typed (rscope sc) (code md sc b) t ∧ p t) ↔
      (Coherent md sc a ∧ Coherent md sc b ∧ STy.Meets p (sort md sc a) (sort md sc b)) ∧
        ((sort md sc a).join (sort md sc b)).Allows t := by
  rw [ha t, hb t]
  constructor
  · rintro ⟨⟨ca, ta⟩, ⟨cb, tb⟩, h⟩
    have hm : STy.Meets p (sort md sc a) (sort md sc b) := ⟨t, ta, tb, h⟩
    exact ⟨⟨ca, cb, hm⟩, (join_allows hm t).2 ⟨ta, tb⟩⟩
  · rintro ⟨⟨ca, cb, hm⟩, ht⟩
    obtain ⟨ta, tb⟩ := (join_allows hm t).1 ht
    obtain ⟨u, ua, ub, hu⟩ := hm
    refine ⟨⟨ca, ta⟩, ⟨cb, tb⟩, ?_⟩
    rcases hp u ua ub with h | h | h
    · exact h.2 hu
    · exact absurd ta h
    · exact absurd tb h

theorem allows_bits {s : STy} {t u : RTy} (ht : s.Allows t) (hu : s.Allows u) : t.Bits ↔ u.Bits :=
  ⟨fun h => STy.can_bits ⟨t, ht, h⟩ hu, fun h => STy.can_bits ⟨u, hu, h⟩ ht⟩

theorem allows_number {s : STy} {t u : RTy} (ht : s.Allows t) (hu : s.Allows u) : t.Number ↔ u.Number :=
  ⟨fun h => STy.can_number ⟨t, ht, h⟩ hu, fun h => STy.can_number ⟨u, hu, h⟩ ht⟩

/-- One operand of an arithmetic operation with the native type `r`. -/
theorem types_operand {e : Expr fo.F} (he : Types md sc e) {c : CVal fo.F} {k : Bool}
    (hev : e.evaluate md sc.erase = .ok (c, k)) {n : Option NumRef} (hn : e.native md sc = .ok n)
    (r : NumRef) :
    Typed (rscope sc) (castTree (castOf (some r) n) (code md sc e)) (numTy r.name) ↔
      Coherent md sc e ∧ (sort md sc e).Can RTy.Number ∧
        (n = none → (sort md sc e).Allows (numTy r.name)) := by
  cases n with
  | none =>
    simp only [castOf, castTree, forall_const]
    rw [he]
    exact ⟨fun ⟨h1, h2⟩ => ⟨h1, ⟨_, h2, numTy_number _⟩, h2⟩, fun ⟨h1, _, h2⟩ => ⟨h1, h2⟩⟩
  | some o =>
    have inv := fun t ht hc => sort_native e c k hev o hn t ht hc
    simp only [castOf, reduceCtorEq, false_implies, and_true]
    by_cases hne : r.name.rustName = o.name.rustName
    · have heq := numTy_of_rustName hne
      simp only [hne, ne_eq, not_true, if_false, castTree]
      rw [he]
      constructor
      · exact fun ⟨h1, h2⟩ => ⟨h1, _, h2, numTy_number _⟩
      · rintro ⟨h1, t, h2, h3⟩
        have := inv t h2 (castable_of_number h3)
        subst this
        exact ⟨h1, by rw [heq]; exact h2⟩
    · simp only [ne_eq, hne, not_false_iff, if_true, castTree, Typed]
      constructor
      · rintro ⟨_, s, hs, hcast⟩
        obtain ⟨h1, h2⟩ := (he s).1 hs
        have := inv s h2 (castable_of_canCast hcast (numTy_number _))
        subst this
        exact ⟨h1, _, h2, numTy_number _⟩
      · rintro ⟨h1, t, h2, h3⟩
        exact ⟨primType_rustName _, t, (he t).2 ⟨h1, h2⟩, canCast_numbers h3 (numTy_number _)⟩

/-- An operand with a native type forces the type of the operation. -/
theorem types_operand_forced {e : Expr fo.F} (he : Types md sc e) {c : CVal fo.F} {k : Bool}
    (hev : e.evaluate md sc.erase = .ok (c, k)) {o : NumRef} (hn : e.native md sc = .ok (some o))
    (r : NumRef) (t : RTy) (hnum : t.Number)
    (h : Typed (rscope sc) (castTree (castOf (some r) (some o)) (code md sc e)) t) :
    t = numTy r.name := by
  by_cases hne : r.name.rustName = o.name.rustName
  · simp only [castOf, hne, ne_eq, not_true, if_false, castTree] at h
    rw [numTy_of_rustName hne]
    exact sort_native e c k hev o hn t ((he t).1 h).2 (castable_of_number hnum)
  · simp only [castOf, ne_eq, hne, not_false_iff, if_true, castTree, Typed] at h
    have := h.1
    rw [primType_rustName] at this
    exact (Option.some.inj this).symm

/-- A mixture with a type has an operand with a type. -/
theorem mix_some {n m : Option NumRef} {r : NumRef}
    (h : mixInteger n m = .ok (some r) ∨ mixFloat n m = .ok (some r)) : n ≠ none ∨ m ≠ none := by
  cases n <;> cases m <;> simp [mixInteger, mixFloat] at h ⊢

theorem mix_none {n m : Option NumRef}
    (h : mixInteger n m = .ok none ∨ mixFloat n m = .ok none) : n = none ∧ m = none := by
  cases n with
  | none => cases m <;> simp [mixInteger, mixFloat] at h ⊢
  | some n =>
    cases m with
    | none => simp [mixInteger, mixFloat] at h
    | some m =>
      exfalso
      rcases h with h | h
      · simp only [mixInteger] at h
        split at h
        · cases h
        · obtain ⟨s1, _, h⟩ := Res.bind_eq_ok.1 h
          obtain ⟨s2, _, h⟩ := Res.bind_eq_ok.1 h
          obtain ⟨r1, _, h⟩ := Res.bind_eq_ok.1 h
          obtain ⟨r2, _, h⟩ := Res.bind_eq_ok.1 h
          split at h
          · split at h
            · cases h
            · obtain ⟨_, _, h⟩ := Res.bind_eq_ok.1 h
              cases h
          · split at h
            · cases h
            · obtain ⟨_, _, h⟩ := Res.bind_eq_ok.1 h
              cases h
      · simp only [mixFloat] at h
        split at h
        · cases h
        · split at h <;> cases h

/-- Arithmetic yields numbers or strings. -/
theorem evalArith_kind {op : ArithOp} {a b c : CVal fo.F} {ra rb : Bool}
    (h : evalArith md op a b ra rb = .ok c) :
    (∃ s, c = .str s) ∨ (∃ v, c = .int v) ∨ (∃ f, c = .float f) := by
  cases a <;> cases b <;> simp only [evalArith, reduceCtorEq] at h
  case int.int x y =>
    obtain ⟨z, _, h⟩ := Res.bind_eq_ok.1 h
    cases h
    exact .inr (.inl ⟨_, rfl⟩)
  case str.str x y =>
    split at h
    · cases h; exact .inl ⟨_, rfl⟩
    · cases h
  all_goals
    split at h
    · cases h; exact .inr (.inr ⟨_, rfl⟩)
    · cases h

/-- The method of a schema function. -/
theorem methodTy_ordinary (hord : Ordinary sc) {s : RTy} {n : String} {t : RTy} {id : String} {f : Symb}
    {z : ZTy} (hf : sc.member id n = some f) (hz : f.ty = .function z) :
    methodTy (F := fo.F) (rscope sc) s n = some t ↔
      ∃ id, s = .object id ∧ (sc.member id n).bind funcTy = some t := by
  obtain ⟨h1, h2, h3⟩ := hord id n f z hf hz
  cases s <;> simp [methodTy, rscope, h1, h2, h3]

theorem method_absurd (hord : Ordinary sc) {id m : String} {s : RTy} (hm : m = "len" ∨ m = "bits")
    (h : (rscope (F := fo.F) sc).method id m = some s) : False := by
  obtain ⟨f, hf, h⟩ := Option.bind_eq_some_iff.1 h
  obtain ⟨z, hz, _⟩ := Option.bind_eq_some_iff.1 h
  have hz' : f.ty = .function z := by
    revert hz
    cases f.ty <;> simp [ZTy.result]
  obtain ⟨h1, h2, _⟩ := hord id m f z hf hz'
  rcases hm with hm | hm
  · exact h1 hm
  · exact h2 hm

/-- The types of generated code: an expression that the compiler accepts has the type `t` as Rust code
exactly if its types fit together and `t` is the type that they give. -/
theorem types_iff' (hord : Ordinary sc) (e : Expr fo.F) (c : CVal fo.F) (k : Bool)
    (hev : e.evaluate md sc.erase = .ok (c, k)) (n : Option NumRef) (hn : e.native md sc = .ok n) :
    Types md sc e ∧ ∀ x m, e = .dot x m → Types md sc x := by
  induction e generalizing c k n with
  | intLit v => refine ⟨?_, fun x m h => by cases h⟩; intro t; simp [Typed, Expr.tree, Coherent, sort, STy.Allows]
  | boolLit v =>
    refine ⟨?_, fun x m h => by cases h⟩
    intro t
    simp only [Typed, Expr.tree, Coherent, sort, STy.Allows, true_and]
    exact eq_comm
  | strLit v =>
    refine ⟨?_, fun x m h => by cases h⟩
    intro t
    simp only [Typed, Expr.tree, Coherent, sort, STy.Allows, true_and]
    exact eq_comm
  | floatLit f =>
    refine ⟨?_, fun x m h => by cases h⟩
    intro t
    simp only [Typed, Expr.tree, Coherent, sort, true_and]
    cases fo.printsInteger f <;> simp [STy.Allows]
  | paren e ih => exact ⟨(ih c k hev n hn).1, fun x m h => by cases h⟩
  | plus e ih =>
    refine ⟨?_, fun x m h => by cases h⟩
    simp only [Expr.evaluate] at hev
    obtain ⟨⟨c0, r0⟩, h0, _⟩ := Res.bind_eq_ok.1 hev
    exact (ih c0 r0 h0 n hn).1
  | ident x =>
    refine ⟨?_, fun x m h => by cases h⟩
    intro t
    simp only [Typed, Expr.tree, Coherent, sort, rscope, ofOption_allows]
    exact ⟨fun h => ⟨⟨t, ofOption_allows.2 h, trivial⟩, h⟩, fun h => h.2⟩
  | index =>
    refine ⟨?_, fun x m h => by cases h⟩
    intro t
    simp only [Typed, Expr.tree, Coherent, sort, rscope]
    cases sc.index <;> simp [STy.Allows]
  | dot e m ih =>
    have hx : Types md sc e := by
      simp only [Expr.evaluate] at hev
      obtain ⟨⟨c0, r0⟩, h0, hev⟩ := Res.bind_eq_ok.1 hev
      obtain ⟨n0, hn0, hn⟩ := native_unit hn
      exact (ih c0 r0 h0 n0 hn0).1
    refine ⟨?_, fun x m h => by cases h; exact hx⟩
    intro t
    simp only [Expr.evaluate] at hev
    obtain ⟨⟨c0, r0⟩, h0, hev⟩ := Res.bind_eq_ok.1 hev
    obtain ⟨n0, hn0, hn⟩ := native_unit hn
    have := (ih c0 r0 h0 n0 hn0).1
    cases c0 with
    | compound =>
      simp only [code, Expr.tree, h0, Typed, Coherent, Res.ok.injEq, Prod.mk.injEq, true_and,
        exists_eq', true_implies]
      constructor
      · rintro ⟨id, h1, h2⟩
        obtain ⟨hc, hs⟩ := (this _).1 h1
        have hs' : sort md sc e = .is (.object id) ∨ False := by
          revert hs
          cases hse : sort md sc e <;> intro hs <;> simp only [STy.Allows] at hs
          · exact hs.elim
          · obtain ⟨_, h, _⟩ := hs; cases h
          · obtain ⟨_, h⟩ := hs; cases h
          · exact .inl (by rw [hs])
        rcases hs' with hs' | h
        · have : (sort md sc (.dot e m)).Allows t := by
            simp only [sort, h0, hs', ofOption_allows]
            exact h2
          exact ⟨⟨⟨t, this, trivial⟩, hc⟩, this⟩
        · exact h.elim
      · rintro ⟨⟨_, hc⟩, ht⟩
        simp only [sort, h0] at ht
        split at ht
        · rename_i id hs
          exact ⟨id, (this _).2 ⟨hc, by rw [hs]; rfl⟩, ofOption_allows.1 ht⟩
        · exact ht.elim
    | _ =>
      simp only [code, Expr.tree, h0, Typed, Coherent, Res.ok.injEq, Prod.mk.injEq, reduceCtorEq,
        false_and, exists_false, false_implies, and_true, sort, ofOption_allows]
      exact ⟨fun h => ⟨⟨t, ofOption_allows.2 h, trivial⟩, h⟩, fun h => h.2⟩
  | call e ih =>
    refine ⟨?_, fun x m h => by cases h⟩
    intro t
    simp only [Expr.evaluate] at hev
    obtain ⟨⟨c0, r0⟩, h0, hev⟩ := Res.bind_eq_ok.1 hev
    obtain ⟨n0, hn0, hn'⟩ := native_unit hn
    cases e with
    | ident x =>
      simp only [code, Expr.tree, Typed, Coherent, sort, rscope, ofOption_allows]
      exact ⟨fun h => ⟨⟨t, ofOption_allows.2 h, trivial⟩, h⟩, fun h => h.2⟩
    | dot e m =>
      simp only [Expr.evaluate] at h0
      obtain ⟨⟨c1, r1⟩, h1, h0⟩ := Res.bind_eq_ok.1 h0
      obtain ⟨n1, hn1, hn0⟩ := native_unit hn0
      have he : Types md sc e :=
        (ih c0 r0 (by simp only [Expr.evaluate, h1, Res.ok_bind]; exact h0) n0
          (by simp only [Expr.native, hn1, Res.ok_bind]; exact hn0)).2 e m rfl
      cases c1 with
      | compound =>
        cases c0 <;> simp only [reduceCtorEq] at hev
        simp only [TScope.erase] at h0
        obtain ⟨⟨c2, r2⟩, h2, h0⟩ := Res.bind_eq_ok.1 h0
        simp only [Res.pure_eq, Res.ok.injEq, Prod.mk.injEq] at h0
        obtain ⟨rfl, rfl⟩ := h0
        obtain ⟨f, hf, z, hz⟩ : ∃ f, (Expr.dot e m).symbol sc = some f ∧ ∃ z, f.ty = .function z := by
          revert h2
          cases hsym : (Expr.dot e m).symbol sc with
          | none => intro h2; cases h2
          | some f =>
            intro h2
            simp only [Option.map_some, lookup, Res.ok.injEq, Prod.mk.injEq] at h2
            refine ⟨f, rfl, ?_⟩
            have := h2.1
            revert this
            cases hty : f.ty with
            | num nn => simp only [ZTy.sym]; split <;> intro h <;> cases h
            | function z => exact fun _ => ⟨z, rfl⟩
            | _ => intro h; cases h
        simp only [Expr.symbol] at hf
        obtain ⟨s0, hs0, hf⟩ := Option.bind_eq_some_iff.1 hf
        split at hf
        · rename_i id hid
          simp only [code, Expr.tree, h1, Typed, Coherent]
          simp only [methodTy_ordinary hord hf hz]
          constructor
          · rintro ⟨u, hu, id', rfl, hm⟩
            obtain ⟨hc, hs⟩ := (he _).1 hu
            have hs' : sort md sc e = .is (.object id') := by
              revert hs
              cases hse : sort md sc e <;> intro hs <;> simp only [STy.Allows] at hs
              · exact hs.elim
              · obtain ⟨_, h, _⟩ := hs; cases h
              · obtain ⟨_, h⟩ := hs; cases h
              · rw [hs]
            have ht : (sort md sc (.call (.dot e m))).Allows t := by
              simp only [sort, h1, hs', ofOption_allows]
              exact hm
            exact ⟨⟨hc, t, ht, trivial⟩, ht⟩
          · rintro ⟨⟨hc, _⟩, ht⟩
            simp only [sort, h1] at ht
            split at ht
            · rename_i id' _ hs
              exact ⟨.object id', (he _).2 ⟨hc, by rw [hs]; rfl⟩, id', rfl, ofOption_allows.1 ht⟩
            · exact ht.elim
        · cases hf
      | _ =>
        simp only [code, Expr.tree, h1, Typed, Coherent, sort, STy.Allows, and_false]
    | plus e =>
      exfalso
      simp only [Expr.evaluate] at h0
      obtain ⟨⟨c1, r1⟩, h1, h0⟩ := Res.bind_eq_ok.1 h0
      cases c1 <;> simp only [Res.pure_eq, Res.ok.injEq, Prod.mk.injEq, reduceCtorEq] at h0 <;>
        (obtain ⟨rfl, rfl⟩ := h0; cases hev)
    | arith op a b =>
      simp only [code, Expr.tree, Coherent, false_and, iff_false]
      split <;> exact fun h => h
    | _ => simp only [code, Expr.tree, Typed, Coherent, false_and]
  | elem e i ihe ihi =>
    refine ⟨?_, fun x m h => by cases h⟩
    intro t
    simp only [Expr.evaluate] at hev
    obtain ⟨⟨ca, ra⟩, ha0, hev⟩ := Res.bind_eq_ok.1 hev
    obtain ⟨⟨cb, rb⟩, hb0, hev⟩ := Res.bind_eq_ok.1 hev
    obtain ⟨na, hna, hn⟩ := native_unit hn
    obtain ⟨nb, hnb, hn⟩ := native_unit hn
    have ha := (ihe ca ra ha0 na hna).1
    have hb := (ihi cb rb hb0 nb hnb).1

    simp only [code, Expr.tree, Typed, Coherent]
    rw [ha, hb]
    constructor
    · rintro ⟨⟨h1, h2⟩, h3, h4⟩
      have hs : sort md sc e = .is (.vec t) := by
        revert h2
        cases hse : sort md sc e <;> intro h2 <;> simp only [STy.Allows] at h2
        · exact h2.elim
        · obtain ⟨_, h, _⟩ := h2; cases h
        · obtain ⟨_, h⟩ := h2; cases h
        · rw [h2]
      have ht : (sort md sc (.elem e i)).Allows t := by simp only [sort, hs, STy.Allows]
      exact ⟨⟨h1, h3, ⟨t, ht, trivial⟩, h4⟩, ht⟩
    · rintro ⟨⟨h1, h2, _, h4⟩, ht⟩
      simp only [sort] at ht
      split at ht
      · rename_i u hs
        have : u = t := ht
        subst this
        exact ⟨⟨h1, by rw [hs]; rfl⟩, h2, h4⟩
      · exact ht.elim
  | isset e x ihe ihx =>
    refine ⟨?_, fun x m h => by cases h⟩
    intro t
    simp only [Expr.evaluate] at hev
    obtain ⟨⟨ca, ra⟩, ha0, hev⟩ := Res.bind_eq_ok.1 hev
    obtain ⟨⟨cb, rb⟩, hb0, hev⟩ := Res.bind_eq_ok.1 hev
    obtain ⟨na, hna, hn⟩ := native_unit hn
    obtain ⟨nb, hnb, hn⟩ := native_unit hn
    have ha := (ihe ca ra ha0 na hna).1
    have hb := (ihx cb rb hb0 nb hnb).1

    simp only [code, Expr.tree, Typed, Coherent, reduceCtorEq, or_self, if_false, sort, STy.Allows]
    constructor
    · rintro ⟨rfl, s1, s2, ⟨h1, h2, h3⟩, h4, h5⟩
      obtain ⟨c1, t1⟩ := (ha s1).1 h1
      obtain ⟨c2, t2⟩ := (hb s1).1 h2
      refine ⟨⟨c1, c2, s1, t1, t2, h3, ?_⟩, rfl⟩
      rintro rfl
      cases s2 <;> first | exact h4.elim | cases h5.1
    · rintro ⟨⟨c1, c2, u, t1, t2, h3, h4⟩, rfl⟩
      refine ⟨rfl, u, ?_⟩
      cases u with
      | int i => exact ⟨.int i, ⟨(ha _).2 ⟨c1, t1⟩, (hb _).2 ⟨c2, t2⟩, trivial⟩, trivial, rfl⟩
      | usize => exact ⟨.usize, ⟨(ha _).2 ⟨c1, t1⟩, (hb _).2 ⟨c2, t2⟩, trivial⟩, trivial, trivial⟩
      | bool => exact absurd rfl h4
      | bitmask id base =>
        exact ⟨.int base, ⟨(ha _).2 ⟨c1, t1⟩, (hb _).2 ⟨c2, t2⟩, trivial⟩, trivial, rfl, .inr rfl⟩
      | _ => exact h3.elim
  | lengthof e ih =>
    refine ⟨?_, fun x m h => by cases h⟩
    intro t
    simp only [Expr.evaluate] at hev
    obtain ⟨⟨c0, r0⟩, h0, hev⟩ := Res.bind_eq_ok.1 hev
    obtain ⟨n0, hn0, hn'⟩ := native_unit hn
    have he := (ih c0 r0 h0 n0 hn0).1

    simp only [code, Expr.tree, Typed, Coherent, sort, STy.Allows]
    constructor
    · rintro ⟨h1, s, ⟨u, h2, h3⟩, h4⟩
      obtain ⟨hc, hs⟩ := (he u).1 h2
      refine ⟨⟨hc, u, hs, ?_⟩, Option.some.inj h1⟩
      cases u <;> simp [methodTy] at h3 ⊢
      exact method_absurd hord (.inl rfl) h3
    · rintro ⟨⟨hc, u, hs, hu⟩, rfl⟩
      refine ⟨rfl, .usize, ⟨u, (he u).2 ⟨hc, hs⟩, ?_⟩, canCast_numbers trivial trivial⟩
      rcases hu with ⟨v, rfl⟩ | rfl | rfl <;> simp [methodTy]
  | valueof e ih =>
    refine ⟨?_, fun x m h => by cases h⟩
    intro t
    simp only [Expr.evaluate] at hev
    obtain ⟨⟨c0, r0⟩, h0, hev⟩ := Res.bind_eq_ok.1 hev
    obtain ⟨n0, hn0, hn'⟩ := native_unit hn
    have he := (ih c0 r0 h0 n0 hn0).1

    simp only [code, Expr.tree, Coherent, sort, nativeOf_ok hn]
    have hvt : (textInfo (fo := fo) md sc).valueType e =
        (n.map (·.name.rustName)).getD "" := by
      simp only [textInfo, nativeOf_ok hn]
      cases n <;> rfl
    have hbm : (textInfo (fo := fo) md sc).isBitmask e = e.isBitmaskField md sc := rfl
    simp only [hvt, hbm]
    cases n with
    | none =>
      simp only [Option.map_none, Option.getD_none, STy.Allows, Typed, and_false, iff_false, not_and]
      intro h
      exact absurd h (by rw [show primType "" = none from rfl]; simp)
    | some r =>
      simp only [Option.map_some, Option.getD_some, STy.Allows, Typed, primType_rustName,
        Option.some.injEq]
      by_cases hb : e.isBitmaskField md sc = true
      · simp only [hb, if_true, Typed]
        constructor
        · rintro ⟨rfl, s, ⟨u, h1, h2⟩, h3⟩
          obtain ⟨hc, hs⟩ := (he u).1 h1
          refine ⟨⟨hc, ⟨_, rfl, trivial⟩, u, hs, ?_⟩, rfl⟩
          cases u <;> simp [methodTy] at h2 ⊢
          exact method_absurd hord (.inr rfl) h2
        · rintro ⟨⟨hc, _, u, hs, id, b, rfl⟩, rfl⟩
          exact ⟨rfl, .int b, ⟨_, (he _).2 ⟨hc, hs⟩, by simp [methodTy]⟩,
            canCast_numbers trivial (numTy_number _)⟩
      · simp only [hb, if_false, Bool.false_eq_true]
        constructor
        · rintro ⟨rfl, s, h1, h3⟩
          obtain ⟨hc, hs⟩ := (he s).1 h1
          exact ⟨⟨hc, ⟨_, rfl, trivial⟩, s, hs, _, rfl, h3⟩, rfl⟩
        · rintro ⟨⟨hc, _, u, hs, v, rfl, hu⟩, rfl⟩
          exact ⟨rfl, u, (he _).2 ⟨hc, hs⟩, hu⟩
  | numbits e ih =>
    refine ⟨?_, fun x m h => by cases h⟩
    intro t
    simp only [Expr.evaluate] at hev
    obtain ⟨⟨c0, r0⟩, h0, hev⟩ := Res.bind_eq_ok.1 hev
    obtain ⟨n0, hn0, hn'⟩ := native_unit hn
    have he := (ih c0 r0 h0 n0 hn0).1

    simp only [code, Expr.tree, Typed, Coherent, sort, STy.Allows]
    constructor
    · rintro ⟨h1, s, ⟨_, _, u, h2, h3⟩, h4⟩
      obtain ⟨hc, hs⟩ := (he u).1 h2
      exact ⟨⟨hc, u, hs, h3⟩, Option.some.inj h1⟩
    · rintro ⟨⟨hc, u, hs, hu⟩, rfl⟩
      exact ⟨rfl, _, ⟨trivial, rfl, u, (he u).2 ⟨hc, hs⟩, hu⟩, canCast_numbers trivial trivial⟩
  | neg e ih =>
    refine ⟨?_, fun x m h => by cases h⟩
    intro t
    simp only [Expr.evaluate] at hev
    obtain ⟨⟨c0, r0⟩, h0, _⟩ := Res.bind_eq_ok.1 hev
    have := (ih c0 r0 h0 n hn).1
    simp only [code, Expr.tree, Typed, Coherent, sort]
    rw [this t, and_assoc, negate_allows, and_assoc]
  | not e ih =>
    refine ⟨?_, fun x m h => by cases h⟩
    intro t
    simp only [Expr.evaluate] at hev
    obtain ⟨⟨c0, r0⟩, h0, _⟩ := Res.bind_eq_ok.1 hev
    obtain ⟨n0, hn0, hn⟩ := native_unit hn
    have := (ih c0 r0 h0 n0 hn0).1
    simp only [code, Expr.tree, Typed, Coherent, sort]
    rw [this t]
    exact ⟨fun ⟨⟨h1, h2⟩, h3⟩ => ⟨⟨h1, t, h2, h3⟩, h2⟩, fun ⟨⟨h1, h2⟩, h3⟩ => ⟨⟨h1, h3⟩, STy.can_bits h2 h3⟩⟩
  | compl e ih =>
    refine ⟨?_, fun x m h => by cases h⟩
    intro t
    simp only [Expr.evaluate] at hev
    obtain ⟨⟨c0, r0⟩, h0, _⟩ := Res.bind_eq_ok.1 hev
    have := (ih c0 r0 h0 n hn).1
    simp only [code, Expr.tree, Typed, Coherent, sort]
    rw [this t]
    exact ⟨fun ⟨⟨h1, h2⟩, h3⟩ => ⟨⟨h1, t, h2, h3⟩, h2⟩, fun ⟨⟨h1, h2⟩, h3⟩ => ⟨⟨h1, h3⟩, STy.can_bits h2 h3⟩⟩
  | cmp op a b iha ihb =>
    refine ⟨?_, fun x m h => by cases h⟩
    intro t
    simp only [Expr.evaluate] at hev
    obtain ⟨⟨ca, ra⟩, ha0, hev⟩ := Res.bind_eq_ok.1 hev
    obtain ⟨⟨cb, rb⟩, hb0, hev⟩ := Res.bind_eq_ok.1 hev
    obtain ⟨na, hna, hn⟩ := native_unit hn
    obtain ⟨nb, hnb, hn⟩ := native_unit hn
    have ha := (iha ca ra ha0 na hna).1
    have hb := (ihb cb rb hb0 nb hnb).1

    simp only [code, Expr.tree, Typed, Coherent, sort, STy.Allows]
    constructor
    · rintro ⟨rfl, s1, s2, h1, h2, h3⟩
      obtain ⟨c1, t1⟩ := (ha s1).1 h1
      obtain ⟨c2, t2⟩ := (hb s2).1 h2
      exact ⟨⟨c1, c2, s1, s2, t1, t2, h3⟩, rfl⟩
    · rintro ⟨⟨c1, c2, s1, s2, t1, t2, h3⟩, rfl⟩
      exact ⟨rfl, s1, s2, (ha _).2 ⟨c1, t1⟩, (hb _).2 ⟨c2, t2⟩, h3⟩
  | arith op a b iha ihb =>
    refine ⟨?_, fun x m h => by cases h⟩
    intro t
    have hev' := hev
    simp only [Expr.evaluate] at hev
    obtain ⟨⟨ca, ra⟩, ha0, hev⟩ := Res.bind_eq_ok.1 hev
    obtain ⟨⟨cb, rb⟩, hb0, hev⟩ := Res.bind_eq_ok.1 hev
    obtain ⟨na, hna, hn'⟩ := native_unit hn
    obtain ⟨nb, hnb, hn'⟩ := native_unit hn'
    have ha := (iha ca ra ha0 na hna).1
    have hb := (ihb cb rb hb0 nb hnb).1
    obtain ⟨c3, h3, hev⟩ := Res.bind_eq_ok.1 hev
    cases hev
    simp only [ha0, hb0, Res.ok_bind] at hn'

    rcases evalArith_kind h3 with ⟨v, rfl⟩ | hnum
    · simp only [code, Expr.tree, Coherent, sort, hev', Typed, STy.Allows]
      constructor
      · rintro ⟨rfl, ⟨s1, h1, d1⟩, s2, h2, d2⟩
        obtain ⟨c1, t1⟩ := (ha s1).1 h1
        obtain ⟨c2, t2⟩ := (hb s2).1 h2
        exact ⟨⟨c1, c2, ⟨s1, t1, d1⟩, s2, t2, d2⟩, rfl⟩
      · rintro ⟨⟨c1, c2, ⟨s1, t1, d1⟩, s2, t2, d2⟩, rfl⟩
        exact ⟨rfl, ⟨s1, (ha s1).2 ⟨c1, t1⟩, d1⟩, s2, (hb s2).2 ⟨c2, t2⟩, d2⟩
    · have hmix : mixInteger na nb = .ok n ∨ mixFloat na nb = .ok n := by
        cases ca <;> cases cb <;> simp only [evalArith, reduceCtorEq] at h3 hn' <;>
          first | exact .inl hn' | exact .inr hn' | skip
        exfalso
        split at h3
        · cases h3; rcases hnum with ⟨_, h⟩ | ⟨_, h⟩ <;> cases h
        · cases h3
      have htgt : (Expr.arith op a b).castTarget md sc = n := by
        rcases hnum with ⟨v, rfl⟩ | ⟨v, rfl⟩ <;> simp [Expr.castTarget, hev', hn]
      have htree : code md sc (.arith op a b) = .bin (.arith op)
          (castTree (castOf n na) (code md sc a)) (castTree (castOf n nb) (code md sc b)) := by
        have hl : (textInfo (fo := fo) md sc).castLeft (.arith op a b) = castOf n na := by
          simp only [textInfo, htgt, nativeOf_ok hna]
        have hr : (textInfo (fo := fo) md sc).castRight (.arith op a b) = castOf n nb := by
          simp only [textInfo, htgt, nativeOf_ok hnb]
        rcases hnum with ⟨v, rfl⟩ | ⟨v, rfl⟩ <;> simp only [code, Expr.tree, hev', hl, hr]
      have hcoh : Coherent md sc (.arith op a b) ↔ Coherent md sc a ∧ Coherent md sc b ∧
          (sort md sc a).Can RTy.Number ∧ (sort md sc b).Can RTy.Number ∧
          match n with
          | some r => (na = none → (sort md sc a).Allows (numTy r.name)) ∧
              (nb = none → (sort md sc b).Allows (numTy r.name))
          | none => STy.Meets RTy.Number (sort md sc a) (sort md sc b) := by
        rcases hnum with ⟨v, rfl⟩ | ⟨v, rfl⟩ <;>
          (simp only [Coherent, hev', nativeOf_ok hn, nativeOf_ok hna, nativeOf_ok hnb]
           cases n <;> rfl)
      have hsort : sort md sc (.arith op a b) = match n with
          | some r => .is (numTy r.name)
          | none => (sort md sc a).join (sort md sc b) := by
        rcases hnum with ⟨v, rfl⟩ | ⟨v, rfl⟩ <;>
          (simp only [sort, hev', nativeOf_ok hn]
           cases n <;> rfl)
      rw [htree, hcoh, hsort]
      simp only [Typed]
      cases n with
      | some r =>
        simp only [STy.Allows]
        have oa := types_operand ha ha0 hna r
        have ob := types_operand hb hb0 hnb r
        constructor
        · rintro ⟨h1, h2, h3⟩
          have : t = numTy r.name := by
            rcases mix_some hmix with h | h
            · obtain ⟨o, rfl⟩ := Option.ne_none_iff_exists'.1 h
              exact types_operand_forced ha ha0 hna r t h3 h1
            · obtain ⟨o, rfl⟩ := Option.ne_none_iff_exists'.1 h
              exact types_operand_forced hb hb0 hnb r t h3 h2
          subst this
          obtain ⟨a1, a2, a3⟩ := oa.1 h1
          obtain ⟨b1, b2, b3⟩ := ob.1 h2
          exact ⟨⟨a1, b1, a2, b2, a3, b3⟩, rfl⟩
        · rintro ⟨⟨a1, b1, a2, b2, a3, b3⟩, rfl⟩
          exact ⟨oa.2 ⟨a1, a2, a3⟩, ob.2 ⟨b1, b2, b3⟩, numTy_number _⟩
      | none =>
        obtain ⟨rfl, rfl⟩ := mix_none hmix
        have same := types_meet (p := RTy.Number) ha hb t (fun u ua _ => by
          by_cases h : (sort md sc a).Allows t
          · exact .inl (allows_number h ua)
          · exact .inr (.inl h))
        simp only [castOf, castTree]
        rw [same]
        constructor
        · rintro ⟨⟨c1, c2, h⟩, h'⟩
          obtain ⟨u, ua, ub, hu⟩ := h
          exact ⟨⟨c1, c2, ⟨u, ua, hu⟩, ⟨u, ub, hu⟩, u, ua, ub, hu⟩, h'⟩
        · rintro ⟨⟨c1, c2, _, _, h⟩, h'⟩
          exact ⟨⟨c1, c2, h⟩, h'⟩
  | bit op a b iha ihb =>
    refine ⟨?_, fun x m h => by cases h⟩
    intro t
    simp only [Expr.evaluate] at hev
    obtain ⟨⟨ca, ra⟩, ha0, hev⟩ := Res.bind_eq_ok.1 hev
    obtain ⟨⟨cb, rb⟩, hb0, hev⟩ := Res.bind_eq_ok.1 hev
    obtain ⟨na, hna, hn⟩ := native_unit hn
    obtain ⟨nb, hnb, hn⟩ := native_unit hn
    have ha := (iha ca ra ha0 na hna).1
    have hb := (ihb cb rb hb0 nb hnb).1

    have shift : (Typed (rscope sc) (code md sc a) t ∧ t.Integer ∧
        ∃ s, Typed (rscope sc) (code md sc b) s ∧ s.Integer) ↔
        (Coherent md sc a ∧ Coherent md sc b ∧ (sort md sc a).Can RTy.Integer ∧
          (sort md sc b).Can RTy.Integer) ∧ (sort md sc a).Allows t := by
      rw [ha t]
      constructor
      · rintro ⟨⟨c1, t1⟩, h, s, hs, hi⟩
        obtain ⟨c2, t2⟩ := (hb s).1 hs
        exact ⟨⟨c1, c2, ⟨t, t1, h⟩, s, t2, hi⟩, t1⟩
      · rintro ⟨⟨c1, c2, h1, s, t2, h2⟩, t1⟩
        exact ⟨⟨c1, t1⟩, STy.can_integer h1 t1, s, (hb s).2 ⟨c2, t2⟩, h2⟩
    have same := types_meet (p := RTy.Bits) ha hb t (fun u ua _ => by
      by_cases h : (sort md sc a).Allows t
      · exact .inl (allows_bits h ua)
      · exact .inr (.inl h))
    cases op <;> simp only [code, Expr.tree, Typed, Coherent, sort, reduceCtorEq, or_self, or_true,
      true_or, if_true, if_false]
    · exact same
    · exact same
    · exact same
    · exact shift
    · exact shift
  | logic op a b iha ihb =>
    refine ⟨?_, fun x m h => by cases h⟩
    intro t
    simp only [Expr.evaluate] at hev
    obtain ⟨⟨ca, ra⟩, ha0, hev⟩ := Res.bind_eq_ok.1 hev
    obtain ⟨⟨cb, rb⟩, hb0, hev⟩ := Res.bind_eq_ok.1 hev
    obtain ⟨na, hna, hn⟩ := native_unit hn
    obtain ⟨nb, hnb, hn⟩ := native_unit hn
    have ha := (iha ca ra ha0 na hna).1
    have hb := (ihb cb rb hb0 nb hnb).1

    simp only [code, Expr.tree, Typed, Coherent, sort, STy.Allows]
    rw [ha, hb]
    constructor
    · rintro ⟨rfl, ⟨c1, t1⟩, c2, t2⟩
      exact ⟨⟨c1, c2, t1, t2⟩, rfl⟩
    · rintro ⟨⟨c1, c2, t1, t2⟩, rfl⟩
      exact ⟨rfl, ⟨c1, t1⟩, c2, t2⟩
  | tern d a b ihd iha ihb =>
    refine ⟨?_, fun x m h => by cases h⟩
    intro t
    simp only [Expr.evaluate] at hev
    obtain ⟨⟨cd, rd⟩, hd0, hev⟩ := Res.bind_eq_ok.1 hev
    obtain ⟨⟨ca, ra⟩, ha0, hev⟩ := Res.bind_eq_ok.1 hev
    obtain ⟨⟨cb, rb⟩, hb0, hev⟩ := Res.bind_eq_ok.1 hev
    obtain ⟨nd, hnd, hn⟩ := native_unit hn
    obtain ⟨na, hna, hn⟩ := native_unit hn
    obtain ⟨nb, hnb, hn⟩ := native_unit hn
    have hd := (ihd cd rd hd0 nd hnd).1
    have ha := (iha ca ra ha0 na hna).1
    have hb := (ihb cb rb hb0 nb hnb).1
    have same := types_meet (p := anyType) ha hb t (fun u _ _ => .inl Iff.rfl)
    simp only [code, Expr.tree, Typed, Coherent, sort] at same ⊢
    rw [hd]
    constructor
    · rintro ⟨⟨h1, h2⟩, h3, h4⟩
      obtain ⟨⟨g1, g2, g3⟩, g4⟩ := same.1 ⟨h3, h4, trivial⟩
      exact ⟨⟨h1, g1, g2, h2, g3⟩, g4⟩
    · rintro ⟨⟨h1, g1, g2, h2, g3⟩, g4⟩
      obtain ⟨h3, h4, _⟩ := same.2 ⟨⟨g1, g2, g3⟩, g4⟩
      exact ⟨⟨h1, h2⟩, h3, h4⟩

theorem types_iff (hord : Ordinary sc) (e : Expr fo.F) (c : CVal fo.F) (k : Bool)
    (hev : e.evaluate md sc.erase = .ok (c, k)) (n : Option NumRef) (hn : e.native md sc = .ok n) :
    Types md sc e :=
  (types_iff' hord e c k hev n hn).1

theorem ofOption_can {o : Option RTy} : (STy.ofOption o).Can anyType ↔ ∃ t, o = some t := by
  simp only [STy.Can, ofOption_allows, anyType, and_true]

/-- Expressions that fit together have a type. -/
theorem coherent_can (e : Expr fo.F) (h : Coherent md sc e) : (sort md sc e).Can anyType := by
  have meet : ∀ {p a b}, STy.Meets p a b → (STy.join a b).Can anyType := fun hm => by
    obtain ⟨t, ha, hb, _⟩ := id hm
    exact ⟨t, (join_allows hm t).2 ⟨ha, hb⟩, trivial⟩
  induction e with
  | intLit => exact ⟨.usize, trivial, trivial⟩
  | boolLit => exact ⟨_, rfl, trivial⟩
  | strLit => exact ⟨_, rfl, trivial⟩
  | floatLit f =>
    simp only [sort]
    split
    · exact ⟨.usize, trivial, trivial⟩
    · exact ⟨.float 64, ⟨_, rfl⟩, trivial⟩
  | paren e ih => exact ih h
  | plus e ih => exact ih h
  | ident n => exact h
  | call e ih => cases e <;> first | exact h | exact h.2 | exact h.elim
  | elem e i ihe ihi => exact h.2.2.1
  | dot e n ih => exact h.1
  | isset | cmp | logic => exact ⟨_, rfl, trivial⟩
  | lengthof | numbits => exact ⟨_, rfl, trivial⟩
  | valueof e ih => exact h.2.1
  | neg e ih =>
    obtain ⟨t, h1, h2⟩ := h.2
    exact ⟨t, ((negate_allows t).1 ⟨h1, h2⟩).2, trivial⟩
  | not e ih => exact ih h.1
  | compl e ih => exact ih h.1
  | arith op a b iha ihb =>
    obtain ⟨_, _, h⟩ := h
    simp only [sort]
    split at h
    · exact ⟨_, rfl, trivial⟩
    · rename_i hne
      split
      · exact ⟨_, rfl, trivial⟩
      · rename_i hr
        rw [hr] at h
        exact meet h.2.2
  | bit op a b iha ihb =>
    obtain ⟨ca, _, h⟩ := h
    cases op <;> simp only [sort] <;> first | exact meet h | exact iha ca
  | tern c a b ihc iha ihb => exact meet h.2.2.2.2
  | index =>
    have h : sc.index = true := h
    simp only [sort, h, if_true]
    exact ⟨_, rfl, trivial⟩

end Zs
