import Verif.ExprValueLemmas

/-!
# The values of generated expressions: induction over schema expressions
-/

namespace Zs

open Spec

variable {fo : FloatOps} {md : Mode} {sc : TScope} {O : Type} {w : World fo.F O}

/-- What the compiler takes for a string is no integer. -/
theorem str_not_integer (hord : Ordinary sc) (e : Expr fo.F) (x : String) (r : Bool) (t : RTy)
    (he : e.evaluate md sc.erase = .ok (.str x, r)) (ht : Typed (rscope sc) (code md sc e) t) :
    ¬ t.Integer := by
  cases e with
  | intLit | boolLit | floatLit | index => simp [Expr.evaluate] at he
  | strLit s =>
    have : t = .str := ht
    subst this
    exact id
  | paren e => exact str_not_integer hord e x r t he ht
  | ident n =>
    simp only [Expr.evaluate, TScope.erase] at he
    cases hs : sc.ident n with
    | none => simp [hs, lookup] at he
    | some s =>
      simp only [hs, Option.map_some, lookup, Res.ok.injEq, Prod.mk.injEq] at he
      have ht : (sc.ident n).bind symbTy = some t := ht
      rw [hs] at ht
      exact symbTy_string (dummy_str he.1) ht
  | dot e n =>
    have he0 := he
    simp only [Expr.evaluate] at he
    obtain ⟨⟨c, r0⟩, h0, he⟩ := Res.bind_eq_ok.1 he
    cases c <;> simp only [reduceCtorEq] at he
    · split at he <;> simp at he
    · split at he <;> simp at he
    · obtain ⟨⟨c, r1⟩, h1, he⟩ := Res.bind_eq_ok.1 he
      simp only [Res.pure_eq, Res.ok.injEq, Prod.mk.injEq] at he
      simp only [TScope.erase] at h1
      cases hs : (Expr.dot e n).symbol sc with
      | none => simp [hs, lookup] at h1
      | some s =>
        simp only [hs, Option.map_some, lookup, Res.ok.injEq, Prod.mk.injEq] at h1
        exact symbTy_string (dummy_str (h1.1.trans he.1)) (typed_symbol _ s hs _ _ he0 t ht)
  | call e =>
    simp only [Expr.evaluate] at he
    obtain ⟨⟨c, r0⟩, h0, he⟩ := Res.bind_eq_ok.1 he
    cases c <;> simp only [reduceCtorEq] at he
    obtain ⟨⟨c, r1⟩, h1, he⟩ := Res.bind_eq_ok.1 he
    simp only [Res.pure_eq, Res.ok.injEq, Prod.mk.injEq] at he
    simp only [TScope.erase] at h1
    cases hs : (e.symbol sc).bind (·.ty.result) with
    | none => simp [hs, lookup] at h1
    | some z =>
      simp only [hs, Option.map_some, lookup, Res.ok.injEq, Prod.mk.injEq] at h1
      have hz := dummy_str (h1.1.trans he.1)
      have hz : z = .string := by
        cases z <;> simp only [ZTy.sym, reduceCtorEq] at hz ⊢
        split at hz <;> cases hz
      subst hz
      obtain ⟨s, hs, hr⟩ := Option.bind_eq_some_iff.1 hs
      cases e with
      | ident n =>
        simp only [Expr.symbol] at hs
        have ht : (sc.ident n).bind funcTy = some t := ht
        simp only [hs, Option.bind_some, funcTy, hr, valueTy, Option.some.injEq] at ht
        subst ht
        exact id
      | dot e n =>
        simp only [Expr.symbol] at hs
        obtain ⟨s0, hs0, hs⟩ := Option.bind_eq_some_iff.1 hs
        simp only [Expr.evaluate] at h0
        obtain ⟨⟨c0, r2⟩, h2, h0⟩ := Res.bind_eq_ok.1 h0
        have hc := evaluate_symbol e s0 hs0 c0 r2 h2
        split at hs
        · rename_i id hid
          rw [hid] at hc
          subst hc
          simp only [code, Expr.tree, h2, ZTy.sym, SymTy.dummy, Typed] at ht
          obtain ⟨u, hu, hm⟩ := ht
          have hf : s.ty = .function .string := by
            revert hr
            cases s.ty <;> simp [ZTy.result]
          have hsy := typed_symbol e s0 hs0 _ _ h2 u hu
          obtain ⟨id', rfl, hm'⟩ := (methodTy_ordinary hord hs hf).1 hm
          have hid' : id' = id := by
            simp only [symbTy, hid, valueTy] at hsy
            split at hsy <;> simp at hsy
            · exact hsy.symm
            · exact hsy.symm
          subst hid'
          simp only [hs, Option.bind_some, funcTy, hr, valueTy, Option.some.injEq] at hm'
          subst hm'
          exact fun h => h
        · cases hs
      | _ => simp [Expr.symbol] at hs
  | elem e i =>
    simp only [Expr.evaluate] at he
    obtain ⟨⟨c, r0⟩, h0, he⟩ := Res.bind_eq_ok.1 he
    obtain ⟨⟨c', r1⟩, h1, he⟩ := Res.bind_eq_ok.1 he
    cases c <;> simp at he
  | isset e y =>
    simp only [Expr.evaluate] at he
    obtain ⟨⟨c, r0⟩, h0, he⟩ := Res.bind_eq_ok.1 he
    obtain ⟨⟨c', r1⟩, h1, he⟩ := Res.bind_eq_ok.1 he
    cases c <;> cases c' <;> simp at he
  | lengthof e =>
    simp only [Expr.evaluate] at he
    obtain ⟨⟨c, r0⟩, h0, he⟩ := Res.bind_eq_ok.1 he
    simp at he
  | valueof e =>
    simp only [Expr.evaluate] at he
    obtain ⟨⟨c, r0⟩, h0, he⟩ := Res.bind_eq_ok.1 he
    cases c <;> simp at he
  | numbits e =>
    simp only [Expr.evaluate] at he
    obtain ⟨⟨c, r0⟩, h0, he⟩ := Res.bind_eq_ok.1 he
    cases c <;> simp only [reduceCtorEq] at he
    obtain ⟨n, hn, he⟩ := Res.bind_eq_ok.1 he
    simp at he
  | plus e =>
    simp only [Expr.evaluate] at he
    obtain ⟨⟨c, r0⟩, h0, he⟩ := Res.bind_eq_ok.1 he
    cases c <;> simp at he
  | neg e =>
    simp only [Expr.evaluate] at he
    obtain ⟨⟨c, r0⟩, h0, he⟩ := Res.bind_eq_ok.1 he
    obtain ⟨c', h1, he⟩ := Res.bind_eq_ok.1 he
    simp only [Res.pure_eq, Res.ok.injEq, Prod.mk.injEq] at he
    obtain ⟨rfl, _⟩ := he
    cases c <;> simp only [evalNeg, reduceCtorEq] at h1
    · split at h1
      · split at h1 <;> simp at h1
      · simp at h1
    · simp at h1
  | not e =>
    simp only [Expr.evaluate] at he
    obtain ⟨⟨c, r0⟩, h0, he⟩ := Res.bind_eq_ok.1 he
    cases c <;> simp at he
  | compl e =>
    simp only [Expr.evaluate] at he
    obtain ⟨⟨c, r0⟩, h0, he⟩ := Res.bind_eq_ok.1 he
    cases c <;> simp at he
  | cmp op a b =>
    have : t = .bool := ht.1
    subst this
    exact id
  | arith op a b =>
    simp only [code, Expr.tree, he, Typed] at ht
    rw [ht.1]
    exact id
  | bit op a b =>
    simp only [Expr.evaluate] at he
    obtain ⟨⟨c, r0⟩, h0, he⟩ := Res.bind_eq_ok.1 he
    obtain ⟨⟨c', r1⟩, h1, he⟩ := Res.bind_eq_ok.1 he
    obtain ⟨⟨c2, r2⟩, h2, he⟩ := Res.bind_eq_ok.1 he
    simp only [Res.pure_eq, Res.ok.injEq, Prod.mk.injEq] at he
    obtain ⟨rfl, _⟩ := he
    cases c <;> cases c' <;> simp only [evalBit, reduceCtorEq, Res.ok.injEq, Prod.mk.injEq] at h2
    · obtain ⟨z, _, h2⟩ := Res.bind_eq_ok.1 h2
      simp at h2
    all_goals simp at h2
  | logic op a b =>
    have : t = .bool := ht.1
    subst this
    exact id
  | tern d a b =>
    simp only [Expr.evaluate] at he
    obtain ⟨⟨c, r0⟩, h0, he⟩ := Res.bind_eq_ok.1 he
    obtain ⟨⟨ca, ra⟩, ha, he⟩ := Res.bind_eq_ok.1 he
    obtain ⟨⟨cb, rb⟩, hb, he⟩ := Res.bind_eq_ok.1 he
    simp only [code, Expr.tree, Typed] at ht
    split at he
    · simp only [Res.pure_eq, Res.ok.injEq, Prod.mk.injEq] at he
      obtain ⟨rfl, rfl⟩ := he
      exact str_not_integer hord a x _ t ha ht.2.1
    · simp only [Res.pure_eq, Res.ok.injEq, Prod.mk.injEq] at he
      obtain ⟨rfl, rfl⟩ := he
      exact str_not_integer hord b x _ t hb ht.2.2
    · cases he

/-! ## One step -/

/-- The Rust expression has exactly the value `v`, which is one of the type. -/
def Computes (w : World fo.F O) (Γ : RScope fo.F) (m : Mode) (x : RExpr fo.F) (t : RTy) (v : Datum fo.F O) :
    Prop :=
  (∀ o, Evals w Γ m x t o ↔ o = .ok v) ∧ HasTy w t v

variable {Γ : RScope fo.F} {m : Mode}

theorem wrap_holds {t : RTy} {n : Int} {i : IntTy} (hi : t.ints = some i) (h : t.Holds n) : i.wrap n = n := by
  obtain ⟨j, hj, h⟩ := h
  cases hi.symm.trans hj
  exact i.wrap_of_contains (by have := ints_width hi; omega) n h

theorem inType_holds {t : RTy} {n : Int} {i : IntTy} (hi : t.ints = some i) (h : t.Holds n) :
    inType m i n = .ok (.int n : Datum fo.F O) := by
  obtain ⟨j, hj, h⟩ := h
  cases hi.symm.trans hj
  exact if_pos h

theorem computes_cast {x : RExpr fo.F} {ty : String} {t : RTy} {n : Int} {v : Datum fo.F O}
    (hv : v = .int n ∨ v = .enum n) (ht : Typed Γ (.cast x ty) t)
    (hx : ∀ s, Infers Γ x t s → Computes w Γ m x s v) (hn : t.Holds n) :
    Computes w Γ m (.cast x ty) t (.int n) := by
  refine ⟨fun o => ?_, hasTy_int.2 hn⟩
  obtain ⟨i, hi, _⟩ := id hn
  have key : ∀ o, CastsTo t v o ↔ o = .ok (.int n) := by
    intro o
    rcases hv with rfl | rfl <;> simp only [CastsTo, hi, wrap_holds hi hn]
  simp only [Typed] at ht
  obtain ⟨hty, s, hs, hc⟩ := ht
  simp only [Evals]
  constructor
  · rintro ⟨_, u, hu, _, h⟩
    exact (key o).1 ((then_iff (hx u hu).1 o).1 h)
  · rintro h
    obtain ⟨u, hu, hcu⟩ := infers_cast hs hc
    exact ⟨hty, u, hu, hcu, (then_iff (hx u hu).1 o).2 ((key o).2 h)⟩

theorem computes_paren {x : RExpr fo.F} {t : RTy} {v : Datum fo.F O} (h : Computes w Γ m x t v) :
    Computes w Γ m (.paren x) t v := by
  refine ⟨fun o => ?_, h.2⟩
  simp only [Evals]
  exact h.1 o

/-- An operand with its cast. -/
theorem computes_operand {x : RExpr fo.F} {cast : Option String} {t : RTy} {n : Int}
    (ht : Typed Γ (castTree cast x) t) (h0 : cast = none → Computes w Γ m x t (.int n))
    (h1 : ∀ ty, cast = some ty → t.Holds n ∧ ∀ s, Infers Γ x t s → Computes w Γ m x s (.int n)) :
    Computes w Γ m (castTree cast x) t (.int n) := by
  cases cast with
  | none => exact h0 rfl
  | some ty =>
    have h := h1 ty rfl
    refine computes_paren (computes_cast (.inl rfl) (by simpa only [castTree, Typed] using ht) ?_ h.1)
    intro s hs
    exact computes_paren (h.2 s ⟨by simpa only [Typed] using hs.1, fun h => hs.2 (by simpa only [Typed] using h)⟩)

/-- A string is no operand of a numeric operation. -/
theorem operand_str {x : RExpr fo.F} {cast : Option String} {t : RTy} {z : String}
    (hn : t.Number) (ht : Typed Γ (castTree cast x) t) (h0 : cast = none → HasTy w t (.str z))
    (h1 : ∀ ty, cast = some ty → ∀ s, Infers Γ x t s → HasTy w s (.str z)) : False := by
  cases cast with
  | none =>
    have h := h0 rfl
    cases t <;> first | exact hn.elim | exact h.elim
  | some ty =>
    have h := h1 ty rfl
    simp only [castTree, Typed] at ht
    obtain ⟨_, s, hs, hc⟩ := ht
    obtain ⟨u, hu, hcu⟩ := infers_cast hs hc
    have := h u hu
    have hstr : u = .string ∨ u = .str := by
      cases u <;> simp [HasTy] at this ⊢
    rcases hcu with rfl | ⟨h1, _⟩ | ⟨h1, _⟩
    · rcases hstr with rfl | rfl <;> exact hn
    · rcases hstr with rfl | rfl <;> exact h1
    · rcases hstr with rfl | rfl <;> rcases h1 with h1 | ⟨_, h1⟩ <;> cases h1

theorem computes_method {x : RExpr fo.F} {f : String} {t : RTy} {u v : Datum fo.F O}
    (ht : Typed Γ (.call (.field x f)) t) (hx : ∀ s, Typed Γ x s → Computes w Γ m x s u)
    (hf : f ≠ "clone") (hm : ∀ s, methodTy Γ s f = some t → HasTy w s u →
      (∀ o, MethodTo w f u o ↔ o = .ok v) ∧ HasTy w t v) :
    Computes w Γ m (.call (.field x f)) t v := by
  simp only [Typed] at ht
  obtain ⟨s, hs, hms⟩ := ht
  have key := hm s hms (hx s hs).2
  refine ⟨fun o => ?_, key.2⟩
  simp only [Evals]
  constructor
  · rintro ⟨s', hs', hm', h⟩
    exact (key.1 o).1 ((then_iff (hx s' hs'.1).1 o).1 h)
  · intro h
    refine ⟨s, infers_other hs ?_, hms, (then_iff (hx s hs).1 o).2 ((key.1 o).2 h)⟩
    intro hi
    cases s <;> simp [methodTy, hf, RTy.Integer] at hms hi

theorem holds_zero {t : RTy} {n : Int} (h : t.Holds n) : t.Holds 0 := by
  obtain ⟨i, hi, _⟩ := h
  refine ⟨i, hi, ?_⟩
  have := ints_width hi
  cases hs : i.signed with
  | true =>
    rw [contains_signed hs (by omega)]
    have : (0 : Int) < 2 ^ (i.width - 1) := Int.pow_pos (by omega)
    omega
  | false =>
    rw [contains_unsigned hs]
    have : (0 : Int) < 2 ^ i.width := Int.pow_pos (by omega)
    omega

theorem holds_small {t : RTy} {i : IntTy} {n : Int} (hi : t.ints = some i) (h0 : 0 ≤ n) (h : n ≤ 127) :
    t.Holds n := by
  refine ⟨i, hi, ?_⟩
  have hw := ints_width hi
  have hp : (2 : Int) ^ 7 ≤ 2 ^ (i.width - 1) := by
    exact_mod_cast Nat.pow_le_pow_right (n := 2) (by omega) (show 7 ≤ i.width - 1 by omega)
  have hq : (2 : Int) ^ i.width = 2 ^ (i.width - 1) * 2 := by
    conv => lhs; rw [show i.width = (i.width - 1) + 1 by omega, Int.pow_succ]
  cases hs : i.signed with
  | true => rw [contains_signed hs (by omega)]; omega
  | false => rw [contains_unsigned hs]; omega

theorem holds_u64 {t : RTy} {n : Int} (h : t.Holds n) : n < 2 ^ 64 := by
  obtain ⟨i, hi, h⟩ := h
  have hw := ints_width hi
  have h1 := pow_bound hw.2
  have h2 := pow_bound (show i.width - 1 ≤ 64 by omega)
  cases hs : i.signed with
  | true => rw [contains_signed hs (by omega)] at h; omega
  | false => rw [contains_unsigned hs] at h; omega

theorem mask_type {t : RTy} {n : Int} (h : HasTy w t (.mask n)) :
    ∃ id base, t = .bitmask id base ∧ (RTy.int base).Holds n := by
  cases t <;> simp [HasTy] at h ⊢
  exact ⟨_, _, ⟨rfl, rfl⟩, h⟩

theorem arith_result {op : ArithOp} {t : RTy} {x y z : Int}
    (hr : ArithOp.result op x y = some z) (hz : t.Holds z)
    (hmod : op = .mod → ∀ q, ArithOp.result .div x y = some q → t.Holds q) (o : Res (Datum fo.F O)) :
    ArithTo m op t (.int x) (.int y) o ↔ o = .ok (.int z) := by
  obtain ⟨i, hi, hzi⟩ := id hz
  have hno : ¬ ((op = .div ∨ op = .mod) ∧ (y = 0 ∨ (x = i.min ∧ y = -1 ∧ i.signed = true))) := by
    rintro ⟨hop, hy⟩
    have hq : ∃ q, ArithOp.result .div x y = some q ∧ t.Holds q := by
      rcases hop with rfl | rfl
      · exact ⟨z, hr, hz⟩
      · have hy0 : y ≠ 0 := by
          intro h
          simp [ArithOp.result, h] at hr
        exact ⟨x.tdiv y, by simp [ArithOp.result, hy0], hmod rfl _ (by simp [ArithOp.result, hy0])⟩
    obtain ⟨q, hq, hqt⟩ := hq
    rcases hy with rfl | ⟨rfl, rfl, hs⟩
    · simp [ArithOp.result] at hq
    · simp only [ArithOp.result, if_false, Option.some.injEq,
        show ¬ ((-1 : Int) = 0) by omega] at hq
      subst hq
      obtain ⟨j, hj, hqt⟩ := hqt
      cases hi.symm.trans hj
      have hw := ints_width hi
      rw [contains_signed hs (by omega)] at hqt
      simp only [IntTy.min, hs, if_true] at hqt
      rw [Int.tdiv_neg, Int.tdiv_one] at hqt
      omega
  simp only [ArithTo]
  constructor
  · rintro ⟨j, hj, h⟩
    cases hi.symm.trans hj
    rw [if_neg hno] at h
    obtain ⟨v, hv, h⟩ := h
    cases hr.symm.trans hv
    rw [h, inType_holds hi hz]
  · rintro rfl
    refine ⟨i, hi, ?_⟩
    rw [if_neg hno]
    exact ⟨z, hr, (inType_holds hi hz).symm⟩

/-- The shape of arithmetic code. -/
theorem tree_number {op : ArithOp} {a b : Expr fo.F}
    (h : ¬ ∃ x r, (Expr.arith op a b).evaluate md sc.erase = .ok (.str x, r)) :
    code md sc (.arith op a b) =
      .bin (.arith op) (castTree ((textInfo md sc).castLeft (.arith op a b)) (code md sc a))
        (castTree ((textInfo md sc).castRight (.arith op a b)) (code md sc b)) := by
  simp only [code, Expr.tree]
  split
  · exact absurd ⟨_, _, ‹_›⟩ h
  · rfl

theorem fits_number {op : ArithOp} {a b : Expr fo.F} {t : RTy}
    (h : ¬ ∃ x r, (Expr.arith op a b).evaluate md sc.erase = .ok (.str x, r))
    (hf : Fits md sc w (.arith op a b) t) :
    (match (textInfo md sc).castLeft (.arith op a b) with
      | none => Fits md sc w a t
      | some _ => Within t (means w a) ∧ ∀ s, Infers (rscope sc) (code md sc a) t s → Fits md sc w a s) ∧
    (match (textInfo md sc).castRight (.arith op a b) with
      | none => Fits md sc w b t
      | some _ => Within t (means w b) ∧ ∀ s, Infers (rscope sc) (code md sc b) t s → Fits md sc w b s) ∧
    Within t (means w (.arith op a b)) ∧ (op = .mod → Within t (means w (.arith .div a b))) := by
  simp only [Fits] at hf
  split at hf
  · exact absurd ⟨_, _, ‹_›⟩ h
  · exact hf

/-! ## All expressions -/

/-- A generated expression has the value that the schema means, if no type is too small. -/
theorem value_main (hord : Ordinary sc) (hc : Conforms w (rscope sc)) (m : Mode) (e : Expr fo.F) (t : RTy)
    (v : Datum fo.F O) (ht : Typed (rscope sc) (code md sc e) t) (hv : means w e = some v)
    (hf : Fits md sc w e t) : Computes w (rscope sc) m (code md sc e) t v := by
  cases e with
  | intLit n =>
    simp only [means, Option.some.injEq] at hv
    subst hv
    exact ⟨fun o => ⟨fun h => h.2, fun h => ⟨hf, h⟩⟩, hasTy_int.2 hf⟩
  | boolLit b =>
    simp only [means, Option.some.injEq] at hv
    subst hv
    have : t = .bool := ht
    subst this
    exact ⟨fun o => Iff.rfl, trivial⟩
  | strLit b =>
    simp only [means, Option.some.injEq] at hv
    subst hv
    have : t = .str := ht
    subst this
    exact ⟨fun o => Iff.rfl, trivial⟩
  | floatLit f =>
    simp only [means, Option.some.injEq] at hv
    subst hv
    obtain ⟨n, rfl⟩ := hf
    simp only [code, Expr.tree, Typed] at ht
    cases hp : fo.printsInteger f with
    | some _ =>
      rw [hp] at ht
      exact ht.elim
    | none =>
      refine ⟨fun o => ?_, trivial⟩
      simp only [code, Expr.tree, Evals, hp]
  | paren e => exact computes_paren (value_main hord hc m e t v ht hv hf)
  | ident n =>
    have ht : (rscope (F := fo.F) sc).name n = some t := ht
    have hv : w.name n = some v := hv
    refine ⟨fun o => ?_, provided_some (hc.name n) ht hv⟩
    simp only [code, Expr.tree, Evals, hv, Option.some.injEq]
    exact ⟨fun ⟨_, h, h'⟩ => h ▸ h', fun h => ⟨_, rfl, h⟩⟩
  | index =>
    have ht : (rscope (F := fo.F) sc).index = some t := ht
    have hv : w.index = some v := hv
    refine ⟨fun o => ?_, provided_some hc.index ht hv⟩
    simp only [code, Expr.tree, Evals, hv, Option.some.injEq]
    exact ⟨fun ⟨_, h, h'⟩ => h ▸ h', fun h => ⟨_, rfl, h⟩⟩
  | call e =>
    cases e with
    | ident n =>
      have ht : (rscope (F := fo.F) sc).func n = some t := ht
      have hv : w.func n = some v := hv
      obtain ⟨T, hT, hx⟩ := hc.func n _ hv
      rw [ht] at hT
      cases hT
      refine ⟨fun o => ?_, hx⟩
      simp only [code, Expr.tree, Evals, hv, Option.some.injEq]
      exact ⟨fun ⟨_, h, h'⟩ => h ▸ h', fun h => ⟨_, rfl, h⟩⟩
    | dot e n =>
      simp only [means] at hv
      split at hv
      · rename_i ob hob
        simp only [code, Expr.tree] at ht ⊢
        split at ht
        · rename_i r he
          have clone : ∀ id, w.isA ob id → n ≠ "clone" := by
            rintro id hid rfl
            obtain ⟨s, hm, -⟩ := hc.method ob id "clone" hid _ hv
            obtain ⟨f, hf, hm⟩ := Option.bind_eq_some_iff.1 hm
            obtain ⟨z, hz, _⟩ := Option.bind_eq_some_iff.1 hm
            have hz' : f.ty = .function z := by
              revert hz
              cases f.ty <;> simp [ZTy.result]
            exact (hord id _ f z hf hz').2.2 rfl
          have hx : ∀ s, Typed (rscope sc) (code md sc e) s →
              Computes w (rscope sc) m (code md sc e) s (.object ob) :=
            fun s hs => value_main hord hc m e s _ hs hob (hf s hs)
          have isObject : ∀ s, HasTy w s (.object ob) → ∃ id, s = .object id ∧ w.isA ob id := by
            intro s h
            cases s <;> simp [HasTy] at h ⊢
            exact h
          have hn : n ≠ "clone" := by
            simp only [Typed] at ht
            obtain ⟨s, hs, _⟩ := ht
            obtain ⟨id, rfl, hid⟩ := isObject s (hx s hs).2
            exact clone id hid
          refine computes_method ht hx hn ?_
          intro s hms hs
          obtain ⟨id, rfl, hid⟩ := isObject s hs
          simp only [methodTy, if_neg hn] at hms
          obtain ⟨T, hT, hx'⟩ := hc.method ob id n hid _ hv
          have hms : (rscope (F := fo.F) sc).method id n = some t := hms
          rw [hms] at hT
          cases hT
          refine ⟨fun o => ?_, hx'⟩
          simp only [MethodTo, if_neg hn, hv, Option.some.injEq]
          exact ⟨fun ⟨_, h, h'⟩ => h ▸ h', fun h => ⟨_, rfl, h⟩⟩
        · simp [Typed] at ht
      · cases hv
    | _ => simp [means] at hv
  | elem e i =>
    simp only [means] at hv
    split at hv
    · rename_i l k hl hk
      split at hv
      · cases hv
      · simp only [code, Expr.tree, Typed] at ht
        have ge := value_main hord hc m e (.vec t) _ ht.1 hl hf.1
        have gi := value_main hord hc m i .usize _ ht.2 hk hf.2
        have hmem : ∀ x ∈ l, HasTy w t x := by simpa only [HasTy] using ge.2
        refine ⟨fun o => ?_, hmem v (List.mem_of_getElem? hv)⟩
        simp only [code, Expr.tree, Evals]
        rw [then_iff ge.1, then_iff gi.1]
        constructor
        · rintro ⟨l', k', h1, h2, h⟩
          cases h1; cases h2
          rw [hv] at h
          exact h
        · rintro rfl
          exact ⟨l, k, rfl, rfl, by rw [hv]⟩
    · cases hv
  | dot e n =>
    simp only [code, Expr.tree] at ht ⊢
    split at ht
    · rename_i r he
      have hi := hc.item e n
      rw [item_none n he] at hi
      simp only [means, show w.item e n = none from hi] at hv
      split at hv
      · rename_i ob hob
        have hx : ∀ s, Typed (rscope sc) (code md sc e) s →
            Computes w (rscope sc) m (code md sc e) s (.object ob) :=
          fun s hs => value_main hord hc m e s _ hs hob (hf s hs)
        simp only [Typed] at ht
        obtain ⟨id, hid, hm⟩ := ht
        have hisA : w.isA ob id := by simpa only [HasTy] using (hx _ hid).2
        refine ⟨fun o => ?_, provided_some (hc.member ob id n hisA) hm hv⟩
        simp only [Evals]
        constructor
        · rintro ⟨id', hid', h⟩
          obtain ⟨ob', v', h1, h2, h3⟩ := (then_iff (hx _ hid').1 o).1 h
          cases h1
          cases hv.symm.trans h2
          exact h3
        · intro h
          exact ⟨id, hid, (then_iff (hx _ hid).1 o).2 ⟨ob, v, rfl, hv, h⟩⟩
      · cases hv
    · simp only [Typed] at ht
      have hi := hc.item e n
      rw [ht] at hi
      obtain ⟨x, hx, hxt⟩ := id hi
      simp only [means, hx, Option.some.injEq] at hv
      subst hv
      refine ⟨fun o => ?_, hxt⟩
      simp only [Evals, hx, Option.some.injEq]
      exact ⟨fun ⟨_, h, h'⟩ => h ▸ h', fun h => ⟨_, rfl, h⟩⟩
  | isset e x =>
    simp only [means] at hv
    split at hv
    · rename_i a b ha hb
      obtain ⟨k, hk, rfl⟩ := Option.map_eq_some_iff.1 hv
      obtain ⟨rfl, hk64⟩ := singleBit_some hk
      simp only [code, Expr.tree] at ht ⊢
      have step : ∀ s u, InfersBoth (rscope sc) .ne
          (.bin (.bit .and) (code md sc e) (.paren (code md sc x))) (.atom (.int 0)) s u → ∀ o,
          (Then (Evals w (rscope sc) m (.bin (.bit .and) (code md sc e) (.paren (code md sc x))) s)
            (fun x => Then (Evals w (rscope sc) m (.atom (.int 0)) u) (ComparesTo .ne x)) o ↔
          o = .ok (.bool (a / 2 ^ k % 2 = 1))) := by
        rintro s u ⟨hs, hu, hcmp, _⟩ o
        simp only [Typed, reduceCtorEq, or_self, if_false] at hs
        obtain ⟨fe, fx⟩ := hf s hs.1 hs.2.1
        have ge := value_main hord hc m e s _ hs.1 ha fe
        have gx := computes_paren (value_main hord hc m x s _ hs.2.1 hb fx)
        obtain ⟨id, base, rfl, hbase⟩ := mask_type ge.2
        have hu' : u = .int base := by
          cases u with
          | int u =>
            simp only [RTy.Comparable] at hcmp
            rw [hcmp.1]
          | usize => simp [RTy.Comparable] at hcmp
          | _ => exact hu.elim
        subst hu'
        have gand : ∀ o, Evals w (rscope sc) m
            (.bin (.bit .and) (code md sc e) (.paren (code md sc x))) (.bitmask id base) o ↔
            o = .ok (.mask (BitVec.ofInt 128 a &&& BitVec.ofInt 128 (2 ^ k)).toInt) := by
          intro o
          simp only [Evals, reduceCtorEq, or_self, if_false]
          rw [then_iff ge.1]
          have := gx.1
          simp only [Evals] at this
          rw [then_iff this]
          simp [BitsTo, BitOp.result]
        have gzero : ∀ o, Evals w (rscope sc) m (.atom (.int 0)) (.int base) o ↔ o = .ok (.int 0) := by
          intro o
          simp only [Evals]
          exact ⟨fun h => h.2, fun h => ⟨holds_zero hbase, h⟩⟩
        rw [then_iff gand, then_iff gzero]
        simp only [ComparesTo, CmpOp.equality, Option.some.injEq]
        have := and_single (x := a) hk64
        generalize (BitVec.ofInt 128 a &&& BitVec.ofInt 128 (2 ^ k)).toInt = z at this ⊢
        constructor
        · rintro ⟨b, rfl, rfl⟩
          congr 2
          rw [Bool.eq_iff_iff]
          simp [this]
        · rintro rfl
          refine ⟨_, rfl, ?_⟩
          congr 2
          rw [Bool.eq_iff_iff]
          simp [this]
      simp only [Typed] at ht
      obtain ⟨rfl, s, u, hs, hu, hcmp⟩ := ht
      obtain ⟨s', u', hb⟩ := infersBoth_some (op := .ne) (Γ := rscope sc)
        (a := .bin (.bit .and) (code md sc e) (.paren (code md sc x))) (b := .atom (.int 0)) (s := s) (t := u)
        (by simpa only [Typed] using hs) (by simpa only [Typed] using hu) hcmp
      refine ⟨fun o => ?_, trivial⟩
      rw [Evals]
      constructor
      · rintro ⟨s, u, hsu, h⟩
        exact (step s u hsu o).1 h
      · intro h
        exact ⟨s', u', hb, (step s' u' hb o).2 h⟩
    · cases hv
  | lengthof e =>
    simp only [means] at hv
    split at hv
    · rename_i l hl
      cases hv
      have hwithin := hf.1
      simp only [Within, means, hl, Option.some.injEq, Datum.int.injEq, forall_eq'] at hwithin
      simp only [code, Expr.tree] at ht ⊢
      have ht' : Typed (rscope sc) (.cast (.call (.field (code md sc e) "len")) "u32") t := by
        simpa only [Typed] using ht
      refine computes_paren (computes_cast (v := .int l.length) (.inl rfl) ht' ?_ hwithin)
      intro s hs
      refine computes_method hs.1 (fun u hu => value_main hord hc m e u _ hu hl (hf.2 u hu)) (by decide) ?_
      intro u hu hlu
      have : ∃ x, u = .vec x := by
        cases u <;> simp [HasTy] at hlu ⊢
      obtain ⟨x, rfl⟩ := this
      simp only [methodTy, show ¬ ("len" = "clone") by decide, if_false, if_true, Option.some.injEq] at hu
      subst hu
      refine ⟨fun o => ?_, ?_⟩
      · simp [MethodTo]
      · rw [hasTy_int]
        refine ⟨_, rfl, ?_⟩
        rw [contains_unsigned rfl]
        have := holds_u64 hwithin
        exact ⟨by omega, this⟩
    · cases hv
  | valueof e =>
    have hwithin := hf.1
    simp only [Within, hv] at hwithin
    simp only [code, Expr.tree] at ht ⊢
    have hnum : ∃ n, (means w e = some (.enum n) ∨ means w e = some (.mask n)) ∧ v = .int n := by
      simp only [means] at hv
      split at hv
      · cases hv; exact ⟨_, .inl ‹_›, rfl⟩
      · cases hv; exact ⟨_, .inr ‹_›, rfl⟩
      · cases hv
    obtain ⟨n, hn, rfl⟩ := hnum
    have hh := hwithin n rfl
    by_cases hb : (textInfo md sc).isBitmask e = true
    · rw [if_pos hb] at ht ⊢
      refine computes_cast (v := .int n) (.inl rfl) ht ?_ hh
      intro s hs
      rcases hn with hn | hn
      · exfalso
        obtain ⟨u, hu, hm⟩ := (show ∃ u, Typed (rscope sc) (code md sc e) u ∧
          methodTy (rscope sc) u "bits" = some s by simpa only [Typed] using hs.1)
        have := (value_main hord hc m e u _ hu hn (hf.2 u hu)).2
        have : ∃ id, u = .enum id := by cases u <;> simp [HasTy] at this ⊢
        obtain ⟨id, rfl⟩ := this
        simp [methodTy] at hm
      · refine computes_method hs.1 (fun u hu => value_main hord hc m e u _ hu hn (hf.2 u hu)) (by decide) ?_
        intro u hu hlu
        obtain ⟨id, base, rfl, hbase⟩ := mask_type hlu
        simp only [methodTy, show ¬ ("bits" = "clone") by decide, if_false, if_true,
          Option.some.injEq] at hu
        subst hu
        refine ⟨fun o => ?_, hasTy_int.2 hbase⟩
        simp [MethodTo]
    · rw [if_neg hb] at ht ⊢
      rcases hn with hn | hn
      · exact computes_cast (v := .enum n) (.inr rfl) ht
          (fun s hs => value_main hord hc m e s _ hs.1 hn (hf.2 s hs.1)) hh
      · exfalso
        simp only [Typed] at ht
        obtain ⟨_, u, hu, hcast⟩ := ht
        have := (value_main hord hc m e u _ hu hn (hf.2 u hu)).2
        obtain ⟨id, base, rfl, hbase⟩ := mask_type this
        rcases hcast with h | ⟨h, _⟩ | ⟨h, _⟩
        · have hi := holds_integer hh
          rw [← h] at hi
          exact hi
        · exact h
        · rcases h with h | ⟨_, h⟩ <;> cases h
  | numbits e =>
    simp only [means] at hv
    split at hv
    · rename_i n hn
      split at hv
      · cases hv
      · rename_i hneg
        cases hv
        simp only [code, Expr.tree] at ht ⊢
        have ht' : Typed (rscope sc) (.cast (.apply "zserio::numbits" (code md sc e)) "u32") t := by
          simpa only [Typed] using ht
        have hx : ∀ s, Infers (rscope sc) (code md sc e) (.int ⟨true, 32⟩) s →
            Computes w (rscope sc) m (code md sc e) s (.int n) :=
          fun s hs => value_main hord hc m e s _ hs.1 hn (hf s hs)
        have hin := ht'
        simp only [Typed] at hin
        obtain ⟨hprim, u0, ⟨_, rfl, s0, hs0, hi0⟩, _⟩ := hin
        obtain ⟨s, hs, ha⟩ := infers_some (.int ⟨true, 32⟩) hs0
        obtain ⟨h1, h2⟩ := numbits_bitsFor (v := n) (by omega) (holds_u64 (hasTy_int.1 (hx s hs).2))
        have htu : t = .int ⟨false, 32⟩ := by
          simpa [primType] using hprim.symm
        subst htu
        refine computes_paren (computes_cast (v := .int (bitsFor n.toNat : Int)) (.inl rfl) ht' ?_
          (holds_small rfl (by omega) (by omega)))
        intro u hu
        have hu8 : u = .int ⟨false, 8⟩ := by
          have := hu.1
          simp only [Typed] at this
          exact this.2.1
        subst hu8
        refine ⟨fun o => ?_, hasTy_int.2 (holds_small rfl (by omega) (by omega))⟩
        have hk : ∀ o, (∃ v, (.int n : Datum fo.F O) = .int v ∧
            o = (Zs.numbits v).bind fun k => .ok (.int k)) ↔
            o = .ok (.int (bitsFor n.toNat : Int) : Datum fo.F O) := by
          intro o
          constructor
          · rintro ⟨v, h, ho⟩
            cases h
            rw [ho, h1]
            rfl
          · rintro rfl
            exact ⟨n, rfl, by rw [h1]; rfl⟩
        simp only [Evals]
        constructor
        · rintro ⟨s', hs', _, h⟩
          exact (hk o).1 ((then_iff (hx s' hs').1 o).1 h)
        · intro h
          exact ⟨s, hs, akin_integer ha hi0, (then_iff (hx s hs).1 o).2 ((hk o).2 h)⟩
    · cases hv
  | plus e => simp [means] at hv
  | compl e => simp [means] at hv
  | neg e =>
    have hw := hf.2 
    simp only [Within, hv] at hw
    simp only [means] at hv
    split at hv
    · rename_i n hn
      cases hv
      have hh := hw _ rfl
      simp only [code, Expr.tree, Typed] at ht ⊢
      have ge := value_main hord hc m e t _ ht.1 hn hf.1
      refine ⟨fun o => ?_, hasTy_int.2 hh⟩
      simp only [Evals]
      rw [then_iff ge.1]
      simp only [NegatesTo]
      obtain ⟨i, hi, _⟩ := id hh
      constructor
      · rintro ⟨j, hj, h⟩
        rw [h, inType_holds hj hh]
      · rintro rfl
        exact ⟨i, hi, (inType_holds hi hh).symm⟩
    · cases hv
  | not e =>
    simp only [means] at hv
    split at hv
    · rename_i b hb
      cases hv
      simp only [code, Expr.tree, Typed] at ht ⊢
      have ge := value_main hord hc m e t _ ht.1 hb hf
      have hbool : t = .bool := by
        have := ge.2
        cases t <;> simp [HasTy] at this ⊢
      subst hbool
      refine ⟨fun o => ?_, trivial⟩
      simp only [Evals]
      rw [then_iff ge.1]
      simp only [NotsTo]
    · cases hv
  | cmp op a b =>
    simp only [code, Expr.tree, Typed] at ht ⊢
    obtain ⟨rfl, s0, u0, hs0, hu0, hcmp⟩ := ht
    have hab : ∃ x y r, means w a = some x ∧ means w b = some y ∧ v = .bool r ∧
        ∀ o, ComparesTo op x y o ↔ o = .ok (.bool r) := by
      have eqv : ∀ (c r : Bool), CmpOp.equality op c = some r → ∀ o : Res (Datum fo.F O),
          (∃ b, o = .ok (.bool b) ∧ ∀ c', CmpOp.equality op c = some c' → b = c') ↔ o = .ok (.bool r) := by
        intro c r h o
        constructor
        · rintro ⟨b, rfl, hb⟩
          rw [hb r h]
        · rintro rfl
          exact ⟨r, rfl, fun c' h' => Option.some.inj (h.symm.trans h')⟩
      have eqv' : ∀ (c r : Bool), CmpOp.equality op c = some r → ∀ o : Res (Datum fo.F O),
          (∃ b, CmpOp.equality op c = some b ∧ o = .ok (.bool b)) ↔ o = .ok (.bool r) := by
        intro c r h o
        constructor
        · rintro ⟨b, hb, rfl⟩
          rw [Option.some.inj (hb.symm.trans h)]
        · rintro rfl
          exact ⟨r, h, rfl⟩
      simp only [means] at hv
      split at hv
      case h_1 ha hb =>
        cases hv
        exact ⟨_, _, _, ha, hb, rfl, fun o => Iff.rfl⟩
      case h_2 ha hb =>
        obtain ⟨r, hr, rfl⟩ := Option.map_eq_some_iff.1 hv
        exact ⟨_, _, r, ha, hb, rfl, eqv _ r hr⟩
      case h_3 ha hb =>
        obtain ⟨r, hr, rfl⟩ := Option.map_eq_some_iff.1 hv
        exact ⟨_, _, r, ha, hb, rfl, eqv _ r hr⟩
      case h_4 ha hb =>
        obtain ⟨r, hr, rfl⟩ := Option.map_eq_some_iff.1 hv
        exact ⟨_, _, r, ha, hb, rfl, eqv' _ r hr⟩
      case h_5 ha hb =>
        obtain ⟨r, hr, rfl⟩ := Option.map_eq_some_iff.1 hv
        exact ⟨_, _, r, ha, hb, rfl, eqv' _ r hr⟩
      case h_6 ha hb =>
        obtain ⟨r, hr, rfl⟩ := Option.map_eq_some_iff.1 hv
        exact ⟨_, _, r, ha, hb, rfl, eqv' _ r hr⟩
      case h_7 => cases hv
    obtain ⟨x, y, r, ha, hb, rfl, hcomp⟩ := hab
    have step : ∀ s u, InfersBoth (rscope sc) op (code md sc a) (code md sc b) s u → ∀ o,
        (Then (Evals w (rscope sc) m (code md sc a) s)
          (fun x => Then (Evals w (rscope sc) m (code md sc b) u) (ComparesTo op x)) o ↔
          o = .ok (.bool r)) := by
      intro s u hsu o
      obtain ⟨fa, fb⟩ := hf s u hsu
      rw [then_iff (value_main hord hc m a s _ hsu.1 ha fa).1,
        then_iff (value_main hord hc m b u _ hsu.2.1 hb fb).1]
      exact hcomp o
    obtain ⟨s, u, hsu⟩ := infersBoth_some hs0 hu0 hcmp
    refine ⟨fun o => ?_, trivial⟩
    simp only [Evals]
    constructor
    · rintro ⟨s, u, hsu, h⟩
      exact (step s u hsu o).1 h
    · intro h
      exact ⟨s, u, hsu, (step s u hsu o).2 h⟩
  | arith op a b =>
    by_cases hstr : ∃ x r, (Expr.arith op a b).evaluate md sc.erase = .ok (.str x, r)
    · obtain ⟨z, r, hz⟩ := hstr
      simp only [code, Expr.tree, hz, Typed, Fits] at ht hf ⊢
      obtain ⟨rfl, ⟨s0, hs0, _⟩, u0, hu0, _⟩ := ht
      obtain ⟨s, hs, _⟩ := infers_some .str hs0
      obtain ⟨u, hu, _⟩ := infers_some .str hu0
      simp only [Expr.evaluate] at hz
      obtain ⟨⟨ca, ra⟩, ha0, hz⟩ := Res.bind_eq_ok.1 hz
      obtain ⟨⟨cb, rb⟩, hb0, hz⟩ := Res.bind_eq_ok.1 hz
      obtain ⟨c, hc', hz⟩ := Res.bind_eq_ok.1 hz
      simp only [Res.pure_eq, Res.ok.injEq, Prod.mk.injEq] at hz
      obtain ⟨rfl, _⟩ := hz
      have hca : ∃ z, ca = .str z := by
        cases ca <;> cases cb <;> simp only [evalArith, reduceCtorEq] at hc'
        · obtain ⟨_, _, h⟩ := Res.bind_eq_ok.1 hc'
          simp at h
        · split at hc' <;> simp at hc'
        · split at hc' <;> simp at hc'
        · split at hc' <;> simp at hc'
        · exact ⟨_, rfl⟩
      obtain ⟨z, rfl⟩ := hca
      simp only [means] at hv
      split at hv
      · rename_i x y hx hy
        exact absurd (holds_integer (hasTy_int.1 (value_main hord hc m a s _ hs.1 hx (hf.1 s hs)).2))
          (str_not_integer hord a z ra s ha0 hs.1)
      · rename_i x y hx hy
        split at hv
        · cases hv
          have key : ∀ s u, Infers (rscope sc) (code md sc a) .str s →
              Infers (rscope sc) (code md sc b) .str u → ∀ o,
              (Then (Evals w (rscope sc) m (code md sc a) s)
                (fun x => Then (Evals w (rscope sc) m (code md sc b) u) fun y o =>
                  match x, y with
                  | .str x, .str y => o = .ok (.str (x ++ y))
                  | _, _ => ∃ z, o = .ok (.str z)) o ↔ o = .ok (.str (x ++ y))) := by
            intro s u hs hu o
            rw [then_iff (value_main hord hc m a s _ hs.1 hx (hf.1 s hs)).1,
              then_iff (value_main hord hc m b u _ hu.1 hy (hf.2 u hu)).1]
          refine ⟨fun o => ?_, trivial⟩
          rw [Evals]
          constructor
          · rintro ⟨s, u, hs, hu, h⟩
            exact (key s u hs hu o).1 h
          · intro h
            exact ⟨s, u, hs, hu, (key s u hs hu o).2 h⟩
        · cases hv
      · cases hv
    · rw [tree_number hstr] at ht ⊢
      obtain ⟨fa, fb, fr, fm⟩ := fits_number hstr hf
      simp only [Typed] at ht
      obtain ⟨hta, htb, hnum⟩ := ht
      rw [hv] at fr
      simp only [means] at hv
      split at hv
      · rename_i x y hx hy
        obtain ⟨z, hz, rfl⟩ := Option.map_eq_some_iff.1 hv
        have hzt := fr z rfl
        have ga := computes_operand (w := w) (m := m) (n := x) hta (by
          intro hcast
          rw [hcast] at fa hta
          exact value_main hord hc m a t _ hta hx fa) (by
          intro ty hcast
          rw [hcast] at fa
          exact ⟨fa.1 x hx, fun s hs => value_main hord hc m a s _ hs.1 hx (fa.2 s hs)⟩)
        have gb := computes_operand (w := w) (m := m) (n := y) htb (by
          intro hcast
          rw [hcast] at fb htb
          exact value_main hord hc m b t _ htb hy fb) (by
          intro ty hcast
          rw [hcast] at fb
          exact ⟨fb.1 y hy, fun s hs => value_main hord hc m b s _ hs.1 hy (fb.2 s hs)⟩)
        refine ⟨fun o => ?_, hasTy_int.2 hzt⟩
        simp only [Evals]
        rw [then_iff ga.1, then_iff gb.1]
        refine arith_result hz hzt ?_ o
        rintro rfl q hq
        exact fm rfl q (by simp only [means, hx, hy, hq, Option.map_some])
      · rename_i x y hx hy
        exfalso
        refine operand_str (w := w) (z := x) hnum hta ?_ ?_
        · intro hcast
          rw [hcast] at fa hta
          exact (value_main hord hc m a t _ hta hx fa).2
        · intro ty hcast
          rw [hcast] at fa
          exact fun s hs => (value_main hord hc m a s _ hs.1 hx (fa.2 s hs)).2
      · cases hv
  | bit op a b =>
    simp only [code, Expr.tree, Typed] at ht ⊢
    by_cases hop : op = .shl ∨ op = .shr
    · rw [if_pos hop] at ht
      obtain ⟨hta, hint, u0, hu0, _⟩ := ht
      simp only [Fits, if_pos hop] at hf
      obtain ⟨fa, fr, fb, famount⟩ := hf
      rw [hv] at fr
      simp only [means] at hv
      split at hv
      · rename_i x y hx hy
        obtain ⟨z, hz, rfl⟩ := Option.map_eq_some_iff.1 hv
        have hzt := fr z rfl
        obtain ⟨i, hi, _⟩ := id hzt
        have hy0 : 0 ≤ y := by
          rcases hop with rfl | rfl <;> simp only [BitOp.result, Option.ite_none_left_eq_some] at hz <;> omega
        have hyw := famount y i hy hi
        have ga := value_main hord hc m a t _ hta hx fa
        have key : ∀ u, Infers (rscope sc) (code md sc b) (.int ⟨true, 32⟩) u → ∀ o,
            (Then (Evals w (rscope sc) m (code md sc a) t)
              (fun x => Then (Evals w (rscope sc) m (code md sc b) u) (ShiftsTo m op t x)) o ↔
              o = .ok (.int z)) := by
          intro u hu o
          rw [then_iff ga.1, then_iff (value_main hord hc m b u _ hu.1 hy (fb u hu)).1]
          simp only [ShiftsTo]
          constructor
          · rintro ⟨j, hj, h⟩
            cases hi.symm.trans hj
            rw [if_pos ⟨hy0, hyw⟩] at h
            obtain ⟨v, hv, rfl⟩ := h
            cases hz.symm.trans hv
            rw [wrap_holds hi hzt]
          · rintro rfl
            refine ⟨i, hi, ?_⟩
            rw [if_pos ⟨hy0, hyw⟩]
            exact ⟨z, hz, by rw [wrap_holds hi hzt]⟩
        obtain ⟨u, hu, _⟩ := infers_some (.int ⟨true, 32⟩) hu0
        refine ⟨fun o => ?_, hasTy_int.2 hzt⟩
        simp only [Evals, if_pos hop]
        constructor
        · rintro ⟨u, hu, h⟩
          exact (key u hu o).1 h
        · intro h
          exact ⟨u, hu, (key u hu o).2 h⟩
      · rw [if_pos hop] at hv
        cases hv
      · cases hv
    · rw [if_neg hop] at ht
      obtain ⟨hta, htb, hbits⟩ := ht
      simp only [Fits, if_neg hop] at hf
      simp only [means] at hv
      split at hv
      · rename_i x y hx hy
        obtain ⟨z, hz, rfl⟩ := Option.map_eq_some_iff.1 hv
        have ga := value_main hord hc m a t _ hta hx hf.1
        have gb := value_main hord hc m b t _ htb hy hf.2
        refine ⟨fun o => ?_, hasTy_int.2 (bits_holds (hasTy_int.1 ga.2) (hasTy_int.1 gb.2) hop hz)⟩
        simp only [Evals, if_neg hop]
        rw [then_iff ga.1, then_iff gb.1]
        simp only [BitsTo, hz, Option.some.injEq]
        exact ⟨fun ⟨_, h, h'⟩ => h ▸ h', fun h => ⟨_, rfl, h⟩⟩
      · rename_i x y hx hy
        rw [if_neg hop] at hv
        obtain ⟨z, hz, rfl⟩ := Option.map_eq_some_iff.1 hv
        have ga := value_main hord hc m a t _ hta hx hf.1
        have gb := value_main hord hc m b t _ htb hy hf.2
        have hxy : HasTy w t (.mask z) := by
          obtain ⟨id, base, rfl, h1⟩ := mask_type ga.2
          have h2 : (RTy.int base).Holds y := by simpa only [HasTy] using gb.2
          exact bits_holds h1 h2 hop hz
        refine ⟨fun o => ?_, hxy⟩
        simp only [Evals, if_neg hop]
        rw [then_iff ga.1, then_iff gb.1]
        simp only [BitsTo, hz, Option.some.injEq]
        exact ⟨fun ⟨_, h, h'⟩ => h ▸ h', fun h => ⟨_, rfl, h⟩⟩
      · cases hv
  | logic op a b =>
    simp only [code, Expr.tree, Typed] at ht ⊢
    obtain ⟨rfl, hta, htb⟩ := ht
    obtain ⟨fa, fb⟩ := hf
    simp only [means] at hv
    split at hv
    · rename_i x hx
      have ga := value_main hord hc m a .bool _ hta hx fa
      split at hv
      · rename_i hxo
        split at hv
        · rename_i y hy
          cases hv
          have gb := value_main hord hc m b .bool _ htb hy (fb (by rw [hx, hxo]))
          refine ⟨fun o => ?_, trivial⟩
          simp only [Evals]
          rw [then_iff ga.1]
          constructor
          · rintro ⟨c, h, h'⟩
            cases h
            rw [if_pos hxo] at h'
            exact (gb.1 o).1 h'
          · intro h
            exact ⟨x, rfl, by rw [if_pos hxo]; exact (gb.1 o).2 h⟩
        · cases hv
      · rename_i hxo
        cases hv
        refine ⟨fun o => ?_, trivial⟩
        simp only [Evals]
        rw [then_iff ga.1]
        constructor
        · rintro ⟨c, h, h'⟩
          cases h
          rw [if_neg hxo] at h'
          exact h'
        · intro h
          exact ⟨x, rfl, by rw [if_neg hxo]; exact h⟩
    · cases hv
  | tern c a b =>
    simp only [code, Expr.tree, Typed] at ht ⊢
    obtain ⟨htc, hta, htb⟩ := ht
    obtain ⟨fc, fa, fb⟩ := hf
    simp only [means] at hv
    split at hv
    · rename_i hx
      have gc := value_main hord hc m c .bool _ htc hx fc
      have ga := value_main hord hc m a t _ hta hv (fa hx)
      refine ⟨fun o => ?_, ga.2⟩
      simp only [Evals]
      rw [then_iff gc.1]
      constructor
      · rintro ⟨d, h, h'⟩
        cases h
        rw [if_pos rfl] at h'
        exact (ga.1 o).1 h'
      · intro h
        exact ⟨true, rfl, by rw [if_pos rfl]; exact (ga.1 o).2 h⟩
    · rename_i hx
      have gc := value_main hord hc m c .bool _ htc hx fc
      have gb := value_main hord hc m b t _ htb hv (fb hx)
      refine ⟨fun o => ?_, gb.2⟩
      simp only [Evals]
      rw [then_iff gc.1]
      constructor
      · rintro ⟨d, h, h'⟩
        cases h
        rw [if_neg (by decide)] at h'
        exact (gb.1 o).1 h'
      · intro h
        exact ⟨false, rfl, by rw [if_neg (by decide)]; exact (gb.1 o).2 h⟩
    · cases hv

end Zs
