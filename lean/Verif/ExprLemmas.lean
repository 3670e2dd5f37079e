import Verif.Expr

/-!
# Evaluation of expressions: specification predicates and lemmas (C35)
-/

namespace Zs

variable {fo : FloatOps}

/-- The run-time value an evaluated expression claims to have; types without values have none. -/
def CVal.value? {F : Type} : CVal F → Option (RVal F)
  | .int v => some (.int v)
  | .float f => some (.float f)
  | .str s => some (.str s)
  | .bool b => some (.bool b)
  | _ => none

/-- The type holds every `i32`. -/
def IntTy.HoldsI32 (t : IntTy) : Prop := t.signed = true ∧ 32 ≤ t.width

/-- The parts of an expression for which the compiler is known to be wrong are absent:
the condition of each `?:` is itself resolved, float literals are printed as floats, and `<<` either does
not occur (`wide = false`) or does not leave the range of `i32` (`wide = true`). -/
def Expr.Faithful (md : Mode) (sc : EScope fo.F) (wide : Bool) : Expr fo.F → Prop
  | .floatLit f => fo.printsInteger f = none
  | .paren e | .call e | .dot e _ | .lengthof e | .valueof e | .numbits e | .plus e | .neg e | .not e
  | .compl e => e.Faithful md sc wide
  | .elem a b | .isset a b | .cmp _ a b | .arith _ a b | .logic _ a b =>
    a.Faithful md sc wide ∧ b.Faithful md sc wide
  | .bit op a b =>
    a.Faithful md sc wide ∧ b.Faithful md sc wide ∧
    (op = .shl → wide = true ∧ ∀ x y ra rb, a.evaluate md sc = .ok (.int x, ra) →
      b.evaluate md sc = .ok (.int y, rb) → IntTy.i32.Contains (x * 2 ^ y.toNat))
  | .tern c a b =>
    c.Faithful md sc wide ∧ a.Faithful md sc wide ∧ b.Faithful md sc wide ∧
    ∃ v, c.evaluate md sc = .ok (v, true)
  | _ => True

theorem IntTy.wrap_of_contains (t : IntTy) (hw : 1 ≤ t.width) (v : Int) (h : t.Contains v) :
    t.wrap v = v := by
  obtain ⟨h1, h2⟩ := h
  have hp : (2 : Int) ^ t.width = 2 ^ (t.width - 1) * 2 := by
    conv => lhs; rw [show t.width = (t.width - 1) + 1 by omega, Int.pow_succ]
  have h3 : v - t.min < 2 ^ t.width := by
    unfold IntTy.min; unfold IntTy.max at h2
    split <;> rename_i hs <;> simp only [hs, if_true, if_false, Bool.false_eq_true] at h2 ⊢ <;> omega
  unfold IntTy.wrap
  rw [Int.emod_eq_of_lt (by omega) h3]; omega

theorem IntTy.contains_of_holds (t : IntTy) (ht : t.HoldsI32) (v : Int) (h : IntTy.i32.Contains v) :
    t.Contains v := by
  obtain ⟨hs, hw⟩ := ht
  obtain ⟨h1, h2⟩ := h
  have hp : (2 : Int) ^ 31 ≤ 2 ^ (t.width - 1) := by
    have := Nat.pow_le_pow_right (n := 2) (by omega) (show 31 ≤ t.width - 1 by omega)
    exact_mod_cast this
  simp only [IntTy.i32, IntTy.min, IntTy.max, if_true] at h1 h2
  simp only [IntTy.Contains, IntTy.min, IntTy.max, hs, if_true]
  omega

theorem runInt_some (ty : IntTy) (v : Int) (r : RVal fo.F) (h : runInt ty v = some r) : r = .int v := by
  unfold runInt at h; split at h
  · exact (Option.some.inj h).symm
  · cases h

theorem lookup_resolved (s : Option SymTy) (c : CVal fo.F) : lookup s ≠ .ok (c, true) := by
  unfold lookup; cases s <;> simp

/-- What the evaluation is shown to guarantee for a resolved expression. -/
def Agrees (wide : Bool) (ctx : Expr fo.F → IntTy) (env : Expr fo.F → Option (RVal fo.F))
    (e : Expr fo.F) (c : CVal fo.F) : Prop :=
  c = .other ∨ ∃ v, c.value? = some v ∧
    ∀ ty r, (wide = true → ty.HoldsI32) → e.run ctx env ty = some r → r = v

theorem compile_debug_ok (op : ArithOp) (x y z : Int) (h : op.compile .debug x y = .ok z) :
    z = op.exact x y := by
  unfold ArithOp.compile at h
  split at h
  · cases h
  · split at h
    · cases h; rfl
    · cases h

theorem arith_agrees (op : ArithOp) (ca cb c : CVal fo.F) (va vb : RVal fo.F)
    (ha : ca.value? = some va) (hb : cb.value? = some vb)
    (h : evalArith .debug op ca cb true true = .ok c) :
    ∃ v, c.value? = some v ∧ ∀ ty r, runArith ty op va vb = some r → r = v := by
  cases ca <;> simp only [CVal.value?, Option.some.injEq, reduceCtorEq] at ha <;> subst ha <;>
    cases cb <;> simp only [CVal.value?, Option.some.injEq, reduceCtorEq] at hb <;> subst hb <;>
    simp only [evalArith, if_true, reduceCtorEq] at h
  · obtain ⟨z, hz, h⟩ := Res.bind_eq_ok.1 h
    cases h
    refine ⟨_, rfl, fun ty r hr => ?_⟩
    simp only [runArith] at hr
    split at hr
    · cases hr
    · rw [runInt_some _ _ _ hr, compile_debug_ok _ _ _ _ hz]
  · split at h
    · cases h; exact ⟨_, rfl, fun ty r hr => by simp [runArith] at hr⟩
    · cases h
  · split at h
    · cases h; exact ⟨_, rfl, fun ty r hr => by simp [runArith] at hr⟩
    · cases h
  · split at h
    · rename_i z hz
      cases h; exact ⟨_, rfl, fun ty r hr => by simp [runArith, hz] at hr; exact hr.symm⟩
    · cases h
  · cases op <;> simp only [reduceCtorEq] at h
    cases h
    exact ⟨_, rfl, fun ty r hr => by simp [runArith] at hr; exact hr.symm⟩

theorem cmp_agrees (op : CmpOp) (ca cb c : CVal fo.F) (k : Bool) (va vb : RVal fo.F)
    (ha : ca.value? = some va) (hb : cb.value? = some vb)
    (h : evalCmp op ca cb true true = .ok (c, k)) (hk : k = true) :
    ∃ v, c.value? = some v ∧ ∀ r, runCmp op va vb = some r → r = v := by
  subst hk
  cases ca <;> simp only [CVal.value?, Option.some.injEq, reduceCtorEq] at ha <;> subst ha <;>
    cases cb <;> simp only [CVal.value?, Option.some.injEq, reduceCtorEq] at hb <;> subst hb <;>
    simp only [evalCmp, if_true, reduceCtorEq] at h <;> (try cases h) <;>
    (try cases op <;> (try cases h)) <;>
    exact ⟨_, rfl, fun r hr => by simp [runCmp] at hr; exact hr.symm⟩

theorem cmp_not_other (op : CmpOp) (ca cb c : CVal fo.F) (ra rb : Bool)
    (ho : ca = .other ∨ cb = .other) : evalCmp op ca cb ra rb ≠ .ok (c, true) := by
  intro h
  rcases ho with rfl | rfl
  · cases op <;> simp [evalCmp] at h
  · cases ca <;> cases op <;> simp [evalCmp] at h

theorem arith_not_other (md : Mode) (op : ArithOp) (ca cb c : CVal fo.F) (ra rb : Bool)
    (ho : ca = .other ∨ cb = .other) : evalArith md op ca cb ra rb ≠ .ok c := by
  intro h
  rcases ho with rfl | rfl
  · simp [evalArith] at h
  · cases ca <;> simp [evalArith] at h

theorem bit_not_other (md : Mode) (op : BitOp) (ca cb c : CVal fo.F)
    (ho : ca = .other ∨ cb = .other) (k : Bool) : evalBit md op ca cb ≠ .ok (c, k) := by
  intro h
  rcases ho with rfl | rfl
  · simp [evalBit] at h
  · cases ca <;> simp [evalBit] at h

theorem resolved_agrees (sc : EScope fo.F) (wide : Bool) (ctx : Expr fo.F → IntTy)
    (hctx : wide = true → ∀ e, (ctx e).HoldsI32)
    (env : Expr fo.F → Option (RVal fo.F)) (e : Expr fo.F) :
    ∀ c, e.Faithful .debug sc wide → e.evaluate .debug sc = .ok (c, true) →
      Agrees wide ctx env e c := by
  induction e with
  | intLit n =>
    intro c _ h; simp only [Expr.evaluate] at h; cases h
    exact .inr ⟨_, rfl, fun ty r _ hr => runInt_some _ _ _ hr⟩
  | boolLit b =>
    intro c _ h; simp only [Expr.evaluate] at h; cases h
    exact .inr ⟨_, rfl, fun ty r _ hr => by simp [Expr.run] at hr; exact hr.symm⟩
  | strLit s =>
    intro c _ h; simp only [Expr.evaluate] at h; cases h
    exact .inr ⟨_, rfl, fun ty r _ hr => by simp [Expr.run] at hr; exact hr.symm⟩
  | floatLit f =>
    intro c hf h; simp only [Expr.evaluate] at h; cases h
    simp only [Expr.Faithful] at hf
    exact .inr ⟨_, rfl, fun ty r _ hr => by simp [Expr.run, hf] at hr; exact hr.symm⟩
  | paren e ih =>
    intro c hf h; simp only [Expr.evaluate] at h
    rcases ih c hf h with ho | ⟨v, hv, hr⟩
    · exact .inl ho
    · exact .inr ⟨v, hv, fun ty r ht h => hr ty r ht (by simpa [Expr.run] using h)⟩
  | call e ih =>
    intro c hf h; simp only [Expr.evaluate] at h
    obtain ⟨⟨c0, r0⟩, h0, hx⟩ := Res.bind_eq_ok.1 h
    replace h := hx; clear hx
    cases c0 <;> simp only [reduceCtorEq] at h
    obtain ⟨⟨c1, r1⟩, h1, hx⟩ := Res.bind_eq_ok.1 h
    replace h := hx; clear hx
    cases h
    rcases ih _ hf h0 with ho | ⟨v, hv, _⟩
    · cases ho
    · cases hv
  | elem e i ih ihi =>
    intro c hf h; simp only [Expr.evaluate] at h
    obtain ⟨⟨c0, r0⟩, h0, hx⟩ := Res.bind_eq_ok.1 h
    replace h := hx; clear hx
    obtain ⟨⟨c1, r1⟩, h1, hx⟩ := Res.bind_eq_ok.1 h
    replace h := hx; clear hx
    cases c0 <;> simp only [reduceCtorEq] at h <;>
      (simp only [Res.pure_eq, Res.ok.injEq, Prod.mk.injEq] at h; exact .inl h.1.symm)
  | dot e name ih =>
    intro c hf h; simp only [Expr.evaluate] at h
    obtain ⟨⟨c0, r0⟩, h0, hx⟩ := Res.bind_eq_ok.1 h
    replace h := hx; clear hx
    cases c0 <;> simp only [reduceCtorEq] at h
    · split at h <;> cases h
    · split at h
      · cases h
        rcases ih _ hf h0 with ho | ⟨v, hv, _⟩
        · cases ho
        · cases hv
      · cases h
    · obtain ⟨⟨c1, r1⟩, h1, h⟩ := Res.bind_eq_ok.1 h
      cases h
      rcases ih _ hf h0 with ho | ⟨v, hv, _⟩
      · cases ho
      · cases hv
  | isset e x ih ihx =>
    intro c hf h; simp only [Expr.evaluate] at h
    obtain ⟨⟨c0, r0⟩, h0, hx⟩ := Res.bind_eq_ok.1 h
    replace h := hx; clear hx
    obtain ⟨⟨c1, r1⟩, h1, hx⟩ := Res.bind_eq_ok.1 h
    replace h := hx; clear hx
    cases c0 <;> cases c1 <;> simp only [reduceCtorEq] at h
    simp only [Res.pure_eq, Res.ok.injEq, Prod.mk.injEq, Bool.and_eq_true] at h
    rw [h.2.1] at h0
    rcases ih _ hf.1 h0 with ho | ⟨v, hv, _⟩
    · cases ho
    · cases hv
  | lengthof e ih =>
    intro c hf h; simp only [Expr.evaluate] at h
    obtain ⟨⟨c0, r0⟩, h0, hx⟩ := Res.bind_eq_ok.1 h
    replace h := hx; clear hx
    cases h
  | valueof e ih =>
    intro c hf h; simp only [Expr.evaluate] at h
    obtain ⟨⟨c0, r0⟩, h0, hx⟩ := Res.bind_eq_ok.1 h
    replace h := hx; clear hx
    cases c0 <;> simp only [reduceCtorEq] at h <;> cases h
  | numbits e ih =>
    intro c hf h; simp only [Expr.evaluate] at h
    obtain ⟨⟨c0, r0⟩, h0, hx⟩ := Res.bind_eq_ok.1 h
    replace h := hx; clear hx
    cases c0 <;> simp only [reduceCtorEq] at h
    obtain ⟨n, hn, hx⟩ := Res.bind_eq_ok.1 h
    replace h := hx; clear hx
    cases h
    rcases ih _ hf h0 with ho | ⟨v, hv, hr⟩
    · cases ho
    · cases hv
      refine .inr ⟨_, rfl, fun ty r ht h => ?_⟩
      simp only [Expr.run] at h
      obtain ⟨w, hw, h⟩ := Option.bind_eq_some_iff.1 h
      rw [hr _ _ (fun hwide => hctx hwide e) hw] at h
      simp only [hn] at h
      exact (Option.some.inj h).symm
  | plus e ih =>
    intro c hf h; simp only [Expr.evaluate] at h
    obtain ⟨⟨c0, r0⟩, h0, hx⟩ := Res.bind_eq_ok.1 h
    replace h := hx; clear hx
    cases c0 <;> simp only [reduceCtorEq] at h <;> cases h <;>
      exact .inr ⟨_, rfl, fun ty r ht h => by simp [Expr.run] at h⟩
  | neg e ih =>
    intro c hf h; simp only [Expr.evaluate] at h
    obtain ⟨⟨c0, r0⟩, h0, hx⟩ := Res.bind_eq_ok.1 h
    replace h := hx; clear hx
    obtain ⟨c1, h1, hx⟩ := Res.bind_eq_ok.1 h
    replace h := hx; clear hx
    cases h
    rcases ih _ hf h0 with ho | ⟨v, hv, hr⟩
    · rw [ho] at h1; cases h1
    · cases c0 <;> simp only [evalNeg, reduceCtorEq] at h1
      · split at h1
        · cases h1
        · cases h1; cases hv
          refine .inr ⟨_, rfl, fun ty r ht h => ?_⟩
          simp only [Expr.run] at h
          obtain ⟨w, hw, h⟩ := Option.bind_eq_some_iff.1 h
          rw [hr _ _ ht hw] at h
          simp only at h
          split at h
          · exact runInt_some _ _ _ h
          · cases h
      · cases h1; cases hv
        refine .inr ⟨_, rfl, fun ty r ht h => ?_⟩
        simp only [Expr.run] at h
        obtain ⟨w, hw, h⟩ := Option.bind_eq_some_iff.1 h
        rw [hr _ _ ht hw] at h
        exact (Option.some.inj h).symm
  | not e ih =>
    intro c hf h; simp only [Expr.evaluate] at h
    obtain ⟨⟨c0, r0⟩, h0, hx⟩ := Res.bind_eq_ok.1 h
    replace h := hx; clear hx
    cases c0 <;> simp only [reduceCtorEq] at h
    cases h
    rcases ih _ hf h0 with ho | ⟨v, hv, hr⟩
    · cases ho
    · cases hv
      refine .inr ⟨_, rfl, fun ty r ht h => ?_⟩
      simp only [Expr.run] at h
      obtain ⟨w, hw, h⟩ := Option.bind_eq_some_iff.1 h
      rw [hr _ _ ht hw] at h
      exact (Option.some.inj h).symm
  | compl e ih =>
    intro c hf h; simp only [Expr.evaluate] at h
    obtain ⟨⟨c0, r0⟩, h0, hx⟩ := Res.bind_eq_ok.1 h
    replace h := hx; clear hx
    cases c0 <;> simp only [reduceCtorEq] at h
    cases h
    exact .inr ⟨_, rfl, fun ty r ht h => by simp [Expr.run] at h⟩
  | cmp op a b iha ihb =>
    intro c hf h; simp only [Expr.evaluate] at h
    obtain ⟨⟨c0, r0⟩, h0, hx⟩ := Res.bind_eq_ok.1 h
    replace h := hx; clear hx
    obtain ⟨⟨c1, r1⟩, h1, hx⟩ := Res.bind_eq_ok.1 h
    replace h := hx; clear hx
    obtain ⟨⟨c2, k⟩, h2, hx⟩ := Res.bind_eq_ok.1 h
    replace h := hx; clear hx
    simp only [Res.pure_eq, Res.ok.injEq, Prod.mk.injEq, Bool.and_eq_true] at h
    obtain ⟨rfl, ⟨rfl, rfl⟩, rfl⟩ := h
    rcases iha _ hf.1 h0 with ho | ⟨va, hva, hra⟩
    · exact absurd h2 (cmp_not_other _ _ _ _ _ _ (.inl ho))
    rcases ihb _ hf.2 h1 with ho | ⟨vb, hvb, hrb⟩
    · exact absurd h2 (cmp_not_other _ _ _ _ _ _ (.inr ho))
    obtain ⟨v, hv, hr⟩ := cmp_agrees op _ _ _ _ _ _ hva hvb h2 rfl
    refine .inr ⟨v, hv, fun ty r ht h => ?_⟩
    simp only [Expr.run] at h
    obtain ⟨w, hw, h⟩ := Option.bind_eq_some_iff.1 h
    obtain ⟨w', hw', h⟩ := Option.bind_eq_some_iff.1 h
    rw [hra _ _ (fun hwide => hctx hwide a) hw, hrb _ _ (fun hwide => hctx hwide a) hw'] at h
    exact hr _ h
  | arith op a b iha ihb =>
    intro c hf h; simp only [Expr.evaluate] at h
    obtain ⟨⟨c0, r0⟩, h0, hx⟩ := Res.bind_eq_ok.1 h
    replace h := hx; clear hx
    obtain ⟨⟨c1, r1⟩, h1, hx⟩ := Res.bind_eq_ok.1 h
    replace h := hx; clear hx
    obtain ⟨c2, h2, hx⟩ := Res.bind_eq_ok.1 h
    replace h := hx; clear hx
    simp only [Res.pure_eq, Res.ok.injEq, Prod.mk.injEq, Bool.and_eq_true] at h
    obtain ⟨rfl, rfl, rfl⟩ := h
    rcases iha _ hf.1 h0 with ho | ⟨va, hva, hra⟩
    · exact absurd h2 (arith_not_other _ _ _ _ _ _ _ (.inl ho))
    rcases ihb _ hf.2 h1 with ho | ⟨vb, hvb, hrb⟩
    · exact absurd h2 (arith_not_other _ _ _ _ _ _ _ (.inr ho))
    obtain ⟨v, hv, hr⟩ := arith_agrees op _ _ _ _ _ hva hvb h2
    refine .inr ⟨v, hv, fun ty r ht h => ?_⟩
    simp only [Expr.run] at h
    obtain ⟨w, hw, h⟩ := Option.bind_eq_some_iff.1 h
    obtain ⟨w', hw', h⟩ := Option.bind_eq_some_iff.1 h
    rw [hra _ _ ht hw, hrb _ _ ht hw'] at h
    exact hr _ _ h
  | bit op a b iha ihb =>
    intro c hf h; simp only [Expr.evaluate] at h
    obtain ⟨⟨c0, r0⟩, h0, hx⟩ := Res.bind_eq_ok.1 h
    replace h := hx; clear hx
    obtain ⟨⟨c1, r1⟩, h1, hx⟩ := Res.bind_eq_ok.1 h
    replace h := hx; clear hx
    obtain ⟨⟨c2, k⟩, h2, hx⟩ := Res.bind_eq_ok.1 h
    replace h := hx; clear hx
    simp only [Res.pure_eq, Res.ok.injEq, Prod.mk.injEq, Bool.and_eq_true] at h
    obtain ⟨rfl, ⟨rfl, rfl⟩, rfl⟩ := h
    rcases iha _ hf.1 h0 with ho | ⟨va, hva, hra⟩
    · exact absurd h2 (bit_not_other _ _ _ _ _ (.inl ho) _)
    rcases ihb _ hf.2.1 h1 with ho | ⟨vb, hvb, hrb⟩
    · exact absurd h2 (bit_not_other _ _ _ _ _ (.inr ho) _)
    have hsh := hf.2.2
    cases c0 <;> cases c1 <;> simp only [evalBit, reduceCtorEq] at h2 <;>
      try (first | (cases h2; done) | (cases hva; done) | (cases hvb; done))
    cases hva; cases hvb
    obtain ⟨z, hz, h2⟩ := Res.bind_eq_ok.1 h2
    cases h2
    refine .inr ⟨_, rfl, fun ty r ht h => ?_⟩
    simp only [Expr.run] at h
    obtain ⟨w, hw, h⟩ := Option.bind_eq_some_iff.1 h
    obtain ⟨w', hw', h⟩ := Option.bind_eq_some_iff.1 h
    rw [hra _ _ ht hw] at h
    rw [hrb _ _ (by intro hwide; cases op <;> first | exact hctx hwide b | exact ht hwide) hw'] at h
    cases op <;> simp only [runBit] at h <;> simp only [BitOp.compile] at hz
    · cases hz; exact (Option.some.inj h).symm
    · cases hz; exact (Option.some.inj h).symm
    · cases hz; exact (Option.some.inj h).symm
    · obtain ⟨hwide, hfit⟩ := hsh rfl
      have hfit := hfit _ _ _ _ h0 h1
      split at hz
      · cases hz
        split at h
        · rw [← Option.some.inj h, IntTy.wrap_of_contains .i32 (by decide) _ hfit,
            IntTy.wrap_of_contains ty (by have := (ht hwide).2; omega) _
              (IntTy.contains_of_holds _ (ht hwide) _ hfit)]
        · cases h
      · cases hz
    · split at hz
      · cases hz
        split at h
        · exact (Option.some.inj h).symm
        · cases h
      · cases hz
  | logic op a b iha ihb =>
    intro c hf h; simp only [Expr.evaluate] at h
    obtain ⟨⟨c0, r0⟩, h0, hx⟩ := Res.bind_eq_ok.1 h
    replace h := hx; clear hx
    obtain ⟨⟨c1, r1⟩, h1, hx⟩ := Res.bind_eq_ok.1 h
    replace h := hx; clear hx
    obtain ⟨c2, h2, hx⟩ := Res.bind_eq_ok.1 h
    replace h := hx; clear hx
    simp only [Res.pure_eq, Res.ok.injEq, Prod.mk.injEq, Bool.and_eq_true] at h
    obtain ⟨rfl, rfl, rfl⟩ := h
    cases c0 <;> cases c1 <;> simp only [evalLogic, reduceCtorEq] at h2
    rename_i x y
    cases h2
    rcases iha _ hf.1 h0 with ho | ⟨va, hva, hra⟩
    · cases ho
    rcases ihb _ hf.2 h1 with ho | ⟨vb, hvb, hrb⟩
    · cases ho
    cases hva; cases hvb
    refine .inr ⟨_, rfl, fun ty r ht h => ?_⟩
    simp only [Expr.run] at h
    obtain ⟨w, hw, h⟩ := Option.bind_eq_some_iff.1 h
    rw [hra _ _ ht hw] at h
    cases op <;> cases x <;> simp only at h
    · exact (Option.some.inj h).symm
    · rw [hrb _ _ ht h]; rfl
    · rw [hrb _ _ ht h]; rfl
    · exact (Option.some.inj h).symm
  | tern c a b ihc iha ihb =>
    intro c' hf h; simp only [Expr.evaluate] at h
    obtain ⟨⟨c0, r0⟩, h0, hx⟩ := Res.bind_eq_ok.1 h
    replace h := hx; clear hx
    obtain ⟨⟨c1, r1⟩, h1, hx⟩ := Res.bind_eq_ok.1 h
    replace h := hx; clear hx
    obtain ⟨⟨c2, r2⟩, h2, hx⟩ := Res.bind_eq_ok.1 h
    replace h := hx; clear hx
    obtain ⟨hfc, hfa, hfb, vc, hvc⟩ := hf
    rw [h0] at hvc; cases hvc
    cases c0 <;> simp only [reduceCtorEq] at h
    rename_i x
    rcases ihc _ hfc h0 with ho | ⟨va, hva, hra⟩
    · cases ho
    cases hva
    cases x <;> simp only at h <;> cases h
    · rcases ihb _ hfb h2 with ho | ⟨v, hv, hr⟩
      · exact .inl ho
      · refine .inr ⟨v, hv, fun ty r ht h => ?_⟩
        simp only [Expr.run] at h
        obtain ⟨w, hw, h⟩ := Option.bind_eq_some_iff.1 h
        rw [hra _ _ ht hw] at h
        exact hr _ _ ht h
    · rcases iha _ hfa h1 with ho | ⟨v, hv, hr⟩
      · exact .inl ho
      · refine .inr ⟨v, hv, fun ty r ht h => ?_⟩
        simp only [Expr.run] at h
        obtain ⟨w, hw, h⟩ := Option.bind_eq_some_iff.1 h
        rw [hra _ _ ht hw] at h
        exact hr _ _ ht h
  | index => intro c _ h; simp [Expr.evaluate] at h
  | ident name => intro c _ h; exact absurd h (lookup_resolved _ _)

end Zs

namespace Zs

variable {fo : FloatOps}

/-! ## Expressions of literals in a context of `i32` -/

/-- Made of the operators that exist in Rust, applied to integer (in the range the parser accepts, 
`visitor.rs` lines 944-975), boolean and string literals. -/
def Expr.Literal : Expr fo.F → Prop
  | .intLit n => 0 ≤ n ∧ n < 2 ^ 31
  | .boolLit _ | .strLit _ => True
  | .paren e | .neg e | .not e => e.Literal
  | .cmp _ a b | .arith _ a b | .bit _ a b | .logic _ a b => a.Literal ∧ b.Literal
  | .tern c a b => c.Literal ∧ a.Literal ∧ b.Literal
  | _ => False

theorem i32_contains (v : Int) : IntTy.i32.Contains v ↔ -2 ^ 31 ≤ v ∧ v < 2 ^ 31 := by
  simp only [IntTy.Contains, IntTy.i32, IntTy.min, IntTy.max, if_true]; omega

theorem i32_wrap_contains (v : Int) : IntTy.i32.Contains (IntTy.i32.wrap v) := by
  simp only [IntTy.Contains, IntTy.i32, IntTy.min, IntTy.max, IntTy.wrap, if_true]; omega

theorem ofInt_128 (x : Int) (h : IntTy.i32.Contains x) :
    BitVec.ofInt 128 x = (BitVec.ofInt 32 x).signExtend 128 := by
  rw [i32_contains] at h
  unfold BitVec.signExtend
  congr 1
  rw [BitVec.toInt_ofInt, Int.bmod_eq_of_le] <;> omega

theorem toInt_32_contains (z : BitVec 32) : IntTy.i32.Contains z.toInt := by
  rw [i32_contains]
  have h1 := BitVec.le_toInt z
  have h2 := BitVec.toInt_lt (x := z)
  omega

theorem bitwise_contains (x y : Int) (hx : IntTy.i32.Contains x) (hy : IntTy.i32.Contains y) :
    IntTy.i32.Contains (bitwise (· &&& ·) x y) ∧ IntTy.i32.Contains (bitwise (· ||| ·) x y) ∧
    IntTy.i32.Contains (bitwise (· ^^^ ·) x y) := by
  unfold bitwise
  rw [ofInt_128 x hx, ofInt_128 y hy]
  refine ⟨?_, ?_, ?_⟩
  · simp only []; rw [← BitVec.signExtend_and, BitVec.toInt_signExtend_of_le (by omega)]
    exact toInt_32_contains _
  · simp only []; rw [← BitVec.signExtend_or, BitVec.toInt_signExtend_of_le (by omega)]
    exact toInt_32_contains _
  · simp only []; rw [← BitVec.signExtend_xor, BitVec.toInt_signExtend_of_le (by omega)]
    exact toInt_32_contains _

theorem shr_contains (x : Int) (n : Nat) (h : IntTy.i32.Contains x) :
    IntTy.i32.Contains (x / 2 ^ n) := by
  rw [i32_contains] at *
  have hp : (1 : Int) ≤ 2 ^ n := by
    have := Nat.one_le_two_pow (n := n); exact_mod_cast this
  constructor
  · rw [Int.le_ediv_iff_mul_le (by omega)]
    have : (2 : Int) ^ 31 * 1 ≤ 2 ^ 31 * 2 ^ n := Int.mul_le_mul_of_nonneg_left hp (by omega)
    omega
  · rw [Int.ediv_lt_iff_lt_mul (by omega)]
    have : (2 : Int) ^ 31 * 1 ≤ 2 ^ 31 * 2 ^ n := Int.mul_le_mul_of_nonneg_left hp (by omega)
    omega

/-- The value is an `i32` if it is a number. -/
def CVal.InI32 {F : Type} : CVal F → Prop
  | .int v => IntTy.i32.Contains v
  | _ => True

/-- The value is not a float. -/
def CVal.NoFloat {F : Type} : CVal F → Prop
  | .float _ => False
  | _ => True

theorem literal_no_float (sc : EScope fo.F) (e : Expr fo.F) :
    ∀ c r, e.Literal → e.evaluate .debug sc = .ok (c, r) → c.NoFloat := by
  induction e with
  | intLit n => intro c r hl h; simp only [Expr.evaluate] at h; cases h; trivial
  | boolLit b => intro c r hl h; simp only [Expr.evaluate] at h; cases h; trivial
  | strLit b => intro c r hl h; simp only [Expr.evaluate] at h; cases h; trivial
  | paren e ih => intro c r hl h; simp only [Expr.evaluate] at h; exact ih c r hl h
  | neg e ih =>
    intro c r hl h; simp only [Expr.evaluate] at h
    obtain ⟨⟨c0, r0⟩, h0, h'⟩ := Res.bind_eq_ok.1 h
    obtain ⟨c1, h1, h''⟩ := Res.bind_eq_ok.1 h'
    clear h h'
    cases h''
    have := ih _ _ hl h0
    cases c0 <;> simp only [evalNeg, reduceCtorEq] at h1
    · split at h1 <;> cases h1; trivial
    · exact absurd this (by simp [CVal.NoFloat])
  | not e ih =>
    intro c r hl h; simp only [Expr.evaluate] at h
    obtain ⟨⟨c0, r0⟩, h0, h'⟩ := Res.bind_eq_ok.1 h
    clear h
    cases c0 <;> simp only [reduceCtorEq] at h'
    cases h'; trivial
  | cmp op a b iha ihb =>
    intro c r hl h; simp only [Expr.evaluate] at h
    obtain ⟨⟨c0, r0⟩, h0, hx⟩ := Res.bind_eq_ok.1 h
    obtain ⟨⟨c1, r1⟩, h1, hy⟩ := Res.bind_eq_ok.1 hx
    obtain ⟨⟨c2, k⟩, h2, hz⟩ := Res.bind_eq_ok.1 hy
    clear h hx hy
    cases hz
    cases c0 <;> cases c1 <;> simp only [evalCmp] at h2 <;>
      (try (cases h2; trivial)) <;> cases op <;> cases h2 <;> trivial
  | arith op a b iha ihb =>
    intro c r hl h; simp only [Expr.evaluate] at h
    obtain ⟨⟨c0, r0⟩, h0, hx⟩ := Res.bind_eq_ok.1 h
    obtain ⟨⟨c1, r1⟩, h1, hy⟩ := Res.bind_eq_ok.1 hx
    obtain ⟨c2, h2, hz⟩ := Res.bind_eq_ok.1 hy
    clear h hx hy
    cases hz
    have ha := iha _ _ hl.1 h0
    have hb := ihb _ _ hl.2 h1
    cases c0 <;> cases c1 <;> simp only [evalArith, reduceCtorEq, CVal.NoFloat] at h2 ha hb
    · obtain ⟨z, hz, hw⟩ := Res.bind_eq_ok.1 h2
      cases hw; trivial
    · split at h2 <;> cases h2; trivial
  | bit op a b iha ihb =>
    intro c r hl h; simp only [Expr.evaluate] at h
    obtain ⟨⟨c0, r0⟩, h0, hx⟩ := Res.bind_eq_ok.1 h
    obtain ⟨⟨c1, r1⟩, h1, hy⟩ := Res.bind_eq_ok.1 hx
    obtain ⟨⟨c2, k⟩, h2, hz⟩ := Res.bind_eq_ok.1 hy
    clear h hx hy
    cases hz
    cases c0 <;> cases c1 <;> simp only [evalBit, reduceCtorEq] at h2
    · obtain ⟨z, hz, hw⟩ := Res.bind_eq_ok.1 h2
      cases hw; trivial
    all_goals (cases h2; trivial)
  | logic op a b iha ihb =>
    intro c r hl h; simp only [Expr.evaluate] at h
    obtain ⟨⟨c0, r0⟩, h0, hx⟩ := Res.bind_eq_ok.1 h
    obtain ⟨⟨c1, r1⟩, h1, hy⟩ := Res.bind_eq_ok.1 hx
    obtain ⟨c2, h2, hz⟩ := Res.bind_eq_ok.1 hy
    clear h hx hy
    cases hz
    cases c0 <;> cases c1 <;> simp only [evalLogic, reduceCtorEq] at h2
    cases h2; trivial
  | tern c a b ihc iha ihb =>
    intro c' r hl h; simp only [Expr.evaluate] at h
    obtain ⟨⟨c0, r0⟩, h0, hx⟩ := Res.bind_eq_ok.1 h
    obtain ⟨⟨c1, r1⟩, h1, hy⟩ := Res.bind_eq_ok.1 hx
    obtain ⟨⟨c2, r2⟩, h2, hz⟩ := Res.bind_eq_ok.1 hy
    clear h hx hy
    cases c0 <;> simp only [reduceCtorEq] at hz
    rename_i x
    cases x <;> simp only at hz <;> cases hz
    · exact ihb _ _ hl.2.2 h2
    · exact iha _ _ hl.2.1 h1
  | _ => intro c r hl; exact absurd hl (by simp [Expr.Literal])

theorem literal_runs (sc : EScope fo.F) (env : Expr fo.F → Option (RVal fo.F)) (e : Expr fo.F) :
    ∀ c r, e.Literal → e.Faithful .debug sc true → e.evaluate .debug sc = .ok (c, r) →
      c.InI32 ∧ (r = true → ∃ v, c.value? = some v ∧ e.run (fun _ => .i32) env .i32 = some v) := by
  induction e with
  | intLit n =>
    intro c r hl hf h; simp only [Expr.evaluate] at h; cases h
    have hc : IntTy.i32.Contains n := by
      rw [i32_contains]; simp only [Expr.Literal] at hl; omega
    exact ⟨hc, fun _ => ⟨_, rfl, by simp only [Expr.run, runInt, if_pos hc]⟩⟩
  | boolLit b =>
    intro c r hl hf h; simp only [Expr.evaluate] at h; cases h
    exact ⟨trivial, fun _ => ⟨_, rfl, by simp only [Expr.run]⟩⟩
  | strLit b =>
    intro c r hl hf h; simp only [Expr.evaluate] at h; cases h
    exact ⟨trivial, fun _ => ⟨_, rfl, by simp only [Expr.run]⟩⟩
  | paren e ih =>
    intro c r hl hf h; simp only [Expr.evaluate] at h
    simpa only [Expr.run] using ih c r hl hf h
  | neg e ih =>
    intro c r hl hf h; simp only [Expr.evaluate] at h
    obtain ⟨⟨c0, r0⟩, h0, h'⟩ := Res.bind_eq_ok.1 h
    obtain ⟨c1, h1, h''⟩ := Res.bind_eq_ok.1 h'
    clear h h'
    cases h''
    obtain ⟨hi, hr⟩ := ih _ _ hl hf h0
    cases c0 <;> simp only [evalNeg, reduceCtorEq] at h1
    · split at h1
      · cases h1
      · rename_i v hv
        cases h1
        have hc : IntTy.i32.Contains (-v) := by
          simp only [CVal.InI32] at hi
          rw [i32_contains] at hi ⊢
          simp only [IntTy.min, IntTy.i32, if_true] at hv
          omega
        refine ⟨hc, fun hrt => ?_⟩
        obtain ⟨w, hw, hrun⟩ := hr hrt
        cases hw
        exact ⟨_, rfl, by
          simp only [Expr.run, hrun, Option.bind_eq_bind, Option.bind_some, runInt, if_pos hc]
          simp [IntTy.i32]⟩
    · cases h1
      refine ⟨trivial, fun hrt => ?_⟩
      obtain ⟨w, hw, hrun⟩ := hr hrt
      cases hw
      exact ⟨_, rfl, by simp only [Expr.run, hrun, Option.bind_eq_bind, Option.bind_some]⟩
  | not e ih =>
    intro c r hl hf h; simp only [Expr.evaluate] at h
    obtain ⟨⟨c0, r0⟩, h0, h'⟩ := Res.bind_eq_ok.1 h
    clear h
    obtain ⟨hi, hr⟩ := ih _ _ hl hf h0
    cases c0 <;> simp only [reduceCtorEq] at h'
    cases h'
    refine ⟨trivial, fun hrt => ?_⟩
    obtain ⟨w, hw, hrun⟩ := hr hrt
    cases hw
    exact ⟨_, rfl, by simp only [Expr.run, hrun, Option.bind_eq_bind, Option.bind_some]⟩
  | cmp op a b iha ihb =>
    intro c r hl hf h; simp only [Expr.evaluate] at h
    obtain ⟨⟨c0, r0⟩, h0, hx⟩ := Res.bind_eq_ok.1 h
    obtain ⟨⟨c1, r1⟩, h1, hy⟩ := Res.bind_eq_ok.1 hx
    obtain ⟨⟨c2, k⟩, h2, hz⟩ := Res.bind_eq_ok.1 hy
    clear h hx hy
    simp only [Res.pure_eq, Res.ok.injEq, Prod.mk.injEq] at hz
    obtain ⟨rfl, rfl⟩ := hz
    obtain ⟨-, hra⟩ := iha _ _ hl.1 hf.1 h0
    obtain ⟨-, hrb⟩ := ihb _ _ hl.2 hf.2 h1
    have hbool : ∃ b, c2 = .bool b := by
      cases c0 <;> cases c1 <;> simp only [evalCmp] at h2 <;>
        (try (cases h2; exact ⟨_, rfl⟩)) <;> cases op <;> cases h2 <;> exact ⟨_, rfl⟩
    obtain ⟨bb, rfl⟩ := hbool
    refine ⟨trivial, fun hrt => ?_⟩
    simp only [Bool.and_eq_true] at hrt
    obtain ⟨⟨rfl, rfl⟩, rfl⟩ := hrt
    obtain ⟨va, hva, hruna⟩ := hra rfl
    obtain ⟨vb, hvb, hrunb⟩ := hrb rfl
    refine ⟨_, rfl, ?_⟩
    simp only [Expr.run, hruna, hrunb, Option.bind_eq_bind, Option.bind_some]
    cases c0 <;> cases hva <;> cases c1 <;> cases hvb <;> simp only [evalCmp, if_true] at h2 <;>
      simp only [runCmp] <;> (try (cases h2; rfl)) <;> cases op <;> cases h2 <;> rfl
  | arith op a b iha ihb =>
    intro c r hl hf h; simp only [Expr.evaluate] at h
    obtain ⟨⟨c0, r0⟩, h0, hx⟩ := Res.bind_eq_ok.1 h
    obtain ⟨⟨c1, r1⟩, h1, hy⟩ := Res.bind_eq_ok.1 hx
    obtain ⟨c2, h2, hz⟩ := Res.bind_eq_ok.1 hy
    clear h hx hy
    simp only [Res.pure_eq, Res.ok.injEq, Prod.mk.injEq] at hz
    obtain ⟨rfl, rfl⟩ := hz
    obtain ⟨-, hra⟩ := iha _ _ hl.1 hf.1 h0
    obtain ⟨-, hrb⟩ := ihb _ _ hl.2 hf.2 h1
    have hcomp : ∀ x y z : Int, op.compile .debug x y = .ok z →
        op.undefined .i32 x y = false ∧ IntTy.i32.Contains z ∧ z = op.exact x y := by
      intro x y z hz
      unfold ArithOp.compile at hz
      split at hz
      · cases hz
      · rename_i hu
        split at hz
        · rename_i hc; cases hz; exact ⟨by simpa using hu, hc, rfl⟩
        · cases hz
    constructor
    · cases c0 <;> cases c1 <;> simp only [evalArith, reduceCtorEq] at h2
      · obtain ⟨z, hz, hw⟩ := Res.bind_eq_ok.1 h2
        cases hw
        exact (hcomp _ _ _ hz).2.1
      all_goals (split at h2 <;> cases h2 <;> trivial)
    · intro hrt
      simp only [Bool.and_eq_true] at hrt
      obtain ⟨rfl, rfl⟩ := hrt
      obtain ⟨va, hva, hruna⟩ := hra rfl
      obtain ⟨vb, hvb, hrunb⟩ := hrb rfl
      simp only [Expr.run, hruna, hrunb, Option.bind_eq_bind, Option.bind_some]
      cases c0 <;> cases hva <;> cases c1 <;> cases hvb <;>
        simp only [evalArith, if_true, reduceCtorEq] at h2
      · obtain ⟨z, hz, hw⟩ := Res.bind_eq_ok.1 h2
        cases hw
        obtain ⟨hu, hc, rfl⟩ := hcomp _ _ _ hz
        exact ⟨_, rfl, by simp only [runArith, hu, runInt, if_pos hc, Bool.false_eq_true, if_false]⟩
      · exact absurd (literal_no_float sc _ _ _ hl.2 h1) (by simp [CVal.NoFloat])
      · exact absurd (literal_no_float sc _ _ _ hl.1 h0) (by simp [CVal.NoFloat])
      · exact absurd (literal_no_float sc _ _ _ hl.1 h0) (by simp [CVal.NoFloat])
      · split at h2
        · cases h2; exact ⟨_, rfl, by simp only [runArith]⟩
        · cases h2
  | bit op a b iha ihb =>
    intro c r hl hf h; simp only [Expr.evaluate] at h
    obtain ⟨⟨c0, r0⟩, h0, hx⟩ := Res.bind_eq_ok.1 h
    obtain ⟨⟨c1, r1⟩, h1, hy⟩ := Res.bind_eq_ok.1 hx
    obtain ⟨⟨c2, k⟩, h2, hz⟩ := Res.bind_eq_ok.1 hy
    clear h hx hy
    simp only [Res.pure_eq, Res.ok.injEq, Prod.mk.injEq] at hz
    obtain ⟨rfl, rfl⟩ := hz
    obtain ⟨hia, hra⟩ := iha _ _ hl.1 hf.1 h0
    obtain ⟨hib, hrb⟩ := ihb _ _ hl.2 hf.2.1 h1
    cases c0 <;> cases c1 <;> simp only [evalBit, reduceCtorEq] at h2
    · rename_i x y
      obtain ⟨z, hz, hw⟩ := Res.bind_eq_ok.1 h2
      clear h2
      cases hw
      simp only [CVal.InI32] at hia hib
      obtain ⟨hb1, hb2, hb3⟩ := bitwise_contains x y hia hib
      constructor
      · cases op <;> simp only [BitOp.compile] at hz
        · cases hz; exact hb1
        · cases hz; exact hb2
        · cases hz; exact hb3
        · split at hz
          · cases hz; exact i32_wrap_contains _
          · cases hz
        · split at hz
          · cases hz; exact shr_contains _ _ hia
          · cases hz
      · intro hrt
        simp only [Bool.and_eq_true] at hrt
        obtain ⟨⟨rfl, rfl⟩, -⟩ := hrt
        obtain ⟨va, hva, hruna⟩ := hra rfl
        obtain ⟨vb, hvb, hrunb⟩ := hrb rfl
        cases hva; cases hvb
        refine ⟨_, rfl, ?_⟩
        simp only [Expr.run, hruna, Option.bind_eq_bind, Option.bind_some]
        cases op <;> simp only [hrunb, Option.bind_some, runBit] <;> simp only [BitOp.compile] at hz
        · cases hz; rfl
        · cases hz; rfl
        · cases hz; rfl
        · split at hz
          · rename_i hc; cases hz; exact if_pos hc
          · cases hz
        · split at hz
          · rename_i hc; cases hz; exact if_pos hc
          · cases hz
    all_goals (cases h2; exact ⟨by simp only [CVal.InI32]; decide, fun hrt => by simp at hrt⟩)
  | logic op a b iha ihb =>
    intro c r hl hf h; simp only [Expr.evaluate] at h
    obtain ⟨⟨c0, r0⟩, h0, hx⟩ := Res.bind_eq_ok.1 h
    obtain ⟨⟨c1, r1⟩, h1, hy⟩ := Res.bind_eq_ok.1 hx
    obtain ⟨c2, h2, hz⟩ := Res.bind_eq_ok.1 hy
    clear h hx hy
    simp only [Res.pure_eq, Res.ok.injEq, Prod.mk.injEq] at hz
    obtain ⟨rfl, rfl⟩ := hz
    obtain ⟨-, hra⟩ := iha _ _ hl.1 hf.1 h0
    obtain ⟨-, hrb⟩ := ihb _ _ hl.2 hf.2 h1
    cases c0 <;> cases c1 <;> simp only [evalLogic, reduceCtorEq] at h2
    rename_i x y
    cases h2
    refine ⟨trivial, fun hrt => ?_⟩
    simp only [Bool.and_eq_true] at hrt
    obtain ⟨rfl, rfl⟩ := hrt
    obtain ⟨va, hva, hruna⟩ := hra rfl
    obtain ⟨vb, hvb, hrunb⟩ := hrb rfl
    cases hva; cases hvb
    refine ⟨_, rfl, ?_⟩
    simp only [Expr.run, hruna, Option.bind_eq_bind, Option.bind_some]
    cases op <;> cases x <;> simp only [hrunb] <;> simp
  | tern c a b ihc iha ihb =>
    intro c' r hl hf h; simp only [Expr.evaluate] at h
    obtain ⟨⟨c0, r0⟩, h0, hx⟩ := Res.bind_eq_ok.1 h
    obtain ⟨⟨c1, r1⟩, h1, hy⟩ := Res.bind_eq_ok.1 hx
    obtain ⟨⟨c2, r2⟩, h2, hz⟩ := Res.bind_eq_ok.1 hy
    clear h hx hy
    obtain ⟨hfc, hfa, hfb, vc, hvc⟩ := hf
    rw [h0] at hvc; cases hvc
    obtain ⟨-, hrc⟩ := ihc _ _ hl.1 hfc h0
    obtain ⟨hia, hra⟩ := iha _ _ hl.2.1 hfa h1
    obtain ⟨hib, hrb⟩ := ihb _ _ hl.2.2 hfb h2
    obtain ⟨v, hv, hrun⟩ := hrc rfl
    cases c0 <;> simp only [reduceCtorEq] at hz
    rename_i x
    cases hv
    cases x <;> simp only at hz <;> cases hz
    · exact ⟨hib, fun hrt => by
        obtain ⟨w, hw, hrun'⟩ := hrb hrt
        exact ⟨w, hw, by simp only [Expr.run, hrun, hrun', Option.bind_eq_bind, Option.bind_some]⟩⟩
    · exact ⟨hia, fun hrt => by
        obtain ⟨w, hw, hrun'⟩ := hra hrt
        exact ⟨w, hw, by simp only [Expr.run, hrun, hrun', Option.bind_eq_bind, Option.bind_some]⟩⟩
  | _ => intro c r hl; exact absurd hl (by simp [Expr.Literal])

end Zs
