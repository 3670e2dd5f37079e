import Verif.ConstantLemmas

/-!
# Lemmas: expressions that call the same functions have the same values
-/

namespace Zs

open Ast Emit Spec

variable {fo : FloatOps} {O : Type}

/-- Not an object, a list or an optional value. -/
def scalarDatum : Datum fo.F O → Bool
  | .object _ | .list _ | .opt _ => false
  | _ => true

/-- Expressions have only such values. -/
structure Closed (w : World fo.F O) (P : Datum fo.F O → Prop) : Prop where
  scalar : ∀ v, scalarDatum v = true → P v
  name : ∀ n v, w.name n = some v → P v
  func : ∀ n v, w.func n = some v → P v
  item : ∀ e n v, w.item e n = some v → P v
  index : ∀ v, w.index = some v → P v
  member : ∀ ob n v, P (.object ob) → w.member ob n = some v → P v
  method : ∀ ob n v, w.method ob n = some v → P v
  elem : ∀ l x, P (.list l) → x ∈ l → P x

theorem then_ok {p : Res (Datum fo.F O) → Prop} {k : Datum fo.F O → Res (Datum fo.F O) → Prop} {v : Datum fo.F O}
    (h : Then p k (.ok v)) : ∃ x, p (.ok x) ∧ k x (.ok v) := by
  obtain ⟨r, hr, h⟩ := h
  cases r with
  | ok x => exact ⟨x, hr, h⟩
  | err _ => cases h
  | panic => cases h

theorem inType_scalar {m : Mode} {i : IntTy} {z : Int} {v : Datum fo.F O} (h : Res.ok v = inType m i z) :
    scalarDatum v = true := by
  unfold inType at h
  split at h
  · cases h; rfl
  · split at h <;> cases h
    rfl

theorem evals_closed {w : World fo.F O} {P : Datum fo.F O → Prop} (hP : Closed w P) {Γ : RScope fo.F} {m : Mode} :
    ∀ (x : RExpr fo.F) (t : RTy) (v : Datum fo.F O), Evals w Γ m x t (.ok v) → P v
  | .atom a, t, v, he => by
    cases a with
    | name n => obtain ⟨_, h, e⟩ := he; cases e; exact hP.name _ _ h
    | item e n => obtain ⟨_, h, e⟩ := he; cases e; exact hP.item _ _ _ h
    | index => obtain ⟨_, h, e⟩ := he; cases e; exact hP.index _ h
    | int n => obtain ⟨_, e⟩ := he; cases e; exact hP.scalar _ rfl
    | bool b => cases he; exact hP.scalar _ rfl
    | str b => cases he; exact hP.scalar _ rfl
    | float f =>
      simp only [Evals] at he
      split at he
      · obtain ⟨_, e⟩ := he; cases e; exact hP.scalar _ rfl
      · cases he; exact hP.scalar _ rfl
  | .paren e, t, v, he => by
    simp only [Evals] at he
    exact evals_closed hP e t v he
  | .call (.atom a), t, v, he => by
    cases a with
    | name n => obtain ⟨_, h, e⟩ := he; cases e; exact hP.func _ _ h
    | _ => simp only [Evals] at he
  | .call (.field e f), t, v, he => by
    simp only [Evals] at he
    obtain ⟨s, h1, h2, h3⟩ := he
    obtain ⟨x, hx, h⟩ := then_ok h3
    have ih := evals_closed hP e s x hx
    unfold MethodTo at h
    split at h
    · cases h; exact ih
    · split at h
      · obtain ⟨_, h, e⟩ := h; cases e; exact hP.method _ _ _ h
      · obtain ⟨_, e⟩ := h; cases e; exact hP.scalar _ rfl
      · obtain ⟨_, e⟩ := h; cases e; exact hP.scalar _ rfl
      · obtain ⟨_, e⟩ := h; cases e; exact hP.scalar _ rfl
      · exact h.elim
  | .call (.paren _), _, _, he | .call (.call _), _, _, he | .call (.apply _ _), _, _, he
  | .call (.elem _ _), _, _, he | .call (.cast _ _), _, _, he | .call (.neg _), _, _, he
  | .call (.not _), _, _, he | .call (.bin _ _ _), _, _, he | .call (.ite _ _ _), _, _, he
  | .call (.concat _ _), _, _, he => by
    simp only [Evals] at he
  | .apply _ e, t, v, he => by
    simp only [Evals] at he
    obtain ⟨s, h1, h2, h3⟩ := he
    obtain ⟨x, hx, z, -, h⟩ := then_ok h3
    obtain ⟨n, -, h⟩ := Res.bind_eq_ok.1 h.symm
    cases h
    exact hP.scalar _ rfl
  | .field e n, t, v, he => by
    simp only [Evals] at he
    obtain ⟨id, h1, h3⟩ := he
    obtain ⟨x, hx, ob, u, rfl, hu, h⟩ := then_ok h3
    cases h
    exact hP.member _ _ _ (evals_closed hP e _ _ hx) hu
  | .elem a b, t, v, he => by
    simp only [Evals] at he
    obtain ⟨x, hx, he⟩ := then_ok he
    obtain ⟨y, hy, l, k, rfl, rfl, h⟩ := then_ok he
    split at h
    · cases h
      exact hP.elem _ _ (evals_closed hP a _ _ hx) (List.mem_of_getElem? ‹_›)
    · cases h
  | .cast e ty, t, v, he => by
    simp only [Evals] at he
    obtain ⟨h0, s, h1, h2, h3⟩ := he
    obtain ⟨x, hx, h⟩ := then_ok h3
    have ih := evals_closed hP e s x hx
    unfold CastsTo at h
    split at h
    · cases h; exact hP.scalar _ rfl
    · cases h; exact hP.scalar _ rfl
    · cases h; exact hP.scalar _ rfl
    · obtain ⟨_, _, e⟩ := h; cases e; exact hP.scalar _ rfl
    · obtain ⟨⟨_, e⟩, _⟩ := h; cases e; exact hP.scalar _ rfl
    · obtain ⟨⟨_, e⟩, _⟩ := h; cases e; exact hP.scalar _ rfl
    · cases h; exact ih
    · exact h.elim
  | .neg e, t, v, he => by
    simp only [Evals] at he
    obtain ⟨x, hx, h⟩ := then_ok he
    unfold NegatesTo at h
    split at h
    · obtain ⟨_, _, h⟩ := h; exact hP.scalar _ (inType_scalar h)
    · obtain ⟨_, e⟩ := h; cases e; exact hP.scalar _ rfl
    · exact h.elim
  | .not e, t, v, he => by
    simp only [Evals] at he
    obtain ⟨x, hx, h⟩ := then_ok he
    unfold NotsTo at h
    split at h
    · cases h; exact hP.scalar _ rfl
    · obtain ⟨_, _, e⟩ := h; cases e; exact hP.scalar _ rfl
    · obtain ⟨_, e⟩ := h; cases e; exact hP.scalar _ rfl
    · exact h.elim
  | .bin (.arith op) a b, t, v, he => by
    simp only [Evals] at he
    obtain ⟨x, hx, he⟩ := then_ok he
    obtain ⟨y, hy, h⟩ := then_ok he
    unfold ArithTo at h
    split at h
    · obtain ⟨_, _, h⟩ := h
      split at h
      · cases h
      · obtain ⟨_, _, h⟩ := h; exact hP.scalar _ (inType_scalar h)
    · obtain ⟨_, e⟩ := h; cases e; exact hP.scalar _ rfl
    · exact h.elim
  | .bin (.bit op) a b, t, v, he => by
    simp only [Evals] at he
    split at he
    · obtain ⟨s, h1, he⟩ := he
      obtain ⟨x, hx, he⟩ := then_ok he
      obtain ⟨y, hy, h⟩ := then_ok he
      unfold ShiftsTo at h
      split at h
      · obtain ⟨_, _, h⟩ := h
        split at h
        · obtain ⟨_, _, e⟩ := h; cases e; exact hP.scalar _ rfl
        · split at h
          · cases h
          · obtain ⟨_, _, e⟩ := h; cases e; exact hP.scalar _ rfl
      · exact h.elim
    · obtain ⟨x, hx, he⟩ := then_ok he
      obtain ⟨y, hy, h⟩ := then_ok he
      unfold BitsTo at h
      split at h
      · obtain ⟨_, _, e⟩ := h; cases e; exact hP.scalar _ rfl
      · obtain ⟨_, _, e⟩ := h; cases e; exact hP.scalar _ rfl
      · obtain ⟨_, e⟩ := h; cases e; exact hP.scalar _ rfl
      · exact h.elim
  | .bin (.cmp op) a b, t, v, he => by
    simp only [Evals] at he
    obtain ⟨s, u, h1, he⟩ := he
    obtain ⟨x, hx, he⟩ := then_ok he
    obtain ⟨y, hy, h⟩ := then_ok he
    unfold ComparesTo at h
    split at h
    · cases h; exact hP.scalar _ rfl
    · obtain ⟨_, e, _⟩ := h; cases e; exact hP.scalar _ rfl
    · obtain ⟨_, e, _⟩ := h; cases e; exact hP.scalar _ rfl
    · obtain ⟨_, _, e⟩ := h; cases e; exact hP.scalar _ rfl
    · obtain ⟨_, _, e⟩ := h; cases e; exact hP.scalar _ rfl
    · obtain ⟨_, _, e⟩ := h; cases e; exact hP.scalar _ rfl
    · obtain ⟨_, e⟩ := h; cases e; exact hP.scalar _ rfl
  | .bin (.logic op) a b, t, v, he => by
    simp only [Evals] at he
    obtain ⟨x, hx, c, rfl, h⟩ := then_ok he
    split at h
    · exact evals_closed hP b _ v h
    · cases h; exact hP.scalar _ rfl
  | .ite c a b, t, v, he => by
    simp only [Evals] at he
    obtain ⟨x, hx, c, rfl, h⟩ := then_ok he
    split at h
    · exact evals_closed hP a _ v h
    · exact evals_closed hP b _ v h
  | .concat a b, t, v, he => by
    simp only [Evals] at he
    obtain ⟨s, u, h1, h2, he⟩ := he
    obtain ⟨x, hx, he⟩ := then_ok he
    obtain ⟨y, hy, h⟩ := then_ok he
    split at h
    · cases h; exact hP.scalar _ rfl
    · obtain ⟨_, e⟩ := h; cases e; exact hP.scalar _ rfl

/-- The value of an expression depends on the names in it, and on the functions of the objects that it can reach. -/
theorem evals_agree_methods {w : World fo.F O} {f g : String → Option (Datum fo.F O)}
    {h' : O → String → Option (Datum fo.F O)} {P : Datum fo.F O → Prop} (hP : Closed w P)
    (hm : ∀ ob n, P (.object ob) → w.method ob n = h' ob n) {Γ : RScope fo.F} {m : Mode} :
    ∀ (x : RExpr fo.F) (t : RTy) (o : Res (Datum fo.F O)), (∀ n ∈ x.names, w.name n = f n ∧ w.func n = g n) →
    Evals w Γ m x t o → Evals { w with name := f, func := g, method := h' } Γ m x t o
  | .atom a, t, o, h, he => by
    cases a with
    | name n =>
      obtain ⟨v, hv, ho⟩ := he
      exact ⟨v, (h n (List.mem_singleton.2 rfl)).1.symm.trans hv, ho⟩
    | _ => exact he
  | .paren e, t, o, h, he => by
    simp only [Evals] at he ⊢
    exact evals_agree_methods hP hm e t o h he
  | .call (.atom a), t, o, h, he => by
    cases a with
    | name n =>
      obtain ⟨v, hv, ho⟩ := he
      exact ⟨v, (h n (List.mem_singleton.2 rfl)).2.symm.trans hv, ho⟩
    | _ => exact he
  | .call (.field e f), t, o, h, he => by
    simp only [Evals] at he ⊢
    obtain ⟨s, h1, h2, r, hr, h3⟩ := he
    refine ⟨s, h1, h2, r, evals_agree_methods hP hm e s r h hr, ?_⟩
    cases r with
    | err _ => exact h3
    | panic => exact h3
    | ok x =>
      cases x with
      | object ob =>
        simp only [MethodTo] at h3 ⊢
        rw [← hm ob f (evals_closed hP e s _ hr)]
        exact h3
      | _ => exact h3
  | .call (.paren _), _, _, _, he | .call (.call _), _, _, _, he | .call (.apply _ _), _, _, _, he
  | .call (.elem _ _), _, _, _, he | .call (.cast _ _), _, _, _, he | .call (.neg _), _, _, _, he
  | .call (.not _), _, _, _, he | .call (.bin _ _ _), _, _, _, he | .call (.ite _ _ _), _, _, _, he
  | .call (.concat _ _), _, _, _, he => by
    simp only [Evals] at he
  | .apply _ e, t, o, h, he => by
    simp only [Evals] at he ⊢
    obtain ⟨s, h1, h2, h3⟩ := he
    exact ⟨s, h1, h2, h3.mono (fun r hr => evals_agree_methods hP hm e s r h hr) fun x o hx => hx⟩
  | .field e n, t, o, h, he => by
    simp only [Evals] at he ⊢
    obtain ⟨id, h1, h3⟩ := he
    exact ⟨id, h1, h3.mono (fun r hr => evals_agree_methods hP hm e _ r h hr) fun x o hx => hx⟩
  | .elem a b, t, o, h, he => by
    simp only [Evals] at he ⊢
    simp only [RExpr.names, List.mem_append] at h
    exact he.mono (fun r hr => evals_agree_methods hP hm a _ r (fun n hn => h n (.inl hn)) hr) fun x o hx =>
      hx.mono (fun r hr => evals_agree_methods hP hm b _ r (fun n hn => h n (.inr hn)) hr) fun y o hy => hy
  | .cast e ty, t, o, h, he => by
    simp only [Evals] at he ⊢
    obtain ⟨h0, s, h1, h2, h3⟩ := he
    exact ⟨h0, s, h1, h2, h3.mono (fun r hr => evals_agree_methods hP hm e s r h hr) fun x o hx => hx⟩
  | .neg e, t, o, h, he => by
    simp only [Evals] at he ⊢
    exact he.mono (fun r hr => evals_agree_methods hP hm e t r h hr) fun x o hx => hx
  | .not e, t, o, h, he => by
    simp only [Evals] at he ⊢
    exact he.mono (fun r hr => evals_agree_methods hP hm e t r h hr) fun x o hx => hx
  | .bin (.arith op) a b, t, o, h, he => by
    simp only [Evals] at he ⊢
    simp only [RExpr.names, List.mem_append] at h
    exact he.mono (fun r hr => evals_agree_methods hP hm a _ r (fun n hn => h n (.inl hn)) hr) fun x o hx =>
      hx.mono (fun r hr => evals_agree_methods hP hm b _ r (fun n hn => h n (.inr hn)) hr) fun y o hy => hy
  | .bin (.bit op) a b, t, o, h, he => by
    simp only [Evals] at he ⊢
    simp only [RExpr.names, List.mem_append] at h
    split at he
    · rename_i hop
      rw [if_pos hop]
      obtain ⟨s, h1, he⟩ := he
      exact ⟨s, h1, he.mono (fun r hr => evals_agree_methods hP hm a _ r (fun n hn => h n (.inl hn)) hr) fun x o hx =>
        hx.mono (fun r hr => evals_agree_methods hP hm b _ r (fun n hn => h n (.inr hn)) hr) fun y o hy => hy⟩
    · rename_i hop
      rw [if_neg hop]
      exact he.mono (fun r hr => evals_agree_methods hP hm a _ r (fun n hn => h n (.inl hn)) hr) fun x o hx =>
        hx.mono (fun r hr => evals_agree_methods hP hm b _ r (fun n hn => h n (.inr hn)) hr) fun y o hy => hy
  | .bin (.cmp op) a b, t, o, h, he => by
    simp only [Evals] at he ⊢
    simp only [RExpr.names, List.mem_append] at h
    obtain ⟨s, u, h1, he⟩ := he
    exact ⟨s, u, h1, he.mono (fun r hr => evals_agree_methods hP hm a _ r (fun n hn => h n (.inl hn)) hr) fun x o hx =>
      hx.mono (fun r hr => evals_agree_methods hP hm b _ r (fun n hn => h n (.inr hn)) hr) fun y o hy => hy⟩
  | .bin (.logic op) a b, t, o, h, he => by
    simp only [Evals] at he ⊢
    simp only [RExpr.names, List.mem_append] at h
    refine he.mono (fun r hr => evals_agree_methods hP hm a _ r (fun n hn => h n (.inl hn)) hr) fun x o hx => ?_
    obtain ⟨c, h1, h2⟩ := hx
    refine ⟨c, h1, ?_⟩
    split at h2
    · rename_i hc
      rw [if_pos hc]
      exact evals_agree_methods hP hm b _ o (fun n hn => h n (.inr hn)) h2
    · rename_i hc
      rw [if_neg hc]
      exact h2
  | .ite c a b, t, o, h, he => by
    simp only [Evals] at he ⊢
    simp only [RExpr.names, List.mem_append] at h
    refine he.mono (fun r hr => evals_agree_methods hP hm c _ r (fun n hn => h n (.inl (.inl hn))) hr) fun x o hx => ?_
    obtain ⟨d, h1, h2⟩ := hx
    refine ⟨d, h1, ?_⟩
    split at h2
    · rename_i hc
      rw [if_pos hc]
      exact evals_agree_methods hP hm a _ o (fun n hn => h n (.inl (.inr hn))) h2
    · rename_i hc
      rw [if_neg hc]
      exact evals_agree_methods hP hm b _ o (fun n hn => h n (.inr hn)) h2
  | .concat a b, t, o, h, he => by
    simp only [Evals] at he ⊢
    simp only [RExpr.names, List.mem_append] at h
    obtain ⟨s, u, h1, h2, he⟩ := he
    exact ⟨s, u, h1, h2, he.mono (fun r hr => evals_agree_methods hP hm a _ r (fun n hn => h n (.inl hn)) hr) fun x o hx =>
      hx.mono (fun r hr => evals_agree_methods hP hm b _ r (fun n hn => h n (.inr hn)) hr) fun y o hy => hy⟩

end Zs
