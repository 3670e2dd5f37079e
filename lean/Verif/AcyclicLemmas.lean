import Verif.AcyclicSpec

/-!
# Ranks
-/

namespace Zs

open Src Ast Spec Emit

/-! ## Numbers for what does not depend on itself -/

/-- There is a chain of `n` dependencies that ends with the last argument. -/
def UsesChain {α : Type} (uses : α → α → Prop) : Nat → α → Prop
  | 0, _ => True
  | n + 1, b => ∃ a, uses a b ∧ UsesChain uses n a

theorem chain_list {α : Type} {uses : α → α → Prop} {L : List α} (hL : ∀ a b, uses a b → a ∈ L) (h : NoCycle uses) :
    ∀ (n : Nat) (b : α), UsesChain uses n b →
      ∃ l : List α, l.length = n ∧ l.Nodup ∧ l ⊆ L ∧ ∀ x ∈ l, Relation.TransGen uses x b
  | 0, b, _ => ⟨[], rfl, List.nodup_nil, by simp, by simp⟩
  | n + 1, b, ⟨a, hab, hc⟩ => by
    obtain ⟨l, hl, hnd, hsub, hx⟩ := chain_list hL h n a hc
    refine ⟨a :: l, by simp [hl], List.nodup_cons.2 ⟨fun ha => h a (hx a ha), hnd⟩,
      List.cons_subset.2 ⟨hL a b hab, hsub⟩, fun x hm => ?_⟩
    rcases List.mem_cons.1 hm with rfl | hm
    · exact .single hab
    · exact .tail (hx x hm) hab

theorem greatest {p : Nat → Prop} (h0 : p 0) : ∀ N, (∀ m, p m → m ≤ N) → ∃ r, p r ∧ ∀ m, p m → m ≤ r
  | 0, h => ⟨0, h0, h⟩
  | N + 1, h => by
    by_cases hp : p (N + 1)
    · exact ⟨_, hp, h⟩
    · refine greatest h0 N fun m hm => ?_
      have := h m hm
      by_cases e : m = N + 1
      · exact (hp (e ▸ hm)).elim
      · omega

theorem ranked {α : Type} {uses : α → α → Prop} {L : List α} (hL : ∀ a b, uses a b → a ∈ L) (h : NoCycle uses) :
    ∃ rank : α → Nat, ∀ a b, uses a b → rank a < rank b := by
  have key : ∀ b, ∃ r, UsesChain uses r b ∧ ∀ m, UsesChain uses m b → m ≤ r := fun b =>
    greatest trivial L.length fun m hm => by
      obtain ⟨l, rfl, hnd, hsub, -⟩ := chain_list hL h m b hm
      exact hnd.length_le_of_subset hsub
  refine ⟨fun b => Classical.choose (key b), fun a b hab => ?_⟩
  have ha := (Classical.choose_spec (key a)).1
  exact (Classical.choose_spec (key b)).2 _ ⟨a, hab, ha⟩

/-! ## The names in the emitted expressions -/

variable {fo : FloatOps} {round : List Char → fo.F}

theorem visited_functions {fl : FloatText} {D : Src.Directive} {y : Ast.Symbol fl.F} (h : Visited fl D y) {d : Ast.Struct fl.F}
    (hd : y.withFunctions = some d) : ∃ s, bodyOf D = some s := by
  cases h <;> first | exact ⟨_, rfl⟩ | cases hd

theorem castTree_names {F : Type} (c : Option String) (t : RExpr F) : (castTree c t).names = t.names := by
  cases c <;> rfl

theorem code_names {known : List String} {b : Exp} {x : Expr fo.F} (h : Stands round known b x) (md : Mode) (sc : TScope) :
    ∀ m ∈ (code md sc x).names, m ∈ usedNames b := by
  unfold code
  induction h with
  | paren _ ih | lengthof _ ih | numbits _ ih => simpa only [Expr.tree, RExpr.names, usedNames] using ih
  | elem _ _ ih1 ih2 =>
    intro m hm
    simp only [Expr.tree, RExpr.names, usedNames, List.mem_append] at hm ⊢
    exact hm.imp (ih1 m) (ih2 m)
  | isset _ _ ih1 ih2 =>
    intro m hm
    simp only [Expr.tree, RExpr.names, usedNames, List.mem_append, List.append_nil] at hm ⊢
    exact hm.imp (ih1 m) (ih2 m)
  | valueof _ ih =>
    intro m hm
    simp only [Expr.tree] at hm
    split at hm <;> exact ih m hm
  | @unary op _ _ _ ih => cases op <;> exact ih
  | @binary op a b x y _ _ ih1 ih2 =>
    intro m hm
    simp only [usedNames, List.mem_append]
    have h : m ∈ (x.tree md sc.erase (textInfo md sc)).names ++ (y.tree md sc.erase (textInfo md sc)).names := by
      cases op <;> simp only [binaryMeans, Expr.tree] at hm <;>
        first
        | exact hm
        | (split at hm <;> simpa only [RExpr.names, castTree_names] using hm)
    exact (List.mem_append.1 h).imp (ih1 m) (ih2 m)
  | ternary _ _ _ ih1 ih2 ih3 =>
    intro m hm
    simp only [Expr.tree, RExpr.names, usedNames, List.mem_append] at hm ⊢
    exact hm.imp (·.imp (ih1 m) (ih2 m)) (ih3 m)
  | int | true_ | false_ | string | float => intro m hm; cases hm
  | id => exact fun m hm => hm
  | dot _ ih =>
    intro m hm
    simp only [Expr.tree] at hm
    split at hm
    · exact ih m hm
    · cases hm
  | call => exact fun m hm => hm
  | method _ ih =>
    intro m hm
    simp only [Expr.tree] at hm
    split at hm
    · exact ih m hm
    · cases hm

theorem plain_names {known : List String} {b : Exp} {x : Expr fo.F} (h : Stands round known b x) (md : Mode) (sc : TScope) :
    ∀ m ∈ plainNames b, m ∈ (code md sc x).names := by
  unfold code
  induction h with
  | paren _ ih | lengthof _ ih | numbits _ ih => simpa only [Expr.tree, RExpr.names, plainNames] using ih
  | elem _ _ ih1 ih2 =>
    intro m hm
    simp only [Expr.tree, RExpr.names, plainNames, List.mem_append] at hm ⊢
    exact hm.imp (ih1 m) (ih2 m)
  | isset _ _ ih1 ih2 =>
    intro m hm
    simp only [Expr.tree, RExpr.names, plainNames, List.mem_append, List.append_nil] at hm ⊢
    exact hm.imp (ih1 m) (ih2 m)
  | valueof _ ih =>
    intro m hm
    simp only [Expr.tree]
    split <;> exact ih m hm
  | @unary op _ _ _ ih => cases op <;> exact ih
  | @binary op a b x y _ _ ih1 ih2 =>
    intro m hm
    simp only [plainNames, List.mem_append] at hm
    have h : m ∈ (x.tree md sc.erase (textInfo md sc)).names ++ (y.tree md sc.erase (textInfo md sc)).names :=
      List.mem_append.2 (hm.imp (ih1 m) (ih2 m))
    cases op <;> simp only [binaryMeans, Expr.tree] <;>
      first
      | exact h
      | (split <;> simpa only [RExpr.names, castTree_names] using h)
  | ternary _ _ _ ih1 ih2 ih3 =>
    intro m hm
    simp only [Expr.tree, RExpr.names, plainNames, List.mem_append] at hm ⊢
    exact hm.imp (·.imp (ih1 m) (ih2 m)) (ih3 m)
  | int | true_ | false_ | string | float | dot | method => intro m hm; cases hm
  | id => exact fun m hm => hm
  | call => exact fun m hm => hm

theorem functionCode_names {known : List String} {b : Exp} {x : Expr fo.F} (h : Stands round known b x) (md : Mode)
    (sc : TScope) (z : ZTy) : ∀ m ∈ (functionCode md sc z x).names, m ∈ usedNames b := by
  intro m hm
  unfold functionCode at hm
  split at hm <;> exact code_names h md sc m hm

end Zs
