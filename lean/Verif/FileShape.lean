import Verif.FileSound

/-!
# Lemmas: what the parser reads is of the language
-/

namespace Zs.Src

open Spec

/-- What the reader reads has the property. -/
def Yields {α : Type} (p : Reader α) (P : α → Prop) : Prop := ∀ ts x r, p ts = some (x, r) → P x

theorem readCommas_yields {α : Type} {p : Reader α} {P : α → Prop} (hp : Yields p P) (n : Nat) :
    Yields (readCommas p n) fun xs => xs ≠ [] ∧ ∀ x ∈ xs, P x := by
  induction n with
  | zero => intro ts xs r h; cases h
  | succ n ih =>
    intro ts xs r h
    unfold readCommas at h
    replace h := Option.bind_eq_some_iff.1 h
    obtain ⟨⟨x, r1⟩, h1, h⟩ := h
    split at h
    · replace h := Option.map_eq_some_iff.1 h
      obtain ⟨⟨ys, r2⟩, h2, h⟩ := h
      cases h
      exact ⟨by simp, by simpa using ⟨hp _ _ _ h1, (ih _ _ _ h2).2⟩⟩
    · cases h
      exact ⟨by simp, by simpa using hp _ _ _ h1⟩

theorem readMany_yields {α : Type} {p : Reader α} {P : α → Prop} (hp : Yields p P) (stop : Token → Bool) (n : Nat) :
    Yields (readMany stop p n) fun xs => ∀ x ∈ xs, P x := by
  induction n with
  | zero => intro ts xs r h; cases h; simp
  | succ n ih =>
    intro ts xs r h
    unfold readMany at h
    split at h
    · cases h; simp
    · split at h
      · cases h; simp
      · replace h := Option.bind_eq_some_iff.1 h
        obtain ⟨⟨x, r1⟩, h1, h⟩ := h
        replace h := Option.map_eq_some_iff.1 h
        obtain ⟨⟨ys, r2⟩, h2, h⟩ := h
        cases h
        simpa using ⟨hp _ _ _ h1, ih _ _ _ h2⟩

theorem exp_yields : Yields parseExpression Bracketed := fun _ _ _ h => (C79_only _ _ _ h).2

theorem typeWords_names : ∀ w ∈ typeWords, w ∈ builtinNames := by decide

theorem typeReference_yields (n : Nat) : Yields (typeReference n) TypeOk ∧ Yields (templateArguments n) TypesOk := by
  induction n with
  | zero => exact ⟨fun _ _ _ h => by simp [typeReference] at h, fun _ _ _ h => by simp [templateArguments] at h⟩
  | succ n ih =>
    constructor
    · intro ts t r h
      unfold typeReference at h
      split at h
      · next w us =>
        split at h
        · next hw =>
          split at h
          · split at h
            · cases h; simp [TypeOk]
            · cases h; exact typeWords_names w hw
          · cases h; exact typeWords_names w hw
        · cases h
      · split at h
        · split at h
          · next q hq => cases h; exact ih.2 _ _ _ hq
          · cases h; simp [TypeOk, TypesOk]
        · cases h; simp [TypeOk, TypesOk]
      · cases h
    · intro ts l r h
      unfold templateArguments at h
      replace h := Option.bind_eq_some_iff.1 h
      obtain ⟨⟨x, r1⟩, h1, h⟩ := h
      split at h
      · replace h := Option.map_eq_some_iff.1 h
        obtain ⟨⟨ys, r2⟩, h2, h⟩ := h
        cases h
        exact ⟨ih.1 _ _ _ h1, ih.2 _ _ _ h2⟩
      · cases h
        exact ⟨ih.1 _ _ _ h1, trivial⟩
      · cases h

theorem readType_yields : Yields readType TypeOk := fun ts => (typeReference_yields _).1 ts

theorem typeArgument_yields : Yields typeArgument ArgOk := by
  intro ts a r h
  unfold typeArgument at h
  split at h <;> simp only [Option.map_eq_some_iff, Prod.exists, Prod.mk.injEq] at h
  · obtain ⟨x, r1, h1, rfl, rfl⟩ := h
    trivial
  · obtain ⟨x, r1, h1, rfl, rfl⟩ := h
    exact exp_yields _ _ _ h1

theorem lengthArgument_yields : Yields lengthArgument Bracketed := by
  intro ts e r h
  obtain ⟨i, _, h⟩ := List.exists_of_findSome?_eq_some h
  split at h
  · split at h
    · next hq => cases h; exact exp_yields _ _ _ hq
    · cases h
  · cases h

theorem typeInstantiation_yields : Yields typeInstantiation (InstOk false) := by
  intro ts i r h
  unfold typeInstantiation at h
  simp only [Option.bind_eq_some_iff, Option.map_eq_some_iff, Prod.exists, Prod.mk.injEq] at h
  obtain ⟨t, r1, h1, a, r2, h2, rfl, rfl⟩ := h
  refine ⟨readType_yields _ _ _ h1, ?_⟩
  unfold readArgs at h2
  split at h2
  · simp only [Option.bind_eq_some_iff, Prod.exists] at h2
    obtain ⟨xs, r3, h3, r4, _, h2⟩ := h2
    have := (readCommas_yields typeArgument_yields _ _ _ _ h3).2
    split at h2
    · cases h2
      simpa using this
    · cases h2
  · simp only [Option.map_eq_some_iff, Prod.exists, Prod.mk.injEq] at h2
    obtain ⟨e, r3, h3, rfl, rfl⟩ := h2
    exact ⟨lengthArgument_yields _ _ _ h3, nofun⟩
  · cases h2
    trivial

theorem fieldArrayRange_yields : Yields fieldArrayRange fun a => ∀ e, a = some (some e) → Bracketed e := by
  intro ts a r h
  unfold fieldArrayRange at h
  split at h
  · split at h
    · cases h; simp
    · simp only [Option.bind_eq_some_iff, Option.map_eq_some_iff, Prod.exists, Prod.mk.injEq] at h
      obtain ⟨e, r1, h1, r2, _, rfl, rfl⟩ := h
      simpa using exp_yields _ _ _ h1
  · cases h; simp

theorem fieldTypeId_yields : Yields fieldTypeId (TypeIdOk false) := by
  intro ts f r h
  unfold fieldTypeId at h
  simp only [Option.bind_eq_some_iff, Option.map_eq_some_iff, Prod.exists, Prod.mk.injEq] at h
  obtain ⟨t, r1, h1, x, r2, _, a, r3, h3, rfl, rfl⟩ := h
  exact ⟨typeInstantiation_yields _ _ _ h1, fieldArrayRange_yields _ _ _ h3⟩

theorem expressionBehind_yields (t : Token) : Yields (expressionBehind t) OptionOk := by
  intro ts e r h
  unfold expressionBehind at h
  split at h
  · split at h
    · simp only [Option.map_eq_some_iff, Prod.exists, Prod.mk.injEq] at h
      obtain ⟨e, r1, h1, rfl, rfl⟩ := h
      intro x hx
      cases hx
      exact exp_yields _ _ _ h1
    · cases h; exact nofun
  · cases h; exact nofun

theorem fieldBody_yields (a o : Option Exp) (ha : OptionOk a) (ho : OptionOk o) : Yields (fieldBody a o) (FieldOk false) := by
  intro ts f r h
  unfold fieldBody at h
  simp only [Option.bind_eq_some_iff, Option.map_eq_some_iff, Prod.exists, Prod.mk.injEq] at h
  obtain ⟨t, r1, h1, i, r2, h2, c, r3, h3, k, r4, h4, r5, _, rfl, rfl⟩ := h
  exact ⟨ha, ho, fieldTypeId_yields _ _ _ h1, expressionBehind_yields _ _ _ _ h2, expressionBehind_yields _ _ _ _ h3,
    expressionBehind_yields _ _ _ _ h4, nofun⟩

theorem fieldBehindAlign_yields (a : Option Exp) (ha : OptionOk a) : Yields (fieldBehindAlign a) (FieldOk false) := by
  intro ts f r h
  unfold fieldBehindAlign at h
  split at h
  · next q hq =>
    cases h
    simp only [Option.bind_eq_some_iff, Prod.exists] at hq
    obtain ⟨o, r1, h1, r2, _, h3⟩ := hq
    refine fieldBody_yields _ _ ha ?_ _ _ _ h3
    intro x hx
    cases hx
    exact exp_yields _ _ _ h1
  · exact fieldBody_yields _ _ ha (fun _ hx => by cases hx) _ _ _ h

theorem structureField_yields : Yields structureFieldDefinition (FieldOk false) := by
  intro ts f r h
  unfold structureFieldDefinition at h
  split at h
  · simp only [Option.bind_eq_some_iff, Prod.exists] at h
    obtain ⟨r1, _, a, r2, h1, r3, _, r4, _, h⟩ := h
    refine fieldBehindAlign_yields _ ?_ _ _ _ h
    intro x hx
    cases hx
    exact exp_yields _ _ _ h1
  · exact fieldBehindAlign_yields _ (fun _ hx => by cases hx) _ _ _ h

theorem unionField_yields : Yields unionFieldDefinition (ChoiceFieldOk false) := by
  intro ts f r h
  unfold unionFieldDefinition choiceFieldDefinition at h
  simp only [Option.bind_eq_some_iff, Option.map_eq_some_iff, Prod.exists, Prod.mk.injEq] at h
  obtain ⟨f, r1, ⟨t, r2, h2, k, r3, h3, rfl, rfl⟩, r4, _, rfl, rfl⟩ := h
  exact ⟨fieldTypeId_yields _ _ _ h2, expressionBehind_yields _ _ _ _ h3⟩

theorem fieldOrNothing_yields : Yields fieldOrNothing fun f => ∀ g, f = some g → ChoiceFieldOk false g := by
  intro ts f r h
  unfold fieldOrNothing at h
  split at h
  · cases h; simp
  · simp only [Option.map_eq_some_iff, Prod.exists, Prod.mk.injEq] at h
    obtain ⟨g, r1, h1, rfl, rfl⟩ := h
    intro g' e
    cases e
    exact unionField_yields _ _ _ h1

theorem choiceCase_yields : Yields choiceCase Bracketed := by
  intro ts e r h
  unfold choiceCase at h
  simp only [Option.bind_eq_some_iff, Option.map_eq_some_iff, Prod.exists, Prod.mk.injEq] at h
  obtain ⟨r1, _, e, r2, h2, r3, _, rfl, rfl⟩ := h
  exact exp_yields _ _ _ h2

theorem choiceCases_yields : Yields choiceCases (CasesOk false) := by
  intro ts c r h
  unfold choiceCases at h
  simp only [Option.bind_eq_some_iff, Option.map_eq_some_iff, Prod.exists, Prod.mk.injEq] at h
  obtain ⟨l, r1, h1, ls, r2, h2, f, r3, h3, rfl, rfl⟩ := h
  exact ⟨by simp, by simpa using ⟨choiceCase_yields _ _ _ h1, readMany_yields choiceCase_yields _ _ _ _ _ h2⟩,
    fieldOrNothing_yields _ _ _ h3⟩

theorem choiceDefault_yields : Yields choiceDefault fun f => ∀ g, f = some (some g) → ChoiceFieldOk false g := by
  intro ts f r h
  unfold choiceDefault at h
  split at h
  · simp only [Option.bind_eq_some_iff, Option.map_eq_some_iff, Prod.exists, Prod.mk.injEq] at h
    obtain ⟨r1, _, f, r2, h2, rfl, rfl⟩ := h
    intro g e
    cases e
    exact fieldOrNothing_yields _ _ _ h2 _ rfl
  · cases h; simp

theorem function_yields : Yields functionDefinition FunctionOk := by
  intro ts f r h
  unfold functionDefinition at h
  simp only [Option.bind_eq_some_iff, Option.map_eq_some_iff, Prod.exists, Prod.mk.injEq] at h
  obtain ⟨r1, _, t, r2, h2, x, r3, _, r4, _, r5, _, r6, _, r7, _, e, r8, h8, r9, _, r10, _, rfl, rfl⟩ := h
  exact ⟨readType_yields _ _ _ h2, exp_yields _ _ _ h8⟩

theorem functionsAndEnd_yields : Yields functionsAndEnd fun fs => ∀ f ∈ fs, FunctionOk f := by
  intro ts f r h
  unfold functionsAndEnd at h
  simp only [Option.bind_eq_some_iff, Option.map_eq_some_iff, Prod.exists, Prod.mk.injEq] at h
  obtain ⟨fs, r1, h1, r2, _, r3, _, rfl, rfl⟩ := h
  exact readMany_yields function_yields _ _ _ _ _ h1

theorem parameter_yields : Yields parameterDefinition fun p => TypeOk p.type := by
  intro ts p r h
  unfold parameterDefinition at h
  simp only [Option.bind_eq_some_iff, Option.map_eq_some_iff, Prod.exists, Prod.mk.injEq] at h
  obtain ⟨t, r1, h1, x, r2, _, rfl, rfl⟩ := h
  exact readType_yields _ _ _ h1

theorem typeParameters_yields : Yields typeParameters ParamsOk := by
  intro ts p r h
  unfold typeParameters at h
  split at h
  · simp only [Option.bind_eq_some_iff, Option.map_eq_some_iff, Prod.exists, Prod.mk.injEq] at h
    obtain ⟨ps, r1, h1, r2, _, rfl, rfl⟩ := h
    exact (readCommas_yields parameter_yields _ _ _ _ h1).2
  · cases h; exact nofun

theorem typeParameters_behind (ts : List Token) (ps : List Param) (r : List Token)
    (h : typeParameters (.lparen :: ts) = some (ps, r)) : ps ≠ [] := by
  unfold typeParameters at h
  simp only [Option.bind_eq_some_iff, Option.map_eq_some_iff, Prod.exists, Prod.mk.injEq] at h
  obtain ⟨ps, r1, h1, r2, _, rfl, rfl⟩ := h
  exact (readCommas_yields parameter_yields _ _ _ _ h1).1

theorem itemsAndEnd_yields {α : Type} {p : Reader α} {P : α → Prop} (hp : Yields p P) (n : Nat) :
    Yields (itemsAndEnd p n) fun xs => xs ≠ [] ∧ ∀ x ∈ xs, P x := by
  induction n with
  | zero => intro ts xs r h; cases h
  | succ n ih =>
    intro ts xs r h
    unfold itemsAndEnd at h
    replace h := Option.bind_eq_some_iff.1 h
    obtain ⟨⟨x, r1⟩, h1, h⟩ := h
    split at h <;>
    simp only [Option.bind_eq_some_iff, Option.map_eq_some_iff, Prod.exists, Prod.mk.injEq] at h
    · obtain ⟨r2, _, rfl, rfl⟩ := h
      exact ⟨by simp, by simpa using hp _ _ _ h1⟩
    · obtain ⟨ys, r2, h2, rfl, rfl⟩ := h
      exact ⟨by simp, by simpa using ⟨hp _ _ _ h1, (ih _ _ _ h2).2⟩⟩
    · obtain ⟨r2, _, r3, _, rfl, rfl⟩ := h
      exact ⟨by simp, by simpa using hp _ _ _ h1⟩

theorem enumItem_yields : Yields enumItem fun i => OptionOk i.value := by
  intro ts i r h
  unfold enumItem at h
  simp only [Option.bind_eq_some_iff, Option.map_eq_some_iff, Prod.exists, Prod.mk.injEq] at h
  obtain ⟨x, r1, _, v, r2, h2, rfl, rfl⟩ := h
  exact expressionBehind_yields _ _ _ _ h2

theorem bitmaskValue_yields : Yields bitmaskValue fun i => OptionOk i.2 := by
  intro ts i r h
  unfold bitmaskValue at h
  simp only [Option.bind_eq_some_iff, Option.map_eq_some_iff, Prod.exists, Prod.mk.injEq] at h
  obtain ⟨x, r1, _, v, r2, h2, rfl, rfl⟩ := h
  exact expressionBehind_yields _ _ _ _ h2

theorem alias_yields : Yields aliasDeclaration fun d => TypeOk d.type := by
  intro ts d r h
  unfold aliasDeclaration at h
  simp only [Option.bind_eq_some_iff, Option.map_eq_some_iff, Prod.exists, Prod.mk.injEq] at h
  obtain ⟨t, r1, h1, x, r2, _, r3, _, rfl, rfl⟩ := h
  exact readType_yields _ _ _ h1

theorem directive_yields : Yields languageDirective (DirectiveOk false) := by
  intro ts d r h
  unfold languageDirective at h
  split at h
  all_goals first
    | (cases h; done)
    | simp only [Option.map_eq_some_iff, Prod.exists, Prod.mk.injEq] at h
      obtain ⟨d, r1, h, rfl, rfl⟩ := h
  · unfold constDefinition at h
    simp only [Option.bind_eq_some_iff, Option.map_eq_some_iff, Prod.exists, Prod.mk.injEq] at h
    obtain ⟨t, r1, h1, x, r2, _, r3, _, e, r4, h4, r5, _, rfl, rfl⟩ := h
    exact ⟨typeInstantiation_yields _ _ _ h1, exp_yields _ _ _ h4⟩
  · exact alias_yields _ _ _ h
  · unfold structureDeclaration at h
    simp only [Option.bind_eq_some_iff, Option.map_eq_some_iff, Prod.exists, Prod.mk.injEq] at h
    obtain ⟨x, r1, _, t, r2, _, p, r3, h3, r4, _, f, r5, h5, g, r6, h6, rfl, rfl⟩ := h
    exact ⟨typeParameters_yields _ _ _ h3, readMany_yields structureField_yields _ _ _ _ _ h5,
      functionsAndEnd_yields _ _ _ h6⟩
  · unfold choiceDeclaration at h
    simp only [Option.bind_eq_some_iff, Option.map_eq_some_iff, Prod.exists, Prod.mk.injEq] at h
    obtain ⟨x, r1, _, t, r2, _, r3, _, p, r4, h4, r5, _, s, r6, h6, r7, _, c, r8, h8, d, r9, h9, g, r10, h10, rfl, rfl⟩ := h
    exact ⟨typeParameters_behind _ _ _ h4, typeParameters_yields _ _ _ h4, exp_yields _ _ _ h6,
      readMany_yields choiceCases_yields _ _ _ _ _ h8, choiceDefault_yields _ _ _ h9, functionsAndEnd_yields _ _ _ h10⟩
  · unfold unionDeclaration at h
    simp only [Option.bind_eq_some_iff, Option.map_eq_some_iff, Prod.exists, Prod.mk.injEq] at h
    obtain ⟨x, r1, _, t, r2, _, p, r3, h3, r4, _, f, r5, h5, g, r6, h6, rfl, rfl⟩ := h
    exact ⟨typeParameters_yields _ _ _ h3, readMany_yields unionField_yields _ _ _ _ _ h5,
      functionsAndEnd_yields _ _ _ h6⟩
  · unfold enumDeclaration at h
    simp only [Option.bind_eq_some_iff, Option.map_eq_some_iff, Prod.exists, Prod.mk.injEq] at h
    obtain ⟨t, r1, h1, x, r2, _, r3, _, i, r4, h4, rfl, rfl⟩ := h
    exact ⟨typeInstantiation_yields _ _ _ h1, itemsAndEnd_yields enumItem_yields _ _ _ _ h4⟩
  · unfold bitmaskDeclaration at h
    simp only [Option.bind_eq_some_iff, Option.map_eq_some_iff, Prod.exists, Prod.mk.injEq] at h
    obtain ⟨t, r1, h1, x, r2, _, r3, _, i, r4, h4, rfl, rfl⟩ := h
    exact ⟨typeInstantiation_yields _ _ _ h1, itemsAndEnd_yields bitmaskValue_yields _ _ _ _ h4⟩
  · exact alias_yields _ _ _ h

theorem import_yields : Yields importDeclaration fun i => i.star = false → i.rest ≠ [] := by
  intro ts i r h
  unfold importDeclaration at h
  simp only [Option.bind_eq_some_iff, Prod.exists] at h
  obtain ⟨r1, _, x, r2, _, h⟩ := h
  split at h
  · cases h; exact nofun
  · split at h
    · cases h
    · next hne => cases h; exact fun _ => hne
  · cases h

theorem file_yields {ts : List Token} {p : Package} (h : parseFile ts = some p) : FileOk false p := by
  unfold parseFile at h
  simp only [Option.bind_eq_some_iff, Prod.exists] at h
  obtain ⟨c, r1, _, x, r2, h2, is, r3, h3, ds, r4, h4, h⟩ := h
  split at h
  · cases h
    refine ⟨?_, readMany_yields import_yields _ _ _ _ _ h3, readMany_yields directive_yields _ _ _ _ _ h4⟩
    simp only
    unfold packageName at h2
    split at h2
    · simp only [Option.bind_eq_some_iff, Option.map_eq_some_iff, Prod.exists, Prod.mk.injEq] at h2
      obtain ⟨_, _, _, _, _, rfl, rfl⟩ := h2
      simp
    · cases h2; simp
  · cases h

end Zs.Src
