import Verif.FileDecls

/-!
# Lemmas: the parser reads nothing else
-/

namespace Zs.Src

open Spec

/-- Decimal numbers have no zeros in front. -/
def Canon (ts : List Token) : Prop := ∀ x, Token.lit .decimal x ∈ ts → Nat.toDigits 10 (decimalNumber x) = x

theorem Canon.suffix {a b : List Token} (h : Canon (a ++ b)) : Canon b := fun x hx => h x (by simp [hx])

theorem Canon.tail {t : Token} {b : List Token} (h : Canon (t :: b)) : Canon b := fun x hx => h x (by simp [hx])

/-- What the reader reads is the text of the result. -/
def Sound {α : Type} (p : Reader α) (w : α → List Token) : Prop :=
  ∀ ts x r, Canon ts → p ts = some (x, r) → ts = w x ++ r

theorem readId_sound {ts r : List Token} {x : String} (h : readId ts = some (x, r)) : ts = .id x :: r := by
  unfold readId at h
  split at h
  · cases h; rfl
  · cases h

theorem readFlag_sound (w : String) (ts : List Token) : ts = writtenFlag w (readFlag w ts).1 ++ (readFlag w ts).2 := by
  unfold readFlag
  split
  · next v us =>
    split
    · next h => subst h; rfl
    · rfl
  · rfl

theorem readCommas_sound {α : Type} {p : Reader α} {w : α → List Token} (hp : Sound p w) (n : Nat) :
    ∀ ts xs r, Canon ts → readCommas p n ts = some (xs, r) → ts = separated (xs.map w) ++ r ∧ xs ≠ [] := by
  induction n with
  | zero => intro ts xs r _ h; cases h
  | succ n ih =>
    intro ts xs r hc h
    unfold readCommas at h
    replace h := Option.bind_eq_some_iff.1 h
    obtain ⟨⟨x, r1⟩, h1, h⟩ := h
    have e := hp _ _ _ hc h1
    subst e
    split at h
    · next us hu =>
      simp only at hu
      subst hu
      replace h := Option.map_eq_some_iff.1 h
      obtain ⟨⟨ys, r2⟩, h2, h⟩ := h
      cases h
      obtain ⟨e2, hne⟩ := ih _ _ _ hc.suffix.tail h2
      refine ⟨?_, by simp⟩
      rw [List.map_cons, separated_cons _ (by simpa using hne), e2]
      simp
    · cases h
      exact ⟨by simp [separated], by simp⟩

theorem readMany_sound {α : Type} {p : Reader α} {w : α → List Token} (hp : Sound p w) (stop : Token → Bool) (n : Nat) :
    ∀ ts xs r, Canon ts → readMany stop p n ts = some (xs, r) → ts = xs.flatMap w ++ r := by
  induction n with
  | zero => intro ts xs r _ h; cases h; rfl
  | succ n ih =>
    intro ts xs r hc h
    unfold readMany at h
    split at h
    · cases h; rfl
    · next t us =>
      split at h
      · cases h; rfl
      · replace h := Option.bind_eq_some_iff.1 h
        obtain ⟨⟨x, r1⟩, h1, h⟩ := h
        replace h := Option.map_eq_some_iff.1 h
        obtain ⟨⟨ys, r2⟩, h2, h⟩ := h
        cases h
        have e := hp _ _ _ hc h1
        rw [e] at hc
        rw [e, ih _ _ _ hc.suffix h2]
        simp

theorem exp_sound : Sound parseExpression written := fun _ _ _ _ h => (C79_only _ _ _ h).1

theorem separated_writtenTypes (t : Ty) (l : List Ty) (h : l ≠ []) :
    separated (writtenTypes (t :: l)) = writtenType t ++ .comma :: separated (writtenTypes l) := by
  cases l with
  | nil => exact absurd rfl h
  | cons u l => simp [writtenTypes, separated]

theorem typeReference_sound (n : Nat) : Sound (typeReference n) writtenType ∧
    ∀ ts l r, Canon ts → templateArguments n ts = some (l, r) → ts = separated (writtenTypes l) ++ .gt :: r ∧ l ≠ [] := by
  induction n with
  | zero => exact ⟨fun _ _ _ _ h => by simp [typeReference] at h, fun _ _ _ _ h => by simp [templateArguments] at h⟩
  | succ n ih =>
    constructor
    · intro ts t r hc h
      unfold typeReference at h
      split at h
      · next w us =>
        split at h
        · split at h
          · next x vs =>
            split at h
            · next hw =>
              cases h
              have hx := hc x (by simp)
              rcases hw with rfl | rfl <;> simp [writtenType, hx]
            · cases h; rfl
          · cases h; rfl
        · cases h
      · next x us =>
        have e := moreIds_sound us
        generalize moreIds us = m at e h
        subst e
        split at h
        · next vs hv =>
          rw [hv] at hc ⊢
          split at h
          · next q hq =>
            cases h
            obtain ⟨e, hne⟩ := ih.2 _ _ _ hc.tail.suffix.tail hq
            obtain ⟨l, r⟩ := q
            cases l with
            | nil => exact absurd rfl hne
            | cons a as =>
              simp only at e ⊢
              simp [writtenType, e]
          · cases h
            simp [writtenType]
        · cases h
          simp [writtenType]
      · cases h
    · intro ts l r hc h
      unfold templateArguments at h
      replace h := Option.bind_eq_some_iff.1 h
      obtain ⟨⟨t, r1⟩, h1, h⟩ := h
      have e := ih.1 _ _ _ hc h1
      subst e
      split at h
      · next us hu =>
        simp only at hu
        subst hu
        replace h := Option.map_eq_some_iff.1 h
        obtain ⟨⟨ys, r2⟩, h2, h⟩ := h
        cases h
        obtain ⟨e2, hne⟩ := ih.2 _ _ _ hc.suffix.tail h2
        refine ⟨?_, by simp⟩
        rw [separated_writtenTypes _ _ hne, e2]
        simp
      · next us hu =>
        simp only at hu
        subst hu
        cases h
        exact ⟨by simp [writtenTypes, separated], by simp⟩
      · cases h

theorem readType_sound : Sound readType writtenType := fun ts => (typeReference_sound _).1 ts

theorem typeArgument_sound : Sound typeArgument writtenArg := by
  intro ts a r hc h
  unfold typeArgument at h
  split at h
  · replace h := Option.map_eq_some_iff.1 h
    obtain ⟨⟨x, r1⟩, h1, h⟩ := h
    cases h
    rw [readId_sound h1]; rfl
  · replace h := Option.map_eq_some_iff.1 h
    obtain ⟨⟨x, r1⟩, h1, h⟩ := h
    cases h
    exact exp_sound _ _ _ hc h1

theorem readArgs_sound : Sound readArgs writtenArgs := by
  intro ts a r hc h
  unfold readArgs at h
  split at h
  · replace h := Option.bind_eq_some_iff.1 h
    obtain ⟨⟨xs, r1⟩, h1, h⟩ := h
    replace h := Option.bind_eq_some_iff.1 h
    obtain ⟨r2, h2, h⟩ := h
    obtain ⟨e, _⟩ := readCommas_sound typeArgument_sound _ _ _ _ hc.tail h1
    simp only [matchToken_some] at h2
    subst h2
    split at h
    · next a as hx =>
      cases h
      simp only at hx
      subst hx
      simp [writtenArgs, e]
    · cases h
  · replace h := Option.map_eq_some_iff.1 h
    obtain ⟨⟨x, r1⟩, h1, h⟩ := h
    cases h
    simp [writtenArgs, lengthArgument_sound h1]
  · cases h; rfl

theorem typeInstantiation_sound : Sound typeInstantiation writtenInst := by
  intro ts i r hc h
  unfold typeInstantiation at h
  replace h := Option.bind_eq_some_iff.1 h
  obtain ⟨⟨t, r1⟩, h1, h⟩ := h
  replace h := Option.map_eq_some_iff.1 h
  obtain ⟨⟨a, r2⟩, h2, h⟩ := h
  cases h
  have e := readType_sound _ _ _ hc h1
  subst e
  have e2 := readArgs_sound _ _ _ hc.suffix h2
  simp [writtenInst, e2]

theorem fieldArrayRange_sound : Sound fieldArrayRange writtenArray := by
  intro ts a r hc h
  unfold fieldArrayRange at h
  split at h
  · split at h
    · cases h; rfl
    · replace h := Option.bind_eq_some_iff.1 h
      obtain ⟨⟨x, r1⟩, h1, h⟩ := h
      replace h := Option.map_eq_some_iff.1 h
      obtain ⟨r2, h2, h⟩ := h
      cases h
      simp only [matchToken_some] at h2
      subst h2
      rw [exp_sound _ _ _ hc.tail h1]
      simp [writtenArray]
  · cases h; rfl

theorem fieldTypeId_sound : Sound fieldTypeId writtenTypeId := by
  intro ts f r hc h
  unfold fieldTypeId at h
  have e1 := readFlag_sound "packed" ts
  generalize readFlag "packed" ts = b1 at e1 h
  subst e1
  have e2 := readFlag_sound "implicit" b1.2
  generalize readFlag "implicit" b1.2 = b2 at e2 h
  rw [e2] at hc ⊢
  replace h := Option.bind_eq_some_iff.1 h
  obtain ⟨⟨t, r1⟩, h1, h⟩ := h
  replace h := Option.bind_eq_some_iff.1 h
  obtain ⟨⟨x, r2⟩, h2, h⟩ := h
  replace h := Option.map_eq_some_iff.1 h
  obtain ⟨⟨a, r3⟩, h3, h⟩ := h
  cases h
  have hc2 := hc.suffix.suffix
  have e3 := typeInstantiation_sound _ _ _ hc2 h1
  rw [e3] at hc2 ⊢
  have e4 := readId_sound h2
  simp only at e4
  subst e4
  have e5 := fieldArrayRange_sound _ _ _ hc2.suffix.tail h3
  simp [writtenTypeId, e5]

theorem expressionBehind_sound (t : Token) : Sound (expressionBehind t) (writtenBehind t) := by
  intro ts e r hc h
  unfold expressionBehind at h
  split at h
  · split at h
    · next hu =>
      subst hu
      replace h := Option.map_eq_some_iff.1 h
      obtain ⟨⟨x, r1⟩, h1, h⟩ := h
      cases h
      rw [exp_sound _ _ _ hc.tail h1]
      rfl
    · cases h; rfl
  · cases h; rfl

theorem fieldBody_sound (a o : Option Exp) (ts : List Token) (f : StructField) (r : List Token) (hc : Canon ts)
    (h : fieldBody a o ts = some (f, r)) : ts = writtenBody f ++ r ∧ f.align = a ∧ f.offset = o := by
  unfold fieldBody at h
  have e1 := readFlag_sound "extend" ts
  generalize readFlag "extend" ts = b1 at e1 h
  subst e1
  have e2 := readFlag_sound "optional" b1.2
  generalize readFlag "optional" b1.2 = b2 at e2 h
  rw [e2] at hc ⊢
  replace h := Option.bind_eq_some_iff.1 h
  obtain ⟨⟨t, r1⟩, h1, h⟩ := h
  replace h := Option.bind_eq_some_iff.1 h
  obtain ⟨⟨i, r2⟩, h2, h⟩ := h
  replace h := Option.bind_eq_some_iff.1 h
  obtain ⟨⟨c, r3⟩, h3, h⟩ := h
  replace h := Option.bind_eq_some_iff.1 h
  obtain ⟨⟨k, r4⟩, h4, h⟩ := h
  replace h := Option.map_eq_some_iff.1 h
  obtain ⟨r5, h5, h⟩ := h
  cases h
  simp only [matchToken_some] at h2 h3 h4 h5
  have hc2 := hc.suffix.suffix
  have e3 := fieldTypeId_sound _ _ _ hc2 h1
  rw [e3] at hc2 ⊢
  have e4 := expressionBehind_sound _ _ _ _ hc2.suffix h2
  subst e4
  have e5 := expressionBehind_sound _ _ _ _ hc2.suffix.suffix h3
  subst e5
  have e6 := expressionBehind_sound _ _ _ _ hc2.suffix.suffix.suffix h4
  subst e6
  subst h5
  exact ⟨by simp [writtenBody], rfl, rfl⟩

theorem fieldBehindAlign_sound (a : Option Exp) (ts : List Token) (f : StructField) (r : List Token) (hc : Canon ts)
    (h : fieldBehindAlign a ts = some (f, r)) : ts = writtenOffset f.offset ++ writtenBody f ++ r ∧ f.align = a := by
  unfold fieldBehindAlign at h
  split at h
  · next q hq =>
    cases h
    replace hq := Option.bind_eq_some_iff.1 hq
    obtain ⟨⟨o, r1⟩, h1, h⟩ := hq
    replace h := Option.bind_eq_some_iff.1 h
    obtain ⟨r2, h2, h⟩ := h
    simp only [matchToken_some] at h2
    subst h2
    have e := exp_sound _ _ _ hc h1
    subst e
    obtain ⟨e2, e3, e4⟩ := fieldBody_sound _ _ _ _ _ hc.suffix.tail h
    simp [e4, e3, e2, writtenOffset]
  · obtain ⟨e2, e3, e4⟩ := fieldBody_sound _ _ _ _ _ hc h
    simp [e4, e3, e2, writtenOffset]

theorem structureField_sound : Sound structureFieldDefinition writtenField := by
  intro ts f r hc h
  unfold structureFieldDefinition at h
  split at h
  · next us =>
    replace h := Option.bind_eq_some_iff.1 h
    obtain ⟨r1, h1, h⟩ := h
    replace h := Option.bind_eq_some_iff.1 h
    obtain ⟨⟨a, r2⟩, h2, h⟩ := h
    replace h := Option.bind_eq_some_iff.1 h
    obtain ⟨r3, h3, h⟩ := h
    replace h := Option.bind_eq_some_iff.1 h
    obtain ⟨r4, h4, h⟩ := h
    simp only [matchToken_some] at h1 h3 h4
    subst h1
    have e := exp_sound _ _ _ hc.tail.tail h2
    subst e
    subst h3
    subst h4
    obtain ⟨e2, e3⟩ := fieldBehindAlign_sound _ _ _ _ hc.tail.tail.suffix.tail.tail h
    simp [writtenField, e3, e2, writtenAlign]
  · obtain ⟨e2, e3⟩ := fieldBehindAlign_sound _ _ _ _ hc h
    simp [writtenField, e3, e2, writtenAlign]

theorem unionField_sound : Sound unionFieldDefinition writtenChoiceField := by
  intro ts f r hc h
  unfold unionFieldDefinition choiceFieldDefinition at h
  replace h := Option.bind_eq_some_iff.1 h
  obtain ⟨⟨f1, r1⟩, h1, h⟩ := h
  replace h1 := Option.bind_eq_some_iff.1 h1
  obtain ⟨⟨t, r2⟩, h2, h1⟩ := h1
  replace h1 := Option.map_eq_some_iff.1 h1
  obtain ⟨⟨k, r3⟩, h3, h1⟩ := h1
  replace h := Option.map_eq_some_iff.1 h
  obtain ⟨r4, h4, h⟩ := h
  cases h1
  cases h
  simp only [matchToken_some] at h3 h4
  have e := fieldTypeId_sound _ _ _ hc h2
  subst e
  have e := expressionBehind_sound _ _ _ _ hc.suffix h3
  subst e
  subst h4
  simp [writtenChoiceField]

theorem fieldOrNothing_sound : Sound fieldOrNothing writtenCaseField := by
  intro ts f r hc h
  unfold fieldOrNothing at h
  split at h
  · cases h; rfl
  · replace h := Option.map_eq_some_iff.1 h
    obtain ⟨⟨x, r1⟩, h1, h⟩ := h
    cases h
    exact unionField_sound _ _ _ hc h1

theorem choiceCase_sound : Sound choiceCase fun e => [Token.other "case"] ++ written e ++ [.colon] := by
  intro ts e r hc h
  unfold choiceCase at h
  replace h := Option.bind_eq_some_iff.1 h
  obtain ⟨r1, h1, h⟩ := h
  replace h := Option.bind_eq_some_iff.1 h
  obtain ⟨⟨e, r2⟩, h2, h⟩ := h
  replace h := Option.map_eq_some_iff.1 h
  obtain ⟨r3, h3, h⟩ := h
  cases h
  simp only [matchToken_some] at h1 h3
  subst h1
  have e := exp_sound _ _ _ hc.tail h2
  subst e
  subst h3
  simp

theorem choiceCases_sound : Sound choiceCases writtenCases := by
  intro ts c r hc h
  unfold choiceCases at h
  replace h := Option.bind_eq_some_iff.1 h
  obtain ⟨⟨l, r1⟩, h1, h⟩ := h
  replace h := Option.bind_eq_some_iff.1 h
  obtain ⟨⟨ls, r2⟩, h2, h⟩ := h
  replace h := Option.map_eq_some_iff.1 h
  obtain ⟨⟨f, r3⟩, h3, h⟩ := h
  cases h
  have e := choiceCase_sound _ _ _ hc h1
  rw [e] at hc ⊢
  have e2 := readMany_sound choiceCase_sound _ _ _ _ _ hc.suffix h2
  simp only at e2 h3
  rw [e2] at hc ⊢
  rw [fieldOrNothing_sound _ _ _ hc.suffix.suffix h3]
  simp [writtenCases]

theorem choiceDefault_sound : Sound choiceDefault writtenDefault := by
  intro ts f r hc h
  unfold choiceDefault at h
  split at h
  · replace h := Option.bind_eq_some_iff.1 h
    obtain ⟨r1, h1, h⟩ := h
    replace h := Option.map_eq_some_iff.1 h
    obtain ⟨⟨f, r2⟩, h2, h⟩ := h
    cases h
    simp only [matchToken_some] at h1
    subst h1
    rw [fieldOrNothing_sound _ _ _ hc.tail.tail h2]
    rfl
  · cases h; rfl

theorem function_sound : Sound functionDefinition writtenFunction := by
  intro ts f r hc h
  unfold functionDefinition at h
  replace h := Option.bind_eq_some_iff.1 h
  obtain ⟨r1, h1, h⟩ := h
  replace h := Option.bind_eq_some_iff.1 h
  obtain ⟨⟨t, r2⟩, h2, h⟩ := h
  replace h := Option.bind_eq_some_iff.1 h
  obtain ⟨⟨x, r3⟩, h3, h⟩ := h
  replace h := Option.bind_eq_some_iff.1 h
  obtain ⟨r4, h4, h⟩ := h
  replace h := Option.bind_eq_some_iff.1 h
  obtain ⟨r5, h5, h⟩ := h
  replace h := Option.bind_eq_some_iff.1 h
  obtain ⟨r6, h6, h⟩ := h
  replace h := Option.bind_eq_some_iff.1 h
  obtain ⟨r7, h7, h⟩ := h
  replace h := Option.bind_eq_some_iff.1 h
  obtain ⟨⟨e, r8⟩, h8, h⟩ := h
  replace h := Option.bind_eq_some_iff.1 h
  obtain ⟨r9, h9, h⟩ := h
  replace h := Option.map_eq_some_iff.1 h
  obtain ⟨r10, h10, h⟩ := h
  cases h
  simp only [matchToken_some] at h1 h4 h5 h6 h7 h9 h10
  subst h1
  have e := readType_sound _ _ _ hc.tail h2
  subst e
  have e := readId_sound h3
  simp only at e
  subst e h4 h5 h6 h7
  have e := exp_sound _ _ _ hc.tail.suffix.tail.tail.tail.tail.tail h8
  subst e h9 h10
  simp [writtenFunction]

theorem functionsAndEnd_sound : Sound functionsAndEnd writtenEnd := by
  intro ts f r hc h
  unfold functionsAndEnd at h
  replace h := Option.bind_eq_some_iff.1 h
  obtain ⟨⟨fs, r1⟩, h1, h⟩ := h
  replace h := Option.bind_eq_some_iff.1 h
  obtain ⟨r2, h2, h⟩ := h
  replace h := Option.map_eq_some_iff.1 h
  obtain ⟨r3, h3, h⟩ := h
  cases h
  simp only [matchToken_some] at h2 h3
  subst h2 h3
  rw [readMany_sound function_sound _ _ _ _ _ hc h1]
  simp [writtenEnd]

theorem parameter_sound : Sound parameterDefinition writtenParam := by
  intro ts p r hc h
  unfold parameterDefinition at h
  replace h := Option.bind_eq_some_iff.1 h
  obtain ⟨⟨t, r1⟩, h1, h⟩ := h
  replace h := Option.map_eq_some_iff.1 h
  obtain ⟨⟨x, r2⟩, h2, h⟩ := h
  cases h
  have e := readId_sound h2
  simp only at e
  subst e
  rw [readType_sound _ _ _ hc h1]
  simp [writtenParam]

theorem typeParameters_sound : Sound typeParameters writtenParams := by
  intro ts p r hc h
  unfold typeParameters at h
  split at h
  · replace h := Option.bind_eq_some_iff.1 h
    obtain ⟨⟨ps, r1⟩, h1, h⟩ := h
    replace h := Option.map_eq_some_iff.1 h
    obtain ⟨r2, h2, h⟩ := h
    cases h
    simp only [matchToken_some] at h2
    subst h2
    obtain ⟨e, hne⟩ := readCommas_sound parameter_sound _ _ _ _ hc.tail h1
    cases ps with
    | nil => exact absurd rfl hne
    | cons p ps => rw [e]; simp [writtenParams]
  · cases h; rfl

theorem templateParameters_sound : Sound templateParameters writtenTemplates := by
  intro ts p r hc h
  unfold templateParameters at h
  split at h
  · replace h := Option.bind_eq_some_iff.1 h
    obtain ⟨⟨ps, r1⟩, h1, h⟩ := h
    replace h := Option.map_eq_some_iff.1 h
    obtain ⟨r2, h2, h⟩ := h
    cases h
    simp only [matchToken_some] at h2
    subst h2
    obtain ⟨e, hne⟩ := readCommas_sound (w := fun x => [Token.id x]) (fun _ _ _ _ h => readId_sound h) _ _ _ _ hc.tail h1
    cases ps with
    | nil => exact absurd rfl hne
    | cons p ps => rw [e]; simp [writtenTemplates]
  · cases h; rfl

theorem structure_sound : Sound structureDeclaration fun d => .id d.name :: (writtenTemplates d.templates ++
    (writtenParams d.params ++ (.other "{" :: (d.fields.flatMap writtenField ++ writtenEnd d.functions)))) := by
  intro ts d r hc h
  unfold structureDeclaration at h
  replace h := Option.bind_eq_some_iff.1 h
  obtain ⟨⟨x, r1⟩, h1, h⟩ := h
  replace h := Option.bind_eq_some_iff.1 h
  obtain ⟨⟨t, r2⟩, h2, h⟩ := h
  replace h := Option.bind_eq_some_iff.1 h
  obtain ⟨⟨p, r3⟩, h3, h⟩ := h
  replace h := Option.bind_eq_some_iff.1 h
  obtain ⟨r4, h4, h⟩ := h
  replace h := Option.bind_eq_some_iff.1 h
  obtain ⟨⟨f, r5⟩, h5, h⟩ := h
  replace h := Option.map_eq_some_iff.1 h
  obtain ⟨⟨g, r6⟩, h6, h⟩ := h
  cases h
  simp only [matchToken_some] at h2 h3 h4 h6
  have e := readId_sound h1
  subst e
  have e := templateParameters_sound _ _ _ hc.tail h2
  subst e
  have e := typeParameters_sound _ _ _ hc.tail.suffix h3
  subst e
  subst h4
  have e := readMany_sound structureField_sound _ _ _ _ _ hc.tail.suffix.suffix.tail h5
  subst e
  rw [functionsAndEnd_sound _ _ _ hc.tail.suffix.suffix.tail.suffix h6]
  simp

theorem union_sound : Sound unionDeclaration fun d => .id d.name :: (writtenTemplates d.templates ++
    (writtenParams d.params ++ (.other "{" :: (d.fields.flatMap writtenChoiceField ++ writtenEnd d.functions)))) := by
  intro ts d r hc h
  unfold unionDeclaration at h
  replace h := Option.bind_eq_some_iff.1 h
  obtain ⟨⟨x, r1⟩, h1, h⟩ := h
  replace h := Option.bind_eq_some_iff.1 h
  obtain ⟨⟨t, r2⟩, h2, h⟩ := h
  replace h := Option.bind_eq_some_iff.1 h
  obtain ⟨⟨p, r3⟩, h3, h⟩ := h
  replace h := Option.bind_eq_some_iff.1 h
  obtain ⟨r4, h4, h⟩ := h
  replace h := Option.bind_eq_some_iff.1 h
  obtain ⟨⟨f, r5⟩, h5, h⟩ := h
  replace h := Option.map_eq_some_iff.1 h
  obtain ⟨⟨g, r6⟩, h6, h⟩ := h
  cases h
  simp only [matchToken_some] at h2 h3 h4 h6
  have e := readId_sound h1
  subst e
  have e := templateParameters_sound _ _ _ hc.tail h2
  subst e
  have e := typeParameters_sound _ _ _ hc.tail.suffix h3
  subst e
  subst h4
  have e := readMany_sound unionField_sound _ _ _ _ _ hc.tail.suffix.suffix.tail h5
  subst e
  rw [functionsAndEnd_sound _ _ _ hc.tail.suffix.suffix.tail.suffix h6]
  simp

theorem choice_sound : Sound choiceDeclaration fun d => .id d.name :: (writtenTemplates d.templates ++
    (writtenParams d.params ++ (.other "on" :: (written d.selector ++ (.other "{" :: (d.cases.flatMap writtenCases ++
      (writtenDefault d.default_ ++ writtenEnd d.functions))))))) := by
  intro ts d r hc h
  unfold choiceDeclaration at h
  replace h := Option.bind_eq_some_iff.1 h
  obtain ⟨⟨x, r1⟩, h1, h⟩ := h
  replace h := Option.bind_eq_some_iff.1 h
  obtain ⟨⟨t, r2⟩, h2, h⟩ := h
  replace h := Option.bind_eq_some_iff.1 h
  obtain ⟨r2', h2', h⟩ := h
  replace h := Option.bind_eq_some_iff.1 h
  obtain ⟨⟨p, r3⟩, h3, h⟩ := h
  replace h := Option.bind_eq_some_iff.1 h
  obtain ⟨r4, h4, h⟩ := h
  replace h := Option.bind_eq_some_iff.1 h
  obtain ⟨⟨s, r5⟩, h5, h⟩ := h
  replace h := Option.bind_eq_some_iff.1 h
  obtain ⟨r6, h6, h⟩ := h
  replace h := Option.bind_eq_some_iff.1 h
  obtain ⟨⟨c, r7⟩, h7, h⟩ := h
  replace h := Option.bind_eq_some_iff.1 h
  obtain ⟨⟨f, r8⟩, h8, h⟩ := h
  replace h := Option.map_eq_some_iff.1 h
  obtain ⟨⟨g, r9⟩, h9, h⟩ := h
  cases h
  simp only [matchToken_some] at h2 h2' h3 h4 h6 h8 h9
  have e := readId_sound h1
  subst e
  have e := templateParameters_sound _ _ _ hc.tail h2
  subst e
  rw [← h2'] at h3
  have e := typeParameters_sound _ _ _ hc.tail.suffix h3
  subst e
  subst h4
  have e := exp_sound _ _ _ hc.tail.suffix.suffix.tail h5
  subst e
  subst h6
  have hc2 := hc.tail.suffix.suffix.tail.suffix.tail
  have e := readMany_sound choiceCases_sound _ _ _ _ _ hc2 h7
  subst e
  have e := choiceDefault_sound _ _ _ hc2.suffix h8
  subst e
  rw [functionsAndEnd_sound _ _ _ hc2.suffix.suffix h9]
  simp

theorem itemsAndEnd_sound {α : Type} {p : Reader α} {w : α → List Token} (hp : Sound p w) (n : Nat) :
    ∀ ts xs r, Canon ts → itemsAndEnd p n ts = some (xs, r) → xs ≠ [] ∧
      (ts = separated (xs.map w) ++ .other "}" :: .other ";" :: r ∨
       ts = separated (xs.map w) ++ .comma :: .other "}" :: .other ";" :: r) := by
  induction n with
  | zero => intro ts xs r _ h; cases h
  | succ n ih =>
    intro ts xs r hc h
    unfold itemsAndEnd at h
    replace h := Option.bind_eq_some_iff.1 h
    obtain ⟨⟨x, r1⟩, h1, h⟩ := h
    have e := hp _ _ _ hc h1
    subst e
    split at h
    · next us hu =>
      simp only at hu
      subst hu
      replace h := Option.map_eq_some_iff.1 h
      obtain ⟨r2, h2, h⟩ := h
      cases h
      rw [matchToken_some] at h2
      subst h2
      exact ⟨by simp, .inr (by simp [separated])⟩
    · next us _ hu =>
      simp only at hu
      subst hu
      replace h := Option.map_eq_some_iff.1 h
      obtain ⟨⟨ys, r2⟩, h2, h⟩ := h
      cases h
      obtain ⟨hne, e2⟩ := ih _ _ _ hc.suffix.tail h2
      refine ⟨by simp, ?_⟩
      rw [List.map_cons, separated_cons _ (by simpa using hne)]
      rcases e2 with e2 | e2
      · exact .inl (by rw [e2]; simp)
      · exact .inr (by rw [e2]; simp)
    · replace h := Option.bind_eq_some_iff.1 h
      obtain ⟨r2, h2, h⟩ := h
      replace h := Option.map_eq_some_iff.1 h
      obtain ⟨r3, h3, h⟩ := h
      cases h
      simp only [matchToken_some] at h2 h3
      subst h2 h3
      exact ⟨by simp, .inl (by simp [separated])⟩

theorem enumItem_sound : Sound enumItem writtenItem := by
  intro ts i r hc h
  unfold enumItem at h
  simp only at h
  replace h := Option.bind_eq_some_iff.1 h
  obtain ⟨⟨x, r1⟩, h1, h⟩ := h
  replace h := Option.map_eq_some_iff.1 h
  obtain ⟨⟨v, r2⟩, h2, h⟩ := h
  cases h
  have e := readId_sound h1
  simp only at h2
  split at e
  · simp only at e
    subst e
    rw [expressionBehind_sound _ _ _ _ hc.tail.tail h2]
    simp [writtenItem]
  · simp only at e
    subst e
    rw [expressionBehind_sound _ _ _ _ hc.tail.tail h2]
    simp [writtenItem]
  · simp only at e
    subst e
    rw [expressionBehind_sound _ _ _ _ hc.tail h2]
    simp [writtenItem]

theorem bitmaskValue_sound : Sound bitmaskValue writtenValue := by
  intro ts i r hc h
  unfold bitmaskValue at h
  replace h := Option.bind_eq_some_iff.1 h
  obtain ⟨⟨x, r1⟩, h1, h⟩ := h
  replace h := Option.map_eq_some_iff.1 h
  obtain ⟨⟨v, r2⟩, h2, h⟩ := h
  cases h
  have e := readId_sound h1
  subst e
  rw [expressionBehind_sound _ _ _ _ hc.tail h2]
  simp [writtenValue]

theorem alias_sound : Sound aliasDeclaration fun d => writtenType d.type ++ [.id d.name, .other ";"] := by
  intro ts d r hc h
  unfold aliasDeclaration at h
  replace h := Option.bind_eq_some_iff.1 h
  obtain ⟨⟨t, r1⟩, h1, h⟩ := h
  replace h := Option.bind_eq_some_iff.1 h
  obtain ⟨⟨x, r2⟩, h2, h⟩ := h
  replace h := Option.map_eq_some_iff.1 h
  obtain ⟨r3, h3, h⟩ := h
  cases h
  simp only [matchToken_some] at h3
  have e := readId_sound h2
  simp only at e
  subst e h3
  rw [readType_sound _ _ _ hc h1]
  simp

theorem const_sound : Sound constDefinition fun d =>
    writtenInst d.type ++ [.id d.name, .other "="] ++ written d.value ++ [.other ";"] := by
  intro ts d r hc h
  unfold constDefinition at h
  replace h := Option.bind_eq_some_iff.1 h
  obtain ⟨⟨t, r1⟩, h1, h⟩ := h
  replace h := Option.bind_eq_some_iff.1 h
  obtain ⟨⟨x, r2⟩, h2, h⟩ := h
  replace h := Option.bind_eq_some_iff.1 h
  obtain ⟨r3, h3, h⟩ := h
  replace h := Option.bind_eq_some_iff.1 h
  obtain ⟨⟨v, r4⟩, h4, h⟩ := h
  replace h := Option.map_eq_some_iff.1 h
  obtain ⟨r5, h5, h⟩ := h
  cases h
  simp only [matchToken_some] at h3 h5
  have e := readId_sound h2
  simp only at e
  subst e h3
  have e := typeInstantiation_sound _ _ _ hc h1
  subst e
  have e := exp_sound _ _ _ hc.suffix.tail.tail h4
  subst e h5
  simp

theorem directive_sound {ts : List Token} {d : Directive} {r : List Token} (hc : Canon ts)
    (h : languageDirective ts = some (d, r)) : ∃ us, DirectiveText d us ∧ ts = us ++ r := by
  unfold languageDirective at h
  split at h
  all_goals first
    | (cases h; done)
    | replace h := Option.map_eq_some_iff.1 h
      obtain ⟨⟨d, r1⟩, h1, h⟩ := h
      cases h
  · exact ⟨_, .plain _ (by simp), by rw [const_sound _ _ _ hc.tail h1]; simp [writtenDirective]⟩
  · exact ⟨_, .plain _ (by simp), by rw [alias_sound _ _ _ hc.tail h1]; simp [writtenDirective]⟩
  · exact ⟨_, .plain _ (by simp), by rw [structure_sound _ _ _ hc.tail h1]; simp [writtenDirective]⟩
  · exact ⟨_, .plain _ (by simp), by rw [choice_sound _ _ _ hc.tail h1]; simp [writtenDirective]⟩
  · exact ⟨_, .plain _ (by simp), by rw [union_sound _ _ _ hc.tail h1]; simp [writtenDirective]⟩
  · unfold enumDeclaration at h1
    replace h1 := Option.bind_eq_some_iff.1 h1
    obtain ⟨⟨t, r1⟩, h1, h⟩ := h1
    replace h := Option.bind_eq_some_iff.1 h
    obtain ⟨⟨x, r2⟩, h2, h⟩ := h
    replace h := Option.bind_eq_some_iff.1 h
    obtain ⟨r3, h3, h⟩ := h
    replace h := Option.map_eq_some_iff.1 h
    obtain ⟨⟨l, r4⟩, h4, h⟩ := h
    cases h
    simp only [matchToken_some] at h3
    have e := readId_sound h2
    simp only at e
    subst e h3
    have e := typeInstantiation_sound _ _ _ hc.tail h1
    subst e
    obtain ⟨_, e | e⟩ := itemsAndEnd_sound enumItem_sound _ _ _ _ hc.tail.suffix.tail.tail h4
    · exact ⟨_, .plain _ (by simp), by rw [e]; simp [writtenDirective]⟩
    · exact ⟨_, .enum _, by rw [e]; simp⟩
  · unfold bitmaskDeclaration at h1
    replace h1 := Option.bind_eq_some_iff.1 h1
    obtain ⟨⟨t, r1⟩, h1, h⟩ := h1
    replace h := Option.bind_eq_some_iff.1 h
    obtain ⟨⟨x, r2⟩, h2, h⟩ := h
    replace h := Option.bind_eq_some_iff.1 h
    obtain ⟨r3, h3, h⟩ := h
    replace h := Option.map_eq_some_iff.1 h
    obtain ⟨⟨l, r4⟩, h4, h⟩ := h
    cases h
    simp only [matchToken_some] at h3
    have e := readId_sound h2
    simp only at e
    subst e h3
    have e := typeInstantiation_sound _ _ _ hc.tail h1
    subst e
    obtain ⟨_, e | e⟩ := itemsAndEnd_sound bitmaskValue_sound _ _ _ _ hc.tail.suffix.tail.tail h4
    · exact ⟨_, .plain _ (by simp), by rw [e]; simp [writtenDirective]⟩
    · exact ⟨_, .bitmask _, by rw [e]; simp⟩
  · exact ⟨_, .plain _ (by simp), by rw [alias_sound _ _ _ hc.tail h1]; simp [writtenDirective]⟩

theorem import_sound : Sound importDeclaration writtenImport := by
  intro ts i r hc h
  unfold importDeclaration at h
  replace h := Option.bind_eq_some_iff.1 h
  obtain ⟨r1, h1, h⟩ := h
  replace h := Option.bind_eq_some_iff.1 h
  obtain ⟨⟨x, r2⟩, h2, h⟩ := h
  rw [matchToken_some] at h1
  subst h1
  have e := readId_sound h2
  subst e
  have e := moreIds_sound r2
  generalize moreIds r2 = m at e h
  subst e
  split at h
  · next us hu =>
    cases h
    rw [hu]
    simp [writtenImport]
  · next us hu =>
    split at h
    · cases h
    · cases h
      rw [hu]
      simp [writtenImport]
  · cases h

theorem file_sound {ts : List Token} {p : Package} (hc : Canon ts) (h : parseFile ts = some p) : FileText p ts := by
  unfold parseFile at h
  replace h := Option.bind_eq_some_iff.1 h
  obtain ⟨⟨c, r1⟩, h1, h⟩ := h
  replace h := Option.bind_eq_some_iff.1 h
  obtain ⟨⟨x, r2⟩, h2, h⟩ := h
  replace h := Option.bind_eq_some_iff.1 h
  obtain ⟨⟨is, r3⟩, h3, h⟩ := h
  replace h := Option.bind_eq_some_iff.1 h
  obtain ⟨⟨ds, r4⟩, h4, h⟩ := h
  simp only at h2 h3 h4
  split at h
  · next hr =>
    cases h
    simp only at hr
    subst hr
    have e1 : ts = writtenVersion c ++ r1 := by
      unfold compatibilityVersion at h1
      split at h1
      · split at h1
        · cases h1; rfl
        · cases h1
      · cases h1; rfl
    subst e1
    have e2 : r1 = writtenName x ++ r2 := by
      unfold packageName at h2
      split at h2
      · next us =>
        replace h2 := Option.bind_eq_some_iff.1 h2
        obtain ⟨⟨y, r5⟩, h5, h2⟩ := h2
        replace h2 := Option.map_eq_some_iff.1 h2
        obtain ⟨r6, h6, h2⟩ := h2
        have e := readId_sound h5
        subst e
        have e := moreIds_sound r5
        simp only [matchToken_some] at h6 h2
        generalize moreIds r5 = m at e h6 h2
        subst e
        cases h2
        rw [h6]
        simp [writtenName]
      · cases h2; rfl
    subst e2
    have e3 := readMany_sound import_sound _ _ _ _ _ hc.suffix.suffix h3
    subst e3
    have hc4 := hc.suffix.suffix.suffix
    have key : ∀ n ts ds, Canon ts → readMany (fun _ => false) languageDirective n ts = some (ds, []) → DirectivesText ds ts := by
      intro n
      induction n with
      | zero => intro ts ds _ h; cases h; exact .nil
      | succ n ih =>
        intro ts ds hc h
        unfold readMany at h
        split at h
        · cases h; exact .nil
        · simp only [Bool.false_eq_true, if_false] at h
          replace h := Option.bind_eq_some_iff.1 h
          obtain ⟨⟨d, r1⟩, h1, h⟩ := h
          replace h := Option.map_eq_some_iff.1 h
          obtain ⟨⟨ds', r2⟩, h2, h⟩ := h
          cases h
          obtain ⟨us, hd, e⟩ := directive_sound hc h1
          rw [e] at hc ⊢
          exact .cons hd (ih _ _ hc.suffix h2)
    exact ⟨r3, key _ _ _ hc4 h4, by simp⟩
  · cases h

end Zs.Src
