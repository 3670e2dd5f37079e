import Verif.FileOffset

/-!
# Lemmas: declarations and files
-/

namespace Zs.Src

open Spec

/-! ## Fields of choices and functions -/

theorem constraint_first (k : Option Exp) (rest : List Token) :
    ∃ t us, writtenBehind .colon k ++ .other ";" :: rest = t :: us ∧ (t = .colon ∨ ∃ w, t = .other w) := by
  cases k with
  | some e => exact ⟨_, _, rfl, .inl rfl⟩
  | none => exact ⟨_, _, rfl, .inr ⟨_, rfl⟩⟩

theorem unionField_written (f : ChoiceField) (hf : ChoiceFieldOk true f) (rest : List Token) :
    unionFieldDefinition (writtenChoiceField f ++ rest) = some (f, rest) := by
  obtain ⟨ti, k⟩ := f
  obtain ⟨h1, h2⟩ := hf
  simp only at h1 h2
  obtain ⟨t, us, ht, ht1⟩ := constraint_first k rest
  unfold unionFieldDefinition choiceFieldDefinition writtenChoiceField
  simp only [List.append_assoc, List.cons_append, List.nil_append, ht]
  rw [fieldTypeId_written ti h1 t us ht1, ← ht]
  simp only [Option.bind_some]
  rw [expressionBehind_written _ k _ h2 (by trivial) (by simp)]
  simp

theorem fieldOrNothing_written (f : Option ChoiceField) (hf : ∀ g, f = some g → ChoiceFieldOk true g) (rest : List Token) :
    fieldOrNothing (writtenCaseField f ++ rest) = some (f, rest) := by
  cases f with
  | none => rfl
  | some f =>
    unfold fieldOrNothing writtenCaseField
    split
    · next h =>
      unfold writtenChoiceField at h
      simp only [List.append_assoc] at h
      exact absurd h (typeId_not_other (hf f rfl).1 (by decide) _ _)
    · rw [unionField_written f (hf f rfl)]
      rfl

theorem choiceCase_written (e : Exp) (he : Bracketed e) (rest : List Token) :
    choiceCase ([.other "case"] ++ written e ++ [.colon] ++ rest) = some (e, rest) := by
  simp only [choiceCase, List.append_assoc, List.cons_append, List.nil_append, matchToken_self, Option.bind_some]
  rw [C79_reads e he _ (by trivial)]
  simp

theorem caseField_first (f : Option ChoiceField) (hf : ∀ g, f = some g → ChoiceFieldOk true g) (rest us : List Token) :
    writtenCaseField f ++ rest ≠ .other "case" :: us := by
  cases f with
  | none => simp [writtenCaseField]
  | some f =>
    unfold writtenCaseField writtenChoiceField
    simp only [List.append_assoc]
    exact typeId_not_other (hf f rfl).1 (by decide) _ _

theorem isNot_true {w : String} {t : Token} (h : t ≠ .other w) : isNot w t = true := by simp [isNot, h]

theorem isNot_self (w : String) : isNot w (.other w) = false := by simp [isNot]

theorem choiceCases_written (c : Cases) (hc : CasesOk true c) (rest : List Token) :
    choiceCases (writtenCases c ++ rest) = some (c, rest) := by
  obtain ⟨ls, f⟩ := c
  obtain ⟨h1, h2, h3⟩ := hc
  simp only at h1 h2 h3
  cases ls with
  | nil => exact absurd rfl h1
  | cons l ls =>
    have e : writtenCases ⟨l :: ls, f⟩ ++ rest = [.other "case"] ++ written l ++ [.colon] ++
        (ls.flatMap (fun e => [Token.other "case"] ++ written e ++ [.colon]) ++ (writtenCaseField f ++ rest)) := by
      simp [writtenCases]
    unfold choiceCases
    rw [e, choiceCase_written l (h2 l (by simp))]
    simp only [Option.bind_some]
    rw [readMany_written (isNot "case") choiceCase (fun e => [Token.other "case"] ++ written e ++ [Token.colon]) ls
      (writtenCaseField f ++ rest) _ (flatMap_length_le (fun e => [Token.other "case"] ++ written e ++ [Token.colon]) ls _ (by simp))
      (fun t us h => isNot_true fun ht => caseField_first f h3 rest us (by rw [h, ht]))
      (fun x _ => ⟨_, _, rfl, isNot_self _⟩)
      (fun x hx us => choiceCase_written x (h2 x (by simp [hx])) us)]
    simp only [Option.bind_some]
    rw [fieldOrNothing_written f h3]
    rfl

theorem choiceDefault_written (f : Option (Option ChoiceField)) (hf : ∀ g, f = some (some g) → ChoiceFieldOk true g)
    (rest : List Token) (hr : ∀ us, rest ≠ .other "default" :: us) :
    choiceDefault (writtenDefault f ++ rest) =
      some (f, rest) := by
  cases f with
  | none =>
    simp only [writtenDefault, List.nil_append]
    unfold choiceDefault
    split
    · exact absurd rfl (hr _)
    · rfl
  | some f =>
    simp only [writtenDefault, List.cons_append, List.nil_append]
    unfold choiceDefault
    simp only [matchToken_self, Option.bind_some]
    rw [fieldOrNothing_written f fun g hg => hf g (by rw [hg])]
    rfl

theorem function_written (f : Func) (hf : FunctionOk f) (rest : List Token) :
    functionDefinition (writtenFunction f ++ rest) = some (f, rest) := by
  unfold functionDefinition writtenFunction
  simp only [List.append_assoc, List.cons_append, List.nil_append, matchToken_self, Option.bind_some]
  rw [readType_written _ hf.1 _ ⟨by simp, by simp, by simp⟩]
  simp only [Option.bind_some, readId, matchToken_self]
  rw [C79_reads _ hf.2 _ (by trivial)]
  simp

theorem functionsAndEnd_written (fs : List Func) (hf : ∀ f ∈ fs, FunctionOk f) (rest : List Token) :
    functionsAndEnd (writtenEnd fs ++ rest) = some (fs, rest) := by
  have e : writtenEnd fs ++ rest = fs.flatMap writtenFunction ++ .other "}" :: .other ";" :: rest := by simp [writtenEnd]
  unfold functionsAndEnd
  rw [e, readMany_written (isNot "function") functionDefinition writtenFunction fs _ _
    (flatMap_length_le _ _ _ (by simp [writtenFunction]))
    (fun t us h => by cases h; decide)
    (fun x _ => ⟨.other "function", _, by simp only [writtenFunction, List.append_assoc, List.cons_append, List.nil_append]; rfl, isNot_self _⟩)
    (fun x hx us => function_written x (hf x hx) us)]
  simp

theorem end_first (fs : List Func) (rest : List Token) :
    ∃ t us, writtenEnd fs ++ rest = t :: us ∧ atFunctions t = true ∧ t ≠ .other "case" ∧ t ≠ .other "default" := by
  cases fs with
  | nil => exact ⟨_, _, rfl, by decide, by decide, by decide⟩
  | cons f fs =>
    exact ⟨.other "function", _, by simp only [writtenEnd, writtenFunction, List.flatMap_cons, List.append_assoc, List.cons_append, List.nil_append]; rfl,
      by decide, by decide, by decide⟩

/-! ## Declarations -/

theorem type_ne (t : Ty) : writtenType t ≠ [] := by
  rcases writtenType_start t with ⟨x, us, h⟩ | ⟨w, us, h, _⟩ <;> rw [h] <;> simp

theorem parameter_written (p : Param) (hp : TypeOk p.type) (rest : List Token) :
    parameterDefinition (writtenParam p ++ rest) = some (p, rest) := by
  unfold parameterDefinition writtenParam
  simp only [List.append_assoc, List.cons_append, List.nil_append]
  rw [readType_written _ hp _ ⟨by simp, by simp, by simp⟩]
  rfl

theorem typeParameters_written (ps : List Param) (hp : ParamsOk ps) (rest : List Token) (hr : ∀ us, rest ≠ .lparen :: us) :
    typeParameters (writtenParams ps ++ rest) = some (ps, rest) := by
  cases ps with
  | nil =>
    simp only [writtenParams, List.nil_append]
    unfold typeParameters
    split
    · exact absurd rfl (hr _)
    · rfl
  | cons p ps =>
    simp only [writtenParams, List.append_assoc, List.cons_append, List.nil_append]
    unfold typeParameters
    simp only
    rw [readCommas_separated parameterDefinition writtenParam (p :: ps) (.rparen :: rest) _ (by simp) ?_ (by simp)
      fun x hx us _ => parameter_written x (hp x hx) us]
    · simp
    · have := separated_length_le ((p :: ps).map writtenParam) (by
        intro y hy
        obtain ⟨b, _, rfl⟩ := List.mem_map.1 hy
        simp [writtenParam])
      simp only [List.length_map] at this
      simp only [List.length_append]
      omega

theorem templateParameters_written (xs : List String) (rest : List Token) (hr : ∀ us, rest ≠ .lt :: us) :
    templateParameters (writtenTemplates xs ++ rest) = some (xs, rest) := by
  cases xs with
  | nil =>
    simp only [writtenTemplates, List.nil_append]
    unfold templateParameters
    split
    · exact absurd rfl (hr _)
    · rfl
  | cons x xs =>
    simp only [writtenTemplates, List.append_assoc, List.cons_append, List.nil_append]
    unfold templateParameters
    simp only
    rw [readCommas_separated readId (fun x => [Token.id x]) (x :: xs) (.gt :: rest) _ (by simp) ?_ (by simp)
      fun x hx us _ => rfl]
    · simp
    · have := separated_length_le ((x :: xs).map fun x => [Token.id x]) (by simp)
      simp only [List.length_map] at this
      simp only [List.length_append]
      omega

theorem params_not_lt (ps : List Param) (w : String) (rest us : List Token) : writtenParams ps ++ .other w :: rest ≠ .lt :: us := by
  cases ps <;> simp [writtenParams]

theorem typeId_first {f : FieldTypeId} (hf : TypeIdOk true f) (rest : List Token) :
    ∃ t us, writtenTypeId f ++ rest = t :: us ∧ atFunctions t = false := by
  have hne : writtenTypeId f ++ rest ≠ [] := by simp [writtenTypeId]
  obtain ⟨t, us, h⟩ := List.exists_cons_of_ne_nil hne
  refine ⟨t, us, h, ?_⟩
  simp only [atFunctions, decide_eq_false_iff_not, not_or]
  constructor
  · rintro rfl; exact typeId_not_other hf (by decide) _ _ h
  · rintro rfl; exact typeId_not_other hf (by decide) _ _ h

theorem field_first (f : StructField) (hf : FieldOk true f) : ∃ t us, writtenField f = t :: us ∧ atFunctions t = false := by
  unfold writtenField
  cases f.align with
  | some e => exact ⟨.other "align", _, by simp only [writtenAlign, List.append_assoc, List.cons_append, List.nil_append]; rfl, by decide⟩
  | none =>
    cases f.offset with
    | some e =>
      obtain ⟨t, us, h, _, _, h1⟩ := written_start e
      refine ⟨t, _, by simp only [writtenAlign, writtenOffset, h, List.append_assoc, List.cons_append, List.nil_append]; rfl, ?_⟩
      simp [atFunctions, h1]
    | none =>
      have e := writtenBody_eq f []
      rw [List.append_nil] at e
      simp only [writtenAlign, writtenOffset, List.nil_append, e]
      rcases flag_cons "extend" f.extended (writtenFlag "optional" f.optional ++ (writtenTypeId f.typeId ++
          (writtenBehind (.other "=") f.initializer ++ (writtenBehind (.other "if") f.clause ++
            (writtenBehind .colon f.constraint ++ [.other ";"]))))) with ⟨_, e⟩ | e
      · exact ⟨_, _, e, by decide⟩
      rw [e]
      rcases flag_cons "optional" f.optional (writtenTypeId f.typeId ++
          (writtenBehind (.other "=") f.initializer ++ (writtenBehind (.other "if") f.clause ++
            (writtenBehind .colon f.constraint ++ [.other ";"])))) with ⟨_, e⟩ | e
      · exact ⟨_, _, e, by decide⟩
      rw [e]
      exact typeId_first hf.2.2.1 _

theorem structure_written (d : Struct) (h1 : ParamsOk d.params) (h2 : ∀ f ∈ d.fields, FieldOk true f)
    (h3 : ∀ f ∈ d.functions, FunctionOk f) (rest : List Token) :
    structureDeclaration (.id d.name :: (writtenTemplates d.templates ++ (writtenParams d.params ++ (.other "{" ::
      (d.fields.flatMap writtenField ++ (writtenEnd d.functions ++ rest)))))) = some (d, rest) := by
  unfold structureDeclaration
  simp only [readId, Option.bind_some]
  rw [templateParameters_written _ _ (params_not_lt _ _ _)]
  simp only [Option.bind_some]
  rw [typeParameters_written _ h1 _ (by simp)]
  simp only [Option.bind_some, matchToken_self]
  rw [readMany_written atFunctions structureFieldDefinition writtenField d.fields _ _
    (flatMap_length_le _ _ _ fun f hf => by obtain ⟨t, us, h, _⟩ := field_first f (h2 f hf); rw [h]; simp)
    (fun t us h => by obtain ⟨t', us', h', h'', _⟩ := end_first d.functions rest; rw [h'] at h; cases h; exact h'')
    (fun f hf => field_first f (h2 f hf))
    (fun f hf us => structureField_written f (h2 f hf) us)]
  simp only [Option.bind_some]
  rw [functionsAndEnd_written _ h3]
  rfl

theorem union_written (d : Union) (h1 : ParamsOk d.params) (h2 : ∀ f ∈ d.fields, ChoiceFieldOk true f)
    (h3 : ∀ f ∈ d.functions, FunctionOk f) (rest : List Token) :
    unionDeclaration (.id d.name :: (writtenTemplates d.templates ++ (writtenParams d.params ++ (.other "{" ::
      (d.fields.flatMap writtenChoiceField ++ (writtenEnd d.functions ++ rest)))))) = some (d, rest) := by
  have first : ∀ f ∈ d.fields, ∃ t us, writtenChoiceField f = t :: us ∧ atFunctions t = false := by
    intro f hf
    unfold writtenChoiceField
    rw [List.append_assoc]
    exact typeId_first (h2 f hf).1 _
  unfold unionDeclaration
  simp only [readId, Option.bind_some]
  rw [templateParameters_written _ _ (params_not_lt _ _ _)]
  simp only [Option.bind_some]
  rw [typeParameters_written _ h1 _ (by simp)]
  simp only [Option.bind_some, matchToken_self]
  rw [readMany_written atFunctions unionFieldDefinition writtenChoiceField d.fields _ _
    (flatMap_length_le _ _ _ fun f hf => by obtain ⟨t, us, h, _⟩ := first f hf; rw [h]; simp)
    (fun t us h => by obtain ⟨t', us', h', h'', _⟩ := end_first d.functions rest; rw [h'] at h; cases h; exact h'')
    first
    (fun f hf us => unionField_written f (h2 f hf) us)]
  simp only [Option.bind_some]
  rw [functionsAndEnd_written _ h3]
  rfl

theorem default_first (f : Option (Option ChoiceField)) (fs : List Func) (rest : List Token) (t : Token) (us : List Token)
    (h : writtenDefault f ++ (writtenEnd fs ++ rest) = t :: us) :
    isNot "case" t = true := by
  cases f with
  | none =>
    obtain ⟨t', us', h', _, h'', _⟩ := end_first fs rest
    simp only [writtenDefault, List.nil_append] at h
    rw [h'] at h; cases h; exact isNot_true h''
  | some f => cases h; decide

theorem choice_written (d : Choice) (hne : d.params ≠ []) (h1 : ParamsOk d.params) (hs : Bracketed d.selector)
    (h2 : ∀ c ∈ d.cases, CasesOk true c) (hd : ∀ f, d.default_ = some (some f) → ChoiceFieldOk true f)
    (h3 : ∀ f ∈ d.functions, FunctionOk f) (rest : List Token) :
    choiceDeclaration (.id d.name :: (writtenTemplates d.templates ++ (writtenParams d.params ++ (.other "on" ::
      (written d.selector ++ (.other "{" :: (d.cases.flatMap writtenCases ++
      (writtenDefault d.default_ ++
        (writtenEnd d.functions ++ rest))))))))) = some (d, rest) := by
  have first : ∀ c ∈ d.cases, ∃ t us, writtenCases c = t :: us ∧ isNot "case" t = false := by
    intro c hc
    obtain ⟨ls, f⟩ := c
    cases ls with
    | nil => exact absurd rfl (h2 _ hc).1
    | cons l ls =>
      exact ⟨.other "case", _, by simp only [writtenCases, List.flatMap_cons, List.append_assoc, List.cons_append, List.nil_append]; rfl, isNot_self _⟩
  unfold choiceDeclaration
  simp only [readId, Option.bind_some]
  rw [templateParameters_written _ _ (params_not_lt _ _ _)]
  simp only [Option.bind_some]
  have hpar : ∀ r, ∃ us, writtenParams d.params ++ r = .lparen :: us := by
    intro r
    cases hp : d.params with
    | nil => exact absurd hp hne
    | cons p ps => exact ⟨_, by simp only [writtenParams, List.append_assoc, List.cons_append, List.nil_append]; rfl⟩
  obtain ⟨us, hus⟩ := hpar (.other "on" :: (written d.selector ++ (.other "{" :: (d.cases.flatMap writtenCases ++
      (writtenDefault d.default_ ++
        (writtenEnd d.functions ++ rest))))))
  have htp := typeParameters_written d.params h1 (.other "on" :: (written d.selector ++ (.other "{" :: (d.cases.flatMap writtenCases ++
      (writtenDefault d.default_ ++
        (writtenEnd d.functions ++ rest)))))) (by simp)
  rw [hus] at htp ⊢
  simp only [matchToken_self, Option.bind_some, htp]
  rw [C79_reads _ hs _ (by trivial)]
  simp only [Option.bind_some, matchToken_self]
  rw [readMany_written (isNot "case") choiceCases writtenCases d.cases _ _
    (flatMap_length_le _ _ _ fun c hc => by obtain ⟨t, us, h, _⟩ := first c hc; rw [h]; simp)
    (fun t us h => default_first _ _ _ t us h)
    first
    (fun c hc us => choiceCases_written c (h2 c hc) us)]
  simp only [Option.bind_some]
  rw [choiceDefault_written _ hd _ (by
    intro us h
    obtain ⟨t', us', h', _, _, h''⟩ := end_first d.functions rest
    rw [h'] at h; cases h; exact h'' rfl)]
  simp only [Option.bind_some]
  rw [functionsAndEnd_written _ h3]
  rfl

/-! ## Items -/

theorem itemsAndEnd_written {α : Type} (p : Reader α) (w : α → List Token) (xs : List α) (rest : List Token) (n : Nat)
    (hne : xs ≠ []) (hn : xs.length ≤ n) (hw : ∀ x ∈ xs, ∃ t us, w x = t :: us ∧ t ≠ .other "}")
    (hp : ∀ x ∈ xs, ∀ us, NoOperator us → (∀ vs, us ≠ .other "=" :: vs) → p (w x ++ us) = some (x, us)) :
    itemsAndEnd p n (separated (xs.map w) ++ .other "}" :: .other ";" :: rest) = some (xs, rest) := by
  induction xs generalizing n with
  | nil => exact absurd rfl hne
  | cons x xs ih =>
    cases n with
    | zero => simp at hn
    | succ n =>
      by_cases hx : xs = []
      · subst hx
        simp only [List.map_cons, List.map_nil, separated, itemsAndEnd]
        rw [hp x (by simp) _ (by trivial) (by simp)]
        simp
      · have ih' := ih n hx (by simp at hn; omega) (fun y hy => hw y (by simp [hy])) fun y hy => hp y (by simp [hy])
        rw [List.map_cons, separated_cons _ (by simpa using hx), List.append_assoc, List.cons_append, itemsAndEnd,
          hp x (by simp) _ (by trivial) (by simp)]
        simp only [Option.bind_some]
        split
        · next us h =>
          exfalso
          cases xs with
          | nil => exact hx rfl
          | cons y ys =>
            obtain ⟨t, us, hy, ht⟩ := hw y (by simp)
            simp only [List.cons.injEq, true_and] at h
            cases ys with
            | nil => rw [List.map_cons, List.map_nil, separated, hy] at h; cases h; exact ht rfl
            | cons z zs =>
              rw [List.map_cons, separated_cons _ (by simp), hy] at h; cases h; exact ht rfl
        · next us h1 h2 =>
          cases h2
          rw [ih']
          rfl
        · next h1 h2 => exact absurd rfl (h2 _)

theorem itemsAndEnd_comma {α : Type} (p : Reader α) (w : α → List Token) (xs : List α) (rest : List Token) (n : Nat)
    (hne : xs ≠ []) (hn : xs.length ≤ n) (hw : ∀ x ∈ xs, ∃ t us, w x = t :: us ∧ t ≠ .other "}")
    (hp : ∀ x ∈ xs, ∀ us, NoOperator us → (∀ vs, us ≠ .other "=" :: vs) → p (w x ++ us) = some (x, us)) :
    itemsAndEnd p n (separated (xs.map w) ++ .comma :: .other "}" :: .other ";" :: rest) = some (xs, rest) := by
  induction xs generalizing n with
  | nil => exact absurd rfl hne
  | cons x xs ih =>
    cases n with
    | zero => simp at hn
    | succ n =>
      by_cases hx : xs = []
      · subst hx
        simp only [List.map_cons, List.map_nil, separated, itemsAndEnd]
        rw [hp x (by simp) _ (by trivial) (by simp)]
        simp
      · have ih' := ih n hx (by simp at hn; omega) (fun y hy => hw y (by simp [hy])) fun y hy => hp y (by simp [hy])
        rw [List.map_cons, separated_cons _ (by simpa using hx), List.append_assoc, List.cons_append, itemsAndEnd,
          hp x (by simp) _ (by trivial) (by simp)]
        simp only [Option.bind_some]
        split
        · next us h =>
          exfalso
          cases xs with
          | nil => exact hx rfl
          | cons y ys =>
            obtain ⟨t, us, hy, ht⟩ := hw y (by simp)
            simp only [List.cons.injEq, true_and] at h
            cases ys with
            | nil => rw [List.map_cons, List.map_nil, separated, hy] at h; cases h; exact ht rfl
            | cons z zs =>
              rw [List.map_cons, separated_cons _ (by simp), hy] at h; cases h; exact ht rfl
        · next us h1 h2 =>
          cases h2
          rw [ih']
          rfl
        · next h1 h2 => exact absurd rfl (h2 _)

theorem enumItem_written (i : Item) (hi : OptionOk i.value) (rest : List Token) (hr : NoOperator rest)
    (he : ∀ us, rest ≠ .other "=" :: us) : enumItem (writtenItem i ++ rest) = some (i, rest) := by
  obtain ⟨m, x, v⟩ := i
  have h := expressionBehind_written (.other "=") v rest hi hr he
  cases m <;> simp [enumItem, writtenItem, readId, h]

theorem bitmaskValue_written (v : String × Option Exp) (hv : OptionOk v.2) (rest : List Token) (hr : NoOperator rest)
    (he : ∀ us, rest ≠ .other "=" :: us) : bitmaskValue (writtenValue v ++ rest) = some (v, rest) := by
  have h := expressionBehind_written (.other "=") v.2 rest hv hr he
  simp [bitmaskValue, writtenValue, readId, h]

theorem noGreater_word (x w : String) (rest : List Token) : NoGreater (.id x :: .other w :: rest) :=
  noGreater_name x none (.other w) rest (.inr ⟨_, rfl⟩)

theorem enum_written (d : Enum) (h1 : InstOk true d.type) (h2 : d.items ≠ []) (h3 : ∀ i ∈ d.items, OptionOk i.value)
    (rest : List Token) : enumDeclaration (writtenInst d.type ++ .id d.name :: .other "{" ::
      (separated (d.items.map writtenItem) ++ .other "}" :: .other ";" :: rest)) = some (d, rest) := by
  unfold enumDeclaration
  rw [typeInstantiation_written _ h1 _ _ (noGreater_word _ _ _)]
  simp only [Option.bind_some, readId, matchToken_self]
  rw [itemsAndEnd_written enumItem writtenItem d.items rest _ h2 ?_ ?_ fun i hi us => enumItem_written i (h3 i hi) us]
  · rfl
  · have := separated_length_le (d.items.map writtenItem) (by
      intro y hy
      obtain ⟨b, _, rfl⟩ := List.mem_map.1 hy
      simp [writtenItem])
    simp only [List.length_map] at this
    simp only [List.length_append]
    omega
  · intro i _
    unfold writtenItem
    cases i.mark <;> exact ⟨_, _, rfl, by simp⟩

theorem enum_comma (d : Enum) (h1 : InstOk true d.type) (h2 : d.items ≠ []) (h3 : ∀ i ∈ d.items, OptionOk i.value)
    (rest : List Token) : enumDeclaration (writtenInst d.type ++ .id d.name :: .other "{" ::
      (separated (d.items.map writtenItem) ++ .comma :: .other "}" :: .other ";" :: rest)) = some (d, rest) := by
  unfold enumDeclaration
  rw [typeInstantiation_written _ h1 _ _ (noGreater_word _ _ _)]
  simp only [Option.bind_some, readId, matchToken_self]
  rw [itemsAndEnd_comma enumItem writtenItem d.items rest _ h2 ?_ ?_ fun i hi us => enumItem_written i (h3 i hi) us]
  · rfl
  · have := separated_length_le (d.items.map writtenItem) (by
      intro y hy
      obtain ⟨b, _, rfl⟩ := List.mem_map.1 hy
      simp [writtenItem])
    simp only [List.length_map] at this
    simp only [List.length_append]
    omega
  · intro i _
    unfold writtenItem
    cases i.mark <;> exact ⟨_, _, rfl, by simp⟩

theorem bitmask_written (d : Bitmask) (h1 : InstOk true d.type) (h2 : d.values ≠ []) (h3 : ∀ v ∈ d.values, OptionOk v.2)
    (rest : List Token) : bitmaskDeclaration (writtenInst d.type ++ .id d.name :: .other "{" ::
      (separated (d.values.map writtenValue) ++ .other "}" :: .other ";" :: rest)) = some (d, rest) := by
  unfold bitmaskDeclaration
  rw [typeInstantiation_written _ h1 _ _ (noGreater_word _ _ _)]
  simp only [Option.bind_some, readId, matchToken_self]
  rw [itemsAndEnd_written bitmaskValue writtenValue d.values rest _ h2 ?_ ?_ fun i hi us => bitmaskValue_written i (h3 i hi) us]
  · rfl
  · have := separated_length_le (d.values.map writtenValue) (by
      intro y hy
      obtain ⟨b, _, rfl⟩ := List.mem_map.1 hy
      simp [writtenValue])
    simp only [List.length_map] at this
    simp only [List.length_append]
    omega
  · intro i _
    exact ⟨_, _, rfl, by simp⟩

theorem bitmask_comma (d : Bitmask) (h1 : InstOk true d.type) (h2 : d.values ≠ []) (h3 : ∀ v ∈ d.values, OptionOk v.2)
    (rest : List Token) : bitmaskDeclaration (writtenInst d.type ++ .id d.name :: .other "{" ::
      (separated (d.values.map writtenValue) ++ .comma :: .other "}" :: .other ";" :: rest)) = some (d, rest) := by
  unfold bitmaskDeclaration
  rw [typeInstantiation_written _ h1 _ _ (noGreater_word _ _ _)]
  simp only [Option.bind_some, readId, matchToken_self]
  rw [itemsAndEnd_comma bitmaskValue writtenValue d.values rest _ h2 ?_ ?_ fun i hi us => bitmaskValue_written i (h3 i hi) us]
  · rfl
  · have := separated_length_le (d.values.map writtenValue) (by
      intro y hy
      obtain ⟨b, _, rfl⟩ := List.mem_map.1 hy
      simp [writtenValue])
    simp only [List.length_map] at this
    simp only [List.length_append]
    omega
  · intro i _
    exact ⟨_, _, rfl, by simp⟩

theorem alias_written (d : Alias) (h : TypeOk d.type) (rest : List Token) :
    aliasDeclaration (writtenType d.type ++ .id d.name :: .other ";" :: rest) = some (d, rest) := by
  unfold aliasDeclaration
  rw [readType_written _ h _ ⟨by simp, by simp, by simp⟩]
  simp [readId]

theorem const_written (d : Const) (h1 : InstOk true d.type) (h2 : Bracketed d.value) (rest : List Token) :
    constDefinition (writtenInst d.type ++ .id d.name :: .other "=" :: (written d.value ++ .other ";" :: rest)) = some (d, rest) := by
  unfold constDefinition
  rw [typeInstantiation_written _ h1 _ _ (noGreater_word _ _ _)]
  simp only [Option.bind_some, readId, matchToken_self]
  rw [C79_reads _ h2 _ (by trivial)]
  simp

/-! ## Files -/

theorem directive_written (d : Directive) (hd : DirectiveOk true d) (rest : List Token) :
    languageDirective (writtenDirective d ++ rest) = some (d, rest) := by
  cases d with
  | const d =>
    simp only [writtenDirective, List.append_assoc, List.cons_append, List.nil_append, languageDirective]
    rw [const_written d hd.1 hd.2]; rfl
  | subtype d =>
    simp only [writtenDirective, List.append_assoc, List.cons_append, List.nil_append, languageDirective]
    rw [alias_written d hd]; rfl
  | instantiate d =>
    simp only [writtenDirective, List.append_assoc, List.cons_append, List.nil_append, languageDirective]
    rw [alias_written d hd]; rfl
  | struct d =>
    simp only [writtenDirective, List.append_assoc, List.cons_append, List.nil_append, languageDirective]
    rw [structure_written d hd.1 hd.2.1 hd.2.2]; rfl
  | choice d =>
    obtain ⟨h1, h2, h3, h4, h5, h6⟩ := hd
    have h := choice_written d h1 h2 h3 h4 h5 h6 rest
    simp only [writtenDirective, List.append_assoc, List.cons_append, List.nil_append, languageDirective] at h ⊢
    rw [h]; rfl
  | union d =>
    simp only [writtenDirective, List.append_assoc, List.cons_append, List.nil_append, languageDirective]
    rw [union_written d hd.1 hd.2.1 hd.2.2]; rfl
  | enum d =>
    simp only [writtenDirective, List.append_assoc, List.cons_append, List.nil_append, languageDirective]
    rw [enum_written d hd.1 hd.2.1 hd.2.2]; rfl
  | bitmask d =>
    simp only [writtenDirective, List.append_assoc, List.cons_append, List.nil_append, languageDirective]
    rw [bitmask_written d hd.1 hd.2.1 hd.2.2]; rfl
  | other d => exact hd.elim

theorem import_written (i : Import) (hi : i.star = false → i.rest ≠ []) (rest : List Token) :
    importDeclaration (writtenImport i ++ rest) = some (i, rest) := by
  obtain ⟨x, xs, s⟩ := i
  simp only at hi
  cases s with
  | true =>
    simp only [writtenImport, if_true, List.append_assoc, List.cons_append, List.nil_append, importDeclaration,
      matchToken_self, Option.bind_some, readId]
    simp only [moreIds_dotted xs (.dot :: .multiply :: .other ";" :: rest) (by simp)]
  | false =>
    simp only [writtenImport, Bool.false_eq_true, if_false, List.append_assoc, List.cons_append, List.nil_append, importDeclaration,
      matchToken_self, Option.bind_some, readId]
    rw [moreIds_dotted xs _ (by simp)]
    simp [hi rfl]

/-- The first words of declarations. -/
def directiveWords : List String := ["const", "subtype", "struct", "choice", "union", "enum", "bitmask", "instantiate"]

theorem directiveText_read {d : Directive} {ts : List Token} (h : DirectiveText d ts) (hd : DirectiveOk true d) (rest : List Token) :
    languageDirective (ts ++ rest) = some (d, rest) := by
  cases h with
  | plain => exact directive_written d hd rest
  | enum d =>
    simp only [List.append_assoc, List.cons_append, List.nil_append, languageDirective]
    rw [enum_comma d hd.1 hd.2.1 hd.2.2]; rfl
  | bitmask d =>
    simp only [List.append_assoc, List.cons_append, List.nil_append, languageDirective]
    rw [bitmask_comma d hd.1 hd.2.1 hd.2.2]; rfl

theorem directive_first {d : Directive} {ts : List Token} (h : DirectiveText d ts) (hd : DirectiveOk true d) :
    ∃ w us, ts = .other w :: us ∧ w ∈ directiveWords := by
  cases h with
  | plain =>
    cases d with
    | other d => exact hd.elim
    | _ => exact ⟨_, _, by simp only [writtenDirective, List.append_assoc, List.cons_append, List.nil_append]; rfl, by decide⟩
  | enum d => exact ⟨"enum", _, by simp only [List.append_assoc, List.cons_append, List.nil_append]; rfl, by decide⟩
  | bitmask d => exact ⟨"bitmask", _, by simp only [List.append_assoc, List.cons_append, List.nil_append]; rfl, by decide⟩

theorem directives_first {ds : List Directive} {ts : List Token} (h : DirectivesText ds ts) (hd : ∀ d ∈ ds, DirectiveOk true d)
    (t : Token) (us : List Token) (e : ts = t :: us) : ∃ w ∈ directiveWords, t = .other w := by
  cases h with
  | nil => cases e
  | @cons d ds ts' us' h1 h2 =>
    obtain ⟨w, vs, rfl, hw⟩ := directive_first h1 (hd d (by simp))
    cases e
    exact ⟨w, hw, rfl⟩

theorem directives_read {ds : List Directive} {ts : List Token} (h : DirectivesText ds ts) (hd : ∀ d ∈ ds, DirectiveOk true d)
    (n : Nat) (hn : ts.length ≤ n) : readMany (fun _ => false) languageDirective n ts = some (ds, []) := by
  induction h generalizing n with
  | nil => cases n <;> rfl
  | @cons d ds ts us h1 h2 ih =>
    obtain ⟨w, vs, hts, hw⟩ := directive_first h1 (hd d (by simp))
    have hl : ts.length = vs.length + 1 := by rw [hts]; rfl
    cases n with
    | zero => simp only [List.length_append] at hn; omega
    | succ n =>
      have hread := directiveText_read h1 (hd d (by simp)) us
      rw [hts, List.cons_append] at hread ⊢
      simp only [readMany, Bool.false_eq_true, if_false, hread, Option.bind_some]
      rw [ih (fun e he => hd e (by simp [he])) n (by simp only [List.length_append] at hn; omega)]
      rfl

theorem imports_first (is : List Import) {ds : List Directive} {ts : List Token} (h : DirectivesText ds ts)
    (hd : ∀ d ∈ ds, DirectiveOk true d) (t : Token) (us : List Token) (e : is.flatMap writtenImport ++ ts = t :: us) :
    ∃ w ∈ "import" :: directiveWords, t = .other w := by
  cases is with
  | nil =>
    obtain ⟨w, h1, h2⟩ := directives_first h hd t us e
    exact ⟨w, List.mem_cons_of_mem _ h1, h2⟩
  | cons i is =>
    simp only [List.flatMap_cons, writtenImport, List.append_assoc, List.cons_append] at e
    cases e
    exact ⟨"import", by simp, rfl⟩

theorem file_read (p : Package) (hp : FileOk true p) (ts : List Token) (ht : FileText p ts) : parseFile ts = some p := by
  obtain ⟨c, x, is, ds⟩ := p
  obtain ⟨h1, h2, h3⟩ := hp
  obtain ⟨body, hb, rfl⟩ := ht
  simp only at h1 h2 h3 hb
  simp only [List.append_assoc]
  have hfirst := imports_first is hb h3
  have hx : ∀ t us, (writtenName x ++ (is.flatMap writtenImport ++ body)) = t :: us →
      ∃ w ∈ "package" :: "import" :: directiveWords, t = .other w := by
    intro t us h
    match x, h1, h with
    | none, _, h =>
      obtain ⟨w, h1, h2⟩ := hfirst t us h
      exact ⟨w, List.mem_cons_of_mem _ h1, h2⟩
    | some [], h1, _ => exact absurd rfl h1
    | some (x :: xs), _, h => cases h; exact ⟨"package", by simp, rfl⟩
  have e1 : compatibilityVersion (writtenVersion c ++ (writtenName x ++ (is.flatMap writtenImport ++ body))) =
      some (c, writtenName x ++ (is.flatMap writtenImport ++ body)) := by
    cases c with
    | some v => simp [writtenVersion, compatibilityVersion]
    | none =>
      simp only [writtenVersion, List.nil_append]
      unfold compatibilityVersion
      split
      · next ts h =>
        obtain ⟨w, hw, e⟩ := hx _ _ h
        cases e
        exact absurd hw (by decide)
      · rfl
  have e2 : packageName (writtenName x ++ (is.flatMap writtenImport ++ body)) =
      some (x, is.flatMap writtenImport ++ body) := by
    match x, h1 with
    | none, _ =>
      simp only [writtenName, List.nil_append]
      unfold packageName
      split
      · next ts h =>
        obtain ⟨w, hw, e⟩ := hfirst _ _ h
        cases e
        exact absurd hw (by decide)
      · rfl
    | some [], h1 => exact absurd rfl h1
    | some (x :: xs), _ =>
      simp only [writtenName, List.append_assoc, List.cons_append, List.nil_append, packageName, readId, Option.bind_some]
      rw [moreIds_dotted xs _ (by simp)]
      simp
  unfold parseFile
  rw [e1]
  simp only [Option.bind_some]
  rw [e2]
  simp only [Option.bind_some]
  rw [readMany_written (isNot "import") importDeclaration writtenImport is _ _
    (flatMap_length_le _ _ _ (by simp [writtenImport]))
    (fun t us h => by
      obtain ⟨w, hw, rfl⟩ := directives_first hb h3 t us h
      refine isNot_true ?_
      rintro ⟨⟩
      exact absurd hw (by decide))
    (fun i _ => ⟨.other "import", _, by simp only [writtenImport, List.append_assoc, List.cons_append, List.nil_append]; rfl, isNot_self _⟩)
    (fun i hi us => import_written i (h2 i hi) us)]
  simp only [Option.bind_some]
  rw [directives_read hb h3 _ (Nat.le_refl _)]
  simp

end Zs.Src
