import Verif.SchemaObj

/-!
# Choices, unions, enums and bitmasks
-/

namespace Zs

open Spec

/-! ## Choices -/

/-- A case: labels and possibly a field. -/
structure CaseSpec where
  labels : List Val
  field : Option FieldSpec

/-- The operations of a case. -/
def CaseSpec.ops (c : CaseSpec) : CaseOps := ⟨c.labels, c.field.map FieldSpec.ops⟩

/-- The fields of a choice. -/
def fieldsOf (cs : List CaseSpec) : List FieldSpec := cs.filterMap CaseSpec.field

/-- Defaults of all fields. -/
def defaultsOf (ss : List FieldSpec) : List Val := (opsOf ss).map FieldOps.dflt

/-- The fields of a choice are valid. -/
def ValidCases (ps : List Val) (sel : Val) : List CaseSpec → Bool → List Val → Prop
  | [], _, vs => vs = []
  | c :: cs, taken, vs => match c.field with
    | some s => ∃ v vs', vs = v :: vs' ∧
        (if taken = false ∧ sel ∈ c.labels then s.Valid ⟨ps, []⟩ v else v = s.ops.dflt) ∧
        ValidCases ps sel cs (taken || decide (sel ∈ c.labels)) vs'
    | none => ValidCases ps sel cs (taken || decide (sel ∈ c.labels)) vs

theorem caseFields_ops (cs : List CaseSpec) :
    caseFields (cs.map CaseSpec.ops) = opsOf (fieldsOf cs) := by
  induction cs with
  | nil => rfl
  | cons c cs ih =>
    simp only [caseFields, opsOf, fieldsOf, List.map_cons, List.filterMap_cons, CaseSpec.ops] at ih ⊢
    cases c.field with
    | none => exact ih
    | some s => simp only [Option.map_some, List.map_cons]; rw [← ih]

theorem selectCase_shift (sel : Val) (k : Nat) (cs : List CaseOps) :
    selectCase sel k cs = (selectCase sel 0 cs).map (fun x => (x.1 + k, x.2)) := by
  induction cs generalizing k with
  | nil => rfl
  | cons c cs ih =>
    simp only [selectCase]
    split
    · cases c.field <;> simp
    · rw [ih, ih (if c.field.isSome then 0 + 1 else 0), Option.map_map]
      congr 1
      funext x
      cases c.field <;> simp
      omega

theorem validCases_taken {ps : List Val} {sel : Val} {cs : List CaseSpec} {vs : List Val}
    (h : ValidCases ps sel cs true vs) : vs = defaultsOf (fieldsOf cs) := by
  induction cs generalizing vs with
  | nil => exact h
  | cons c cs ih =>
    unfold ValidCases at h
    simp only [defaultsOf, opsOf, fieldsOf, List.filterMap_cons] at ih ⊢
    cases hc : c.field with
    | none =>
      simp only [hc, Bool.true_or] at h
      exact ih h
    | some s =>
      simp only [hc, Bool.true_or, reduceCtorEq, false_and, if_false] at h
      obtain ⟨v, vs', rfl, h1, h2⟩ := h
      simp only [List.map_cons, h1, ih h2]

theorem validCases_selected {ps : List Val} {sel : Val} {cs : List CaseSpec} {vs : List Val}
    (h : ValidCases ps sel cs false vs) :
    match selectCase sel 0 (cs.map CaseSpec.ops) with
    | none => vs = defaultsOf (fieldsOf cs)
    | some (i, f) => ∃ s v, (fieldsOf cs)[i]? = some s ∧ s.ops = f ∧ s.Valid ⟨ps, []⟩ v ∧
        vs = (defaultsOf (fieldsOf cs)).set i v := by
  induction cs generalizing vs with
  | nil => exact h
  | cons c cs ih =>
    unfold ValidCases at h
    simp only [List.map_cons, selectCase]
    by_cases hl : sel ∈ c.labels
    · rw [if_pos (show sel ∈ c.ops.labels from hl)]
      cases hc : c.field with
      | none =>
        simp only [hc, hl, decide_true, Bool.false_or] at h
        simp only [CaseSpec.ops, hc, Option.map_none]
        have := validCases_taken h
        simpa [defaultsOf, opsOf, fieldsOf, hc] using this
      | some s =>
        simp only [hc, hl, decide_true, Bool.false_or, and_self, if_true] at h
        obtain ⟨v, vs', rfl, h1, h2⟩ := h
        simp only [CaseSpec.ops, hc, Option.map_some]
        refine ⟨s, v, by simp [fieldsOf, hc], rfl, h1, ?_⟩
        have := validCases_taken h2
        rw [this]
        simp [defaultsOf, opsOf, fieldsOf, hc]
    · rw [if_neg (show ¬ sel ∈ c.ops.labels from hl), selectCase_shift]
      cases hc : c.field with
      | none =>
        simp only [hc, hl, decide_false, Bool.false_or] at h
        have := ih h
        simp only [CaseSpec.ops, hc, Option.map_none, Option.isSome_none, Bool.false_eq_true,
          if_false, Nat.add_zero]
        rw [show fieldsOf (c :: cs) = fieldsOf cs by simp [fieldsOf, hc]]
        cases hs : selectCase sel 0 (cs.map CaseSpec.ops) with
        | none => rw [hs] at this; simpa [CaseSpec.ops] using this
        | some x => rw [hs] at this; simpa [CaseSpec.ops] using this
      | some s =>
        simp only [hc, hl, decide_false, Bool.false_or, and_false, if_false] at h
        obtain ⟨v, vs', rfl, h1, h2⟩ := h
        have := ih h2
        simp only [CaseSpec.ops, hc, Option.map_some, Option.isSome_some, if_true, Nat.zero_add]
        rw [show fieldsOf (c :: cs) = s :: fieldsOf cs by simp [fieldsOf, hc]]
        have hd : defaultsOf (s :: fieldsOf cs) = s.ops.dflt :: defaultsOf (fieldsOf cs) := rfl
        rw [hd]
        cases hs : selectCase sel 0 (cs.map CaseSpec.ops) with
        | none =>
          rw [hs] at this
          simp only [Option.map_none]
          rw [h1, this]
        | some x =>
          rw [hs] at this
          obtain ⟨s', v', h3, h4, h5, h6⟩ := this
          exact ⟨s', v', by simpa using h3, h4, h5, by rw [h1, h6]; rfl⟩

theorem defaultsOf_get {ss : List FieldSpec} {i : Nat} {s : FieldSpec} (h : ss[i]? = some s) :
    (defaultsOf ss)[i]? = some s.ops.dflt := by
  simp [defaultsOf, opsOf, h]

/-- Choices are read back. -/
theorem choice_rt (cfg : Cfg) {params : List Val} {selector : List Val → Val} {cs : List CaseSpec}
    {z : Bool} (hcod : ∀ s ∈ fieldsOf cs, s.Codable false z) {ps vs : List Val}
    (hv : ValidCases ps (selector ps) cs false vs) :
    RoundTrips (fun w => (choiceCodec cfg params selector (cs.map CaseSpec.ops)).write (.obj ps vs) w)
      (fun r => (choiceCodec cfg params selector (cs.map CaseSpec.ops)).read
        ((choiceCodec cfg params selector (cs.map CaseSpec.ops)).dflt.withParams ps) r)
      (.obj ps vs) := by
  intro before
  have h := validCases_selected hv
  have hd : (caseFields (cs.map CaseSpec.ops)).map FieldOps.dflt = defaultsOf (fieldsOf cs) := by
    rw [caseFields_ops]; rfl
  simp only [choiceCodec, Val.withParams, encodeChoice, decodeChoice, hd]
  cases hs : selectCase (selector ps) 0 (cs.map CaseSpec.ops) with
  | none =>
    rw [hs] at h
    subst h
    exact ⟨[], by simp, fun after => by simp⟩
  | some x =>
    obtain ⟨i, f⟩ := x
    rw [hs] at h
    obtain ⟨s, v, h1, rfl, h3, rfl⟩ := h
    have hlt : i < (defaultsOf (fieldsOf cs)).length :=
      (List.getElem?_eq_some_iff.1 (defaultsOf_get h1)).1
    obtain ⟨bits, e, d⟩ := FieldOps.field_plain cfg s.ops (hcod s (List.mem_of_getElem? h1)) h3 i
      before
    refine ⟨bits, ?_, fun after => ?_⟩
    · simp only [List.getElem?_set_self hlt, e, Res.ok_bind, Res.pure_eq]
    · simp only [defaultsOf_get h1, d, Res.ok_bind, Res.pure_eq]

theorem choice_init {ps : List Val} {all : List FieldSpec} {whole : List Val}
    {R : Nat → List PItem} {b : Nat → Bool} {c : Option DeltaContext} {ns : List Node}
    (ss : List FieldSpec) (i : Nat) (vs : List Val)
    (hall : ∀ j, ss[j]? = all[i + j]?) (hwhole : ∀ j, vs[j]? = whole[i + j]?)
    (hlen2 : ss.length = vs.length)
    (hshape : ∀ (j : Nat) (s : FieldSpec) (v : Val), all[j]? = some s → whole[j]? = some v →
      s.ops.info.optional = true →
      s.ops.present ⟨ps, []⟩ = true → v = .none ∨ ∃ x, v = .some x)
    {cs : List Node}
    (ht : Target (opsOf all) (fun j => if j < i then R j else
      (itemAt (opsOf all) (fun _ => ⟨ps, []⟩) whole (b j) j).toList ++ R j) cs ns) :
    ∃ cs', initChoice ps (opsOf ss) i vs (.mk cs c) = .ok (.mk cs' c) ∧
      Target (opsOf all) R cs' ns := by
  induction ss generalizing i vs cs with
  | nil =>
    cases vs with
    | cons _ _ => simp at hlen2
    | nil =>
      refine ⟨cs, by simp [opsOf, initChoice], ht.congr (fun j hj => ?_)⟩
      have h0 := hall 0
      have : ¬ i ≤ j := by
        intro hle
        have := hall (j - i)
        rw [show i + (j - i) = j by omega] at this
        simp only [List.getElem?_nil] at this
        have := List.getElem?_eq_none_iff.1 this.symm
        simp only [opsOf, List.length_map] at hj
        omega
      rw [if_pos (by omega)]
  | cons s ss ih =>
    cases vs with
    | nil => simp at hlen2
    | cons v vs =>
      have hi : all[i]? = some s := by rw [← Nat.add_zero i, ← hall 0]; rfl
      have hif : (opsOf all)[i]? = some s.ops := by simp [opsOf, hi]
      have hvi : whole[i]? = some v := by rw [← Nat.add_zero i, ← hwhole 0]; rfl
      have hlt : i < (opsOf all).length := (List.getElem?_eq_some_iff.1 hif).1
      have hc := List.getElem?_eq_getElem (l := cs) (i := i) (ht.1.symm ▸ hlt)
      have hn := List.getElem?_eq_getElem (l := ns) (i := i) (ht.2.1.symm ▸ hlt)
      have hini := ht.2.2 _ _ _ _ hif hc hn
      simp only [Nat.lt_irrefl, if_false, itemAt, hif, hvi] at hini
      obtain ⟨c1, e1, f1⟩ := FieldOps.field_init s.ops (c := c) (hshape _ _ _ hi hvi) hc hini
      have ht' : Target (opsOf all) (fun j => if j < i + 1 then R j else
          (itemAt (opsOf all) (fun _ => ⟨ps, []⟩) whole (b j) j).toList ++ R j)
          (cs.set i c1) ns := by
        refine ht.update (fun j hj => ?_) (fun f n hf hn' => ?_)
        · have : (j < i + 1) ↔ (j < i) := by omega
          simp only [this]
        · rw [hif] at hf; cases hf
          rw [hn] at hn'; cases hn'
          rw [if_pos (by omega)]
          exact f1
      obtain ⟨cs', e2, f2⟩ := ih (i + 1) vs
        (fun j => by have := hall (j + 1); rw [show i + 1 + j = i + (j + 1) by omega]; simpa using this)
        (fun j => by have := hwhole (j + 1); rw [show i + 1 + j = i + (j + 1) by omega]; simpa using this)
        (by simpa using hlen2) ht'
      refine ⟨cs', ?_, f2⟩
      simp only [opsOf, List.map_cons, initChoice, e1, Res.ok_bind] at e2 ⊢
      exact e2

/-- Choices can be packed. -/
theorem choice_packs (cfg : Cfg) {params : List Val} {selector : List Val → Val}
    {cs : List CaseSpec} (hcod : ∀ s ∈ fieldsOf cs, s.Codable true true) (z : Bool) :
    (choiceCodec cfg params selector (cs.map CaseSpec.ops)).ops.PacksAll
      (fun _ v => ∃ ps vs, v = .obj ps vs ∧ ValidCases ps (selector ps) cs false vs) z := by
  intro its hits
  have hd : (caseFields (cs.map CaseSpec.ops)).map FieldOps.dflt = defaultsOf (fieldsOf cs) := by
    rw [caseFields_ops]; rfl
  -- the selected field of an item that is written
  let chosen : PItem → Nat → Bool := fun it j => it.written &&
    (selectCase (selector it.val.params) 0 (cs.map CaseSpec.ops)).any (fun x => x.1 == j)
  have hlook : ∀ it ∈ its, ∃ ps vs, it.val = .obj ps vs ∧ vs.length = (fieldsOf cs).length ∧
      (it.written = true → ValidCases ps (selector ps) cs false vs) ∧
      ∀ j s v, (fieldsOf cs)[j]? = some s → vs[j]? = some v →
        if chosen it j then s.Valid ⟨ps, []⟩ v else v = s.ops.dflt := by
    intro it hit
    have h := hits it hit
    cases hw : it.written with
    | true =>
      rw [hw, if_pos rfl] at h
      obtain ⟨ps, vs, h1, h2⟩ := h
      have h3 := validCases_selected h2
      refine ⟨ps, vs, h1, ?_, fun _ => h2, fun j s v hs hv => ?_⟩
      · cases hsel : selectCase (selector ps) 0 (cs.map CaseSpec.ops) with
        | none => rw [hsel] at h3; rw [h3]; simp [defaultsOf, opsOf]
        | some x =>
          rw [hsel] at h3
          obtain ⟨s, v, _, _, _, h3⟩ := h3
          rw [h3]; simp [defaultsOf, opsOf]
      · simp only [chosen, hw, h1, Val.params, Bool.true_and]
        cases hsel : selectCase (selector ps) 0 (cs.map CaseSpec.ops) with
        | none =>
          rw [hsel] at h3
          subst h3
          rw [defaultsOf_get hs] at hv; cases hv
          simp
        | some x =>
          rw [hsel] at h3
          obtain ⟨s', v', e1, _, e3, e4⟩ := h3
          simp only [Option.any_some, beq_iff_eq]
          by_cases hx : x.1 = j
          · rw [if_pos hx]
            rw [hx] at e1 e4
            rw [hs] at e1; cases e1
            have hlt := (List.getElem?_eq_some_iff.1 (defaultsOf_get hs)).1
            rw [e4, List.getElem?_set_self hlt] at hv
            cases hv
            exact e3
          · rw [if_neg hx]
            rw [e4, List.getElem?_set_ne hx, defaultsOf_get hs] at hv
            cases hv; rfl
    | false =>
      rw [hw, if_neg (by simp)] at h
      refine ⟨params, defaultsOf (fieldsOf cs), ?_, by simp [defaultsOf, opsOf], by simp,
        fun j s v hs hv => ?_⟩
      · rw [h.2, ← hd]; rfl
      · rw [defaultsOf_get hs] at hv; cases hv
        simp [chosen, hw]
  have hshape : ∀ it ∈ its, ∀ ps vs, it.val = .obj ps vs →
      ∀ (j : Nat) (s : FieldSpec) (v : Val), (fieldsOf cs)[j]? = some s → vs[j]? = some v →
      s.ops.info.optional = true →
      s.ops.present ⟨ps, []⟩ = true → v = .none ∨ ∃ x, v = .some x := by
    intro it hit ps vs hval j s v hs hv ho hp
    obtain ⟨ps', vs', h1, _, _, h4⟩ := hlook it hit
    rw [hval] at h1; cases h1
    have h4 := h4 j s v hs hv
    split at h4
    · exact FieldSpec.Valid.shape h4 ho hp
    · rw [h4]; left; simp [FieldOps.dflt, ho]
  refine composite_packs (fs := opsOf (fieldsOf cs)) (own := none)
    (by simp only [Codec.ops, choiceCodec, caseFields_ops])
    (fun it j => match it.val with
      | .obj ps vs => itemAt (opsOf (fieldsOf cs)) (fun _ => ⟨ps, []⟩) vs (chosen it j) j
      | _ => none) ?_ ?_ ?_ ?_
  · intro it hit hw j x hx
    obtain ⟨ps, vs, h1, _, _, h4⟩ := hlook it hit
    simp only [h1, itemAt, chosen, hw, Bool.false_and] at hx
    split at hx
    · exact FieldOps.contentItem_written hx
    · cases hx
  · intro j f hf
    obtain ⟨s, hs, rfl⟩ : ∃ s, (fieldsOf cs)[j]? = some s ∧ s.ops = f := by
      simp only [opsOf, List.getElem?_map, Option.map_eq_some_iff] at hf
      exact hf
    refine child_packs (s := s) (hcod s (List.mem_of_getElem? hs)) (fun x hx => ?_)
    simp only [List.mem_filterMap] at hx
    obtain ⟨it, hit, hx⟩ := hx
    obtain ⟨ps, vs, h1, h2, _, h4⟩ := hlook it hit
    simp only [h1, itemAt, hf] at hx
    have hjv := List.getElem?_eq_getElem (l := vs) (i := j) (by
      rw [h2]; exact (List.getElem?_eq_some_iff.1 hs).1)
    simp only [hjv] at hx
    refine ⟨⟨_, _, _, hx⟩, ?_⟩
    have h4 := h4 j s _ hs hjv
    cases hch : chosen it j with
    | true =>
      rw [hch] at h4 hx
      obtain ⟨a1, a2⟩ := FieldOps.contentItem_valid s.ops (valid := s.valid) h4 hx
      rw [a2, if_pos rfl]
      exact a1
    | false =>
      rw [hch] at h4 hx
      simp only [Bool.false_eq_true, if_false] at h4
      rw [h4] at hx
      obtain ⟨a1, a2⟩ := FieldOps.contentItem_dflt s.ops hx
      rw [a2, if_neg (by simp)]
      exact ⟨rfl, a1⟩
  · intro it hit cs' ns R ht
    obtain ⟨ps, vs, h1, h2, _, _⟩ := hlook it hit
    simp only [h1] at ht
    obtain ⟨cs'', e, t'⟩ := choice_init (c := none) (b := chosen it) (R := R) (fieldsOf cs) 0 vs
      (fun j => by rw [Nat.zero_add]) (fun j => by rw [Nat.zero_add]) h2.symm
      (hshape it hit ps vs h1) (ht.congr (fun j _ => by simp))
    refine ⟨cs'', ?_, t'⟩
    simp only [Codec.ops, choiceCodec, h1, caseFields_ops]
    exact e
  · intro it hit hw cws crs R hrel before
    obtain ⟨ps, vs, h1, _, h3, _⟩ := hlook it hit
    have h3 := validCases_selected (h3 hw)
    simp only [h1] at hrel
    have hother : ∀ j, (∀ x, selectCase (selector ps) 0 (cs.map CaseSpec.ops) = some x → x.1 ≠ j) →
        (itemAt (opsOf (fieldsOf cs)) (fun _ => ⟨ps, []⟩) vs (chosen it j) j).toList.filter
          PItem.written = [] := by
      intro j hj
      have hch : chosen it j = false := by
        simp only [chosen, hw, h1, Val.params, Bool.true_and]
        cases hsel : selectCase (selector ps) 0 (cs.map CaseSpec.ops) with
        | none => rfl
        | some x => simpa using hj x hsel
      rw [hch]
      simp only [itemAt]
      split
      · rename_i f v _ _
        cases hx : f.contentItem ⟨ps, []⟩ v false with
        | none => rfl
        | some x => simp [FieldOps.contentItem_written hx]
      · rfl
    simp only [Codec.ops, choiceCodec, h1, Val.params, Val.withParams, hd, encodeChoice, decodeChoice]
    cases hsel : selectCase (selector ps) 0 (cs.map CaseSpec.ops) with
    | none =>
      rw [hsel] at h3
      subst h3
      refine ⟨[], cws, crs, by simp, fun after => by simp, hrel.congr (fun j _ => ?_)⟩
      rw [hother j (by simp [hsel]), List.nil_append]
    | some x =>
      obtain ⟨i, f⟩ := x
      rw [hsel] at h3
      obtain ⟨s, v, e1, rfl, e3, rfl⟩ := h3
      have hlt : i < (defaultsOf (fieldsOf cs)).length :=
        (List.getElem?_eq_some_iff.1 (defaultsOf_get e1)).1
      have hif : (opsOf (fieldsOf cs))[i]? = some s.ops := by simp [opsOf, e1]
      have hlt' : i < (opsOf (fieldsOf cs)).length := (List.getElem?_eq_some_iff.1 hif).1
      have hcw := List.getElem?_eq_getElem (l := cws) (i := i) (hrel.1.symm ▸ hlt')
      have hcr := List.getElem?_eq_getElem (l := crs) (i := i) (hrel.2.1.symm ▸ hlt')
      have hfol := hrel.2.2 _ _ _ _ hif hcw hcr
      have hch : chosen it i = true := by
        simp only [chosen, hw, h1, Val.params, Bool.true_and, hsel, Option.any_some, beq_self_eq_true]
      simp only [hch] at hfol
      rw [← itemAt_written rfl] at hfol
      simp only [itemAt, hif, List.getElem?_set_self hlt] at hfol
      obtain ⟨bits, cw', cr', e, d, f'⟩ := FieldOps.field_packed cfg s.ops
        (hcod s (List.mem_of_getElem? e1)) e3 (c := none) (c' := none) hcw hcr hfol before
      refine ⟨bits, cws.set i cw', crs.set i cr', by simp only [List.getElem?_set_self hlt, e], fun after => ?_,
        hrel.update (fun j hj => ?_) (fun f hf => ?_)⟩
      · simp only [defaultsOf_get e1, d, Res.ok_bind, Res.pure_eq]
      · show R j = _ ++ R j
        rw [hother j (by rw [hsel]; intro x hx; cases hx; exact Ne.symm hj), List.nil_append]
      · rw [hif] at hf; cases hf
        exact f'

/-! ## Unions -/

/-- The member `sel` is valid, the others hold their default. -/
def ValidMember (ps : List Val) : List FieldSpec → Nat → List Val → Prop
  | [], _, _ => False
  | s :: ss, sel, vs => ∃ v vs', vs = v :: vs' ∧
      match sel with
      | 0 => s.Valid ⟨ps, []⟩ v ∧ vs' = defaultsOf ss
      | sel + 1 => v = s.ops.dflt ∧ ValidMember ps ss sel vs'

theorem validMember_get {ps : List Val} {ss : List FieldSpec} {sel : Nat} {vs : List Val}
    (h : ValidMember ps ss sel vs) :
    ∃ s v, ss[sel]? = some s ∧ s.Valid ⟨ps, []⟩ v ∧ vs = (defaultsOf ss).set sel v := by
  induction ss generalizing sel vs with
  | nil => exact absurd h id
  | cons s ss ih =>
    obtain ⟨v, vs', rfl, h⟩ := h
    cases sel with
    | zero => exact ⟨s, v, rfl, h.1, by rw [h.2]; rfl⟩
    | succ sel =>
      obtain ⟨s', v', h1, h2, h3⟩ := ih h.2
      exact ⟨s', v', by simpa using h1, h2, by rw [h.1, h3]; rfl⟩

/-- Unions are read back. -/
theorem union_rt (cfg : Cfg) {params : List Val} {ss : List FieldSpec} {z : Bool}
    (hcod : ∀ s ∈ ss, s.Codable false z) {ps vs : List Val} {sel : Nat} (hsel : sel < 2 ^ 31)
    (hv : ValidMember ps ss sel vs) :
    RoundTrips (fun w => (unionCodec cfg params (opsOf ss)).write (.union ps sel vs) w)
      (fun r => (unionCodec cfg params (opsOf ss)).read
        ((unionCodec cfg params (opsOf ss)).dflt.withParams ps) r) (.union ps sel vs) := by
  intro before
  obtain ⟨s, v, h1, h2, rfl⟩ := validMember_get hv
  have hlt : sel < (defaultsOf ss).length := (List.getElem?_eq_some_iff.1 (defaultsOf_get h1)).1
  obtain ⟨b1, e1, d1⟩ := C01_varuint_round_trip.2.2.2.2 sel hsel before
  simp only at e1
  obtain ⟨b2, e2, d2⟩ := FieldOps.field_plain cfg s.ops (hcod s (List.mem_of_getElem? h1)) h2 sel
    (before ++ b1)
  have ha : asU32 sel = sel := Nat.mod_eq_of_lt (by omega)
  have hif : (opsOf ss)[sel]? = some s.ops := by simp [opsOf, h1]
  have hd : (opsOf ss).map FieldOps.dflt = defaultsOf ss := rfl
  refine ⟨b1 ++ b2, ?_, fun after => ?_⟩
  · simp only [unionCodec, ha, e1, Res.ok_bind, encodeMember, hif, List.getElem?_set_self hlt, e2,
      Res.pure_eq, List.append_assoc]
  · have h3 := d1 (b2 ++ after)
    have h4 := d2 Node.new after
    simp only [List.length_append] at h4
    have hlen : sel < (opsOf ss).length := by simpa [defaultsOf] using hlt
    simp only [unionCodec, Val.withParams, List.append_assoc, h3, Res.ok_bind, fromU32,
      if_pos hlen, Res.pure_eq, decodeMember, hif, hd, defaultsOf_get h1, h4, List.length_append,
      Nat.add_assoc]

/-! ## Enums and bitmasks -/

theorem enumTryFrom_get {items : List (Option Int)} (hn : (enumValues items).Nodup) {i : Nat}
    {x : Int} (h : (enumValues items)[i]? = some x) : enumTryFrom items x = .ok i := by
  unfold enumTryFrom
  obtain ⟨hlt, hx⟩ := List.getElem?_eq_some_iff.1 h
  have : (enumValues items).findIdx? (fun y => y == x) = some i := by
    rw [List.findIdx?_eq_some_iff_getElem]
    refine ⟨hlt, by simp [hx], fun j hj => ?_⟩
    have : (enumValues items)[j] ≠ x := by
      intro he
      exact (List.pairwise_iff_getElem.1 hn j i (by omega) hlt hj) (he.trans hx.symm)
    simpa using this
  rw [this]

/-- The valid items of an enum. -/
def EnumValid (base : Scalar) (items : List (Option Int)) (v : Val) : Prop :=
  ∃ i x, v = .item i ∧ (enumValues items)[i]? = some x ∧ base.Contains x ∧ x < 2 ^ 63

theorem enumItem_ofInt (cfg : Cfg) {base : Scalar} {items : List (Option Int)} (hw : base.WidthOk)
    (hn : (enumValues items).Nodup) {i : Nat} {x : Int} (h : (enumValues items)[i]? = some x)
    (hc : base.Contains x) (h63 : x < 2 ^ 63) : enumItem items (base.ofInt x) = .ok (.item i) := by
  unfold enumItem
  rw [(Scalar.ofInt_spec (cfg := cfg) (env := ⟨[], []⟩) hw hc h63).2.1]
  simp only [Res.ok_bind, enumTryFrom_get hn h, Res.pure_eq]

theorem enum_rt (cfg : Cfg) {base : Scalar} {items : List (Option Int)} (hw : base.WidthOk)
    (hn : (enumValues items).Nodup) {v : Val} (hv : EnumValid base items v) (old : Val) :
    RoundTrips (fun w => (enumCodec cfg base items).write v w)
      (fun r => (enumCodec cfg base items).read old r) v := by
  obtain ⟨i, x, rfl, h1, h2, h3⟩ := hv
  exact numberCodec_rt hw (by simp only [enumNumber, h1]) (enumItem_ofInt cfg hw hn h1 h2 h3)
    (Scalar.ofInt_spec hw h2 h3).1 old

theorem enum_packs (cfg : Cfg) {base : Scalar} {items : List (Option Int)} {z : Bool}
    (hp : base.isPackable = true) (hw : base.WidthOk) (hn : cfg.md = .release ∨ base.Narrow)
    (hnd : (enumValues items).Nodup)
    (hz : z = true → (enumValues items)[0]? = some 0 ∧ base.Contains 0) :
    (enumCodec cfg base items).ops.PacksAll (fun _ v => EnumValid base items v) z := by
  intro its hits
  let nums : Val → Val := fun v => match v with
    | .item i => match (enumValues items)[i]? with
      | some x => base.ofInt x
      | none => .none
    | _ => .none
  have hlook : ∀ it ∈ its, ∃ i x, it.val = .item i ∧ (enumValues items)[i]? = some x ∧
      base.Contains x ∧ x < 2 ^ 63 ∧ (it.written = false → z = true ∧ x = 0) := by
    intro it hit
    have h := hits it hit
    cases hwr : it.written with
    | true =>
      rw [hwr, if_pos rfl] at h
      obtain ⟨i, x, h1, h2, h3, h4⟩ := h
      exact ⟨i, x, h1, h2, h3, h4, by simp⟩
    | false =>
      rw [hwr, if_neg (by simp)] at h
      exact ⟨0, 0, h.2, (hz h.1).1, (hz h.1).2, by decide, fun _ => ⟨h.1, rfl⟩⟩
  refine numberCodec_packs (nums := nums) (fun it hit => ?_) (fun it hit _ => ?_) ?_
  · obtain ⟨i, x, h1, h2, _⟩ := hlook it hit
    simp only [nums, h1, enumNumber, h2]
  · obtain ⟨i, x, h1, h2, h3, h4, _⟩ := hlook it hit
    simp only [nums, h1, h2]
    exact enumItem_ofInt cfg hw hnd h2 h3 h4
  · refine Scalar.packsAll hp hw hn z _ (fun y hy => ?_)
    rw [List.mem_map] at hy
    obtain ⟨it, hit, rfl⟩ := hy
    obtain ⟨i, x, h1, h2, h3, h4, h5⟩ := hlook it hit
    have hnu : nums it.val = base.ofInt x := by simp only [nums, h1, h2]
    simp only [hnu]
    cases hwr : it.written with
    | true => exact (Scalar.ofInt_spec hw h3 h4).1
    | false =>
      obtain ⟨a, rfl⟩ := h5 hwr
      exact ⟨a, Scalar.ofInt_zero h3⟩

theorem bitmask_rt (cfg : Cfg) {base : Scalar} {first : Int} (hw : base.WidthOk) {v : Val}
    (hv : base.InRange cfg ⟨[], []⟩ v) (old : Val) :
    RoundTrips (fun w => (bitmaskCodec cfg base first).write v w)
      (fun r => (bitmaskCodec cfg base first).read old r) v :=
  numberCodec_rt hw rfl rfl hv old

theorem bitmask_packs (cfg : Cfg) {base : Scalar} {first : Int} {z : Bool}
    (hp : base.isPackable = true) (hw : base.WidthOk) (hn : cfg.md = .release ∨ base.Narrow)
    (hz : z = true → first = 0 ∧ base.Contains 0) :
    (bitmaskCodec cfg base first).ops.PacksAll (fun _ v => base.InRange cfg ⟨[], []⟩ v) z := by
  intro its hits
  refine numberCodec_packs (nums := id) (fun it hit => rfl) (fun it hit _ => rfl) ?_
  refine Scalar.packsAll hp hw hn z _ (fun y hy => ?_)
  rw [List.mem_map] at hy
  obtain ⟨it, hit, rfl⟩ := hy
  have h := hits it hit
  cases hwr : it.written with
  | true =>
    rw [hwr, if_pos rfl] at h
    exact h
  | false =>
    rw [hwr, if_neg (by simp)] at h
    obtain ⟨h1, h2⟩ := hz h.1
    refine ⟨h.1, ?_⟩
    show it.val = base.dflt
    rw [h.2, ← Scalar.ofInt_zero h2, ← h1]; rfl

end Zs
