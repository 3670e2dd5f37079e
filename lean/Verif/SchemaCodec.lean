import Verif.SchemaChoice

/-!
# All types of a schema, by induction
-/

namespace Zs

open Spec

/-- The fields with the valid values of their types. -/
def Fields.specs (cfg : Cfg) : Fields → List FieldSpec
  | .nil => []
  | .cons info ty rest => ⟨⟨info, ty.ops cfg⟩, ty.Valid cfg⟩ :: rest.specs cfg

/-- The cases with the valid values of their types. -/
def Cases.specs (cfg : Cfg) : Cases → List CaseSpec
  | .nil => []
  | .field labels info ty rest =>
      ⟨labels, some ⟨⟨info, ty.ops cfg⟩, ty.Valid cfg⟩⟩ :: rest.specs cfg
  | .empty labels rest => ⟨labels, none⟩ :: rest.specs cfg

theorem Fields.specs_ops (cfg : Cfg) : ∀ fs : Fields, opsOf (fs.specs cfg) = fs.ops cfg
  | .nil => by simp [Fields.specs, Fields.ops, opsOf]
  | .cons info ty rest => by
    have := Fields.specs_ops cfg rest
    simp only [Fields.specs, Fields.ops, opsOf, List.map_cons] at this ⊢
    rw [this]

theorem Cases.specs_ops (cfg : Cfg) : ∀ cs : Cases, (cs.specs cfg).map CaseSpec.ops = cs.ops cfg
  | .nil => by simp [Cases.specs, Cases.ops]
  | .field labels info ty rest => by
    simp only [Cases.specs, Cases.ops, List.map_cons, Cases.specs_ops cfg rest, CaseSpec.ops,
      Option.map_some]
  | .empty labels rest => by
    simp only [Cases.specs, Cases.ops, List.map_cons, Cases.specs_ops cfg rest, CaseSpec.ops,
      Option.map_none]

theorem FieldOps.dflt_eq (info : FieldInfo) (t : TypeOps) :
    FieldOps.dflt ⟨info, t⟩ = info.default t.dflt := rfl

mutual
theorem Ty.dflt_eq (cfg : Cfg) : ∀ t : Ty, (t.ops cfg).dflt = t.default
  | .scalar s => by simp only [Ty.ops, Ty.default]; rfl
  | .enum base items => by simp only [Ty.ops, Ty.default]; rfl
  | .bitmask base first => by simp only [Ty.ops, Ty.default]; rfl
  | .struct params fields => by
    simp only [Ty.ops, Ty.default]
    rw [← Fields.dflt_eq cfg fields]; rfl
  | .choice params sel cases => by
    simp only [Ty.ops, Ty.default]
    rw [← Cases.dflt_eq cfg cases]; rfl
  | .union params members => by
    simp only [Ty.ops, Ty.default]
    rw [← Fields.dflt_eq cfg members]; rfl
theorem Fields.dflt_eq (cfg : Cfg) : ∀ fs : Fields, (fs.ops cfg).map FieldOps.dflt = fs.defaults
  | .nil => by simp [Fields.ops, Fields.defaults]
  | .cons info ty rest => by
    simp only [Fields.ops, Fields.defaults, List.map_cons, FieldOps.dflt_eq, Ty.dflt_eq cfg ty,
      Fields.dflt_eq cfg rest]
theorem Cases.dflt_eq (cfg : Cfg) : ∀ cs : Cases,
    (caseFields (cs.ops cfg)).map FieldOps.dflt = cs.defaults
  | .nil => by simp [Cases.ops, Cases.defaults, caseFields]
  | .field labels info ty rest => by
    have := Cases.dflt_eq cfg rest
    simp only [caseFields] at this
    simp only [Cases.ops, Cases.defaults, caseFields, List.filterMap_cons, List.map_cons,
      FieldOps.dflt_eq, Ty.dflt_eq cfg ty, this]
  | .empty labels rest => by
    have := Cases.dflt_eq cfg rest
    simp only [caseFields] at this
    simp only [Cases.ops, Cases.defaults, caseFields, List.filterMap_cons, this]
end

theorem FieldSpec.valid_iff (cfg : Cfg) (info : FieldInfo) (ty : Ty) (env : Env) (v : Val) :
    FieldSpec.Valid ⟨⟨info, ty.ops cfg⟩, ty.Valid cfg⟩ env v ↔
      info.FieldValid (ty.Valid cfg) ty.default env v := by
  unfold FieldSpec.Valid FieldOps.Valid
  simp only [Ty.dflt_eq]

theorem Fields.valid_iff (cfg : Cfg) : ∀ (fs : Fields) (ps done vs : List Val),
    fs.Valid cfg ps done vs ↔ ValidFields ps (fs.specs cfg) done vs
  | .nil, ps, done, vs => by simp only [Fields.Valid, Fields.specs, ValidFields]
  | .cons info ty rest, ps, done, vs => by
    simp only [Fields.Valid, Fields.specs, ValidFields, FieldSpec.valid_iff,
      Fields.valid_iff cfg rest]

theorem Fields.specs_defaults (cfg : Cfg) (fs : Fields) :
    defaultsOf (fs.specs cfg) = fs.defaults := by
  unfold defaultsOf
  rw [Fields.specs_ops, Fields.dflt_eq]

theorem Fields.validMember_iff (cfg : Cfg) : ∀ (fs : Fields) (ps : List Val) (sel : Nat)
    (vs : List Val), fs.ValidMember cfg ps sel vs ↔ Zs.ValidMember ps (fs.specs cfg) sel vs
  | .nil, ps, sel, vs => by simp only [Fields.ValidMember, Fields.specs, Zs.ValidMember]
  | .cons info ty rest, ps, 0, vs => by
    simp only [Fields.ValidMember, Fields.specs, Zs.ValidMember, FieldSpec.valid_iff,
      Fields.specs_defaults]
  | .cons info ty rest, ps, sel + 1, vs => by
    simp only [Fields.ValidMember, Fields.specs, Zs.ValidMember, FieldOps.dflt_eq, Ty.dflt_eq,
      Fields.validMember_iff cfg rest]

theorem Cases.valid_iff (cfg : Cfg) : ∀ (cs : Cases) (ps : List Val) (sel : Val) (taken : Bool)
    (vs : List Val), cs.Valid cfg ps sel taken vs ↔ ValidCases ps sel (cs.specs cfg) taken vs
  | .nil, ps, sel, taken, vs => by simp only [Cases.Valid, Cases.specs, ValidCases]
  | .field labels info ty rest, ps, sel, taken, vs => by
    simp only [Cases.Valid, Cases.specs, ValidCases, FieldSpec.valid_iff, FieldOps.dflt_eq,
      Ty.dflt_eq, Cases.valid_iff cfg rest]
  | .empty labels rest, ps, sel, taken, vs => by
    simp only [Cases.Valid, Cases.specs, ValidCases, Cases.valid_iff cfg rest]

theorem Ty.coherent (cfg : Cfg) (t : Ty) : (t.ops cfg).Coherent := by
  cases t <;> simp only [Ty.ops] <;> first | exact Scalar.coherent cfg _ | exact Codec.coherent _

/-- What holds for every type. -/
structure Ty.Good (cfg : Cfg) (t : Ty) : Prop where
  plain : t.Supported cfg → (t.ops cfg).RT (t.Valid cfg) ∧ (t.ops cfg).ElemRT (t.Valid cfg)
  packed : ∀ z, t.Packable cfg z → (t.ops cfg).PacksAll (t.Valid cfg) z

/-- For generated types, elements are coded as fields. -/
theorem Codec.elemRT {c : Codec} {valid : Env → Val → Prop} (h : c.ops.RT valid) :
    c.ops.RT valid ∧ c.ops.ElemRT valid := ⟨h, fun env v hv => h env v hv⟩

theorem FieldSpec.codable_plain {cfg : Cfg} {info : FieldInfo} {ty : Ty} (hg : ty.Good cfg)
    (h : if info.array.any (fun a => a.isPacked && !info.isOffsetField) then ty.Packable cfg false
      else ty.Supported cfg) (z : Bool) :
    FieldSpec.Codable ⟨⟨info, ty.ops cfg⟩, ty.Valid cfg⟩ false z := by
  refine ⟨Ty.coherent cfg ty, ?_⟩
  simp only [FieldOps.isPackable]
  cases ha : info.array with
  | none =>
    simp only [ha, Option.any_none, Bool.false_eq_true, if_false] at h
    simp only [Bool.false_and, Bool.false_eq_true, if_false]
    exact ⟨(hg.plain h).1, by simp⟩
  | some a =>
    simp only [ha, Option.any_some, Bool.and_eq_true, Bool.not_eq_true'] at h
    simp only [Bool.or_false, Option.isSome_some, if_true]
    by_cases hb : a.isPacked = true ∧ info.isOffsetField = false
    · rw [if_pos hb] at h
      simp only [hb.1, hb.2, Bool.false_eq_true, if_false, Bool.and_self, if_true]
      exact hg.packed false h
    · rw [if_neg hb] at h
      have : (a.isPacked && (if info.isOffsetField = true then false else true)) = false := by
        cases h1 : a.isPacked <;> cases h2 : info.isOffsetField <;> simp_all
      rw [this]
      simp only [Bool.false_eq_true, if_false]
      exact (hg.plain h).2

theorem Ty.ops_isPackable (cfg : Cfg) (info : FieldInfo) (ty : Ty) :
    info.isDelta ty = (!info.isOffsetField && (ty.ops cfg).isPackable) := by
  unfold FieldInfo.isDelta
  cases ty <;> simp only [Ty.ops] <;> rfl

theorem FieldSpec.codable_packed {cfg : Cfg} {info : FieldInfo} {ty : Ty} (hg : ty.Good cfg)
    {z : Bool}
    (h : if info.array.isSome then
        (if info.isOffsetField then ty.Supported cfg else ty.Packable cfg false)
      else if info.isDelta ty then ty.Packable cfg z
      else ty.Supported cfg ∧ ty.isCompound = false) :
    FieldSpec.Codable ⟨⟨info, ty.ops cfg⟩, ty.Valid cfg⟩ true z := by
  refine ⟨Ty.coherent cfg ty, ?_⟩
  simp only [FieldOps.isPackable]
  cases ha : info.array with
  | none =>
    simp only [ha, Option.isSome_none, Bool.false_eq_true, if_false, Ty.ops_isPackable cfg] at h
    simp only [Bool.true_and, Option.isSome_none, Bool.false_eq_true, if_false]
    by_cases hb : (!info.isOffsetField && (ty.ops cfg).isPackable) = true
    · rw [if_pos hb] at h
      simp only [Bool.and_eq_true, Bool.not_eq_true'] at hb
      simp only [hb.1, hb.2, Bool.false_eq_true, if_false, if_true]
      exact hg.packed z h
    · rw [if_neg hb] at h
      have : (if info.isOffsetField = true then false else (ty.ops cfg).isPackable) = false := by
        cases h1 : info.isOffsetField <;> cases h2 : (ty.ops cfg).isPackable <;> simp_all
      rw [this]
      simp only [Bool.false_eq_true, if_false]
      refine ⟨(hg.plain h.1).1, fun _ => ?_⟩
      cases ty <;> first | (simp only [Ty.ops]; rfl) | cases h.2
  | some a =>
    simp only [ha, Option.isSome_some, if_true] at h
    simp only [Bool.or_true, Bool.true_and, Option.isSome_some, if_true]
    cases ho : info.isOffsetField with
    | true =>
      simp only [ho, if_true] at h
      simp only [if_true, Bool.false_eq_true, if_false]
      exact (hg.plain h).2
    | false =>
      simp only [ho, Bool.false_eq_true, if_false] at h
      simp only [if_true, Bool.false_eq_true, if_false]
      exact hg.packed false h

mutual
theorem Ty.good (cfg : Cfg) : ∀ t : Ty, t.Good cfg
  | .scalar s => by
    refine ⟨fun h => ?_, fun z h => ?_⟩
    · simp only [Ty.Supported] at h
      have e : Ty.Valid cfg (.scalar s) = s.InRange cfg := by funext env v; simp only [Ty.Valid]
      simp only [Ty.ops, e]
      exact ⟨Scalar.ops_rt h, Scalar.ops_elemRT h⟩
    · simp only [Ty.Packable] at h
      have e : Ty.Valid cfg (.scalar s) = s.InRange cfg := by funext env v; simp only [Ty.Valid]
      simp only [Ty.ops, e]
      exact Scalar.packsAll h.1 h.2.1 h.2.2 z
  | .enum base items => by
    have e : Ty.Valid cfg (.enum base items) = fun _ v => EnumValid base items v := by
      funext env v; simp only [Ty.Valid, EnumValid]
    refine ⟨fun h => ?_, fun z h => ?_⟩
    · simp only [Ty.Supported] at h
      simp only [Ty.ops, e]
      exact Codec.elemRT (fun env v hv => enum_rt cfg h.1 h.2 hv (.item 0))
    · simp only [Ty.Packable] at h
      simp only [Ty.ops, e]
      exact enum_packs cfg h.1 h.2.1 h.2.2.1 h.2.2.2.1 h.2.2.2.2
  | .bitmask base first => by
    have e : Ty.Valid cfg (.bitmask base first) = fun _ v => base.InRange cfg ⟨[], []⟩ v := by
      funext env v; simp only [Ty.Valid]
    refine ⟨fun h => ?_, fun z h => ?_⟩
    · simp only [Ty.Supported] at h
      simp only [Ty.ops, e]
      exact Codec.elemRT (fun env v hv => bitmask_rt cfg (first := first) h hv ((base.ofInt first).withParams v.params))
    · simp only [Ty.Packable] at h
      simp only [Ty.ops, e]
      exact bitmask_packs cfg h.1 h.2.1 h.2.2.1 h.2.2.2
  | .struct params fields => by
    have e : Ty.Valid cfg (.struct params fields) = fun _ v => ∃ ps vs, v = .obj ps vs ∧
        ValidFields ps (fields.specs cfg) [] vs := by
      funext env v; simp only [Ty.Valid, Fields.valid_iff]
    refine ⟨fun h => ?_, fun z h => ?_⟩
    · simp only [Ty.Supported] at h
      simp only [Ty.ops, e, ← Fields.specs_ops]
      refine Codec.elemRT (fun env v hv => ?_)
      obtain ⟨ps, vs, rfl, hv⟩ := hv
      exact struct_rt cfg (params := params) (z := false) ((Fields.good cfg fields).1 h false) hv
    · simp only [Ty.Packable] at h
      simp only [Ty.ops, e, ← Fields.specs_ops]
      exact struct_packs cfg ((Fields.good cfg fields).2 z h)
  | .choice params sel cases => by
    have e : Ty.Valid cfg (.choice params sel cases) = fun _ v => ∃ ps vs, v = .obj ps vs ∧
        ValidCases ps (sel ps) (cases.specs cfg) false vs := by
      funext env v; simp only [Ty.Valid, Cases.valid_iff]
    refine ⟨fun h => ?_, fun z h => ?_⟩
    · simp only [Ty.Supported] at h
      simp only [Ty.ops, e, ← Cases.specs_ops]
      refine Codec.elemRT (fun env v hv => ?_)
      obtain ⟨ps, vs, rfl, hv⟩ := hv
      exact choice_rt cfg (params := params) (z := false) ((Cases.good cfg cases).1 h false) hv
    · simp only [Ty.Packable] at h
      simp only [Ty.ops, e, ← Cases.specs_ops]
      exact choice_packs cfg ((Cases.good cfg cases).2 h) z
  | .union params members => by
    have e : Ty.Valid cfg (.union params members) = fun _ v => ∃ ps sel vs, v = .union ps sel vs ∧
        sel < 2 ^ 31 ∧ ValidMember ps (members.specs cfg) sel vs := by
      funext env v; simp only [Ty.Valid, Fields.validMember_iff]
    refine ⟨fun h => ?_, fun z h => ?_⟩
    · simp only [Ty.Supported] at h
      simp only [Ty.ops, e, ← Fields.specs_ops]
      refine Codec.elemRT (fun env v hv => ?_)
      obtain ⟨ps, sel, vs, rfl, hs, hv⟩ := hv
      exact union_rt cfg (params := params) (z := false) ((Fields.good cfg members).1 h false) hs hv
    · simp only [Ty.Packable] at h
theorem Fields.good (cfg : Cfg) : ∀ fs : Fields,
    (fs.Supported cfg → ∀ z, ∀ s ∈ fs.specs cfg, s.Codable false z) ∧
    ∀ z, fs.Packable cfg z → ∀ s ∈ fs.specs cfg, s.Codable true z
  | .nil => ⟨fun _ _ s hs => by simp [Fields.specs] at hs, fun _ _ s hs => by
      simp [Fields.specs] at hs⟩
  | .cons info ty rest => by
    refine ⟨fun h z s hs => ?_, fun z h s hs => ?_⟩
    · simp only [Fields.Supported] at h
      simp only [Fields.specs, List.mem_cons] at hs
      rcases hs with rfl | hs
      · exact FieldSpec.codable_plain (Ty.good cfg ty) h.1 z
      · exact (Fields.good cfg rest).1 h.2 z s hs
    · simp only [Fields.Packable] at h
      simp only [Fields.specs, List.mem_cons] at hs
      rcases hs with rfl | hs
      · exact FieldSpec.codable_packed (Ty.good cfg ty) h.1
      · exact (Fields.good cfg rest).2 z h.2 s hs
theorem Cases.good (cfg : Cfg) : ∀ cs : Cases,
    (cs.Supported cfg → ∀ z, ∀ s ∈ fieldsOf (cs.specs cfg), s.Codable false z) ∧
    (cs.Packable cfg → ∀ s ∈ fieldsOf (cs.specs cfg), s.Codable true true)
  | .nil => ⟨fun _ _ s hs => by simp [Cases.specs, fieldsOf] at hs, fun _ s hs => by
      simp [Cases.specs, fieldsOf] at hs⟩
  | .field labels info ty rest => by
    refine ⟨fun h z s hs => ?_, fun h s hs => ?_⟩
    · simp only [Cases.Supported] at h
      simp only [Cases.specs, fieldsOf, List.filterMap_cons, List.mem_cons] at hs
      rcases hs with rfl | hs
      · exact FieldSpec.codable_plain (Ty.good cfg ty) h.1 z
      · exact (Cases.good cfg rest).1 h.2 z s hs
    · simp only [Cases.Packable] at h
      simp only [Cases.specs, fieldsOf, List.filterMap_cons, List.mem_cons] at hs
      rcases hs with rfl | hs
      · exact FieldSpec.codable_packed (Ty.good cfg ty) h.1
      · exact (Cases.good cfg rest).2 h.2 s hs
  | .empty labels rest => by
    refine ⟨fun h z s hs => ?_, fun h s hs => ?_⟩
    · simp only [Cases.Supported] at h
      simp only [Cases.specs, fieldsOf, List.filterMap_cons] at hs
      exact (Cases.good cfg rest).1 h z s hs
    · simp only [Cases.Packable] at h
      simp only [Cases.specs, fieldsOf, List.filterMap_cons] at hs
      exact (Cases.good cfg rest).2 h s hs
end

end Zs
