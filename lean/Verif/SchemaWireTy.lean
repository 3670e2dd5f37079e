import Verif.SchemaWire

/-!
# The layout of all types of a schema, by induction
-/

namespace Zs

open Spec

/-- What a plan or none asks of a type. -/
def Fields.Claim (cfg : Cfg) (fs : Fields) (pack : Option Plan) : Prop := match pack with
  | none => fs.Supported cfg
  | some _ => ∃ z, fs.Packable cfg z

/-- What a plan or none asks of the cases of a choice. -/
def Cases.Claim (cfg : Cfg) (cs : Cases) (pack : Option Plan) : Prop := match pack with
  | none => cs.Supported cfg
  | some _ => cs.Packable cfg

/-- The layout of fields. -/
structure FieldsGood (cfg : Cfg) (packing : Packing) (fs : Fields) : Prop where
  steps : ∀ pack, fs.Claim cfg pack → ∀ i ps done vs, fs.Valid cfg ps done vs →
    Steps pack (fun n w => encodeFields pack.isSome ps (fs.ops cfg) i done vs n w)
      (fs.Wire cfg packing pack i ps done vs)
  member : fs.Supported cfg → ∀ ps sel left vs, fs.ValidMember cfg ps left vs →
    ∃ f v, (fs.ops cfg)[left]? = some f ∧ vs[left]? = some v ∧
      Steps none (fun n w => f.encode false sel ⟨ps, []⟩ v n w) (fs.MemberWire cfg packing ps sel left vs)

/-- The layout of cases. -/
structure CasesGood (cfg : Cfg) (packing : Packing) (cs : Cases) : Prop where
  steps : ∀ pack, cs.Claim cfg pack → ∀ i ps sel vs all, cs.Valid cfg ps sel false vs →
    (∀ k : Nat, (all : List Val)[i + k]? = vs[k]?) →
    Steps pack (fun n w => match selectCase sel i (cs.ops cfg) with
      | none => pure (w, n)
      | some (j, f) => match all[j]? with
        | none => .panic
        | some v => f.encode pack.isSome j ⟨ps, []⟩ v n w)
      (cs.Wire cfg packing pack i ps sel vs)

/-- A generated type. -/
theorem Codec.wireGood {c : Codec} {valid : Env → Val → Prop}
    {wire : Option Plan → Env → Val → Layout} {a b : Prop}
    (h1 : a → ∀ env v, valid env v → Lays (fun w => c.write v w) (wire none env v))
    (h2 : b → ∀ env v, valid env v → ∀ plan,
      Steps (some plan) (fun n w => c.writePacked v n w) (wire (some plan) env v)) :
    WireGood c.ops valid wire a b :=
  ⟨Codec.coherent c, h1, h1, h2⟩

theorem fieldClaim_plain {cfg : Cfg} {info : FieldInfo} {ty : Ty} {delta : Bool}
    (h : if info.array.any (fun a => a.isPacked && !info.isOffsetField) then ty.Packable cfg false
      else ty.Supported cfg) :
    FieldClaim info delta false (ty.Supported cfg) (∃ z, ty.Packable cfg z) := by
  unfold FieldClaim
  cases ha : info.array with
  | none => simpa [ha] using h
  | some a =>
    simp only [ha, Option.any_some] at h
    simp only [Bool.or_false]
    split
    · rename_i hb; rw [if_pos hb] at h; exact ⟨_, h⟩
    · rename_i hb; rw [if_neg hb] at h; exact h

theorem fieldClaim_packed {cfg : Cfg} {info : FieldInfo} {ty : Ty} {z : Bool}
    (h : if info.array.isSome then
        (if info.isOffsetField then ty.Supported cfg else ty.Packable cfg false)
      else if info.isDelta ty then ty.Packable cfg z
      else ty.Supported cfg ∧ ty.isCompound = false) :
    FieldClaim info (info.isDelta ty) true (ty.Supported cfg) (∃ z, ty.Packable cfg z) := by
  unfold FieldClaim
  cases ha : info.array with
  | none =>
    simp only [ha, Option.isSome_none, Bool.false_eq_true, if_false] at h
    simp only [Bool.true_and]
    split
    · rename_i hb; rw [if_pos hb] at h; exact ⟨_, h⟩
    · rename_i hb; rw [if_neg hb] at h; exact h.1
  | some a =>
    simp only [ha, Option.isSome_some, if_true] at h
    cases ho : info.isOffsetField with
    | true => simpa [ho] using h
    | false => simp only [ho, Bool.false_eq_true, if_false] at h; simp only [Bool.or_true, Bool.not_false, Bool.and_self, if_true]; exact ⟨_, h⟩

mutual
/-- What is generated for a type follows its layout. -/
theorem Ty.wireGood (cfg : Cfg) {packing : Packing} (hQ : packing.Allows) : (t : Ty) →
    WireGood (t.ops cfg) (t.Valid cfg) (t.Wire cfg packing) (t.Supported cfg) (∃ z, t.Packable cfg z)
  | .scalar s => by
    obtain ⟨h1, h2, h3, h4⟩ := s.wireGood cfg
    have ev : (Ty.scalar s).Valid cfg = s.InRange cfg := by
      funext env v; rw [Ty.Valid]
    have ew : (Ty.scalar s).Wire cfg packing =
        (fun pack => s.Wire cfg (if s.isPackable then pack else none)) := by
      funext pack env v; rw [Ty.Wire]
    rw [ev, ew]
    simp only [Ty.ops]
    refine ⟨h1, fun h => h2 ?_, fun h => h3 ?_, fun h => h4 ?_⟩
    · rwa [Ty.Supported] at h
    · rwa [Ty.Supported] at h
    · obtain ⟨z, h⟩ := h
      rw [Ty.Packable] at h
      exact ⟨h.1, h.2.1⟩
  | .enum base items => by
    simp only [Ty.ops, Ty.Supported, Ty.Packable]
    have plain := fun (hw : base.WidthOk) => numberCodec_wireGood (cfg := cfg) (base := base)
      (dflt := .item 0) (number := enumNumber base items) (item := enumItem items) (own := none)
      (valid := (Ty.enum base items).Valid cfg) (wire := (Ty.enum base items).Wire cfg packing)
      (a := base.WidthOk) (b := base.isPackable = true ∧ base.WidthOk)
      (fun env v hv => by
        rw [Ty.Valid] at hv
        obtain ⟨i, x, rfl, hi, hc, h63⟩ := hv
        have hn := Scalar.ofInt_number (cfg := cfg) hw hc h63
        refine ⟨base.ofInt x, by simp [enumNumber, hi], (Scalar.ofInt_spec hw hc h63).1, ?_, ?_⟩
        · simp only [Ty.Wire, hi, Scalar.Wire, hn]
        · intro plan
          simp only [Ty.Wire, hi, Scalar.Wire, hn, Plan.field]) id id
    refine ⟨Codec.coherent _, fun h => (plain h.1).field h.1, fun h => (plain h.1).elem h.1,
      fun h => (plain h.choose_spec.2.1).packed ⟨h.choose_spec.1, h.choose_spec.2.1⟩⟩
  | .bitmask base first => by
    simp only [Ty.ops, Ty.Supported, Ty.Packable]
    refine numberCodec_wireGood (fun env v hv => ?_) id
      (fun h => ⟨h.choose_spec.1, h.choose_spec.2.1⟩)
    rw [Ty.Valid] at hv
    refine ⟨v, rfl, hv, ?_, fun plan => ?_⟩
    · rw [Ty.Wire]
    · rw [Ty.Wire]
  | .struct params fields => by
    have hf := Fields.wireGood cfg hQ fields
    simp only [Ty.ops]
    refine Codec.wireGood ?_ ?_
    · intro h env v hv
      rw [Ty.Supported] at h
      rw [Ty.Valid] at hv
      obtain ⟨ps, vs, rfl, hv⟩ := hv
      rw [Ty.Wire]
      exact (hf.steps none h 0 ps [] vs hv).lays Node.new
    · intro h env v hv plan
      rw [Ty.Valid] at hv
      obtain ⟨ps, vs, rfl, hv⟩ := hv
      obtain ⟨z, h⟩ := h
      rw [Ty.Packable] at h
      rw [Ty.Wire]
      exact hf.steps (some plan) ⟨z, h⟩ 0 ps [] vs hv
  | .choice params sel cases => by
    have hc := Cases.wireGood cfg hQ cases
    simp only [Ty.ops]
    refine Codec.wireGood ?_ ?_
    · intro h env v hv
      rw [Ty.Supported] at h
      rw [Ty.Valid] at hv
      obtain ⟨ps, vs, rfl, hv⟩ := hv
      rw [Ty.Wire]
      exact (hc.steps none h 0 ps (sel ps) vs vs hv (fun k => by rw [Nat.zero_add])).lays Node.new
    · intro h env v hv plan
      rw [Ty.Valid] at hv
      obtain ⟨ps, vs, rfl, hv⟩ := hv
      obtain ⟨z, h⟩ := h
      rw [Ty.Packable] at h
      rw [Ty.Wire]
      exact hc.steps (some plan) h 0 ps (sel ps) vs vs hv (fun k => by rw [Nat.zero_add])
  | .union params members => by
    have hf := Fields.wireGood cfg hQ members
    simp only [Ty.ops]
    refine Codec.wireGood ?_ ?_
    · intro h env v hv
      rw [Ty.Supported] at h
      rw [Ty.Valid] at hv
      obtain ⟨ps, sel, vs, rfl, h31, hv⟩ := hv
      obtain ⟨f, x, hm, hx, hs⟩ := hf.member h ps sel sel vs hv
      rw [Ty.Wire]
      have e : asU32 sel = sel := Nat.mod_eq_of_lt (by omega)
      have := (writesAs_varsize h31).lays.bind (hs.lays Node.new)
      intro w w' st hw
      refine this w w' st ?_
      simp only [unionCodec, encodeMember, hm, hx, e] at hw
      exact hw
    · intro h
      obtain ⟨z, h⟩ := h
      rw [Ty.Packable] at h
      exact h.elim
theorem Fields.wireGood (cfg : Cfg) {packing : Packing} (hQ : packing.Allows) :
    (fs : Fields) → FieldsGood cfg packing fs
  | .nil => by
    refine ⟨?_, ?_⟩
    · intro pack _ i ps done vs hv
      rw [Fields.Valid] at hv
      subst hv
      rw [Fields.Wire]
      simp only [Fields.ops, encodeFields, if_true]
      exact Steps.keep Lays.pure
    · intro _ ps sel left vs hv
      rw [Fields.ValidMember] at hv
      exact hv.elim
  | .cons info ty rest => by
    have hty := Ty.wireGood cfg hQ ty
    have hrest := Fields.wireGood cfg hQ rest
    have hone : ∀ pack, (Fields.cons info ty rest).Claim cfg pack → ∀ i env v,
        info.FieldValid (ty.Valid cfg) ty.default env v →
        Steps pack (fun n w => FieldOps.encode ⟨info, ty.ops cfg⟩ pack.isSome i env v n w)
          (info.Wire packing (info.isDelta ty) (ty.Wire cfg packing) (fun all => ty.numbers all)
            pack i env v) := by
      intro pack hc i env v hv
      refine FieldOps.field_steps (f := ⟨info, ty.ops cfg⟩) hQ hty (Ty.initGood cfg ty) id (Ty.ops_isPackable cfg info ty) ?_ hv
      cases pack with
      | none =>
        simp only [Fields.Claim, Fields.Supported] at hc
        exact fieldClaim_plain hc.1
      | some plan =>
        simp only [Fields.Claim, Fields.Packable] at hc
        obtain ⟨z, hc⟩ := hc
        exact fieldClaim_packed hc.1
    refine ⟨?_, ?_⟩
    · intro pack hc i ps done vs hv
      rw [Fields.Valid] at hv
      obtain ⟨v, vs, rfl, hv1, hv2⟩ := hv
      have h1 := hone pack hc i ⟨ps, done⟩ v hv1
      have h2 := hrest.steps pack (by
        cases pack with
        | none => simp only [Fields.Claim, Fields.Supported] at hc ⊢; exact hc.2
        | some plan =>
          simp only [Fields.Claim, Fields.Packable] at hc ⊢
          exact ⟨hc.choose, hc.choose_spec.2⟩) (i + 1) ps (done ++ [v]) vs hv2
      rw [Fields.Wire]
      simp only [Fields.ops, encodeFields]
      intro n w w' n' st hB hw
      obtain ⟨⟨w1, n1⟩, hw1, hw⟩ := Res.bind_eq_ok.1 hw
      obtain ⟨b1, st1, e1, l1, hA1⟩ := h1 _ _ _ _ st hB hw1
      have hB1 : Before pack n1 st1 := by
        cases pack with
        | none => trivial
        | some plan => exact hA1
      obtain ⟨b2, st2, e2, l2, hA2⟩ := h2 _ _ _ _ st1 hB1 hw
      rw [e1, List.length_append] at l2
      refine ⟨b1 ++ b2, st2, by rw [e2, e1, List.append_assoc], ⟨b1, b2, st1, rfl, l1, l2⟩, ?_⟩
      cases pack with
      | none => exact Eq.trans hA2 hA1
      | some plan => exact hA2
    · intro hs ps sel left vs hv
      rw [Fields.ValidMember] at hv
      obtain ⟨v, vs', rfl, hv⟩ := hv
      cases left with
      | zero =>
        refine ⟨⟨info, ty.ops cfg⟩, v, by simp [Fields.ops], rfl, ?_⟩
        rw [Fields.MemberWire]
        exact hone none hs sel ⟨ps, []⟩ v hv.1
      | succ left =>
        rw [Fields.Supported] at hs
        obtain ⟨f, x, h1, h2, h3⟩ := hrest.member hs.2 ps sel left vs' hv.2
        refine ⟨f, x, by simpa [Fields.ops] using h1, by simpa using h2, ?_⟩
        rw [Fields.MemberWire]
        exact h3
theorem Cases.wireGood (cfg : Cfg) {packing : Packing} (hQ : packing.Allows) :
    (cs : Cases) → CasesGood cfg packing cs
  | .nil => by
    refine ⟨?_⟩
    · intro pack _ i ps sel vs all hv _
      rw [Cases.Wire]
      simp only [Cases.ops, selectCase]
      exact Steps.keep Lays.pure
  | .field labels info ty rest => by
    have hty := Ty.wireGood cfg hQ ty
    have hrest := Cases.wireGood cfg hQ rest
    refine ⟨?_⟩
    · intro pack hc i ps sel vs all hv hall
      rw [Cases.Valid] at hv
      obtain ⟨v, vs, rfl, hv1, hv2⟩ := hv
      rw [Cases.Wire]
      simp only [Cases.ops, selectCase, Option.isSome_some, if_true]
      by_cases hm : sel ∈ labels
      · simp only [hm, if_true, Option.map_some]
        have h0 := hall 0
        simp only [Nat.add_zero, List.getElem?_cons_zero] at h0
        simp only [h0]
        rw [if_pos ⟨rfl, hm⟩] at hv1
        refine FieldOps.field_steps (f := ⟨info, ty.ops cfg⟩) hQ hty (Ty.initGood cfg ty) id (Ty.ops_isPackable cfg info ty) ?_ hv1
        cases pack with
        | none =>
          simp only [Cases.Claim, Cases.Supported] at hc
          exact fieldClaim_plain hc.1
        | some plan =>
          simp only [Cases.Claim, Cases.Packable] at hc
          exact fieldClaim_packed hc.1
      · simp only [hm, if_false]
        simp only [hm, decide_false, Bool.or_false] at hv2
        refine hrest.steps pack ?_ (i + 1) ps sel vs all hv2 (fun k => ?_)
        · cases pack with
          | none => simp only [Cases.Claim, Cases.Supported] at hc ⊢; exact hc.2
          | some plan => simp only [Cases.Claim, Cases.Packable] at hc ⊢; exact hc.2
        · have := hall (k + 1)
          rw [List.getElem?_cons_succ] at this
          rw [← this]; congr 1; omega
  | .empty labels rest => by
    have hrest := Cases.wireGood cfg hQ rest
    refine ⟨?_⟩
    · intro pack hc i ps sel vs all hv hall
      rw [Cases.Valid] at hv
      rw [Cases.Wire]
      simp only [Cases.ops, selectCase, Option.isSome_none, Bool.false_eq_true, if_false]
      by_cases hm : sel ∈ labels
      · simp only [hm, if_true, Option.map_none]
        exact Steps.keep Lays.pure
      · simp only [hm, if_false]
        simp only [hm, decide_false, Bool.or_false] at hv
        refine hrest.steps pack ?_ i ps sel vs all hv hall
        cases pack with
        | none => simp only [Cases.Claim, Cases.Supported] at hc ⊢; exact hc
        | some plan => simp only [Cases.Claim, Cases.Packable] at hc ⊢; exact hc
end

end Zs
