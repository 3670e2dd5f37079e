import Verif.LinkLemmas

/-!
# Linked functions do what the schema says: all types
-/

namespace Zs

namespace Link

open Spec Emit

variable {fo : FloatOps} {O : Type} {cfg : Cfg} {md : Mode} {sc : TScope} {build : Mode}
  {look : Env → World fo.F O}

/-! ## Fields -/

theorem hasType_of {E : Env → Prop} {m : Modifiers fo.F} {ty : SourceTy fo.F O} {g : Field} {ops : TypeOps}
    (hd : Denotes cfg E g ⟨m.info look, ops⟩) (hk : ∀ x, ty.HasKind x → HasRust g.ty.rust x) {v : Val}
    (hv : m.HasType ty v) : Spec.HasType g v := by
  have ha := array_isSome hd id
  rw [inScope_id] at ha
  have hm : (m.info look).array.isSome = m.array.isSome := by
    show Option.isSome (m.array.map _) = _
    cases m.array <;> rfl
  have ha : g.array.isSome = m.array.isSome := ha.trans hm
  have ho : g.optional = m.optional := hd.optional
  have hc : ∀ x, (if m.array.isSome = true then ∃ xs, x = Val.list xs else ty.HasKind x) → HasContent g x := by
    intro x hx
    unfold HasContent
    rw [ha]
    split at hx
    · rename_i h; rw [if_pos h]; exact hx
    · rename_i h; rw [if_neg h]; exact hk x hx
  unfold Spec.HasType
  simp only [Modifiers.HasType] at hv
  rw [ho]
  by_cases h : m.optional = true
  · rw [if_pos h] at hv ⊢
    rcases hv with h | ⟨x, h, hx⟩
    · exact .inl h
    · exact .inr ⟨x, h, hc x hx⟩
  · rw [if_neg h] at hv ⊢
    exact hc v hv

theorem field_agrees (hord : Ordinary sc) {m : Modifiers fo.F} {ty : SourceTy fo.F O} {g : Field}
    {Fns : Codec → Prop} (hacc : (m.with (ty.written look)).Accepts md sc)
    (hem : EmittedMods md sc build look m g) (href : ty.Refers cfg md build sc look Fns g.ty)
    (hc : ∀ c, Fns c → ∃ c0, (ty.meaning look).ops cfg = c0.ops ∧
      CodecAgrees (fun b x => ty.InRange md b x) c0 c) :
    ∃ ops, Denotes cfg ((m.with (ty.written look)).InRange md sc look) g ⟨m.info look, ops⟩ ∧
      TypeAgrees (fun b x => ty.InRange md b x) ((ty.meaning look).ops cfg) ops ∧
      ∀ v, m.HasType ty v → Spec.HasType g v := by
  have hcomp : (∃ c, Fns c ∧ g.ty = .compound c ty.numParams) →
      ∃ ops, Denotes cfg ((m.with (ty.written look)).InRange md sc look) g ⟨m.info look, ops⟩ ∧
      TypeAgrees (fun b x => ty.InRange md b x) ((ty.meaning look).ops cfg) ops ∧
      ∀ v, m.HasType ty v → Spec.HasType g v := by
    rintro ⟨c, hf, hg⟩
    obtain ⟨c0, h1, h2⟩ := hc c hf
    have hd : Denotes cfg ((m.with (ty.written look)).InRange md sc look) g ⟨m.info look, c.ops⟩ :=
      emitted_denotes_of (f := m.with (ty.written look)) hord hacc hem (by rw [hg]; exact .compound c _)
    refine ⟨c.ops, hd, ?_, fun v hv => hasType_of hd (fun x _ => ?_) hv⟩
    · rw [h1]; exact h2.ops
    · rw [hg]; trivial
  have hplain : RunsType cfg md sc build look (m.with (ty.written look)).ty g.ty →
      (m.with (ty.written look)).type look = ty.meaning look →
      (∀ x, ty.HasKind x → ((ty.meaning look).ops cfg).isMarshaler = false →
        shape ((ty.meaning look).ops cfg).dflt = shape x) →
      ∃ ops, Denotes cfg ((m.with (ty.written look)).InRange md sc look) g ⟨m.info look, ops⟩ ∧
      TypeAgrees (fun b x => ty.InRange md b x) ((ty.meaning look).ops cfg) ops ∧
      ∀ v, m.HasType ty v → Spec.HasType g v := by
    intro hr ht hk
    have hrt := fun ops => runs_type (cfg := cfg) (build := build) hord hacc hr ops
    rw [ht] at hrt
    have hd : Denotes cfg ((m.with (ty.written look)).InRange md sc look) g
        ⟨m.info look, (ty.meaning look).ops cfg⟩ :=
      emitted_denotes_of (f := m.with (ty.written look)) hord hacc hem (hrt _)
    exact ⟨_, hd, .refl _, fun v hv => hasType_of hd (fun x hx => hasRust_type hd.ty (hk x hx)) hv⟩
  cases ty with
  | builtin s =>
    refine hplain href rfl fun x hx _ => ?_
    simp only [SourceTy.meaning, Ty.ops]
    exact shape_sameType hx
  | bit e =>
    refine hplain href rfl fun x hx _ => ?_
    obtain ⟨n, rfl⟩ := hx
    simp only [SourceTy.meaning, Ty.ops]
    rfl
  | int e =>
    refine hplain href rfl fun x hx _ => ?_
    obtain ⟨n, rfl⟩ := hx
    simp only [SourceTy.meaning, Ty.ops]
    rfl
  | _ => exact hcomp href

/-! ## Types -/

mutual
theorem ty_agrees (cfg : Cfg) (md build : Mode) (look : Env → World fo.F O) : ∀ (t : SourceTy fo.F O), t.Accepts md → ∀ c, t.Linked cfg md build c →
    ∃ c0, (t.meaning look).ops cfg = c0.ops ∧ CodecAgrees (fun b x => t.InRange md b x) c0 c
  | .builtin _, _, _, hl => by simp only [SourceTy.Linked] at hl
  | .bit _, _, _, hl => by simp only [SourceTy.Linked] at hl
  | .int _, _, _, hl => by simp only [SourceTy.Linked] at hl
  | .enum base items, ha, c, hl => by
    simp only [SourceTy.Linked] at hl
    simp only [SourceTy.Accepts] at ha
    obtain ⟨name, bits, length, hs, rfl⟩ := hl
    refine ⟨enumCodec cfg base items, by simp only [SourceTy.meaning, Ty.ops], ?_⟩
    have hnum : ∀ i < (enumValues items).length, ∃ x, enumNumber base items (.item i) = .ok x ∧
        HasRust (rustName name) x := by
      intro i hi
      refine ⟨base.ofInt (enumValues items)[i], ?_, hasRust_shape (shape_ofInt ha _) (hasRust_dflt hs)⟩
      simp only [enumNumber, List.getElem?_eq_getElem hi]
    refine number_linked hs ha (.item 0) (enumNumber base items) (enumItem items) false (fun _ => rfl)
      (fun _ _ _ _ => rfl) ?_ ?_
    · intro b v hv
      simp only [SourceTy.InRange] at hv
      obtain ⟨i, rfl, hi⟩ := hv
      exact ⟨fun _ _ _ _ => rfl, hnum i hi⟩
    · rintro ⟨b, v, hv⟩
      simp only [SourceTy.InRange] at hv
      obtain ⟨i, rfl, hi⟩ := hv
      exact hnum 0 (by omega)
  | .bitmask base first, ha, c, hl => by
    simp only [SourceTy.Linked] at hl
    simp only [SourceTy.Accepts] at ha
    obtain ⟨name, bits, length, hs, rfl⟩ := hl
    refine ⟨bitmaskCodec cfg base first, by simp only [SourceTy.meaning, Ty.ops], ?_⟩
    have hplain : ∀ v : Val, shape base.dflt = shape v → (∀ n w r s, (call v n w r s).fields = [v]) ∧
        (∀ ps, v.withParams ps = v) ∧ HasRust (rustName name) v := by
      intro v hv
      refine ⟨?_, ?_, hasRust_shape hv (hasRust_dflt hs)⟩ <;>
        cases base <;> cases v <;> first | (intros; rfl) | (simp [Scalar.isPackable] at ha; done) |
          (simp [shape, Scalar.dflt] at hv; done)
    have hf := hplain _ (shape_ofInt ha first)
    refine number_linked hs ha (base.ofInt first) .ok .ok true hf.2.1 hf.1 ?_ ?_
    · intro b v hv
      simp only [SourceTy.InRange] at hv
      have := hplain v (shape_sameType hv)
      exact ⟨this.1, v, rfl, this.2.2⟩
    · intro _
      exact ⟨_, rfl, hf.2.2⟩
  | .struct sc look' params fields, ha, c, hl => by
    simp only [SourceTy.Linked] at hl
    simp only [SourceTy.Accepts] at ha
    obtain ⟨gs, hg, rfl⟩ := hl
    refine ⟨structCodec cfg params ((fields.meaning look').ops cfg), by simp only [SourceTy.meaning, Ty.ops], ?_⟩
    obtain ⟨fs', h1, h2, h3⟩ := fields_agree cfg md build sc look' (RangeOf md sc look' (fieldList look' fields))
      fields ha.1 ha.2 0 gs hg (by simp only [Nat.zero_add, RangeOf]; exact fun j env h f hf => h f hf)
    refine struct_linked h1 h2 fun b v hv => ?_
    simp only [SourceTy.InRange] at hv
    obtain ⟨ps, vs, rfl, hv⟩ := hv
    obtain ⟨h4, h5, h6⟩ := fields_inRange fields hv
    exact ⟨ps, vs, rfl, h4, h3 vs h5, fun i hi f hf => by simpa using h6 i hi f hf⟩
  | .choice sc look' params selector cases, ha, c, hl => by
    simp only [SourceTy.Linked] at hl
    simp only [SourceTy.Accepts] at ha
    obtain ⟨ds, hg, rfl⟩ := hl
    refine ⟨choiceCodec cfg params selector ((cases.meaning look').ops cfg),
      by simp only [SourceTy.meaning, Ty.ops], ?_⟩
    obtain ⟨cs', h1, h2, h3⟩ := cases_agree cfg md build sc look' (RangeOf md sc look' (caseList look' cases))
      cases ha.1 ha.2 0 ds hg (by simp only [Nat.zero_add, RangeOf]; exact fun j env h f hf => h f hf)
    refine choice_linked h1 h2 fun b v hv => ?_
    simp only [SourceTy.InRange] at hv
    obtain ⟨ps, vs, rfl, hv⟩ := hv
    obtain ⟨h4, h5⟩ := cases_inRange (cfg := cfg) cases 0 hv
    refine ⟨ps, vs, rfl, h3 vs h4, fun j hj => ?_⟩
    obtain ⟨h6, h7⟩ := h5 j (hj.imp id fun ⟨f, hf⟩ => ⟨rfl, f, by rwa [Nat.zero_add]⟩)
    exact ⟨h6, fun _ => h7⟩
  | .union sc look' params members, ha, c, hl => by
    simp only [SourceTy.Linked] at hl
    simp only [SourceTy.Accepts] at ha
    obtain ⟨gs, hg, rfl⟩ := hl
    refine ⟨unionCodec cfg params ((members.meaning look').ops cfg), by simp only [SourceTy.meaning, Ty.ops], ?_⟩
    obtain ⟨fs', h1, h2, h3⟩ := fields_agree cfg md build sc look' (RangeOf md sc look' (fieldList look' members))
      members ha.1 ha.2 0 gs hg (by simp only [Nat.zero_add, RangeOf]; exact fun j env h f hf => h f hf)
    refine union_linked h1 h2 fun b v hv => ?_
    simp only [SourceTy.InRange] at hv
    obtain ⟨ps, k, vs, rfl, hv⟩ := hv
    obtain ⟨h4, h5⟩ := members_inRange (cfg := cfg) members hv
    obtain ⟨h6, h7⟩ := h5 k rfl
    exact ⟨ps, k, vs, rfl, h6, h3 vs h4, fun _ => h7⟩

theorem fields_agree (cfg : Cfg) (md build : Mode) (sc : TScope) (look : Env → World fo.F O)
    (E : Nat → Env → Prop) : ∀ (fs : SourceFields fo.F O),
    Ordinary sc → fs.Accepts md sc look → ∀ (i : Nat) (gs : List Field),
    fs.Emitted cfg md build sc look gs →
    (∀ j env, E (i + j) env → ∀ f, (fieldList look fs)[j]? = some f → f.InRange md sc look env) →
    ∃ fs', DenoteAll cfg E i gs fs' ∧ AgreeAll (fieldSets md fs) ((fs.meaning look).ops cfg) fs' ∧
      ∀ vs, fieldsTyped fs vs → HaveTypes gs vs
  | .nil, _, _, i, gs, hg, _ => by
    simp only [SourceFields.Emitted] at hg
    subst hg
    exact ⟨[], trivial, by simp only [fieldSets, SourceFields.meaning, Fields.ops, AgreeAll], fun vs hv => by
      simp only [fieldsTyped] at hv
      subst hv
      trivial⟩
  | .cons m ty rest, hord, ha, i, gs, hg, hE => by
    simp only [SourceFields.Emitted] at hg
    simp only [SourceFields.Accepts] at ha
    obtain ⟨g, gs', rfl, hem, href, hr⟩ := hg
    obtain ⟨ops, h1, h2, h3⟩ := field_agrees hord ha.1 hem href (ty_agrees cfg md build look ty ha.2.1)
    obtain ⟨fs', h4, h5, h6⟩ := fields_agree cfg md build sc look E rest hord ha.2.2 (i + 1) gs' hr
      fun j env he f hf => hE (j + 1) env (by rw [show i + (j + 1) = i + 1 + j by omega]; exact he) f
        (by simpa only [fieldList, List.getElem?_cons_succ] using hf)
    refine ⟨⟨m.info look, ops⟩ :: fs', ⟨denotes_mono (fun env he => ?_) h1, h4⟩, ?_, fun vs hv => ?_⟩
    · exact hE 0 env he _ (by simp only [fieldList, List.getElem?_cons_zero])
    · simp only [fieldSets, SourceFields.meaning, Fields.ops, AgreeAll]
      exact ⟨⟨trivial, h2⟩, h5⟩
    · simp only [fieldsTyped] at hv
      obtain ⟨v, vs', rfl, hv, hvs⟩ := hv
      exact ⟨h3 v hv, h6 vs' hvs⟩

theorem cases_agree (cfg : Cfg) (md build : Mode) (sc : TScope) (look : Env → World fo.F O)
    (E : Nat → Env → Prop) : ∀ (cs : SourceCases fo.F O),
    Ordinary sc → cs.Accepts md sc look → ∀ (i : Nat) (ds : List Case),
    cs.Emitted cfg md build sc look ds →
    (∀ j env, E (i + j) env → ∀ f, (caseList look cs)[j]? = some f → f.InRange md sc look env) →
    ∃ cs', DenoteCases cfg E i ds cs' ∧ AgreeCases (caseSets md cs) ((cs.meaning look).ops cfg) cs' ∧
      ∀ vs, casesTyped cs vs → HaveTypes (choiceFields ds) vs
  | .nil, _, _, i, ds, hg, _ => by
    simp only [SourceCases.Emitted] at hg
    subst hg
    exact ⟨[], trivial, by simp only [caseSets, SourceCases.meaning, Cases.ops, AgreeCases], fun vs hv => by
      simp only [casesTyped] at hv
      subst hv
      trivial⟩
  | .field labels m ty rest, hord, ha, i, ds, hg, hE => by
    simp only [SourceCases.Emitted] at hg
    simp only [SourceCases.Accepts] at ha
    obtain ⟨g, ds', rfl, hem, href, hr⟩ := hg
    obtain ⟨ops, h1, h2, h3⟩ := field_agrees hord ha.1 hem href (ty_agrees cfg md build look ty ha.2.1)
    obtain ⟨cs', h4, h5, h6⟩ := cases_agree cfg md build sc look E rest hord ha.2.2 (i + 1) ds' hr
      fun j env he f hf => hE (j + 1) env (by rw [show i + (j + 1) = i + 1 + j by omega]; exact he) f
        (by simpa only [caseList, List.getElem?_cons_succ] using hf)
    refine ⟨⟨labels, some ⟨m.info look, ops⟩⟩ :: cs', ⟨rfl, denotes_mono (fun env he => ?_) h1, h4⟩, ?_,
      fun vs hv => ?_⟩
    · exact hE 0 env he _ (by simp only [caseList, List.getElem?_cons_zero])
    · simp only [caseSets, SourceCases.meaning, Cases.ops, AgreeCases]
      exact ⟨trivial, _, _, rfl, trivial, h2, h5⟩
    · simp only [casesTyped] at hv
      obtain ⟨v, vs', rfl, hv, hvs⟩ := hv
      rw [choiceFields_cons]
      exact ⟨h3 v hv, h6 vs' hvs⟩
  | .empty labels rest, hord, ha, i, ds, hg, hE => by
    simp only [SourceCases.Emitted] at hg
    simp only [SourceCases.Accepts] at ha
    obtain ⟨ds', rfl, hr⟩ := hg
    obtain ⟨cs', h4, h5, h6⟩ := cases_agree cfg md build sc look E rest hord ha i ds' hr
      fun j env he f hf => hE j env he f (by simpa only [caseList] using hf)
    refine ⟨⟨labels, none⟩ :: cs', ⟨rfl, h4⟩, ?_, fun vs hv => ?_⟩
    · simp only [caseSets, SourceCases.meaning, Cases.ops, AgreeCases]
      exact ⟨trivial, h5⟩
    · simp only [casesTyped] at hv
      rw [choiceFields_cons]
      exact h6 vs hv
end

end Link

end Zs
