import Verif.LinkSpec
import Verif.LinkCodec
import Verif.SourceLemmas

/-!
# Linked functions do what the schema says
-/

namespace Zs

namespace Link

open Spec Emit

variable {fo : FloatOps} {O : Type} {cfg : Cfg} {md : Mode} {sc : TScope} {build : Mode}
  {look : Env → World fo.F O}

/-! ## Calls -/

theorem outcome_eq {α : Type} {ls : List Line} {k : Core} {view : Core → α} {out : Res α}
    (h : Executes cfg ls k view out) : outcome cfg ls k view = out := by
  have hex : ∃ out, Executes cfg ls k view out := ⟨out, h⟩
  unfold outcome
  rw [dif_pos hex]
  exact (Classical.choose_spec hex).unique h

theorem call_node (v : Val) (n : Node) (w : Writer) (r : Reader) (s : Nat) : (call v n w r s).node = n := by
  cases v <;> rfl

theorem call_w (v : Val) (n : Node) (w : Writer) (r : Reader) (s : Nat) : (call v n w r s).w = w := by
  cases v <;> rfl

theorem call_r (v : Val) (n : Node) (w : Writer) (r : Reader) (s : Nat) : (call v n w r s).r = r := by
  cases v <;> rfl

theorem call_start (v : Val) (n : Node) (w : Writer) (r : Reader) (s : Nat) : (call v n w r s).start = s := by
  cases v <;> rfl

theorem linked_agrees {P : Bool → Val → Prop} {b : Bodies} {c : Codec} {view : Core → Val}
    {ok : Act → Core → Prop} {dflt : Val} (hi : Implements cfg b c view ok) (hd : dflt = c.dflt)
    (hview : ∀ b v, P b v → ∀ n w r s, view (call v n w r s) = v)
    (hviewd : ∀ ps n w r s, view (call (c.dflt.withParams ps) n w r s) = c.dflt.withParams ps)
    (hw : ∀ b v, P b v → ∀ n w r s, ok .write (call v n w r s) ∧ ok .bitsize (call v n w r s))
    (hinit : ∀ v, P true v → ∀ n w r s, ok .init (call v n w r s))
    (hread : ∀ b ps r x r', c.read (c.dflt.withParams ps) r = .ok (x, r') → P b x →
      ok (.read false) (call (c.dflt.withParams ps) Node.new ⟨[]⟩ r 0))
    (hreadP : ∀ ps n r x n' r', c.readPacked (c.dflt.withParams ps) n r = .ok ((x, n'), r') → P true x →
      ok (.read true) (call (c.dflt.withParams ps) n ⟨[]⟩ r 0)) :
    CodecAgrees P c (linked cfg b view dflt) where
  dflt := hd
  createContext := by
    show (match outcome cfg b.create (call dflt Node.new ⟨[]⟩ ⟨0, []⟩ 0) Core.node with
      | .ok n => n
      | _ => Node.new) = _
    rw [outcome_eq (hi.create _ (call_node ..))]
  write b x w hx := by
    have := outcome_eq (hi.write _ (hw b x hx Node.new w ⟨0, []⟩ 0).1 (call_node ..))
    rw [hview b x hx, call_w] at this
    exact this
  bitsize b x p hx := by
    have := outcome_eq (hi.bitsize _ (hw b x hx Node.new ⟨[]⟩ ⟨0, []⟩ p).2 (call_node ..))
    rw [hview b x hx, call_start] at this
    exact this
  read b ps r x r' hr hx := by
    have := outcome_eq (hi.read _ (hread b ps r x r' hr hx) (call_node ..))
    rw [hviewd, call_r, hr] at this
    exact this
  initContext x n hx := by
    have := outcome_eq (hi.init _ (hinit x hx n ⟨[]⟩ ⟨0, []⟩ 0))
    rw [hview true x hx, call_node] at this
    exact this
  writePacked x n w hx := by
    have := outcome_eq (hi.writePacked _ (hw true x hx n w ⟨0, []⟩ 0).1)
    rw [hview true x hx, call_w, call_node] at this
    exact this
  bitsizePacked x n p hx := by
    have := outcome_eq (hi.bitsizePacked _ (hw true x hx n ⟨[]⟩ ⟨0, []⟩ p).2)
    rw [hview true x hx, call_start, call_node] at this
    exact this
  readPacked ps n r x n' r' hr hx := by
    have := outcome_eq (hi.readPacked _ (hreadP ps n r x n' r' hr hx))
    rw [hviewd, call_r, call_node, hr] at this
    exact this

/-! ## Defaults -/

theorem field_dflt {E : Env → Prop} {g : Field} {f : FieldOps} (h : Denotes cfg E g f) : g.dflt = f.dflt := by
  have ha := array_isSome h id
  rw [inScope_id] at ha
  unfold Field.dflt FieldOps.dflt
  rw [h.optional, ha]
  have := rust_default h.ty id
  rw [rust_inScope] at this
  rw [this]

theorem fields_dflt {E : Nat → Env → Prop} : ∀ {i : Nat} {gs : List Field} {fs : List FieldOps},
    DenoteAll cfg E i gs fs → gs.map Field.dflt = fs.map FieldOps.dflt
  | _, [], [], _ => rfl
  | _, [], _ :: _, h => h.elim
  | _, _ :: _, [], h => h.elim
  | _, _ :: _, _ :: _, h => by rw [List.map_cons, List.map_cons, field_dflt h.1, fields_dflt h.2]

theorem denoteCases_fields {E : Nat → Env → Prop} : ∀ {i : Nat} {cs : List Case} {ds : List CaseOps},
    DenoteCases cfg E i cs ds → DenoteAll cfg E i (choiceFields cs) (caseFields ds)
  | _, [], [], _ => trivial
  | _, [], _ :: _, h => h.elim
  | _, _ :: _, [], h => h.elim
  | i, c :: cs, d :: ds, h => by
    obtain ⟨-, hf⟩ := h
    rw [choiceFields_cons, caseFields_cons]
    cases h1 : c.field with
    | none => cases h2 : d.field with
      | none => rw [h1, h2] at hf; exact denoteCases_fields hf
      | some f' => rw [h1, h2] at hf; exact hf.elim
    | some f => cases h2 : d.field with
      | none => rw [h1, h2] at hf; exact hf.elim
      | some f' => rw [h1, h2] at hf; exact ⟨hf.1, denoteCases_fields hf.2⟩

/-! ## Compound types of which the fields are linked -/

section Compound

variable {E : Nat → Env → Prop} {P : Bool → Val → Prop} {Qs : List (Bool → Val → Prop)} {params : List Val}

theorem struct_linked {gs : List Field} {fs fs' : List FieldOps} (hg : DenoteAll cfg E 0 gs fs')
    (ha : AgreeAll Qs fs fs')
    (hP : ∀ b v, P b v → ∃ ps vs, v = .obj ps vs ∧ WithinAll b ps Qs fs [] vs ∧ HaveTypes gs vs ∧
      ∀ i < vs.length, E i ⟨ps, vs.take i⟩) :
    CodecAgrees P (structCodec cfg params fs)
      (linked cfg (structBodies gs) asObj (.obj params (gs.map Field.dflt))) := by
  refine (struct_agrees ha fun b v hv => ?_).trans (linked_agrees (struct_implements params hg) ?_ ?_ ?_ ?_ ?_ ?_ ?_)
  · obtain ⟨ps, vs, h1, h2, -⟩ := hP b v hv
    exact ⟨ps, vs, h1, h2⟩
  · simp only [structCodec, fields_dflt hg]
  · intro b v hv n w r s
    obtain ⟨ps, vs, rfl, -⟩ := hP b v hv
    rfl
  · intro ps n w r s
    rfl
  · intro b v hv n w r s
    obtain ⟨ps, vs, rfl, -, ht, hE⟩ := hP b v hv
    have hE' : ∀ i < gs.length, E i ⟨ps, vs.take i⟩ := fun i hi => hE i (by rw [haveTypes_length ht]; exact hi)
    exact ⟨⟨ht, hE'⟩, ⟨ht, hE'⟩⟩
  · intro v hv n w r s
    obtain ⟨ps, vs, rfl, -, ht, hE⟩ := hP true v hv
    exact ⟨ht, fun i hi => hE i (by rw [haveTypes_length ht]; exact hi)⟩
  · intro b ps r x r' hr hx
    obtain ⟨ps', vs, rfl, -, ht, hE⟩ := hP b x hx
    simp only [structCodec, Val.withParams, Res.bind_eq_ok, Res.pure_eq, Res.ok.injEq, Prod.mk.injEq,
      Val.obj.injEq] at hr ⊢
    obtain ⟨y, h1, ⟨rfl, rfl⟩, rfl⟩ := hr
    exact ⟨haveTypes_default hg, readsIn_of h1 rfl hE⟩
  · intro ps n r x n' r' hr hx
    obtain ⟨ps', vs, rfl, -, ht, hE⟩ := hP true x hx
    simp only [structCodec, Val.withParams, Res.bind_eq_ok, Res.pure_eq, Res.ok.injEq, Prod.mk.injEq,
      Val.obj.injEq] at hr ⊢
    obtain ⟨y, h1, ⟨⟨rfl, rfl⟩, h2⟩, rfl⟩ := hr
    exact ⟨haveTypes_default hg, readsIn_of h1 rfl hE⟩

theorem union_linked {gs : List Field} {fs fs' : List FieldOps} (hg : DenoteAll cfg E 0 gs fs')
    (ha : AgreeAll Qs fs fs')
    (hP : ∀ b v, P b v → ∃ ps k vs, v = .union ps k vs ∧ WithinAt b ps Qs fs vs k ∧ HaveTypes gs vs ∧
      (k < vs.length → E k ⟨ps, []⟩)) :
    CodecAgrees P (unionCodec cfg params fs)
      (linked cfg (unionBodies gs) asUnion (.union params 0 (gs.map Field.dflt))) := by
  refine (union_agrees ha fun b v hv => ?_).trans (linked_agrees (union_implements params hg) ?_ ?_ ?_ ?_ ?_ ?_ ?_)
  · obtain ⟨ps, k, vs, h1, h2, -⟩ := hP b v hv
    exact ⟨ps, k, vs, h1, h2⟩
  · simp only [unionCodec, fields_dflt hg]
  · intro b v hv n w r s
    obtain ⟨ps, k, vs, rfl, -⟩ := hP b v hv
    rfl
  · intro ps n w r s
    rfl
  · intro b v hv n w r s
    obtain ⟨ps, k, vs, rfl, -, ht, hE⟩ := hP b v hv
    have hE' : k < gs.length → E k ⟨ps, []⟩ := fun hi => hE (by rw [haveTypes_length ht]; exact hi)
    exact ⟨⟨ht, hE'⟩, ⟨ht, hE'⟩⟩
  · intro v hv n w r s
    obtain ⟨ps, k, vs, rfl, -, ht, hE⟩ := hP true v hv
    exact ht
  · intro b ps r x r' hr hx
    obtain ⟨ps', k, vs, rfl, -, ht, hE⟩ := hP b x hx
    simp only [unionCodec, Val.withParams, Res.bind_eq_ok, Res.pure_eq, Res.ok.injEq, Prod.mk.injEq] at hr ⊢
    obtain ⟨y, h1, s, h2, z, h3, h4, rfl⟩ := hr
    refine ⟨haveTypes_default hg, fun i r1 hi hlt => ?_⟩
    have hi : readVarsize r = .ok (i, r1) := hi
    rw [h1] at hi
    cases hi
    unfold fromU32 at h2
    split at h2
    · cases h2
      have : ps = ps' ∧ i = k := by
        unfold decodeMember at h3
        split at h3
        · simp only [Res.bind_eq_ok, Res.pure_eq, Res.ok.injEq] at h3
          obtain ⟨u, -, rfl⟩ := h3
          simp only [Val.union.injEq] at h4
          exact ⟨h4.1, h4.2.1⟩
        · cases h3
      obtain ⟨rfl, rfl⟩ := this
      exact hE (by rw [haveTypes_length ht]; exact hlt)
    · cases h2
  · intro ps n r x n' r' hr hx
    obtain ⟨ps', k, vs, rfl, -, ht, hE⟩ := hP true x hx
    simp only [unionCodec, Val.withParams] at hr ⊢
    unfold decodeMember at hr
    split at hr
    · simp only [Res.bind_eq_ok, Res.pure_eq, Res.ok.injEq, Prod.mk.injEq, Val.union.injEq] at hr
      obtain ⟨u, -, ⟨⟨rfl, rfl, -⟩, -⟩, -⟩ := hr
      exact ⟨haveTypes_default hg, fun hlt => hE (by rw [haveTypes_length ht]; exact hlt)⟩
    · cases hr

theorem choice_linked {ds : List Case} {cs cs' : List CaseOps} {sel : List Val → Val}
    (hg : DenoteCases cfg E 0 ds cs') (ha : AgreeCases Qs cs cs')
    (hP : ∀ b v, P b v → ∃ ps vs, v = .obj ps vs ∧ HaveTypes (choiceFields ds) vs ∧
      ∀ j, (b = true ∨ ∃ f, selectCase (sel ps) 0 cs = some (j, f)) →
        WithinAt b ps Qs (caseFields cs) vs j ∧ (j < vs.length → E j ⟨ps, []⟩)) :
    CodecAgrees P (choiceCodec cfg params sel cs)
      (linked cfg (choiceBodies sel ds) asObj (.obj params ((choiceFields ds).map Field.dflt))) := by
  have hgf := denoteCases_fields hg
  have hsel : ∀ (ps : List Val) i f, selectCase (sel ps) 0 cs' = some (i, f) →
      i < (choiceFields ds).length ∧ ∃ f, selectCase (sel ps) 0 cs = some (i, f) := by
    intro ps i f h
    rcases selectCase_agree (sel := sel ps) ha 0 with ⟨-, h2⟩ | ⟨j, Q, g, g', h1, h2, h3, h4, -⟩
    · rw [h2] at h; cases h
    · rw [h2] at h
      cases h
      refine ⟨?_, g, h1⟩
      rw [Nat.zero_add, denoteAll_length hgf, agreeAll_length (agreeCases_fields ha)]
      exact (List.getElem?_eq_some_iff.1 h4).1
  refine (choice_agrees ha fun b v hv => ?_).trans
    (linked_agrees (choice_implements params sel hg) ?_ ?_ ?_ ?_ ?_ ?_ ?_)
  · obtain ⟨ps, vs, h1, -, h2⟩ := hP b v hv
    exact ⟨ps, vs, h1, fun j hj => (h2 j hj).1⟩
  · simp only [choiceCodec, fields_dflt hgf]
  · intro b v hv n w r s
    obtain ⟨ps, vs, rfl, -⟩ := hP b v hv
    rfl
  · intro ps n w r s
    rfl
  · intro b v hv n w r s
    obtain ⟨ps, vs, rfl, ht, hE⟩ := hP b v hv
    have hE' : ∀ i f, selectCase (sel ps) 0 cs' = some (i, f) → E i ⟨ps, []⟩ := fun i f hi =>
      (hE i (.inr (hsel ps i f hi).2)).2 (by rw [haveTypes_length ht]; exact (hsel ps i f hi).1)
    exact ⟨⟨ht, hE'⟩, ⟨ht, hE'⟩⟩
  · intro v hv n w r s
    obtain ⟨ps, vs, rfl, ht, hE⟩ := hP true v hv
    exact ⟨ht, fun i hi => (hE i (.inl rfl)).2 (by rw [haveTypes_length ht]; exact hi)⟩
  · intro b ps r x r' hr hx
    obtain ⟨ps', vs, rfl, ht, hE⟩ := hP b x hx
    simp only [choiceCodec, Val.withParams, Res.bind_eq_ok, Res.pure_eq, Res.ok.injEq, Prod.mk.injEq,
      Val.obj.injEq] at hr ⊢
    obtain ⟨y, h1, ⟨rfl, rfl⟩, rfl⟩ := hr
    exact ⟨haveTypes_default hgf, fun i f hi => (hE i (.inr (hsel ps i f hi).2)).2
      (by rw [haveTypes_length ht]; exact (hsel ps i f hi).1)⟩
  · intro ps n r x n' r' hr hx
    obtain ⟨ps', vs, rfl, ht, hE⟩ := hP true x hx
    simp only [choiceCodec, Val.withParams, Res.bind_eq_ok, Res.pure_eq, Res.ok.injEq, Prod.mk.injEq,
      Val.obj.injEq] at hr ⊢
    obtain ⟨y, h1, ⟨⟨rfl, rfl⟩, h2⟩, rfl⟩ := hr
    exact ⟨haveTypes_default hgf, fun i f hi => (hE i (.inr (hsel ps i f hi).2)).2
      (by rw [haveTypes_length ht]; exact (hsel ps i f hi).1)⟩

theorem number_linked {name : BName} {bits : Nat} {length : Option LenExpr}
    {base : Scalar} (h : IsScalar NoObject name bits length base) (hp : base.isPackable = true) (dflt : Val)
    (number item : Val → Res Val) (own : Bool) (hd : ∀ ps, dflt.withParams ps = dflt)
    (hview : ∀ n w r s, (call dflt n w r s).fields = [dflt])
    (hP : ∀ b v, P b v → (∀ n w r s, (call v n w r s).fields = [v]) ∧
      (∃ x, number v = .ok x ∧ HasRust (rustName name) x))
    (hdflt : (∃ b v, P b v) → ∃ x, number dflt = .ok x ∧ HasRust (rustName name) x) :
    CodecAgrees P (numberCodec cfg base dflt number item (if own then some DeltaContext.new else none))
      (linked cfg (numberBodies ((RefTy.builtin name bits length).inScope outside) number item own) asNumber
        dflt) := by
  refine linked_agrees (number_implements h hp dflt number item own) rfl ?_ ?_ ?_ ?_ ?_ ?_
  · intro b v hv n w r s
    simp only [asNumber, (hP b v hv).1]
  · intro ps n w r s
    show asNumber (call (dflt.withParams ps) n w r s) = dflt.withParams ps
    rw [hd]
    simp only [asNumber, hview]
  · intro b v hv n w r s
    obtain ⟨h1, x, h2, h3⟩ := hP b v hv
    exact ⟨⟨v, x, h1 .., h2, h3⟩, ⟨v, x, h1 .., h2, h3⟩⟩
  · intro v hv n w r s
    obtain ⟨h1, x, h2, h3⟩ := hP true v hv
    exact ⟨v, x, h1 .., h2, h3⟩
  · intro b ps r x r' _ hx
    obtain ⟨y, h2, h3⟩ := hdflt ⟨b, x, hx⟩
    show IsNumber _ _ (call (dflt.withParams ps) _ _ _ _)
    rw [hd]
    exact ⟨dflt, y, hview .., h2, h3⟩
  · intro ps n r x n' r' _ hx
    obtain ⟨y, h2, h3⟩ := hdflt ⟨true, x, hx⟩
    show IsNumber _ _ (call (dflt.withParams ps) _ _ _ _)
    rw [hd]
    exact ⟨dflt, y, hview .., h2, h3⟩

end Compound

/-! ## What is in range -/

theorem shape_sameType {a b : Val} (h : SameType a b) : shape a = shape b := by
  cases a <;> cases b <;> first | rfl | exact h.elim

/-- The sets of values of the fields. -/
def fieldSets (md : Mode) : SourceFields fo.F O → List (Bool → Val → Prop)
  | .nil => []
  | .cons _ ty rest => (fun b x => ty.InRange md b x) :: fieldSets md rest

/-- The fields as in `SourceSpec.lean`. -/
def fieldList (look : Env → World fo.F O) : SourceFields fo.F O → List (Written fo.F)
  | .nil => []
  | .cons m ty rest => m.with (ty.written look) :: fieldList look rest

/-- The values have the Rust types of the fields. -/
def fieldsTyped : SourceFields fo.F O → List Val → Prop
  | .nil, vs => vs = []
  | .cons m ty rest, vs => ∃ v vs', vs = v :: vs' ∧ m.HasType ty v ∧ fieldsTyped rest vs'

/-- The same for the cases of a choice. -/
def caseSets (md : Mode) : SourceCases fo.F O → List (Bool → Val → Prop)
  | .nil => []
  | .field _ _ ty rest => (fun b x => ty.InRange md b x) :: caseSets md rest
  | .empty _ rest => caseSets md rest

def caseList (look : Env → World fo.F O) : SourceCases fo.F O → List (Written fo.F)
  | .nil => []
  | .field _ m ty rest => m.with (ty.written look) :: caseList look rest
  | .empty _ rest => caseList look rest

def casesTyped : SourceCases fo.F O → List Val → Prop
  | .nil, vs => vs = []
  | .field _ m ty rest, vs => ∃ v vs', vs = v :: vs' ∧ m.HasType ty v ∧ casesTyped rest vs'
  | .empty _ rest, vs => casesTyped rest vs

theorem within_of {m : Modifiers fo.F} {ty : SourceTy fo.F O} {packed : Bool} {env : Env} {v : Val}
    (h : m.Meets md sc look ty (ty.InRange md (m.isPacked packed)) env v) :
    Within (fun b x => ty.InRange md b x) (m.info look) packed env v := by
  intro hc x hx
  have hflag : flag (m.info look) packed = m.isPacked packed := by
    unfold flag Modifiers.isPacked
    show (packed || Option.any _ (m.array.map _)) = _
    cases m.array <;> rfl
  rw [hflag]
  refine h.2 (present_of hc) x ?_
  obtain ⟨y, h1, h2⟩ := hx
  refine ⟨y, h1, ?_⟩
  have : (m.info look).array.isSome = m.array.isSome := by
    show Option.isSome (m.array.map _) = _
    cases m.array <;> rfl
  rwa [this] at h2

theorem fields_inRange {packed : Bool} {ps : List Val} : ∀ (fs : SourceFields fo.F O) {done vs : List Val},
    fs.InRange md packed sc look ps done vs →
    WithinAll packed ps (fieldSets md fs) ((fs.meaning look).ops cfg) done vs ∧ fieldsTyped fs vs ∧
      ∀ i < vs.length, ∀ f, (fieldList look fs)[i]? = some f → f.InRange md sc look ⟨ps, done ++ vs.take i⟩
  | .nil, done, vs, h => by
    simp only [SourceFields.InRange] at h
    subst h
    simp [fieldSets, SourceFields.meaning, Fields.ops, WithinAll, fieldsTyped]
  | .cons m ty rest, done, vs, h => by
    simp only [SourceFields.InRange] at h
    obtain ⟨v, vs', rfl, ht, hm, hr⟩ := h
    obtain ⟨h1, h2, h3⟩ := fields_inRange rest hr
    simp only [fieldSets, SourceFields.meaning, Fields.ops, WithinAll, fieldsTyped]
    refine ⟨⟨within_of hm, h1⟩, ⟨v, vs', rfl, ht, h2⟩, fun i hi f hf => ?_⟩
    cases i with
    | zero =>
      simp only [fieldList, List.getElem?_cons_zero, Option.some.injEq] at hf
      subst hf
      simpa using hm.1
    | succ i =>
      simp only [fieldList, List.getElem?_cons_succ] at hf
      simpa using h3 i (by simpa using hi) f hf

theorem members_inRange {packed : Bool} {ps : List Val} : ∀ (fs : SourceFields fo.F O) {k : Option Nat}
    {vs : List Val}, fs.MemberInRange md packed sc look ps k vs →
    fieldsTyped fs vs ∧ ∀ j, k = some j →
      WithinAt packed ps (fieldSets md fs) ((fs.meaning look).ops cfg) vs j ∧
      ∀ f, (fieldList look fs)[j]? = some f → f.InRange md sc look ⟨ps, []⟩
  | .nil, k, vs, h => by
    simp only [SourceFields.MemberInRange] at h
    subst h
    refine ⟨rfl, fun j _ => ⟨?_, ?_⟩⟩
    · intro Q f v h1
      simp [fieldSets] at h1
    · intro f hf
      simp [fieldList] at hf
  | .cons m ty rest, k, vs, h => by
    simp only [SourceFields.MemberInRange] at h
    obtain ⟨v, vs', rfl, ht, hm, hr⟩ := h
    obtain ⟨h1, h2⟩ := members_inRange rest hr
    refine ⟨⟨v, vs', rfl, ht, h1⟩, fun j hj => ?_⟩
    subst hj
    cases j with
    | zero =>
      have hm := hm rfl
      refine ⟨fun Q f x e1 e2 e3 => ?_, fun f hf => ?_⟩
      · simp only [fieldSets, SourceFields.meaning, Fields.ops, List.getElem?_cons_zero, Option.some.injEq]
          at e1 e2 e3
        subst e1 e2 e3
        exact within_of hm
      · simp only [fieldList, List.getElem?_cons_zero, Option.some.injEq] at hf
        subst hf
        exact hm.1
    | succ j =>
      obtain ⟨h3, h4⟩ := h2 j rfl
      refine ⟨fun Q f x e1 e2 e3 => ?_, fun f hf => ?_⟩
      · simp only [fieldSets, SourceFields.meaning, Fields.ops, List.getElem?_cons_succ] at e1 e2 e3
        exact h3 Q f x e1 e2 e3
      · simp only [fieldList, List.getElem?_cons_succ] at hf
        exact h4 f hf

theorem selectCase_index {sel : Val} : ∀ (cs : List CaseOps) {i j : Nat} {f : FieldOps},
    selectCase sel i cs = some (j, f) → i ≤ j
  | [], i, j, f, h => by simp [selectCase] at h
  | c :: cs, i, j, f, h => by
    simp only [selectCase] at h
    split at h
    · cases hc : c.field with
      | none => simp [hc] at h
      | some g =>
        simp only [hc, Option.map_some, Option.some.injEq, Prod.mk.injEq] at h
        omega
    · have := selectCase_index cs h
      split at this <;> omega

theorem cases_inRange {packed : Bool} {ps : List Val} {sel : Val} : ∀ (cs : SourceCases fo.F O) {taken : Bool}
    {vs : List Val} (i : Nat), cs.InRange md packed sc look ps sel taken vs →
    casesTyped cs vs ∧ ∀ j, (packed = true ∨ (taken = false ∧
        ∃ f, selectCase sel i ((cs.meaning look).ops cfg) = some (i + j, f))) →
      WithinAt packed ps (caseSets md cs) (caseFields ((cs.meaning look).ops cfg)) vs j ∧
      ∀ f, (caseList look cs)[j]? = some f → f.InRange md sc look ⟨ps, []⟩
  | .nil, taken, vs, i, h => by
    simp only [SourceCases.InRange] at h
    subst h
    refine ⟨rfl, fun j _ => ⟨?_, ?_⟩⟩
    · intro Q f v h1
      simp [caseSets] at h1
    · intro f hf
      simp [caseList] at hf
  | .empty labels rest, taken, vs, i, h => by
    simp only [SourceCases.InRange] at h
    obtain ⟨h1, h2⟩ := cases_inRange rest i h
    refine ⟨h1, fun j hj => ?_⟩
    simp only [caseSets, SourceCases.meaning, Cases.ops, caseFields_cons, caseList]
    refine h2 j (hj.imp id ?_)
    rintro ⟨ht, f, hf⟩
    simp only [SourceCases.meaning, Cases.ops, selectCase] at hf
    split at hf
    · cases hf
    · rename_i hn
      exact ⟨by simp [ht, hn], f, by simpa using hf⟩
  | .field labels m ty rest, taken, vs, i, h => by
    simp only [SourceCases.InRange] at h
    obtain ⟨v, vs', rfl, ht, hm, hr⟩ := h
    obtain ⟨h1, h2⟩ := cases_inRange rest (i + 1) hr
    refine ⟨⟨v, vs', rfl, ht, h1⟩, fun j hj => ?_⟩
    simp only [caseSets, SourceCases.meaning, Cases.ops, caseFields_cons, caseList, Option.toList,
      List.singleton_append]
    cases j with
    | zero =>
      have hm := hm (hj.imp id (by
        rintro ⟨ht, f, hf⟩
        refine ⟨ht, ?_⟩
        simp only [SourceCases.meaning, Cases.ops, selectCase] at hf
        split at hf
        · assumption
        · have := selectCase_index _ hf
          simp only [Option.isSome_some, if_true] at this
          omega))
      refine ⟨fun Q f x e1 e2 e3 => ?_, fun f hf => ?_⟩
      · simp only [List.getElem?_cons_zero, Option.some.injEq] at e1 e2 e3
        subst e1 e2 e3
        exact within_of hm
      · simp only [List.getElem?_cons_zero, Option.some.injEq] at hf
        subst hf
        exact hm.1
    | succ j =>
      obtain ⟨h3, h4⟩ := h2 j (hj.imp id (by
        rintro ⟨ht, f, hf⟩
        simp only [SourceCases.meaning, Cases.ops, selectCase] at hf
        split at hf
        · simp at hf
        · rename_i hn
          refine ⟨by simp [ht, hn], f, ?_⟩
          rw [show i + 1 + j = i + (j + 1) by omega]
          simpa using hf))
      refine ⟨fun Q f x e1 e2 e3 => ?_, fun f hf => ?_⟩
      · simp only [List.getElem?_cons_succ] at e1 e2 e3
        exact h3 Q f x e1 e2 e3
      · simp only [List.getElem?_cons_succ] at hf
        exact h4 f hf

end Link

end Zs
