import Verif.ReadWireTy

/-!
# Generated readers accept the layout of all types of a schema, by induction
-/

namespace Zs

open Spec

/-- The readers of fields. -/
structure FieldsAcceptGood (cfg : Cfg) (packing : Packing) (fs : Fields) : Prop where
  reads : ∀ pack, fs.Claim cfg pack → ∀ i ps done vs, fs.Valid cfg ps done vs → ∀ t : Node,
    (pack.isSome → ∀ (k : Nat) (f : FieldOps), (fs.ops cfg)[k]? = some f →
      t.children[i + k]? = some f.createContext) →
    Accepts cfg.md pack t (fun n r => decodeFields cfg pack.isSome ps (fs.ops cfg) i done fs.defaults n r)
      (done ++ vs) (fs.Wire cfg packing pack i ps done vs) (fs.numbers false i ps done vs)
  member : fs.Supported cfg → ∀ ps sel left vs, fs.ValidMember cfg ps left vs →
    ∃ (f : FieldOps) (v : Val), (fs.ops cfg)[left]? = some f ∧ fs.defaults[left]? = some f.dflt ∧
      vs = fs.defaults.set left v ∧
      Takes (fun r => f.decode cfg false sel ⟨ps, []⟩ f.dflt Node.new r >>= fun p => pure (p.1.1, p.2))
        v (fs.MemberWire cfg packing ps sel left vs)

/-- The readers of cases. -/
structure CasesAcceptGood (cfg : Cfg) (packing : Packing) (cs : Cases) : Prop where
  reads : ∀ pack, cs.Claim cfg pack → ∀ i ps sel vs, cs.Valid cfg ps sel false vs →
    ∀ pre : List Val, pre.length = i → ∀ t : Node,
    (pack.isSome → ∀ (k : Nat) (f : FieldOps), (caseFields (cs.ops cfg))[k]? = some f →
      t.children[i + k]? = some f.createContext) →
    Accepts cfg.md pack t (fun n r => match selectCase sel i (cs.ops cfg) with
      | none => pure ((pre ++ cs.defaults, n), r)
      | some (j, f) => match (pre ++ cs.defaults)[j]? with
        | none => .panic
        | some old => f.decode cfg pack.isSome j ⟨ps, []⟩ old n r >>= fun p =>
            pure (((pre ++ cs.defaults).set j p.1.1, p.1.2), p.2))
      (pre ++ vs) (cs.Wire cfg packing pack i ps sel vs) (cs.numbers false i ps sel false vs)

/-- After a case was selected nothing is left to read. -/
theorem Cases.valid_taken (cfg : Cfg) : (cs : Cases) → ∀ ps sel vs, cs.Valid cfg ps sel true vs →
    vs = cs.defaults ∧ ∀ i q, cs.numbers false i ps sel true vs q = []
  | .nil => by
    intro ps sel vs h
    rw [Cases.Valid] at h
    subst h
    exact ⟨by rw [Cases.defaults], fun i q => by rw [Cases.numbers]⟩
  | .field labels info ty rest => by
    intro ps sel vs h
    rw [Cases.Valid] at h
    obtain ⟨v, vs', rfl, h1, h2⟩ := h
    simp only [Bool.true_eq_false, false_and, if_false] at h1
    simp only [Bool.true_or] at h2
    obtain ⟨h3, h4⟩ := Cases.valid_taken cfg rest ps sel vs' h2
    refine ⟨by rw [Cases.defaults, h1, h3], fun i q => ?_⟩
    rw [Cases.numbers]
    simp [h4]
  | .empty labels rest => by
    intro ps sel vs h
    rw [Cases.Valid] at h
    simp only [Bool.true_or] at h
    obtain ⟨h3, h4⟩ := Cases.valid_taken cfg rest ps sel vs h
    refine ⟨by rw [Cases.defaults, h3], fun i q => ?_⟩
    rw [Cases.numbers]
    simp [h4]

theorem Accepts.pure {α : Type} {md : Mode} {pack : Option Plan} {t : Node} {v : α}
    {nums : List Nat → List Entry} (hn : pack.isSome → ∀ q, nums q = []) :
    Accepts md pack t (fun n r => Pure.pure ((v, n), r)) v Layout.empty nums := by
  have h : Takes (fun r => Pure.pure (v, r)) v Layout.empty := by
    intro st pos bits st' ⟨h1, h2⟩
    have h1 : bits = [] := h1
    subst h1
    exact ⟨h2, fun after => by simp⟩
  exact Accepts.keep h hn

theorem Accepts.congr {α : Type} {md : Mode} {pack : Option Plan} {t : Node}
    {a b : Node → Reader → Res ((α × Node) × Reader)} {v w : α} {l m : Layout}
    {x y : List Nat → List Entry} (h : Accepts md pack t a v l x) (h1 : a = b) (h2 : v = w)
    (h3 : l = m) (h4 : x = y) : Accepts md pack t b w m y := by
  subst h1 h2 h3 h4; exact h

/-- One field. -/
theorem field_reads_ty {cfg : Cfg} {packing : Packing} (hQ : packing.Readable) {info : FieldInfo}
    {ty : Ty}
    (hty : AcceptGood cfg.md (ty.ops cfg) (ty.Valid cfg) (ty.Wire cfg packing) (ty.numbers false)
      (ty.Supported cfg) (∃ z, ty.Packable cfg z)) {pack : Option Plan}
    (hc : FieldClaim info (info.isDelta ty) pack.isSome (ty.Supported cfg) (∃ z, ty.Packable cfg z))
    {i : Nat} {env : Env} {v : Val} (hv : info.FieldValid (ty.Valid cfg) ty.default env v) {t : Node}
    (ht : pack.isSome → t.children[i]? = some (FieldOps.createContext ⟨info, ty.ops cfg⟩)) :
    Accepts cfg.md pack t (fun n r => FieldOps.decode cfg ⟨info, ty.ops cfg⟩ pack.isSome i env
        (info.default ty.default) n r) v
      (info.Wire packing (info.isDelta ty) (ty.Wire cfg packing) (fun all => ty.numbers all) pack i
        env v)
      (info.numbers (info.isDelta ty) (ty.numbers false) i env v) := by
  have hd := Ty.dflt_eq cfg ty
  rw [← hd] at hv
  have := FieldOps.field_reads (f := ⟨info, ty.ops cfg⟩) (numbers := fun all => ty.numbers all)
    hQ hty (Ty.ops_isPackable cfg info ty) hc hv ht
  rw [FieldOps.dflt_eq, hd] at this
  exact this

mutual
/-- The reader generated for a type accepts its layout. -/
theorem Ty.acceptGood (cfg : Cfg) {packing : Packing} (hQ : packing.Readable) : (t : Ty) →
    AcceptGood cfg.md (t.ops cfg) (t.Valid cfg) (t.Wire cfg packing) (t.numbers false)
      (t.Supported cfg) (∃ z, t.Packable cfg z)
  | .scalar s => by
    have hfresh := (Ty.initGood cfg (.scalar s)).create.fresh
    simp only [Ty.ops] at hfresh ⊢
    refine ⟨Scalar.coherent cfg s, hfresh, ?_, ?_, ?_⟩
    · intro h env v hv
      rw [Ty.Supported] at h
      rw [Ty.Valid] at hv
      rw [Ty.Wire, ite_self]
      exact Scalar.takes h hv
    · intro h env v hv
      rw [Ty.Supported] at h
      rw [Ty.Valid] at hv
      rw [Ty.Wire, ite_self]
      have := Scalar.elem_takes h hv
      simp only [Scalar.ops, Scalar.dflt_withParams]
      exact this
    · intro h env v hv plan
      obtain ⟨z, h⟩ := h
      rw [Ty.Packable] at h
      rw [Ty.Valid] at hv
      obtain ⟨hp, hw, hn⟩ := h
      obtain ⟨x, u, hx, _, _⟩ := Scalar.toU64_number hp hv
      refine (Scalar.packed_reads (s' := s.fixed env) hp hw hn hv hx plan).congr ?_ rfl ?_ ?_
      · simp only [Scalar.ops, Scalar.dflt_withParams]
      · rw [Ty.Wire, if_pos hp]
      · funext q
        rw [Ty.numbers]
        simp only [hx, hp, and_true]
  | .enum base items => by
    have hall : ((Ty.enum base items).Supported cfg ∨ ∃ z, (Ty.enum base items).Packable cfg z) →
        base.WidthOk ∧ (enumValues items).Nodup := by
      simp only [Ty.Supported, Ty.Packable]
      rintro (h | ⟨z, h⟩)
      · exact h
      · exact ⟨h.2.1, h.2.2.2.1⟩
    refine numberCodec_acceptGood (s' := base) (fun c h => by cases h) (fun h => (hall (.inl h)).1)
      (fun h => ?_) (fun h env v hv => ?_)
    · obtain ⟨z, h⟩ := h
      rw [Ty.Packable] at h
      exact ⟨h.1, h.2.1, h.2.2.1⟩
    · obtain ⟨hw, hnd⟩ := hall h
      rw [Ty.Valid] at hv
      obtain ⟨i, x, rfl, hi, hc, h63⟩ := hv
      have hn := Scalar.ofInt_number (cfg := cfg) hw hc h63
      refine ⟨base.ofInt x, enumItem_ofInt cfg hw hnd hi hc h63, (Scalar.ofInt_spec hw hc h63).1,
        ?_, fun plan => ?_, fun k hk => ?_⟩
      · simp only [Ty.Wire, hi, Scalar.Wire, hn]
      · simp only [Ty.Wire, hi, Scalar.Wire, hn, Plan.field]
      · rw [hn] at hk
        cases hk
        funext q
        simp only [Ty.numbers, hi]
  | .bitmask base first => by
    refine numberCodec_acceptGood (s' := base.fixed ⟨[], []⟩) (fun c h => by cases h; rfl)
      (fun h => ?_) (fun h => ?_) (fun h env v hv => ?_)
    · rwa [Ty.Supported] at h
    · obtain ⟨z, h⟩ := h
      rw [Ty.Packable] at h
      exact ⟨h.1, h.2.1, h.2.2.1⟩
    · rw [Ty.Valid] at hv
      refine ⟨v, rfl, hv, by rw [Ty.Wire], fun plan => by rw [Ty.Wire], fun k hk => ?_⟩
      funext q
      simp only [Ty.numbers, hk]
  | .struct params fields => by
    have hf := Fields.acceptGood cfg hQ fields
    have hfresh := (Ty.initGood cfg (.struct params fields)).create.fresh
    have hdf := Fields.dflt_eq cfg fields
    simp only [Ty.ops] at hfresh ⊢
    refine Codec.acceptGood hfresh ?_ ?_
    · intro h env v hv
      rw [Ty.Supported] at h
      rw [Ty.Valid] at hv
      obtain ⟨ps, vs, rfl, hv⟩ := hv
      rw [Ty.Wire]
      intro st pos bits st' hl
      obtain ⟨n', hA, hr⟩ := hf.reads none h 0 ps [] vs hv Node.new (fun h => by cases h) Node.new
        st pos bits st' hl trivial
      refine ⟨hA, fun after => ?_⟩
      have := hr after
      simp only [Option.isSome_none, List.nil_append] at this
      simp only [structCodec, Val.withParams, Val.params, hdf, this, Res.ok_bind, Res.pure_eq]
    · intro h env v hv plan
      rw [Ty.Valid] at hv
      obtain ⟨ps, vs, rfl, hv⟩ := hv
      obtain ⟨z, h⟩ := h
      rw [Ty.Packable] at h
      rw [Ty.Wire]
      have hnum : (Ty.struct params fields).numbers false env (.obj ps vs) =
          fields.numbers false 0 ps [] vs := by
        funext q; rw [Ty.numbers]
      rw [hnum]
      intro n st pos bits st' hl hB
      obtain ⟨n', hA, hr⟩ := hf.reads (some plan) ⟨z, h⟩ 0 ps [] vs hv
        (structCodec cfg params (fields.ops cfg)).createContext (fun _ k f hk => by
          simp [structCodec, Node.children, hk]) n st pos bits st' hl hB
      refine ⟨n', hA, fun after => ?_⟩
      have := hr after
      simp only [Option.isSome_some, List.nil_append] at this
      simp only [structCodec, Val.withParams, Val.params, hdf, this, Res.ok_bind, Res.pure_eq]
  | .choice params sel cases => by
    have hf := Cases.acceptGood cfg hQ cases
    have hfresh := (Ty.initGood cfg (.choice params sel cases)).create.fresh
    have hdf := Cases.dflt_eq cfg cases
    have hdec : ∀ packed ps n r, decodeChoice cfg packed sel (cases.ops cfg) ps cases.defaults n r =
        (match selectCase (sel ps) 0 (cases.ops cfg) with
        | none => pure ((cases.defaults, n), r)
        | some (j, f) => match cases.defaults[j]? with
          | none => .panic
          | some old => f.decode cfg packed j ⟨ps, []⟩ old n r >>= fun p =>
              pure ((cases.defaults.set j p.1.1, p.1.2), p.2)) := by
      intro packed ps n r
      rfl
    simp only [Ty.ops] at hfresh ⊢
    refine Codec.acceptGood hfresh ?_ ?_
    · intro h env v hv
      rw [Ty.Supported] at h
      rw [Ty.Valid] at hv
      obtain ⟨ps, vs, rfl, hv⟩ := hv
      rw [Ty.Wire]
      intro st pos bits st' hl
      obtain ⟨n', hA, hr⟩ := hf.reads none h 0 ps (sel ps) vs hv [] rfl Node.new
        (fun h => by cases h) Node.new st pos bits st' hl trivial
      refine ⟨hA, fun after => ?_⟩
      have := hr after
      simp only [Option.isSome_none, List.nil_append] at this
      simp only [choiceCodec, Val.withParams, Val.params, hdf, hdec]
      rw [this]
      simp only [Res.ok_bind, Res.pure_eq]
    · intro h env v hv plan
      rw [Ty.Valid] at hv
      obtain ⟨ps, vs, rfl, hv⟩ := hv
      obtain ⟨z, h⟩ := h
      rw [Ty.Packable] at h
      rw [Ty.Wire]
      have hnum : (Ty.choice params sel cases).numbers false env (.obj ps vs) =
          cases.numbers false 0 ps (sel ps) false vs := by
        funext q; rw [Ty.numbers]
      rw [hnum]
      intro n st pos bits st' hl hB
      obtain ⟨n', hA, hr⟩ := hf.reads (some plan) h 0 ps (sel ps) vs hv [] rfl
        (choiceCodec cfg params sel (cases.ops cfg)).createContext (fun _ k f hk => by
          simp [choiceCodec, Node.children, hk]) n st pos bits st' hl hB
      refine ⟨n', hA, fun after => ?_⟩
      have := hr after
      simp only [Option.isSome_some, List.nil_append] at this
      simp only [choiceCodec, Val.withParams, Val.params, hdf, hdec]
      rw [this]
      simp only [Res.ok_bind, Res.pure_eq]
  | .union params members => by
    have hf := Fields.acceptGood cfg hQ members
    have hfresh := (Ty.initGood cfg (.union params members)).create.fresh
    have hdf := Fields.dflt_eq cfg members
    simp only [Ty.ops] at hfresh ⊢
    refine Codec.acceptGood hfresh ?_ ?_
    · intro h env v hv
      rw [Ty.Supported] at h
      rw [Ty.Valid] at hv
      obtain ⟨ps, sel, vs, rfl, h31, hv⟩ := hv
      obtain ⟨f, x, hm, hd, rfl, ht⟩ := hf.member h ps sel sel vs hv
      rw [Ty.Wire]
      intro st pos bits st' ⟨b1, b2, s1, e, l1, l2⟩
      subst e
      obtain ⟨rfl, h1⟩ := FieldOps.takes_varsize h31 _ _ _ _ l1
      obtain ⟨rfl, h2⟩ := ht _ _ _ _ l2
      refine ⟨rfl, fun after => ?_⟩
      have hlt : sel < (members.ops cfg).length := (List.getElem?_eq_some_iff.1 hm).1
      have := h2 after
      obtain ⟨⟨⟨p1, p2⟩, p3⟩, e1, e2⟩ := Res.bind_eq_ok.1 this
      cases e2
      simp only [unionCodec, Val.withParams, Val.params, hdf, List.append_assoc, h1, Res.ok_bind,
        fromU32, if_pos hlt, Res.pure_eq, decodeMember, hm, hd, e1, List.length_append,
        Nat.add_assoc]
    · intro h
      obtain ⟨z, h⟩ := h
      rw [Ty.Packable] at h
      exact h.elim
theorem Fields.acceptGood (cfg : Cfg) {packing : Packing} (hQ : packing.Readable) :
    (fs : Fields) → FieldsAcceptGood cfg packing fs
  | .nil => by
    refine ⟨?_, ?_⟩
    · intro pack _ i ps done vs hv t _
      rw [Fields.Valid] at hv
      subst hv
      rw [Fields.Wire]
      simp only [Fields.ops, Fields.defaults, decodeFields, if_true, List.append_nil]
      exact Accepts.pure (fun _ q => by rw [Fields.numbers])
    · intro _ ps sel left vs hv
      rw [Fields.ValidMember] at hv
      exact hv.elim
  | .cons info ty rest => by
    have hty := Ty.acceptGood cfg hQ ty
    have hrest := Fields.acceptGood cfg hQ rest
    refine ⟨?_, ?_⟩
    · intro pack hc i ps done vs hv t ht
      rw [Fields.Valid] at hv
      obtain ⟨v, vs, rfl, hv1, hv2⟩ := hv
      have h1 := field_reads_ty hQ hty (pack := pack) (i := i) (env := ⟨ps, done⟩) (v := v) (t := t)
        (by
          cases pack with
          | none =>
            simp only [Fields.Claim, Fields.Supported] at hc
            exact fieldClaim_plain hc.1
          | some plan =>
            simp only [Fields.Claim, Fields.Packable] at hc
            obtain ⟨z, hc⟩ := hc
            exact fieldClaim_packed hc.1) hv1 (fun h => by
          have := ht h 0 ⟨info, ty.ops cfg⟩ (by simp [Fields.ops])
          simpa using this)
      have h2 := hrest.reads pack (by
        cases pack with
        | none => simp only [Fields.Claim, Fields.Supported] at hc ⊢; exact hc.2
        | some plan =>
          simp only [Fields.Claim, Fields.Packable] at hc ⊢
          exact ⟨hc.choose, hc.choose_spec.2⟩) (i + 1) ps (done ++ [v]) vs hv2 t
          (fun h k f hk => by
            have := ht h (k + 1) f (by simpa [Fields.ops] using hk)
            rw [show i + 1 + k = i + (k + 1) by omega]
            exact this)
      refine (Accepts.bind (b := fun v n r => decodeFields cfg pack.isSome ps (rest.ops cfg) (i + 1)
        (done ++ [v]) rest.defaults n r) h1 h2).congr ?_ ?_ ?_ ?_
      · simp only [Fields.ops, Fields.defaults, decodeFields]
      · simp
      · rw [Fields.Wire]
      · funext q; rw [Fields.numbers]
    · intro hs ps sel left vs hv
      rw [Fields.ValidMember] at hv
      obtain ⟨v, vs', rfl, hv⟩ := hv
      have hdf := FieldOps.dflt_eq info (ty.ops cfg)
      rw [Ty.dflt_eq cfg ty] at hdf
      cases left with
      | zero =>
        refine ⟨⟨info, ty.ops cfg⟩, v, by simp [Fields.ops], by simp [Fields.defaults, hdf], ?_, ?_⟩
        · rw [Fields.defaults, hv.2]; rfl
        · rw [Fields.MemberWire, hdf]
          rw [Fields.Supported] at hs
          exact (field_reads_ty hQ hty (pack := none) (i := sel) (t := Node.new)
            (fieldClaim_plain hs.1) hv.1 (fun h => by cases h)).takes Node.new
      | succ left =>
        rw [Fields.Supported] at hs
        obtain ⟨f, x, h1, h2, h3, h4⟩ := hrest.member hs.2 ps sel left vs' hv.2
        refine ⟨f, x, by simpa [Fields.ops] using h1, by simpa [Fields.defaults] using h2, ?_, ?_⟩
        · rw [Fields.defaults, hv.1, List.set_cons_succ, h3]
        · rw [Fields.MemberWire]
          exact h4
theorem Cases.acceptGood (cfg : Cfg) {packing : Packing} (hQ : packing.Readable) :
    (cs : Cases) → CasesAcceptGood cfg packing cs
  | .nil => by
    refine ⟨?_⟩
    intro pack _ i ps sel vs hv pre _ t _
    rw [Cases.Valid] at hv
    subst hv
    rw [Cases.Wire]
    simp only [Cases.ops, selectCase, Cases.defaults]
    exact Accepts.pure (fun _ q => by rw [Cases.numbers])
  | .field labels info ty rest => by
    have hty := Ty.acceptGood cfg hQ ty
    have hrest := Cases.acceptGood cfg hQ rest
    refine ⟨?_⟩
    intro pack hc i ps sel vs hv pre hpre t ht
    rw [Cases.Valid] at hv
    obtain ⟨v, vs, rfl, hv1, hv2⟩ := hv
    by_cases hm : sel ∈ labels
    · rw [if_pos ⟨rfl, hm⟩] at hv1
      simp only [hm, decide_true, Bool.or_true] at hv2
      obtain ⟨rfl, hnum⟩ := Cases.valid_taken cfg rest ps sel vs hv2
      have h1 := field_reads_ty hQ hty (pack := pack) (i := i) (env := ⟨ps, []⟩) (v := v) (t := t)
        (by
          cases pack with
          | none =>
            simp only [Cases.Claim, Cases.Supported] at hc
            exact fieldClaim_plain hc.1
          | some plan =>
            simp only [Cases.Claim, Cases.Packable] at hc
            exact fieldClaim_packed hc.1) hv1 (fun h => by
          have := ht h 0 ⟨info, ty.ops cfg⟩ (by simp [Cases.ops, caseFields])
          simpa using this)
      refine (h1.map (fun v => (pre ++ info.default ty.default :: rest.defaults).set i v)).congr
        ?_ ?_ ?_ ?_
      · subst hpre
        simp only [Cases.ops, selectCase, hm, if_true, Option.map_some, Cases.defaults,
          List.getElem?_append_right (Nat.le_refl _), Nat.sub_self, List.getElem?_cons_zero]
      · subst hpre
        simp
      · rw [Cases.Wire, if_pos hm]
      · funext q
        rw [Cases.numbers]
        simp [hm, hnum]
    · rw [if_neg (fun h => hm h.2)] at hv1
      subst hv1
      simp only [hm, decide_false, Bool.or_false] at hv2
      refine (hrest.reads pack (by
        cases pack with
        | none => simp only [Cases.Claim, Cases.Supported] at hc ⊢; exact hc.2
        | some plan => simp only [Cases.Claim, Cases.Packable] at hc ⊢; exact hc.2) (i + 1) ps sel vs
        hv2 (pre ++ [info.default ty.default]) (by simp [hpre]) t (fun h k f hk => by
          have := ht h (k + 1) f (by simpa [Cases.ops, caseFields] using hk)
          rw [show i + 1 + k = i + (k + 1) by omega]
          exact this)).congr ?_ ?_ ?_ ?_
      · simp only [Cases.ops, selectCase, hm, if_false, Cases.defaults, Option.isSome_some, if_true,
          List.append_assoc, List.singleton_append]
      · simp
      · rw [Cases.Wire, if_neg hm]
      · funext q
        rw [Cases.numbers]
        simp [hm]
  | .empty labels rest => by
    have hrest := Cases.acceptGood cfg hQ rest
    refine ⟨?_⟩
    intro pack hc i ps sel vs hv pre hpre t ht
    rw [Cases.Valid] at hv
    by_cases hm : sel ∈ labels
    · simp only [hm, decide_true, Bool.or_true] at hv
      obtain ⟨rfl, hnum⟩ := Cases.valid_taken cfg rest ps sel vs hv
      rw [Cases.Wire, if_pos hm]
      simp only [Cases.ops, selectCase, hm, if_true, Option.map_none, Cases.defaults]
      exact Accepts.pure (fun _ q => by rw [Cases.numbers]; simp [hm, hnum])
    · simp only [hm, decide_false, Bool.or_false] at hv
      refine (hrest.reads pack (by
        cases pack with
        | none => simp only [Cases.Claim, Cases.Supported] at hc ⊢; exact hc
        | some plan => simp only [Cases.Claim, Cases.Packable] at hc ⊢; exact hc) i ps sel vs
        hv pre hpre t (fun h k f hk => ht h k f (by simpa [Cases.ops, caseFields] using hk))).congr
        ?_ rfl ?_ ?_
      · simp only [Cases.ops, selectCase, hm, if_false, Cases.defaults, Option.isSome_none,
          Bool.false_eq_true]
      · rw [Cases.Wire, if_neg hm]
      · funext q
        rw [Cases.numbers]
        simp [hm]
end

end Zs
