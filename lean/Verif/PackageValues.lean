import Verif.PackageSpec
import Verif.TextConforms

/-!
# Lemmas: what the expressions of a package see of valid objects has the declared types
-/

namespace Zs

open Ast Spec

variable {fo : FloatOps} {K : Constants fo.F} {round : List Char → fo.F} {float : Val → fo.F} {cfg : Cfg} {md : Mode}
  {ds : List Src.Directive}

/-- The values of parameters are in the ranges of their Rust types. -/
def ParamsGood (ps : List Src.Param) (vs : List Val) : Prop :=
  ∀ (j : Nat) (p : Src.Param) (v : Val) (z : ZTy), ps[j]? = some p → vs[j]? = some v → (∃ (F' : Type) (K' : Constants F'), typeIn K'.types p.type = some z) →
    GoodFor z v

/-- The values of fields are in the ranges of their Rust types. -/
def FieldsShaped (fs : List Src.StructField) (vs : List Val) : Prop :=
  ∀ (j : Nat) (f : Src.StructField) (v : Val) (z : ZTy), fs[j]? = some f → vs[j]? = some v →
    (∃ (F' : Type) (K' : Constants F'), typeIn K'.types f.typeId.type.type = some z) → ShapeGood ⟨z, shapeOf f⟩ v

theorem FieldsShaped.nil (fs : List Src.StructField) : FieldsShaped fs [] := by
  intro j f v z _ h
  cases h

theorem FieldsShaped.pre {fs : List Src.StructField} {vs ws : List Val} (h : FieldsShaped fs (vs ++ ws)) : FieldsShaped fs vs := by
  intro j f v z hf hv hz
  refine h j f v z hf ?_ hz
  rw [List.getElem?_append_left (List.getElem?_eq_some_iff.1 hv).1]
  exact hv

theorem good_members {s : Src.Struct} {ps vs : List Val} (hp : ParamsGood s.params ps) (hv : FieldsShaped s.fields vs)
    {m : Member} (hm : m ∈ membersOf K.types s) {y : Symb} (hy : m.symb = some y) :
    IsSimple y.ty ∧ (y.shape = .plain ∨ y.shape = .optional ∨ y.shape = .array ∨ y.shape = .optionalArray) ∧
      ShapeGood y (m.value ⟨ps, vs⟩) := by
  simp only [membersOf, List.mem_append, List.mem_map] at hm
  rcases hm with ⟨⟨p, j⟩, hj, rfl⟩ | ⟨⟨f, j⟩, hj, rfl⟩
  · rw [List.mem_zipIdx_iff_getElem?] at hj
    simp only [Option.map_eq_some_iff] at hy
    obtain ⟨z, hz, rfl⟩ := hy
    refine ⟨typeIn_simple hz, .inl rfl, ?_⟩
    simp only [List.getD_eq_getElem?_getD]
    cases hg : ps[j]? with
    | none => exact shape_good_none _ _
    | some v =>
      intro x hx
      cases hx
      exact hp j p v z hj hg ⟨_, _, hz⟩
  · rw [List.mem_zipIdx_iff_getElem?] at hj
    simp only [Option.map_eq_some_iff] at hy
    obtain ⟨z, hz, rfl⟩ := hy
    refine ⟨typeIn_simple hz, shapeOf_cases f, ?_⟩
    simp only [List.getD_eq_getElem?_getD]
    cases hg : vs[j]? with
    | none => exact shape_good_none _ _
    | some v => exact hv j f v z hj hg ⟨_, _, hz⟩

theorem good_conforms (hK : K.Good) {s : Src.Struct} {ps vs : List Val} (hp : ParamsGood s.params ps) (hv : FieldsShaped s.fields vs) :
    Conforms (textLook float K s ⟨ps, vs⟩) (rscope (textScope K s)) :=
  text_conforms_of hK fun m hm y hy => good_members hp hv hm hy

/-! ## Fields -/

/-- The type is in the part of the language for which the generated code is correct. -/
def Fine (cfg : Cfg) (t : Ty) : Prop := t.Supported cfg ∨ ∃ z, t.Packable cfg z

/-- The value of a field is valid or the default. -/
def FieldSound (cfg : Cfg) (info : FieldInfo) (t : Ty) (env : Env) (v : Val) : Prop :=
  (Fine cfg t ∧ info.FieldValid (t.Valid cfg) t.default env v) ∨ v = info.default t.default

theorem shaped_good {f : Src.StructField} {z : ZTy} {info : FieldInfo} {t : Ty} {env : Env} {v : Val}
    (ho : info.optional = f.optional) (ha : info.array.isSome = f.typeId.array.isSome)
    (hg : Fine cfg t → ∀ x, t.Valid cfg env x → GoodFor z x) (hd : GoodFor z t.default)
    (hv : FieldSound cfg info t env v) : ShapeGood ⟨z, shapeOf f⟩ v := by
  have hdef : v = info.default t.default → ShapeGood ⟨z, shapeOf f⟩ v := by
    intro hv x hx
    subst hv
    unfold FieldInfo.default at hx
    rw [ho, ha] at hx
    unfold shapeOf Inner at hx
    cases ho : f.optional <;> cases ha : f.typeId.array.isSome <;> simp only [ho, ha, Bool.false_eq_true, if_true,
      if_false] at hx
    · subst hx
      exact hd
    · obtain ⟨xs, hxs, hmem⟩ := hx
      cases hxs
      cases hmem
    · cases hx
    · obtain ⟨xs, hxs, hmem⟩ := hx
      cases hxs
  rcases hv with ⟨hfine, hv⟩ | hv
  · unfold FieldInfo.FieldValid at hv
    split at hv
    · intro x hx
      have hg := hg hfine
      have hin : ∀ y, info.ContentValid (t.Valid cfg) t.default env y →
          (f.typeId.array.isSome = false → y = x) → (f.typeId.array.isSome = true → ∃ xs, y = .list xs ∧ x ∈ xs) →
          GoodFor z x := by
        intro y hy h1 h2
        unfold FieldInfo.ContentValid at hy
        rw [← ha] at h1 h2
        cases ha : info.array with
        | none =>
          rw [ha] at hy h1
          have hyx := h1 rfl
          subst hyx
          exact hg _ hy.1
        | some a =>
          rw [ha] at hy h2
          obtain ⟨xs, rfl, -, hall⟩ := hy
          obtain ⟨xs', hxs, hmem⟩ := h2 rfl
          cases hxs
          obtain ⟨j, hj⟩ := List.getElem?_of_mem hmem
          exact hg _ (hall j x hj).1
      rw [ho] at hv
      unfold shapeOf Inner at hx
      cases ho : f.optional <;> cases ha : f.typeId.array.isSome <;> simp only [ho, ha, Bool.false_eq_true, if_true,
        if_false] at hv hx
      · exact hin v hv (fun _ => hx) (fun h => by rw [ha] at h; cases h)
      · exact hin v hv (fun h => by rw [ha] at h; cases h) (fun _ => hx)
      · subst hx
        rcases hv with hv | ⟨y, hy, hv⟩
        · cases hv
        · cases hy
          exact hin x hv (fun _ => rfl) (fun h => by rw [ha] at h; cases h)
      · obtain ⟨xs, rfl, hmem⟩ := hx
        rcases hv with hv | ⟨y, hy, hv⟩
        · cases hv
        · cases hy
          exact hin _ hv (fun h => by rw [ha] at h; cases h) (fun _ => ⟨xs, rfl, hmem⟩)
    · exact hdef hv
  · exact hdef hv

theorem good_enum {id : String} {b : NumRef} (x : Val) : GoodFor (.enum id b) x := by
  intro _ _ h
  cases h

/-- The type of a field that expressions see is a builtin one, an enumeration or a structure. -/
theorem typeIs_good {known : List String} {i : Src.Inst} {args : List (ParamTy × Expr fo.F)}
    {Decl : String → List Src.Param → Prop} {look : Env → World fo.F Object} {ty : SourceTy fo.F Object} {z : ZTy}
    (h : TypeIs round K.enums known i args Decl ty) (hz : ∃ (F' : Type) (K' : Constants F'), typeIn K'.types i.type = some z) :
    (Fine cfg (ty.meaning look) → ∀ env x, (ty.meaning look).Valid cfg env x → GoodFor z x) ∧
      GoodFor z (ty.meaning look).default := by
  obtain ⟨F', E, hz⟩ := hz
  have key : ∀ w : Written fo.F, TypeStands round known i w.ty →
      (Fine cfg (w.type look) → ∀ env x, (w.type look).Valid cfg env x → GoodFor z x) ∧
        GoodFor z (w.type look).default := by
    intro w hw
    obtain ⟨s, hs⟩ := default_scalar (look := look) hw
    refine ⟨fun hf env x hx => ?_, by rw [hs]; exact good_dflt s⟩
    refine content_good hw hz ?_ hx
    rcases hf with hf | ⟨b, hf⟩
    · exact .inl hf
    · refine .inr ?_
      cases hty : w.ty with
      | plain t =>
        rw [hty] at hw
        cases hw
        simp only [Written.type, hty, Ty.Packable] at hf ⊢
        exact hf
      | bit e =>
        simp only [Written.type, hty, Ty.Packable] at hf ⊢
        exact hf
      | int e =>
        simp only [Written.type, hty, Ty.Packable] at hf ⊢
        exact hf
  cases ty with
  | builtin s => exact key { ty := .plain (.scalar s) } h.1
  | bit e => exact key { ty := .bit e } h.1
  | int e => exact key { ty := .int e } h.1
  | _ =>
    obtain ⟨name, ps, as, -, ht, -⟩ := h
    rw [ht] at hz
    exact ⟨fun _ _ x _ => (types_simple hz).2 x, (types_simple hz).2 _⟩

theorem mods_shaped {s : Src.Struct} {known : List String} {f : Src.StructField} {m : Modifiers fo.F}
    {args : List (ParamTy × Expr fo.F)} {Decl : String → List Src.Param → Prop} {look : Env → World fo.F Object}
    {ty : SourceTy fo.F Object} {z : ZTy} {env : Env} {v : Val} (hm : ModsStand round s known f m)
    (h : TypeIs round K.enums known f.typeId.type args Decl ty) (hz : ∃ (F' : Type) (K' : Constants F'), typeIn K'.types f.typeId.type.type = some z)
    (hv : FieldSound cfg (m.info look) (ty.meaning look) env v) : ShapeGood ⟨z, shapeOf f⟩ v := by
  obtain ⟨h1, h2⟩ := typeIs_good (cfg := cfg) (look := look) h hz
  refine shaped_good hm.optional ?_ (fun hf x hx => h1 hf env x hx) h2 hv
  rw [← array_isSome hm.array]
  simp [Modifiers.info]

/-- The values of all fields are valid or defaults. -/
def FieldsSound (cfg : Cfg) (look : Env → World fo.F Object) (grow : Bool) (ps : List Val) :
    SourceFields fo.F Object → List Val → List Val → Prop
  | .nil, _, vs => vs = []
  | .cons m ty rest, done, vs => ∃ v vs', vs = v :: vs' ∧
      FieldSound cfg (m.info look) (ty.meaning look) ⟨ps, if grow then done else []⟩ v ∧
      FieldsSound cfg look grow ps rest (done ++ [v]) vs'

/-- The values of all cases are valid or defaults. -/
def CasesSound (cfg : Cfg) (look : Env → World fo.F Object) (ps : List Val) : SourceCases fo.F Object → List Val → Prop
  | .nil, vs => vs = []
  | .field _ m ty rest, vs => ∃ v vs', vs = v :: vs' ∧
      FieldSound cfg (m.info look) (ty.meaning look) ⟨ps, []⟩ v ∧ CasesSound cfg look ps rest vs'
  | .empty _ rest, vs => CasesSound cfg look ps rest vs

theorem fields_shaped {look : Env → World fo.F Object} {s : Src.Struct} {ps : List Val} :
    ∀ {fields : SourceFields fo.F Object} {known : List String} {fs : List Src.StructField} {done vs : List Val},
    fields.Declares round float K ds s true known fs → FieldsSound cfg look true ps fields done vs → FieldsShaped fs vs
  | .nil, _, fs, _, vs, h, hv => by
    simp only [SourceFields.Declares] at h
    subst h
    intro j f v z hf
    cases hf
  | .cons m ty rest, known, fs, done, vs, h, hv => by
    simp only [SourceFields.Declares] at h
    obtain ⟨f, fs', rfl, hm, ht, hr⟩ := h
    obtain ⟨v, vs', rfl, hv, hvs⟩ := hv
    intro j f' v' z hf hj hz
    cases j with
    | zero =>
      simp only [List.getElem?_cons_zero, Option.some.injEq] at hf hj
      subst hf hj
      exact mods_shaped hm ht hz hv
    | succ j => exact fields_shaped hr hvs j f' v' z hf hj hz

/-! ## Parameters -/

theorem params_default (ps : List Src.Param) : ParamsGood ps (ps.map paramDefault) := by
  intro j p v z hp hv hz
  rw [List.getElem?_map, hp] at hv
  cases hv
  unfold paramDefault
  split
  · exact good_dflt _
  · intro _ _ _ _ _ h
    cases h

theorem number_good {n : NumName} {k : Int} (h : (numTy n).Holds k) : GoodFor (.num n) (numberVal n k) := by
  obtain ⟨i, hi, hk⟩ := h
  intro n' t hn ht x hx
  cases hn
  have hit : t = i := by
    simp only [numTy, ht, RTy.ints] at hi
    split at hi
    · cases hi
      rfl
    · cases hi
  subst hit
  simp only [numberVal, ht] at hx
  cases hsg : t.signed
  · simp only [hsg, Bool.false_eq_true, if_false, Val.number, Option.some.injEq] at hx
    subst hx
    have : 0 ≤ k := by
      have := hk.1
      simp only [IntTy.min, hsg, Bool.false_eq_true, if_false] at this
      omega
    rw [Int.toNat_of_nonneg this]
    exact hk
  · simp only [hsg, if_true, Val.number, Option.some.injEq] at hx
    subst hx
    exact hk

/-- A value of the type of a parameter. -/
theorem param_good {t : Src.Ty} {q : ParamTy} {E : String → Option Enumeration} (h : ParamIs E t q) {z : ZTy}
    (hz : ∃ (F' : Type) (K' : Constants F'), typeIn K'.types t = some z) {v : Datum fo.F Object} (hv : q.Has v) : GoodFor z (q.val v) := by
  obtain ⟨F', E', hz⟩ := hz
  cases q with
  | num n =>
    rw [typeIn_num h.1] at hz
    cases hz
    cases v <;> simp only [ParamTy.Has] at hv
    exact number_good hv
  | bool =>
    rw [typeIn_num h] at hz
    cases hz
    intro _ _ h
    cases h
  | string =>
    rw [typeIn_num h] at hz
    cases hz
    intro _ _ h
    cases h
  | enum id base ks =>
    obtain ⟨rfl, -⟩ := h
    exact (types_simple hz).2 _

theorem args_good {known : List String} {w : World fo.F Object} : ∀ {ps : List Src.Param} {as : List Src.Arg}
    {xs : List (ParamTy × Expr fo.F)}, ArgsStand round K.enums known ps as xs →
    (∀ p e, (p, e) ∈ xs → ∃ v, p.Has v ∧ means w e = some v) →
    ParamsGood ps (xs.map fun a => argumentValue w a.1 a.2)
  | [], _, _, _, _ => by
    intro j p v z hp
    cases hp
  | p :: ps, .expr e :: as, (n, x) :: xs, h, hx => by
    intro j p' v z hp hv hz
    cases j with
    | zero =>
      simp only [List.getElem?_cons_zero, Option.some.injEq, List.map_cons] at hp hv
      subst hp hv
      obtain ⟨d, hk, hm⟩ := hx n x (by simp)
      simp only [argumentValue, hm]
      exact param_good h.1 hz hk
    | succ j =>
      exact args_good h.2.2 (fun p e he => hx p e (List.mem_cons_of_mem _ he)) j p' v z hp hv hz
  | _ :: _, [], _, h, _ => by simp only [ArgsStand] at h
  | _ :: _, .expr _ :: _, [], h, _ => by simp only [ArgsStand] at h
  | _ :: _, .explicit _ :: _, _, h, _ => by simp only [ArgsStand] at h

theorem declares_default {look : Env → World fo.F Object} {t : SourceTy fo.F Object} {name : String}
    {ps : List Src.Param} (h : t.Declares round float K ds name ps) :
    ParamsGood ps (t.meaning look).default.params := by
  have nil : ∀ vs, ParamsGood [] vs := by
    intro vs j p v z hp
    cases hp
  cases t <;> simp only [SourceTy.Declares] at h
  · rw [h.1]
    exact nil _
  · rw [h.1]
    exact nil _
  · obtain ⟨s, -, -, rfl, -, -, -, rfl, -⟩ := h
    exact params_default _
  · obtain ⟨s, n, -, -, rfl, -, -, -, rfl, -⟩ := h
    exact params_default _
  · obtain ⟨s, -, -, rfl, -, -, -, rfl, -⟩ := h
    exact params_default _

/-! ## Types -/

/-- A valid value, or the default. -/
def TySound (cfg : Cfg) (t : Ty) (ps : List Src.Param) (x : Val) : Prop :=
  (Fine cfg t ∧ (∃ env, t.Valid cfg env x) ∧ ParamsGood ps x.params) ∨ x = t.default

theorem typeIs_cases {known : List String} {i : Src.Inst} {args : List (ParamTy × Expr fo.F)}
    {ty : SourceTy fo.F Object} (h : TypeIs round K.enums known i args (ty.Declares round float K ds) ty) :
    (∀ md packed v, ty.InRange md packed v) ∨
      ∃ name ps as, ty.Declares round float K ds name ps ∧ ArgsStand round K.enums known ps as args := by
  cases ty with
  | builtin s => exact .inl fun _ _ _ => by simp only [SourceTy.InRange]
  | bit e => exact .inl fun _ _ _ => by simp only [SourceTy.InRange]
  | int e => exact .inl fun _ _ _ => by simp only [SourceTy.InRange]
  | _ =>
    obtain ⟨name, ps, as, hd, -, -, ha⟩ := h
    exact .inr ⟨name, ps, as, hd, ha⟩

theorem contained_default {look : Env → World fo.F Object} {m : Modifiers fo.F} {t : Ty} {x : Val}
    (hx : m.Contains ((m.info look).default t.default) x) : x = t.default := by
  obtain ⟨y, h1, h2⟩ := hx
  simp only [FieldInfo.default, Modifiers.info, Option.isSome_map] at h1
  cases ho : m.optional <;> cases ha : m.array.isSome <;> simp only [ho, ha, Bool.false_eq_true, if_true,
    if_false] at h1 h2
  · rw [h2, h1]
  · subst h1
    obtain ⟨xs, hxs, hmem⟩ := h2
    cases hxs
    cases hmem
  · cases h1
  · cases h1

theorem contained_sound {look : Env → World fo.F Object} {sc : TScope} {m : Modifiers fo.F} {ty : SourceTy fo.F Object}
    {known : List String} {name : String} {ps : List Src.Param} {as : List Src.Arg} {env : Env} {v x : Val}
    (hd : ty.Declares round float K ds name ps) (ha : ArgsStand round K.enums known ps as m.args)
    (hf : (m.with (ty.written look)).Fitting md sc look env) (hp : m.Present look env)
    (hv : FieldSound cfg (m.info look) (ty.meaning look) env v) (hx : m.Contains v x) :
    TySound cfg (ty.meaning look) ps x := by
  rcases hv with ⟨hfine, hv⟩ | rfl
  · refine .inl ⟨hfine, ?_⟩
    have hexp : ∀ i, ParamsGood ps ((m.info look).expectedParams (ty.meaning look).default env i) := by
      intro i
      unfold FieldInfo.expectedParams
      split
      · exact declares_default hd
      · simp only [Modifiers.info, List.map_map, Function.comp_def]
        refine args_good ha fun p e he => ?_
        obtain ⟨n, hn, hm, -⟩ := hf.args hp p e he
        exact ⟨n, hn, hm⟩
    have hc : ∀ y, (m.info look).ContentValid ((ty.meaning look).Valid cfg) (ty.meaning look).default env y →
        (if m.array.isSome then ∃ xs, y = .list xs ∧ x ∈ xs else x = y) →
        (∃ env, (ty.meaning look).Valid cfg env x) ∧ ParamsGood ps x.params := by
      intro y hy hxy
      unfold FieldInfo.ContentValid at hy
      cases harr : m.array with
      | none =>
        have h : (m.info look).array = none := by simp [Modifiers.info, harr]
        rw [h] at hy
        simp only [harr, Option.isSome_none, Bool.false_eq_true, if_false] at hxy
        subst hxy
        refine ⟨⟨_, hy.1⟩, ?_⟩
        rw [hy.2]
        exact hexp 0
      | some a =>
        have h : (m.info look).array = some ⟨a.1, a.2.map fun e env => lengthValue (look env) e⟩ := by
          simp [Modifiers.info, harr]
        rw [h] at hy
        simp only [harr, Option.isSome_some, if_true] at hxy
        obtain ⟨xs, rfl, -, hall⟩ := hy
        obtain ⟨xs', hxs, hmem⟩ := hxy
        cases hxs
        obtain ⟨j, hj⟩ := List.getElem?_of_mem hmem
        obtain ⟨h1, h2⟩ := hall j x hj
        refine ⟨⟨_, h1⟩, ?_⟩
        rw [h2]
        exact hexp j
    have hpr : (m.info look).clause.all (fun c => c env) = true := by
      simp only [Modifiers.info]
      cases hcl : m.clause with
      | none => rfl
      | some e => exact hp e hcl
    unfold FieldInfo.FieldValid at hv
    rw [if_pos hpr] at hv
    obtain ⟨y, hy, hxy⟩ := hx
    have ho : (m.info look).optional = m.optional := rfl
    rw [ho] at hv
    cases hopt : m.optional <;> simp only [hopt, Bool.false_eq_true, if_true, if_false] at hv hy
    · subst hy
      exact hc _ hv hxy
    · subst hy
      rcases hv with hv | ⟨z, hz, hv⟩
      · cases hv
      · cases hz
        exact hc _ hv hxy
  · exact .inr (contained_default hx)

/-! ### Fields of sound values -/

theorem supported_sound {look : Env → World fo.F Object} {ps : List Val} : ∀ {fields : SourceFields fo.F Object}
    {done vs : List Val}, Fine cfg (.struct [] (fields.meaning look)) →
    (fields.meaning look).Valid cfg ps done vs → FieldsSound cfg look true ps fields done vs
  | .nil, _, _, _, hv => by
    simpa only [SourceFields.meaning, Fields.Valid, FieldsSound] using hv
  | .cons m ty rest, done, vs, hs, hv => by
    simp only [SourceFields.meaning, Fields.Valid] at hv
    obtain ⟨v, vs', rfl, hv, hvs⟩ := hv
    simp only [SourceFields.meaning, Fine, Ty.Supported, Ty.Packable, Fields.Supported, Fields.Packable] at hs
    refine ⟨v, vs', rfl, .inl ⟨?_, hv⟩, supported_sound ?_ hvs⟩
    · rcases hs with ⟨hs, -⟩ | ⟨z, hs, -⟩
      · split at hs
        · exact .inr ⟨_, hs⟩
        · exact .inl hs
      · split at hs
        · split at hs
          · exact .inl hs
          · exact .inr ⟨_, hs⟩
        · split at hs
          · exact .inr ⟨_, hs⟩
          · exact .inl hs.1
    · rcases hs with ⟨-, hs⟩ | ⟨z, -, hs⟩
      · exact .inl (by simpa only [Ty.Supported] using hs)
      · exact .inr ⟨z, by simpa only [Ty.Packable] using hs⟩

theorem defaults_sound {look : Env → World fo.F Object} {ps : List Val} {grow : Bool} :
    ∀ (fields : SourceFields fo.F Object) (done : List Val),
    FieldsSound cfg look grow ps fields done (fields.meaning look).defaults
  | .nil, _ => by simp only [SourceFields.meaning, Fields.defaults, FieldsSound]
  | .cons m ty rest, done => by
    simp only [SourceFields.meaning, Fields.defaults, FieldsSound]
    exact ⟨_, _, rfl, .inr rfl, defaults_sound rest _⟩

theorem member_sound {look : Env → World fo.F Object} {ps : List Val} : ∀ {fields : SourceFields fo.F Object}
    {done vs : List Val} {k : Nat}, Fine cfg (.union [] (fields.meaning look)) →
    (fields.meaning look).ValidMember cfg ps k vs → FieldsSound cfg look false ps fields done vs
  | .nil, _, _, _, _, hv => by
    simp only [SourceFields.meaning, Fields.ValidMember] at hv
  | .cons m ty rest, done, vs, k, hs, hv => by
    simp only [SourceFields.meaning, Fields.ValidMember] at hv
    obtain ⟨v, vs', rfl, hv⟩ := hv
    simp only [SourceFields.meaning, Fine, Ty.Supported, Ty.Packable, Fields.Supported, exists_const, or_false] at hs
    cases k with
    | zero =>
      obtain ⟨hv, rfl⟩ := hv
      refine ⟨v, _, rfl, .inl ⟨?_, hv⟩, defaults_sound rest _⟩
      have hs := hs.1
      split at hs
      · exact .inr ⟨_, hs⟩
      · exact .inl hs
    | succ k =>
      obtain ⟨rfl, hvs⟩ := hv
      refine ⟨_, vs', rfl, .inr rfl, member_sound (.inl ?_) hvs⟩
      simpa only [Ty.Supported] using hs.2

theorem cases_sound {look : Env → World fo.F Object} {ps : List Val} {sel : Val} {sf : List Val → Val} :
    ∀ {cases : SourceCases fo.F Object} {vs : List Val} {taken : Bool}, Fine cfg (.choice [] sf (cases.meaning look)) →
    (cases.meaning look).Valid cfg ps sel taken vs → CasesSound cfg look ps cases vs
  | .nil, _, _, _, hv => by
    simpa only [SourceCases.meaning, Cases.Valid, CasesSound] using hv
  | .empty _ rest, vs, taken, hs, hv => by
    simp only [SourceCases.meaning, Cases.Valid] at hv
    simp only [CasesSound]
    refine cases_sound (sf := sf) ?_ hv
    simpa only [SourceCases.meaning, Fine, Ty.Supported, Ty.Packable, Cases.Supported, Cases.Packable] using hs
  | .field labels m ty rest, vs, taken, hs, hv => by
    simp only [SourceCases.meaning, Cases.Valid] at hv
    obtain ⟨v, vs', rfl, hv, hvs⟩ := hv
    simp only [SourceCases.meaning, Fine, Ty.Supported, Ty.Packable, Cases.Supported, Cases.Packable] at hs
    refine ⟨v, vs', rfl, ?_, cases_sound (sf := sf) ?_ hvs⟩
    · split at hv
      · refine .inl ⟨?_, hv⟩
        rcases hs with ⟨hs, -⟩ | ⟨z, hs, -⟩
        · split at hs
          · exact .inr ⟨_, hs⟩
          · exact .inl hs
        · split at hs
          · split at hs
            · exact .inl hs
            · exact .inr ⟨_, hs⟩
          · split at hs
            · exact .inr ⟨_, hs⟩
            · exact .inl hs.1
      · exact .inr hv
    · rcases hs with ⟨-, hs⟩ | ⟨z, -, hs⟩
      · exact .inl (by simpa only [Ty.Supported] using hs)
      · exact .inr ⟨z, by simpa only [Ty.Packable] using hs⟩

theorem case_defaults_sound {look : Env → World fo.F Object} {ps : List Val} : ∀ (cases : SourceCases fo.F Object),
    CasesSound cfg look ps cases (cases.meaning look).defaults
  | .nil => by simp only [SourceCases.meaning, Cases.defaults, CasesSound]
  | .field _ m ty rest => by
    simp only [SourceCases.meaning, Cases.defaults, CasesSound]
    exact ⟨_, _, rfl, .inr rfl, case_defaults_sound rest⟩
  | .empty _ rest => by
    simp only [SourceCases.meaning, Cases.defaults, CasesSound]
    exact case_defaults_sound rest

/-! ### What the expressions see -/

mutual
theorem ty_ranges (hK : K.Good) (look : Env → World fo.F Object) : ∀ (t : SourceTy fo.F Object) (packed : Bool) (v : Val) (name : String)
    (ps : List Src.Param), t.Declares round float K ds name ps → TySound cfg (t.meaning look) ps v →
    t.Fit md packed v → t.InRange md packed v
  | .builtin _, _, _, _, _, _, _, _ | .bit _, _, _, _, _, _, _, _ | .int _, _, _, _, _, _, _, _ => by
    simp only [SourceTy.InRange]
  | .enum _ _, _, _, _, _, _, _, h => by
    simpa only [SourceTy.InRange, SourceTy.Fit] using h
  | .bitmask _ _, _, _, _, _, _, _, h => by
    simpa only [SourceTy.InRange, SourceTy.Fit] using h
  | .struct sc look' dflts fields, packed, v, name, ps, hd, hv, h => by
    simp only [SourceTy.Declares] at hd
    obtain ⟨s, -, -, rfl, -, rfl, rfl, rfl, hd⟩ := hd
    simp only [SourceTy.Fit] at h
    obtain ⟨qs, vs, rfl, h⟩ := h
    simp only [SourceTy.InRange]
    refine ⟨qs, vs, rfl, ?_⟩
    have hs : ParamsGood s.params qs ∧ FieldsSound cfg (textLook float K s) true qs fields [] vs := by
      rcases hv with ⟨hf, ⟨env, hv⟩, hp⟩ | hv
      · simp only [SourceTy.meaning, Ty.Valid] at hv
        obtain ⟨qs', vs', he, hv⟩ := hv
        cases he
        refine ⟨hp, supported_sound ?_ hv⟩
        simpa only [SourceTy.meaning, Fine, Ty.Supported, Ty.Packable] using hf
      · simp only [SourceTy.meaning, Ty.default] at hv
        cases hv
        exact ⟨params_default _, defaults_sound _ _⟩
    refine fields_ranges hK fields packed qs [] vs _ _ hd hs.2 (fun pre rest he => ?_) h
    refine good_conforms hK hs.1 (FieldsShaped.pre (ws := rest) ?_)
    rw [← he]
    exact fields_shaped hd hs.2
  | .choice sc look' dflts sel cases, packed, v, name, ps, hd, hv, h => by
    simp only [SourceTy.Declares] at hd
    obtain ⟨c, n, -, -, rfl, -, rfl, rfl, rfl, -, -, hd⟩ := hd
    simp only [SourceTy.Fit] at h
    obtain ⟨qs, vs, rfl, h⟩ := h
    simp only [SourceTy.InRange]
    refine ⟨qs, vs, rfl, ?_⟩
    have hs : ParamsGood c.params qs ∧ CasesSound cfg (textLook float K (Choice.shape c)) qs cases vs := by
      rcases hv with ⟨hf, ⟨env, hv⟩, hp⟩ | hv
      · simp only [SourceTy.meaning, Ty.Valid] at hv
        obtain ⟨qs', vs', he, hv⟩ := hv
        cases he
        refine ⟨hp, cases_sound (sf := sel) ?_ hv⟩
        simpa only [SourceTy.meaning, Fine, Ty.Supported, Ty.Packable] using hf
      · simp only [SourceTy.meaning, Ty.default] at hv
        cases hv
        exact ⟨params_default _, case_defaults_sound _⟩
    exact cases_ranges hK cases packed qs (sel qs) false vs _ _ hd hs.2 (good_conforms hK hs.1 (.nil _)) h
  | .union sc look' dflts members, packed, v, name, ps, hd, hv, h => by
    simp only [SourceTy.Declares] at hd
    obtain ⟨u, -, -, rfl, -, rfl, rfl, rfl, hd⟩ := hd
    simp only [SourceTy.Fit] at h
    obtain ⟨qs, k, vs, rfl, h⟩ := h
    simp only [SourceTy.InRange]
    refine ⟨qs, k, vs, rfl, ?_⟩
    have hs : ParamsGood u.params qs ∧ FieldsSound cfg (textLook float K (Union.shape u)) false qs members [] vs := by
      rcases hv with ⟨hf, ⟨env, hv⟩, hp⟩ | hv
      · simp only [SourceTy.meaning, Ty.Valid] at hv
        obtain ⟨qs', k', vs', he, -, hv⟩ := hv
        cases he
        refine ⟨hp, member_sound ?_ hv⟩
        simpa only [SourceTy.meaning, Fine, Ty.Supported, Ty.Packable] using hf
      · simp only [SourceTy.meaning, Ty.default] at hv
        cases hv
        exact ⟨params_default _, defaults_sound _ _⟩
    exact members_ranges hK members packed qs [] vs (some k) _ _ hd hs.2 (good_conforms hK hs.1 (.nil _)) h
theorem fields_ranges (hK : K.Good) {s : Src.Struct} : ∀ (fields : SourceFields fo.F Object) (packed : Bool) (qs done vs : List Val)
    (known : List String) (fs : List Src.StructField), fields.Declares round float K ds s true known fs →
    FieldsSound cfg (textLook float K s) true qs fields done vs →
    (∀ pre rest, done ++ vs = pre ++ rest → Conforms (textLook float K s ⟨qs, pre⟩) (rscope (textScope K s))) →
    fields.Fit md packed (textScope K s) (textLook float K s) qs done vs →
    fields.InRange md packed (textScope K s) (textLook float K s) qs done vs
  | .nil, _, _, _, _, _, _, _, _, _, h => by
    simpa only [SourceFields.InRange, SourceFields.Fit] using h
  | .cons m ty rest, packed, qs, done, vs, known, fs, hd, hs, hc, h => by
    simp only [SourceFields.Declares] at hd
    obtain ⟨f, fs', rfl, hm, ht, hr⟩ := hd
    simp only [SourceFields.Fit] at h
    obtain ⟨v, vs', rfl, hty, ⟨hfit, hin⟩, h⟩ := h
    obtain ⟨v', vs'', he, hv, hs⟩ := hs
    cases he
    simp only [SourceFields.InRange]
    refine ⟨v, vs', rfl, hty, ⟨⟨hc _ _ rfl, hfit⟩, fun hp x hx => ?_⟩, ?_⟩
    · rcases typeIs_cases ht with ht | ⟨name, ps, as, hdt, ha⟩
      · exact ht _ _ _
      · exact ty_ranges hK (textLook float K s) ty _ x name ps hdt (contained_sound hdt ha hfit hp hv hx) (hin hp x hx)
    · refine fields_ranges hK rest packed qs (done ++ [v]) vs' _ _ hr hs (fun pre rest he => hc pre rest ?_) h
      rw [← he, List.append_assoc]
      rfl
theorem members_ranges (hK : K.Good) {s : Src.Struct} : ∀ (fields : SourceFields fo.F Object) (packed : Bool) (qs done vs : List Val)
    (k : Option Nat) (known : List String) (fs : List Src.StructField),
    fields.Declares round float K ds s false known fs →
    FieldsSound cfg (textLook float K s) false qs fields done vs →
    Conforms (textLook float K s ⟨qs, []⟩) (rscope (textScope K s)) →
    fields.MemberFit md packed (textScope K s) (textLook float K s) qs k vs →
    fields.MemberInRange md packed (textScope K s) (textLook float K s) qs k vs
  | .nil, _, _, _, _, _, _, _, _, _, _, h => by
    simpa only [SourceFields.MemberInRange, SourceFields.MemberFit] using h
  | .cons m ty rest, packed, qs, done, vs, k, known, fs, hd, hs, hc, h => by
    simp only [SourceFields.Declares] at hd
    obtain ⟨f, fs', rfl, hm, ht, hr⟩ := hd
    simp only [SourceFields.MemberFit] at h
    obtain ⟨v, vs', rfl, hty, hsel, h⟩ := h
    obtain ⟨v', vs'', he, hv, hs⟩ := hs
    cases he
    simp only [SourceFields.MemberInRange]
    refine ⟨v, vs', rfl, hty, fun hk => ?_, ?_⟩
    · obtain ⟨hfit, hin⟩ := hsel hk
      refine ⟨⟨hc, hfit⟩, fun hp x hx => ?_⟩
      rcases typeIs_cases ht with ht | ⟨name, ps, as, hdt, ha⟩
      · exact ht _ _ _
      · exact ty_ranges hK (textLook float K s) ty _ x name ps hdt (contained_sound hdt ha hfit hp hv hx) (hin hp x hx)
    · exact members_ranges hK rest packed qs (done ++ [v]) vs' _ _ _ hr hs hc h
theorem cases_ranges (hK : K.Good) {s : Src.Struct} {n : ParamTy} : ∀ (cases : SourceCases fo.F Object) (packed : Bool) (qs : List Val)
    (sel : Val) (taken : Bool) (vs : List Val) (known : List String) (cs : List Src.Cases),
    cases.Declares round float K ds s n known cs →
    CasesSound cfg (textLook float K s) qs cases vs →
    Conforms (textLook float K s ⟨qs, []⟩) (rscope (textScope K s)) →
    cases.Fit md packed (textScope K s) (textLook float K s) qs sel taken vs →
    cases.InRange md packed (textScope K s) (textLook float K s) qs sel taken vs
  | .nil, _, _, _, _, _, _, _, _, _, _, h => by
    simpa only [SourceCases.InRange, SourceCases.Fit] using h
  | .empty labels rest, packed, qs, sel, taken, vs, known, cs, hd, hs, hc, h => by
    simp only [SourceCases.Declares] at hd
    obtain ⟨c, cs', rfl, -, -, -, hr⟩ := hd
    simp only [SourceCases.Fit] at h
    simp only [SourceCases.InRange]
    exact cases_ranges hK rest packed qs sel _ vs _ _ hr hs hc h
  | .field labels m ty rest, packed, qs, sel, taken, vs, known, cs, hd, hs, hc, h => by
    simp only [SourceCases.Declares] at hd
    obtain ⟨c, f, cs', rfl, -, -, -, hm, ht, hr⟩ := hd
    simp only [SourceCases.Fit] at h
    obtain ⟨v, vs', rfl, hty, hsel, h⟩ := h
    obtain ⟨v', vs'', he, hv, hs⟩ := hs
    cases he
    simp only [SourceCases.InRange]
    refine ⟨v, vs', rfl, hty, fun hk => ?_, ?_⟩
    · obtain ⟨hfit, hin⟩ := hsel hk
      refine ⟨⟨hc, hfit⟩, fun hp x hx => ?_⟩
      rcases typeIs_cases ht with ht | ⟨name, ps, as, hdt, ha⟩
      · exact ht _ _ _
      · exact ty_ranges hK (textLook float K s) ty _ x name ps hdt (contained_sound hdt ha hfit hp hv hx) (hin hp x hx)
    · exact cases_ranges hK rest packed qs sel _ vs' _ _ hr hs hc h
end

end Zs
