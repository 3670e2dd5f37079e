import Verif.RecursiveSpec
import Verif.SchemaCodec
import Verif.ScopeCycles

/-!
# Lemmas on declarations that refer to each other
-/

namespace Zs

open Spec

/-! ## Objects -/

mutual
theorem close_default (σ : Nat → Ty) : ∀ t : DTy, (t.close σ).default = defaultIn (fun j => (σ j).default) t
  | .ref _ => rfl
  | .scalar _ => rfl
  | .enum _ _ => rfl
  | .bitmask _ _ => rfl
  | .struct params fields => by simp only [DTy.close, Ty.default, defaultIn, close_defaults σ fields]
  | .choice params sel cases => by simp only [DTy.close, Ty.default, defaultIn, close_caseDefaults σ cases]
  | .union params members => by simp only [DTy.close, Ty.default, defaultIn, close_defaults σ members]
theorem close_defaults (σ : Nat → Ty) :
    ∀ fs : DFields, (fs.close σ).defaults = defaultsIn (fun j => (σ j).default) fs
  | .nil => rfl
  | .cons info ty rest => by
    simp only [DFields.close, Fields.defaults, defaultsIn, close_default σ ty, close_defaults σ rest]
theorem close_caseDefaults (σ : Nat → Ty) :
    ∀ cs : DCases, (cs.close σ).defaults = caseDefaultsIn (fun j => (σ j).default) cs
  | .nil => rfl
  | .field labels info ty rest => by
    simp only [DCases.close, Cases.defaults, caseDefaultsIn, close_default σ ty, close_caseDefaults σ rest]
  | .empty labels rest => by simp only [DCases.close, Cases.defaults, caseDefaultsIn, close_caseDefaults σ rest]
end

mutual
theorem close_valid (cfg : Cfg) (σ : Nat → Ty) :
    ∀ t : DTy, (t.close σ).Valid cfg = ValidIn cfg (fun j => (σ j).Valid cfg) (fun j => (σ j).default) t
  | .ref _ => by funext env v; simp only [DTy.close, ValidIn]
  | .scalar _ => by funext env v; simp only [DTy.close, Ty.Valid, ValidIn]
  | .enum _ _ => by funext env v; simp only [DTy.close, Ty.Valid, ValidIn]
  | .bitmask _ _ => by funext env v; simp only [DTy.close, Ty.Valid, ValidIn]
  | .struct params fields => by
    funext env v; simp only [DTy.close, Ty.Valid, ValidIn, close_fieldsValid cfg σ fields]
  | .choice params sel cases => by
    funext env v; simp only [DTy.close, Ty.Valid, ValidIn, close_casesValid cfg σ cases]
  | .union params members => by
    funext env v; simp only [DTy.close, Ty.Valid, ValidIn, close_memberValid cfg σ members]
theorem close_fieldsValid (cfg : Cfg) (σ : Nat → Ty) : ∀ fs : DFields,
    (fs.close σ).Valid cfg = FieldsValidIn cfg (fun j => (σ j).Valid cfg) (fun j => (σ j).default) fs
  | .nil => by funext ps done vs; simp only [DFields.close, Fields.Valid, FieldsValidIn]
  | .cons info ty rest => by
    funext ps done vs
    simp only [DFields.close, Fields.Valid, FieldsValidIn, close_valid cfg σ ty, close_default σ ty,
      close_fieldsValid cfg σ rest]
theorem close_memberValid (cfg : Cfg) (σ : Nat → Ty) : ∀ fs : DFields,
    (fs.close σ).ValidMember cfg = MemberValidIn cfg (fun j => (σ j).Valid cfg) (fun j => (σ j).default) fs
  | .nil => by funext ps sel vs; simp only [DFields.close, Fields.ValidMember, MemberValidIn]
  | .cons info ty rest => by
    funext ps sel vs
    cases sel <;>
      simp only [DFields.close, Fields.ValidMember, MemberValidIn, close_valid cfg σ ty, close_default σ ty,
        close_defaults σ rest, close_memberValid cfg σ rest]
theorem close_casesValid (cfg : Cfg) (σ : Nat → Ty) : ∀ cs : DCases,
    (cs.close σ).Valid cfg = CasesValidIn cfg (fun j => (σ j).Valid cfg) (fun j => (σ j).default) cs
  | .nil => by funext ps sel taken vs; simp only [DCases.close, Cases.Valid, CasesValidIn]
  | .field labels info ty rest => by
    funext ps sel taken vs
    simp only [DCases.close, Cases.Valid, CasesValidIn, close_valid cfg σ ty, close_default σ ty,
      close_casesValid cfg σ rest]
  | .empty labels rest => by
    funext ps sel taken vs
    simp only [DCases.close, Cases.Valid, CasesValidIn, close_casesValid cfg σ rest]
end

theorem unfold_default (d : Decls) : ∀ n i, (unfoldDecl d (fun _ => noValues) n i).default = defaultAt d n i
  | 0, _ => rfl
  | n + 1, i => by
    simp only [unfoldDecl, close_default, defaultAt]
    congr 1
    funext j
    exact unfold_default d n j

/-- Objects are the values of declarations in which no deeper references have any. -/
theorem unfold_valid (cfg : Cfg) (d : Decls) :
    ∀ n i, (unfoldDecl d (fun _ => noValues) n i).Valid cfg = ObjectAt cfg d n i
  | 0, _ => by
    funext env v
    simp [unfoldDecl, noValues, Ty.Valid, ObjectAt, enumValues, enumValuesFrom]
  | n + 1, i => by
    funext env v
    simp only [unfoldDecl, close_valid, ObjectAt]
    have e1 : (fun j => (unfoldDecl d (fun _ => noValues) n j).Valid cfg) = ObjectAt cfg d n :=
      funext fun j => unfold_valid cfg d n j
    have e2 : (fun j => (unfoldDecl d (fun _ => noValues) n j).default) = defaultAt d n :=
      funext fun j => unfold_default d n j
    rw [e1, e2]

theorem isObject_iff {cfg : Cfg} {d : Decls} {i : Nat} {env : Env} {v : Val} :
    IsObject cfg d i env v ↔ ∃ n, (unfoldDecl d (fun _ => noValues) n i).Valid cfg env v := by
  simp only [unfold_valid, IsObject]

/-! ## Default values -/

mutual
theorem DTy.default_close (σ τ : Nat → Ty) :
    ∀ t : DTy, InArrays t → (t.close σ).default = (t.close τ).default
  | .ref _, h => (h : False).elim
  | .scalar _, _ => rfl
  | .enum _ _, _ => rfl
  | .bitmask _ _, _ => rfl
  | .struct params fields, h => by
    simp only [DTy.close, Ty.default, DFields.default_close σ τ fields (by simpa only [InArrays] using h)]
  | .choice params sel cases, h => by
    simp only [DTy.close, Ty.default, DCases.default_close σ τ cases (by simpa only [InArrays] using h)]
  | .union params members, h => by
    simp only [DTy.close, Ty.default, DFields.default_close σ τ members (by simpa only [InArrays] using h)]
theorem DFields.default_close (σ τ : Nat → Ty) :
    ∀ fs : DFields, FieldsInArrays fs → (fs.close σ).defaults = (fs.close τ).defaults
  | .nil, _ => rfl
  | .cons info ty rest, h => by
    simp only [FieldsInArrays] at h
    simp only [DFields.close, Fields.defaults, DFields.default_close σ τ rest h.2]
    congr 1
    rcases h.1 with h' | h'
    · simp [FieldInfo.default, h'.1]
    · rw [DTy.default_close σ τ ty h']
theorem DCases.default_close (σ τ : Nat → Ty) :
    ∀ cs : DCases, CasesInArrays cs → (cs.close σ).defaults = (cs.close τ).defaults
  | .nil, _ => rfl
  | .field labels info ty rest, h => by
    simp only [CasesInArrays] at h
    simp only [DCases.close, Cases.defaults, DCases.default_close σ τ rest h.2]
    congr 1
    rcases h.1 with h' | h'
    · simp [FieldInfo.default, h'.1]
    · rw [DTy.default_close σ τ ty h']
  | .empty labels rest, h => by
    simp only [CasesInArrays] at h
    simp only [DCases.close, Cases.defaults, DCases.default_close σ τ rest h]
end

/-! ## Valid values -/

/-- Every value of one type is a value of the other one, and the parameters of the default objects are the same if
there is a value. -/
def Refines (cfg : Cfg) (a b : Ty) : Prop :=
  ∀ env v, a.Valid cfg env v → b.Valid cfg env v ∧ a.default.params = b.default.params

theorem FieldInfo.contentValid_mono {cfg : Cfg} {a b : Ty} (info : FieldInfo) (h : Refines cfg a b) {env : Env} {x : Val}
    (hx : info.ContentValid (a.Valid cfg) a.default env x) : info.ContentValid (b.Valid cfg) b.default env x := by
  have key : ∀ i y, a.Valid cfg env y → y.params = info.expectedParams a.default env i →
      b.Valid cfg env y ∧ y.params = info.expectedParams b.default env i := by
    intro i y hy hp
    obtain ⟨h1, h2⟩ := h env y hy
    refine ⟨h1, ?_⟩
    rw [hp]; unfold FieldInfo.expectedParams; rw [h2]
  unfold FieldInfo.ContentValid at hx ⊢
  split at hx
  · exact key 0 x hx.1 hx.2
  · obtain ⟨xs, e, hl, hxs⟩ := hx
    exact ⟨xs, e, hl, fun i y hy => key i y (hxs i y hy).1 (hxs i y hy).2⟩

theorem FieldInfo.fieldValid_mono {cfg : Cfg} {a b : Ty} (info : FieldInfo) (h : Refines cfg a b)
    (hd : info.default a.default = info.default b.default) {env : Env} {v : Val}
    (hv : info.FieldValid (a.Valid cfg) a.default env v) : info.FieldValid (b.Valid cfg) b.default env v := by
  unfold FieldInfo.FieldValid at hv ⊢
  split at hv
  · next hc =>
    rw [if_pos hc]
    split at hv
    · next ho =>
      rw [if_pos ho]
      rcases hv with hv | ⟨x, e, hx⟩
      · exact .inl hv
      · exact .inr ⟨x, e, info.contentValid_mono h hx⟩
    · next ho => rw [if_neg ho]; exact info.contentValid_mono h hv
  · next hc => rw [if_neg hc, hv, hd]

mutual
theorem DTy.close_refines {cfg : Cfg} {σ τ : Nat → Ty} (h : ∀ j, Refines cfg (σ j) (τ j)) :
    ∀ t : DTy, InArrays t → Refines cfg (t.close σ) (t.close τ)
  | .ref _, ht => (ht : False).elim
  | .scalar _, _ => fun _ _ hv => ⟨hv, rfl⟩
  | .enum _ _, _ => fun _ _ hv => ⟨hv, rfl⟩
  | .bitmask _ _, _ => fun _ _ hv => ⟨hv, rfl⟩
  | .struct params fields, ht => fun env v hv => by
    simp only [DTy.close, Ty.Valid] at hv ⊢
    obtain ⟨ps, vs, e, hvs⟩ := hv
    exact ⟨⟨ps, vs, e, DFields.close_valid h fields (by simpa only [InArrays] using ht) ps [] vs hvs⟩, rfl⟩
  | .choice params sel cases, ht => fun env v hv => by
    simp only [DTy.close, Ty.Valid] at hv ⊢
    obtain ⟨ps, vs, e, hvs⟩ := hv
    exact ⟨⟨ps, vs, e, DCases.close_valid h cases (by simpa only [InArrays] using ht) ps _ _ vs hvs⟩, rfl⟩
  | .union params members, ht => fun env v hv => by
    simp only [DTy.close, Ty.Valid] at hv ⊢
    obtain ⟨ps, sel, vs, e, hs, hvs⟩ := hv
    exact ⟨⟨ps, sel, vs, e, hs, DFields.close_member h members (by simpa only [InArrays] using ht) ps sel vs hvs⟩, rfl⟩
theorem DFields.close_valid {cfg : Cfg} {σ τ : Nat → Ty} (h : ∀ j, Refines cfg (σ j) (τ j)) :
    ∀ fs : DFields, FieldsInArrays fs → ∀ ps done vs, (fs.close σ).Valid cfg ps done vs →
      (fs.close τ).Valid cfg ps done vs
  | .nil, _, _, _, _, hv => hv
  | .cons info ty rest, ht, ps, done, vs, hv => by
    simp only [FieldsInArrays] at ht
    simp only [DFields.close, Fields.Valid] at hv ⊢
    obtain ⟨v, vs', e, hv, hr⟩ := hv
    refine ⟨v, vs', e, ?_, DFields.close_valid h rest ht.2 _ _ _ hr⟩
    refine info.fieldValid_mono ?_ ?_ hv
    · rcases ht.1 with h' | h'
      · cases ty with
        | ref j => exact h j
        | _ => cases h'.2
      · exact DTy.close_refines h ty h'
    · rcases ht.1 with h' | h'
      · simp [FieldInfo.default, h'.1]
      · rw [DTy.default_close σ τ ty h']
theorem DFields.close_member {cfg : Cfg} {σ τ : Nat → Ty} (h : ∀ j, Refines cfg (σ j) (τ j)) :
    ∀ fs : DFields, FieldsInArrays fs → ∀ ps sel vs, (fs.close σ).ValidMember cfg ps sel vs →
      (fs.close τ).ValidMember cfg ps sel vs
  | .nil, _, _, _, _, hv => hv
  | .cons info ty rest, ht, ps, sel, vs, hv => by
    simp only [FieldsInArrays] at ht
    simp only [DFields.close, Fields.ValidMember] at hv ⊢
    obtain ⟨v, vs', e, hv⟩ := hv
    have hd : info.default (ty.close σ).default = info.default (ty.close τ).default := by
      rcases ht.1 with h' | h'
      · simp [FieldInfo.default, h'.1]
      · rw [DTy.default_close σ τ ty h']
    refine ⟨v, vs', e, ?_⟩
    cases sel with
    | zero =>
      refine ⟨info.fieldValid_mono ?_ hd hv.1, ?_⟩
      · rcases ht.1 with h' | h'
        · cases ty with
          | ref j => exact h j
          | _ => cases h'.2
        · exact DTy.close_refines h ty h'
      · rw [hv.2]; exact DFields.default_close σ τ rest ht.2
    | succ sel => exact ⟨by rw [hv.1, hd], DFields.close_member h rest ht.2 _ _ _ hv.2⟩
theorem DCases.close_valid {cfg : Cfg} {σ τ : Nat → Ty} (h : ∀ j, Refines cfg (σ j) (τ j)) :
    ∀ cs : DCases, CasesInArrays cs → ∀ ps sel taken vs, (cs.close σ).Valid cfg ps sel taken vs →
      (cs.close τ).Valid cfg ps sel taken vs
  | .nil, _, _, _, _, _, hv => hv
  | .field labels info ty rest, ht, ps, sel, taken, vs, hv => by
    simp only [CasesInArrays] at ht
    simp only [DCases.close, Cases.Valid] at hv ⊢
    obtain ⟨v, vs', e, hv, hr⟩ := hv
    have hd : info.default (ty.close σ).default = info.default (ty.close τ).default := by
      rcases ht.1 with h' | h'
      · simp [FieldInfo.default, h'.1]
      · rw [DTy.default_close σ τ ty h']
    refine ⟨v, vs', e, ?_, DCases.close_valid h rest ht.2 _ _ _ _ hr⟩
    split at hv
    · next hc =>
      rw [if_pos hc]
      refine info.fieldValid_mono ?_ hd hv
      rcases ht.1 with h' | h'
      · cases ty with
        | ref j => exact h j
        | _ => cases h'.2
      · exact DTy.close_refines h ty h'
    · next hc => rw [if_neg hc, hv, hd]
  | .empty labels rest, ht, ps, sel, taken, vs, hv => by
    simp only [CasesInArrays] at ht
    simp only [DCases.close, Cases.Valid] at hv ⊢
    exact DCases.close_valid h rest ht _ _ _ _ hv
end

theorem noValues_refines (cfg : Cfg) (t : Ty) : Refines cfg noValues t := by
  intro env v hv
  simp only [noValues, Ty.Valid] at hv
  obtain ⟨i, x, _, h, _⟩ := hv
  simp [enumValues, enumValuesFrom] at h

/-- Objects stay objects when more calls are allowed. -/
theorem unfoldDecl_refines (cfg : Cfg) (d : Decls) (hd : ∀ i, InArrays (d i)) (below : Nat → Ty) :
    ∀ n m i, n ≤ m → Refines cfg (unfoldDecl d (fun _ => noValues) n i) (unfoldDecl d below m i)
  | 0, m, i, _ => noValues_refines cfg _
  | n + 1, 0, _, h => by omega
  | n + 1, m + 1, i, h =>
    DTy.close_refines (fun j => unfoldDecl_refines cfg d hd below n m j (by omega)) (d i) (hd i)

/-! ## Supported types -/

theorem ite_mono {p : Prop} [Decidable p] {a b a' b' : Prop} (h1 : a → a') (h2 : b → b') :
    (if p then a else b) → if p then a' else b' := by
  split
  · exact h1
  · exact h2

/-- What is supported for one type is supported for the other one. -/
def Transfers (cfg : Cfg) (a b : Ty) : Prop :=
  (a.Supported cfg → b.Supported cfg) ∧ (a.Packable cfg false → b.Packable cfg false)

/-- As `Transfers`, also below choices. -/
def TransfersAll (cfg : Cfg) (a b : Ty) : Prop :=
  (a.Supported cfg → b.Supported cfg) ∧ ∀ z, a.Packable cfg z → b.Packable cfg z

theorem DTy.close_shape (σ τ : Nat → Ty) (t : DTy) (h : InArrays t) (info : FieldInfo) :
    info.isDelta (t.close σ) = info.isDelta (t.close τ) ∧ (t.close σ).isCompound = (t.close τ).isCompound := by
  cases t <;> first | exact (h : False).elim | exact ⟨rfl, rfl⟩

mutual
theorem DTy.close_supported {cfg : Cfg} {σ τ : Nat → Ty} (h : ∀ j, Transfers cfg (σ j) (τ j)) :
    ∀ t : DTy, InArrays t → TransfersAll cfg (t.close σ) (t.close τ)
  | .ref _, ht => (ht : False).elim
  | .scalar _, _ => ⟨id, fun _ => id⟩
  | .enum _ _, _ => ⟨id, fun _ => id⟩
  | .bitmask _ _, _ => ⟨id, fun _ => id⟩
  | .struct params fields, ht => by
    have := DFields.close_supported h fields (by simpa only [InArrays] using ht)
    simp only [DTy.close, TransfersAll, Ty.Supported, Ty.Packable]
    exact this
  | .choice params sel cases, ht => by
    have := DCases.close_supported h cases (by simpa only [InArrays] using ht)
    simp only [DTy.close, TransfersAll, Ty.Supported, Ty.Packable]
    exact ⟨this.1, fun _ => this.2⟩
  | .union params members, ht => by
    have := DFields.close_supported h members (by simpa only [InArrays] using ht)
    simp only [DTy.close, TransfersAll, Ty.Supported, Ty.Packable]
    exact ⟨this.1, fun _ => id⟩
theorem DFields.close_supported {cfg : Cfg} {σ τ : Nat → Ty} (h : ∀ j, Transfers cfg (σ j) (τ j)) :
    ∀ fs : DFields, FieldsInArrays fs → ((fs.close σ).Supported cfg → (fs.close τ).Supported cfg) ∧
      ∀ z, (fs.close σ).Packable cfg z → (fs.close τ).Packable cfg z
  | .nil, _ => ⟨id, fun _ => id⟩
  | .cons info ty rest, ht => by
    simp only [FieldsInArrays] at ht
    have hr := DFields.close_supported h rest ht.2
    simp only [DFields.close, Fields.Supported, Fields.Packable]
    rcases ht.1 with h' | h'
    · have ht : Transfers cfg (ty.close σ) (ty.close τ) := by
        cases ty with
        | ref j => exact h j
        | _ => cases h'.2
      refine ⟨fun hs => ⟨?_, hr.1 hs.2⟩, fun z hs => ⟨?_, hr.2 z hs.2⟩⟩
      · exact ite_mono ht.2 ht.1 hs.1
      · have := hs.1
        simp only [h'.1, if_true] at this ⊢
        exact ite_mono ht.1 ht.2 this
    · have ht := DTy.close_supported h ty h'
      obtain ⟨e1, e2⟩ := ty.close_shape σ τ h' info
      refine ⟨fun hs => ⟨?_, hr.1 hs.2⟩, fun z hs => ⟨?_, hr.2 z hs.2⟩⟩
      · exact ite_mono (ht.2 _) ht.1 hs.1
      · have := hs.1
        rw [e1, e2] at this
        exact ite_mono (ite_mono ht.1 (ht.2 _)) (ite_mono (ht.2 _) (And.imp_left ht.1)) this
theorem DCases.close_supported {cfg : Cfg} {σ τ : Nat → Ty} (h : ∀ j, Transfers cfg (σ j) (τ j)) :
    ∀ cs : DCases, CasesInArrays cs → ((cs.close σ).Supported cfg → (cs.close τ).Supported cfg) ∧
      ((cs.close σ).Packable cfg → (cs.close τ).Packable cfg)
  | .nil, _ => ⟨id, id⟩
  | .field labels info ty rest, ht => by
    simp only [CasesInArrays] at ht
    have hr := DCases.close_supported h rest ht.2
    simp only [DCases.close, Cases.Supported, Cases.Packable]
    rcases ht.1 with h' | h'
    · have ht : Transfers cfg (ty.close σ) (ty.close τ) := by
        cases ty with
        | ref j => exact h j
        | _ => cases h'.2
      refine ⟨fun hs => ⟨?_, hr.1 hs.2⟩, fun hs => ⟨?_, hr.2 hs.2⟩⟩
      · exact ite_mono ht.2 ht.1 hs.1
      · have := hs.1
        simp only [h'.1, if_true] at this ⊢
        exact ite_mono ht.1 ht.2 this
    · have ht := DTy.close_supported h ty h'
      obtain ⟨e1, e2⟩ := ty.close_shape σ τ h' info
      refine ⟨fun hs => ⟨?_, hr.1 hs.2⟩, fun hs => ⟨?_, hr.2 hs.2⟩⟩
      · exact ite_mono (ht.2 _) ht.1 hs.1
      · have := hs.1
        rw [e1, e2] at this
        exact ite_mono (ite_mono ht.1 (ht.2 _)) (ite_mono (ht.2 _) (And.imp_left ht.1)) this
  | .empty labels rest, ht => by
    simp only [CasesInArrays] at ht
    simp only [DCases.close, Cases.Supported, Cases.Packable]
    exact DCases.close_supported h rest ht
end

theorem noValues_supported (cfg : Cfg) : noValues.Supported cfg ∧ noValues.Packable cfg false := by
  simp only [noValues, Ty.Supported, Ty.Packable, Scalar.WidthOk, Scalar.isPackable, Scalar.Narrow]
  simp [enumValues, enumValuesFrom]

theorem notPackable_supported (cfg : Cfg) : notPackable.Supported cfg ∧ ¬ notPackable.Packable cfg false := by
  simp [notPackable, Ty.Supported, Ty.Packable, Fields.Supported]

theorem unfoldDecl_supported {cfg : Cfg} {packs : Nat → Bool} {d : Decls} (hd : SupportedDecls cfg packs d)
    {below : Nat → Ty} (hb : SupportedBelow cfg packs below) :
    ∀ n, SupportedBelow cfg packs (unfoldDecl d below n)
  | 0 => hb
  | n + 1 => fun i => by
    have ih := unfoldDecl_supported hd hb n
    have ht : ∀ j, Transfers cfg (if packs j then noValues else notPackable) (unfoldDecl d below n j) := by
      intro j
      refine ⟨fun _ => (ih j).1, fun h => ?_⟩
      cases hp : packs j with
      | true => exact (ih j).2 hp
      | false => simp [hp, (notPackable_supported cfg).2] at h
    have := DTy.close_supported ht (d i) (hd.inArrays i)
    exact ⟨this.1 (hd.supported i), fun hp => this.2 _ (hd.packable i hp)⟩

end Zs
