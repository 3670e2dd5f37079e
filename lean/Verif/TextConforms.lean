import Verif.TextLemmas
import Verif.PropsSource

/-!
# Lemmas: the fields of valid objects have the types that expressions see
-/

namespace Zs

open Ast Spec

variable {fo : FloatOps} {K : Constants fo.F} {round : List Char → fo.F} {display : fo.F → List Char} {float : Val → fo.F}
variable {E : String → Option Enumeration}

/-- A number of the type is in the range of the Rust type. -/
def GoodFor (t : ZTy) (x : Val) : Prop :=
  ∀ n i, t = .num n → n.rustInt = some i → ∀ z, x.number = some z → i.Contains z

/-- `x` is in the value of a parameter or field. -/
def Inner : Shape → Val → Val → Prop
  | .optional, v, x => v = .some x
  | .array, v, x => ∃ xs, v = .list xs ∧ x ∈ xs
  | .optionalArray, v, x => ∃ xs, v = .some (.list xs) ∧ x ∈ xs
  | _, v, x => v = x

/-- All that is in the value is in range. -/
def ShapeGood (y : Symb) (v : Val) : Prop := ∀ x, Inner y.shape v x → GoodFor y.ty x

/-- A number, a boolean, a string, an item of an enumeration, a bitmask or an object. -/
def IsSimple : ZTy → Prop
  | .num _ | .bool | .string | .enum _ _ | .bitmask _ _ | .compound _ => True
  | _ => False

theorem exprTypeOf_simple {t : Src.Ty} {z : ZTy} (h : exprTypeOf t = some z) : IsSimple z := by
  unfold exprTypeOf at h
  split at h <;> simp only [Option.some.injEq, reduceCtorEq] at h <;> subst h <;> trivial

theorem types_simple {F' : Type} {K : Constants F'} {n : String} {z : ZTy} (h : K.types n = some z) :
    IsSimple z ∧ ∀ x, GoodFor z x := by
  simp only [Constants.types] at h
  split at h
  · cases h
    exact ⟨trivial, fun _ _ _ h => by cases h⟩
  split at h
  · cases h
    exact ⟨trivial, fun _ _ _ h => by cases h⟩
  · obtain ⟨_, -, rfl⟩ := Option.map_eq_some_iff.1 h
    exact ⟨trivial, fun _ _ _ h => by cases h⟩

theorem typeIn_simple {F' : Type} {K : Constants F'} {t : Src.Ty} {z : ZTy} (h : typeIn K.types t = some z) : IsSimple z := by
  cases t with
  | named f r as =>
    exact (types_simple h).1
  | builtin n => exact exprTypeOf_simple (t := .builtin n) h
  | fixedBits g b => exact exprTypeOf_simple (t := .fixedBits g b) h

theorem typeIn_scalar {T : String → Option ZTy} {t : Src.Ty} {s : Scalar} (h : scalarOf t = some s) : typeIn T t = exprTypeOf t := by
  cases t with
  | named f r as => cases h
  | _ => rfl

theorem typeIn_num {T : String → Option ZTy} {t : Src.Ty} {z : ZTy} (h : exprTypeOf t = some z) :
    typeIn T t = some z := by
  cases t with
  | named f r as => cases h
  | builtin n => exact h
  | fixedBits g b => exact h

theorem rustInt_zero {n : NumName} {i : IntTy} (h : n.rustInt = some i) :
    (RTy.int i).ints = some i ∧ i.Contains 0 := by
  cases n <;> simp only [NumName.rustInt, Option.some.injEq, reduceCtorEq] at h <;> subst h <;>
    exact ⟨rfl, by decide⟩

theorem baseTy_zero (r : NumRef) : (RTy.int (baseTy r)).ints = some (baseTy r) ∧ (baseTy r).Contains 0 := by
  unfold baseTy
  cases h : r.name.rustInt with
  | none => exact ⟨rfl, by decide⟩
  | some i => exact rustInt_zero h

theorem hasTy_datum (w : World fo.F Object) (hw : ∀ o, w.isA o o.type) {t : ZTy} (ht : IsSimple t) {x : Val} (hx : GoodFor t x) :
    ∃ T, valueTy t = some T ∧ HasTy w T (datumOf float E t x) := by
  cases t with
  | num n =>
    refine ⟨_, rfl, ?_⟩
    cases hn : n.rustInt with
    | none =>
      simp only [numTy, hn, datumOf]
      trivial
    | some i =>
      simp only [numTy, hn, datumOf, Option.isSome_some, if_true]
      refine ⟨i, (rustInt_zero hn).1, ?_⟩
      cases hz : x.number with
      | none => exact (rustInt_zero hn).2
      | some z => exact hx n i rfl hn z hz
  | bool => cases x <;> exact ⟨_, rfl, trivial⟩
  | string => cases x <;> exact ⟨_, rfl, trivial⟩
  | enum id b => cases x <;> exact ⟨_, rfl, trivial⟩
  | bitmask id b =>
    refine ⟨_, rfl, baseTy b, (baseTy_zero b).1, ?_⟩
    split
    · rename_i h
      exact h
    · exact (baseTy_zero b).2
  | compound id => exact ⟨_, rfl, hw ⟨id, x⟩⟩
  | _ => exact ht.elim

theorem hasTy_list (w : World fo.F Object) (hw : ∀ o, w.isA o o.type) {t : ZTy} (ht : IsSimple t) {v : Val}
    (hv : ∀ xs, v = .list xs → ∀ x ∈ xs, GoodFor t x) {T : RTy} (hT : valueTy t = some T) :
    HasTy w (.vec T) (listDatum float E t v) := by
  cases v with
  | list xs =>
    intro d hd
    obtain ⟨x, hx, rfl⟩ := List.mem_map.1 hd
    obtain ⟨T', hT', h⟩ := hasTy_datum (float := float) (E := E) w hw ht (hv xs rfl x hx)
    rw [hT] at hT'
    cases hT'
    exact h
  | _ => intro d hd; cases hd

theorem hasTy_shaped (w : World fo.F Object) (hw : ∀ o, w.isA o o.type) {y : Symb} (hy : IsSimple y.ty)
    (hs : y.shape = .plain ∨ y.shape = .optional ∨ y.shape = .array ∨ y.shape = .optionalArray) {v : Val}
    (hv : ShapeGood y v) : ∃ T, symbTy y = some T ∧ HasTy w T (shapedDatum float E y v) := by
  obtain ⟨t, sh⟩ := y
  have hT : ∃ T, valueTy t = some T := (hasTy_datum (float := float) (E := E) w hw hy (x := .none) (by intro _ _ _ _ _ h; cases h)).imp
    fun _ h => h.1
  obtain ⟨T, hT⟩ := hT
  simp only at hs hy
  rcases hs with rfl | rfl | rfl | rfl
  · obtain ⟨T', h1, h2⟩ := hasTy_datum (float := float) (E := E) w hw hy (hv v rfl)
    exact ⟨T', h1, h2⟩
  · refine ⟨.option T, by simp [symbTy, hT], ?_⟩
    cases v with
    | some x =>
      intro d hd
      cases hd
      obtain ⟨T', h1, h2⟩ := hasTy_datum (float := float) (E := E) w hw hy (hv x rfl)
      rw [hT] at h1
      cases h1
      exact h2
    | _ => intro d hd; cases hd
  · refine ⟨.vec T, by simp [symbTy, hT], ?_⟩
    exact hasTy_list w hw hy (fun xs hxs x hx => hv x ⟨xs, hxs, hx⟩) hT
  · refine ⟨.option (.vec T), by simp [symbTy, hT], ?_⟩
    cases v with
    | some x =>
      intro d hd
      cases hd
      exact hasTy_list w hw hy (fun xs hxs x' hx => hv x' ⟨xs, by rw [hxs], hx⟩) hT
    | _ => intro d hd; cases hd

theorem shapeOf_cases (f : Src.StructField) : shapeOf f = .plain ∨ shapeOf f = .optional ∨ shapeOf f = .array ∨
    shapeOf f = .optionalArray := by
  unfold shapeOf
  repeat' split
  all_goals simp

/-! ## Builtin types -/

theorem pow_le_64 {n : Nat} (h : n ≤ 64) : (2 : Nat) ^ n ≤ 2 ^ 64 := Nat.pow_le_pow_right (by decide) h

theorem pow_le_63 {n : Nat} (h : n ≤ 64) : (2 : Int) ^ (n - 1) ≤ 2 ^ 63 := by
  have := Nat.pow_le_pow_right (n := 2) (by decide) (show n - 1 ≤ 63 by omega)
  exact_mod_cast this

theorem contains_u64 {v : Nat} (h : v < 2 ^ 64) : (⟨false, 64⟩ : IntTy).Contains v := by
  simp only [IntTy.Contains, IntTy.min, IntTy.max]
  simp
  omega

theorem contains_i64 {v : Int} (h : -(2 ^ 63) ≤ v) (h' : v < 2 ^ 63) : (⟨true, 64⟩ : IntTy).Contains v := by
  simp only [IntTy.Contains, IntTy.min, IntTy.max]
  simp
  omega

theorem good_bit {x : Val} {n : Nat} (hn : n ≤ 64) (h : ∀ v, x.number = some v → 0 ≤ v ∧ v < 2 ^ n) :
    GoodFor (.num .bit) x := by
  intro m i hm hi z hz
  cases hm
  cases hi
  obtain ⟨h0, h1⟩ := h z hz
  obtain ⟨k, rfl⟩ := Int.eq_ofNat_of_zero_le h0
  have h1 : k < 2 ^ n := by exact_mod_cast h1
  exact contains_u64 (Nat.lt_of_lt_of_le h1 (pow_le_64 hn))

theorem good_int {x : Val} {n : Nat} (hn : n ≤ 64)
    (h : ∀ v, x.number = some v → -(2 ^ (n - 1) : Int) ≤ v ∧ v < 2 ^ (n - 1)) : GoodFor (.num .int) x := by
  intro m i hm hi z hz
  cases hm
  cases hi
  obtain ⟨h0, h1⟩ := h z hz
  have := pow_le_63 hn
  exact contains_i64 (by omega) (by omega)

theorem scalar_good {cfg : Cfg} {t : Src.Ty} {s : Scalar} {z : ZTy} (hs : scalarOf t = some s)
    (hz : exprTypeOf t = some z) (hw : s.WidthOk) {env : Env} {x : Val}
    (hx : s.InRange cfg env x) : GoodFor z x := by
  unfold scalarOf at hs
  split at hs <;> try simp only [Option.some.injEq, reduceCtorEq] at hs
  all_goals first
    | (subst hs
       intro n i hn hi
       subst hn
       simp [exprTypeOf] at hz
       done)
    | (subst hs
       intro n i hn hi
       subst hn
       simp [exprTypeOf] at hz
       subst hz
       simp [NumName.rustInt] at hi
       done)
    | (subst hs
       simp only [exprTypeOf, Option.some.injEq, reduceCtorEq] at hz
       try subst hz
       intro n i hn hi v hv
       cases hn
       simp only [NumName.rustInt, Option.some.injEq, reduceCtorEq] at hi
       try subst hi
       cases x <;> simp only [Scalar.InRange, Val.number, Option.some.injEq, reduceCtorEq] at hx hv
       try subst hv
       simp only [IntTy.Contains, IntTy.min, IntTy.max]
       simp
       omega)
    | (split at hs <;> simp only [Option.some.injEq, reduceCtorEq] at hs
       subst hs
       simp only [exprTypeOf, Option.some.injEq] at hz
       subst hz
       rename_i signed bits _
       cases signed
       · refine good_bit (n := bits) hw.2 fun v hv => ?_
         cases x <;> simp only [Bool.false_eq_true, if_false, Scalar.InRange, Val.number, Option.some.injEq,
           reduceCtorEq] at hx hv
         subst hv
         exact ⟨Int.natCast_nonneg _, by exact_mod_cast hx⟩
       · refine good_int (n := bits) hw.2 fun v hv => ?_
         cases x <;> simp only [if_true, Scalar.InRange, Val.number, Option.some.injEq,
           reduceCtorEq] at hx hv
         subst hv
         exact hx)

theorem good_dflt {t : ZTy} (s : Scalar) : GoodFor t s.dflt := by
  intro n i _ hi z hz
  have : z = 0 := by
    cases s <;> simp only [Scalar.dflt, Val.number, Option.some.injEq, reduceCtorEq] at hz <;> rw [← hz] <;> rfl
  rw [this]
  exact (rustInt_zero hi).2

/-! ## Fields -/

/-- The values of the type of a field are in the range of its Rust type. -/
theorem content_good {F' : Type} {K : Constants F'} {cfg : Cfg} {look : Env → World fo.F Object} {known : List String} {i : Src.Inst}
    {w : Written fo.F} (h : TypeStands round known i w.ty) {z : ZTy} (hz : typeIn K.types i.type = some z)
    (hsup : (w.type look).Supported cfg ∨ (w.type look).Packable cfg false) {env : Env} {x : Val}
    (hx : (w.type look).Valid cfg env x) : GoodFor z x := by
  cases hty : w.ty with
  | plain t =>
    rw [hty] at h
    cases h with
    | scalar hsc =>
      simp only [Written.type, hty] at hsup hx
      rw [Ty.Valid] at hx
      rw [typeIn_scalar hsc] at hz
      refine scalar_good hsc hz ?_ hx
      rcases hsup with hsup | hsup
      · simpa only [Ty.Supported] using hsup
      · simp only [Ty.Packable] at hsup
        exact hsup.2.1
  | bit e =>
    rw [hty] at h
    cases h
    cases hz
    simp only [Written.type, hty, Ty.Valid] at hx
    cases x <;> simp only [Scalar.InRange] at hx
    refine good_bit hx.1 fun v hv => ?_
    cases hv
    exact ⟨Int.natCast_nonneg _, by exact_mod_cast hx.2⟩
  | int e =>
    rw [hty] at h
    cases h
    cases hz
    simp only [Written.type, hty, Ty.Valid] at hx
    cases x <;> simp only [Scalar.InRange] at hx
    refine good_int hx.2.1 fun v hv => ?_
    cases hv
    exact hx.2.2

theorem default_scalar {look : Env → World fo.F Object} {known : List String} {i : Src.Inst}
    {w : Written fo.F} (h : TypeStands round known i w.ty) : ∃ s : Scalar, (w.type look).default = s.dflt := by
  cases hty : w.ty <;> rw [hty] at h <;> cases h <;> simp only [Written.type, hty, Ty.default] <;> exact ⟨_, rfl⟩

theorem array_isSome {known : List String} {f : Src.FieldTypeId} {a : Option (Bool × Option (Expr fo.F))}
    (h : ArrayStands round known f a) : a.isSome = f.array.isSome := by
  cases a with
  | none =>
    have h : f.array = none := h
    rw [h]; rfl
  | some a =>
    obtain ⟨p, x⟩ := a
    obtain ⟨-, -, e, he, -⟩ := h
    rw [he]; rfl

theorem field_good {cfg : Cfg} {look : Env → World fo.F Object} {s : Src.Struct} {known : List String}
    {f : Src.StructField} {w : Written fo.F} (h : FieldStands round s known f w) {z : ZTy}
    (hz : typeIn K.types f.typeId.type.type = some z)
    (hsup : (w.type look).Supported cfg ∨ (w.type look).Packable cfg false) {env : Env} {v : Val}
    (hv : (w.info look).FieldValid ((w.type look).Valid cfg) (w.type look).default env v) :
    ShapeGood ⟨z, shapeOf f⟩ v := by
  intro x hx
  obtain ⟨sc, hsc⟩ := default_scalar (look := look) h.ty
  have harr := array_isSome h.array
  have hin : ∀ y, (w.info look).ContentValid ((w.type look).Valid cfg) (w.type look).default env y →
      (w.array.isSome = false → y = x) → (w.array.isSome = true → ∃ xs, y = .list xs ∧ x ∈ xs) →
      GoodFor z x := by
    intro y hy h1 h2
    unfold FieldInfo.ContentValid at hy
    simp only [Modifiers.info] at hy
    cases ha : w.array with
    | none =>
      rw [ha] at hy h1
      have hyx := h1 rfl
      subst hyx
      exact content_good h.ty hz hsup hy.1
    | some a =>
      rw [ha] at hy h2
      obtain ⟨xs, rfl, -, hall⟩ := hy
      obtain ⟨xs', hxs, hmem⟩ := h2 rfl
      cases hxs
      obtain ⟨j, hj⟩ := List.getElem?_of_mem hmem
      exact content_good h.ty hz hsup (hall j x hj).1
  have hopt : (w.info look).optional = f.optional := h.optional
  unfold FieldInfo.FieldValid at hv
  rw [hopt] at hv
  unfold shapeOf Inner at hx
  rw [← harr] at hx
  split at hv
  · cases ho : f.optional <;> cases ha : w.array.isSome <;> simp only [ho, ha, Bool.false_eq_true, if_true, if_false]
      at hv hx
    · exact hin v hv (fun _ => hx) (fun h => by rw [ha] at h; cases h)
    · exact hin v hv (fun h => by rw [ha] at h; cases h) (fun _ => hx)
    · subst hx
      rcases hv with hv | ⟨y, hy, hv⟩
      · cases hv
      · cases hy
        exact hin x hv (fun _ => rfl) (fun h => by rw [ha] at h; cases h)
    · obtain ⟨xs, rfl, hmem⟩ := hx
      rcases hv with hv | ⟨y, hy, hv⟩
      · cases hv
      · cases hy
        exact hin _ hv (fun h => by rw [ha] at h; cases h) (fun _ => ⟨xs, rfl, hmem⟩)
  · subst hv
    unfold FieldInfo.default at hx
    rw [hopt] at hx
    have hia : (w.info look).array.isSome = w.array.isSome := by simp [Modifiers.info]
    rw [hia, hsc] at hx
    cases ho : f.optional <;> cases ha : w.array.isSome <;> simp only [ho, ha, Bool.false_eq_true, if_true, if_false]
      at hx
    · subst hx
      exact good_dflt sc
    · obtain ⟨xs, hxs, hmem⟩ := hx
      cases hxs
      cases hmem
    · cases hx
    · obtain ⟨xs, hxs, hmem⟩ := hx
      cases hxs

theorem fields_good {cfg : Cfg} {look : Env → World fo.F Object} {s : Src.Struct} :
    ∀ {known : List String} {fs : List Src.StructField} {ws : List (Written fo.F)},
    FieldsStand round s known fs ws → (meaning look ws).Supported cfg → ∀ {ps done vs : List Val},
    (meaning look ws).Valid cfg ps done vs → ∀ (j : Nat) (f : Src.StructField) (v : Val) (z : ZTy),
    fs[j]? = some f → vs[j]? = some v → typeIn K.types f.typeId.type.type = some z → ShapeGood ⟨z, shapeOf f⟩ v
  | _, [], [], _, _, _, _, _, _, _, _, _, _, hf, _, _ => by cases hf
  | _, [], _ :: _, h, _, _, _, _, _, _, _, _, _, _, _, _ => h.elim
  | _, _ :: _, [], h, _, _, _, _, _, _, _, _, _, _, _, _ => h.elim
  | _, f :: fs, w :: ws, h, hsup, ps, done, vs, hv, j, f', v, z, hf, hvj, hz => by
    simp only [meaning, Fields.Supported] at hsup
    simp only [meaning, Fields.Valid] at hv
    obtain ⟨v0, vs', rfl, hv0, hvs⟩ := hv
    cases j with
    | zero =>
      simp only [List.getElem?_cons_zero, Option.some.injEq] at hf hvj
      subst hf hvj
      refine field_good h.1 hz ?_ hv0
      have := hsup.1
      split at this
      · exact .inr this
      · exact .inl this
    | succ j =>
      simp only [List.getElem?_cons_succ] at hf hvj
      exact fields_good h.2 hsup.2 hvs j f' v z hf hvj hz

/-! ## Parameters -/

theorem params_good {F' : Type} {K : Constants F'} {cfg : Cfg} {E' : String → Option Enumeration} : ∀ {ps : List Src.Param} {vs : List Val},
    ParamsValid cfg E' ps vs →
    ∀ (j : Nat) (p : Src.Param) (v : Val) (z : ZTy), ps[j]? = some p → vs[j]? = some v →
    typeIn K.types p.type = some z → GoodFor z v
  | [], [], _, _, _, _, _, h, _, _ => by cases h
  | [], _ :: _, h, _, _, _, _, _, _, _ => h.elim
  | _ :: _, [], h, _, _, _, _, _, _, _ => h.elim
  | p :: ps, v :: vs, h, j, p', v', z, hp, hv, hz => by
    cases j with
    | zero =>
      simp only [List.getElem?_cons_zero, Option.some.injEq] at hp hv
      subst hp hv
      rcases h.1 with ⟨t, ht, hw, hr⟩ | ⟨id, e, i, ht, -, -, -⟩
      · rw [typeIn_scalar ht] at hz
        exact scalar_good ht hz hw hr
      · rw [ht] at hz
        exact (types_simple hz).2 v
    | succ j => exact params_good h.2 j p' v' z hp hv hz

/-! ## Objects -/

theorem shape_good_none (t : ZTy) (sh : Shape) : ShapeGood ⟨t, sh⟩ .none := by
  intro x hx
  unfold Inner at hx
  split at hx
  · cases hx
  · obtain ⟨_, h, _⟩ := hx
    cases h
  · obtain ⟨_, h, _⟩ := hx
    cases h
  · subst hx
    intro _ _ _ _ _ h
    cases h

theorem members_good {cfg : Cfg} {look : Env → World fo.F Object} {s : Src.Struct} {ws : List (Written fo.F)}
    (hs : StructStands round s ws) (hsup : (meaning look ws).Supported cfg) {ps vs : List Val}
    {E' : String → Option Enumeration} (hp : ParamsValid cfg E' s.params ps) (hv : (meaning look ws).Valid cfg ps [] vs) (i : Nat)
    {m : Member} (hm : m ∈ membersOf K.types s) {y : Symb} (hy : m.symb = some y) :
    IsSimple y.ty ∧ (y.shape = .plain ∨ y.shape = .optional ∨ y.shape = .array ∨ y.shape = .optionalArray) ∧
      ShapeGood y (m.value ⟨ps, vs.take i⟩) := by
  simp only [membersOf, List.mem_append, List.mem_map] at hm
  rcases hm with ⟨⟨p, j⟩, hj, rfl⟩ | ⟨⟨f, j⟩, hj, rfl⟩
  · rw [List.mem_zipIdx_iff_getElem?] at hj
    simp only [Option.map_eq_some_iff] at hy
    obtain ⟨z, hz, rfl⟩ := hy
    refine ⟨typeIn_simple hz, .inl rfl, ?_⟩
    simp only [List.getD_eq_getElem?_getD]
    cases hg : ps[j]? with
    | none => exact shape_good_none _ _
    | some v =>
      intro x hx
      cases hx
      exact params_good hp j p v z hj hg hz
  · rw [List.mem_zipIdx_iff_getElem?] at hj
    simp only [Option.map_eq_some_iff] at hy
    obtain ⟨z, hz, rfl⟩ := hy
    refine ⟨typeIn_simple hz, shapeOf_cases f, ?_⟩
    simp only [List.getD_eq_getElem?_getD]
    cases hg : (vs.take i)[j]? with
    | none => exact shape_good_none _ _
    | some v =>
      refine fields_good hs.fields hsup hv j f v z hj ?_ hz
      rw [List.getElem?_take] at hg
      split at hg
      · exact hg
      · cases hg

theorem constHas_simple {t : ZTy} {v : Datum fo.F Object} (h : ConstHas t v) : IsSimple t := by
  cases t <;> first | trivial | (cases v <;> exact h.elim)

theorem members_simple {s : Src.Struct} {m : Member} (hm : m ∈ membersOf K.types s) {y : Symb} (hy : m.symb = some y) :
    IsSimple y.ty ∧ (y.shape = .plain ∨ y.shape = .optional ∨ y.shape = .array ∨ y.shape = .optionalArray) := by
  simp only [membersOf, List.mem_append, List.mem_map] at hm
  rcases hm with ⟨p, _, rfl⟩ | ⟨f, _, rfl⟩
  · simp only [Option.map_eq_some_iff] at hy
    obtain ⟨z, hz, rfl⟩ := hy
    exact ⟨typeIn_simple hz, .inl rfl⟩
  · simp only [Option.map_eq_some_iff] at hy
    obtain ⟨z, hz, rfl⟩ := hy
    exact ⟨typeIn_simple hz, shapeOf_cases _⟩

theorem part_simple (hK : K.Good) {id n : String} {m : Member} (hm : K.part id n = some m) {y : Symb}
    (hy : m.symb = some y) :
    (IsSimple y.ty ∧ (y.shape = .plain ∨ y.shape = .optional ∨ y.shape = .array ∨ y.shape = .optionalArray)) ∨
      ((∃ t, y = ⟨.function t, .plain⟩) ∧ n ∉ ["len", "bits", "clone"]) := by
  obtain ⟨ms, h, hm⟩ := Option.bind_eq_some_iff.1 hm
  obtain ⟨s, rfl, hs⟩ := hK.objects id ms h
  rcases List.mem_append.1 (List.mem_of_find?_eq_some hm) with h | h
  · exact .inl (members_simple h hy)
  · have hn : m.name = n := by simpa using List.find?_some hm
    obtain ⟨f, hf, rfl⟩ := List.mem_map.1 h
    obtain ⟨t, -, rfl⟩ := Option.map_eq_some_iff.1 hy
    exact .inr ⟨⟨t, rfl⟩, hn ▸ hs f hf⟩

/-- The name of an enumeration or a bitmask. -/
theorem typeName_found {s : Src.Struct} (hK : K.Good) {e : Expr fo.F} {z : ZTy}
    (h : e.symbol (textScope K s) = some ⟨z, .typeName⟩) :
    (∃ id x, K.enums id = some x ∧ z = .enum id x.base) ∨
      ∃ id x, K.enums id = none ∧ K.masks id = some x ∧ z = .bitmask id x.base := by
  have hno : ∀ y : Symb, (y.shape = .plain ∨ y.shape = .optional ∨ y.shape = .array ∨ y.shape = .optionalArray) →
      y ≠ ⟨z, .typeName⟩ := by
    rintro y hy rfl
    simp at hy
  cases e with
  | ident n =>
    replace h : (textScope K s).ident n = some ⟨z, .typeName⟩ := h
    simp only [textScope] at h
    split at h
    · rename_i m hm
      exact absurd rfl (hno _ (members_simple (List.mem_of_find?_eq_some hm) h).2)
    · split at h
      · obtain ⟨_, -, h⟩ := Option.map_eq_some_iff.1 h
        cases h
      simp only [Constants.symb] at h
      split at h
      · cases h
      · split at h
        · rename_i x hx
          cases h
          exact .inl ⟨n, x, hx, rfl⟩
        · rename_i hx
          obtain ⟨x, hm, h⟩ := Option.map_eq_some_iff.1 h
          cases h
          exact .inr ⟨n, x, hx, hm, rfl⟩
  | dot e n =>
    simp only [Expr.symbol, Option.bind_eq_some_iff] at h
    obtain ⟨y, _, h⟩ := h
    split at h
    · obtain ⟨m, hm, h⟩ := Option.bind_eq_some_iff.1 h
      rcases part_simple hK hm h with ⟨-, h⟩ | ⟨⟨_, h⟩, -⟩
      · exact absurd rfl (hno _ h)
      · cases h
    · cases h
  | _ => cases h

/-- The value of a bitmask with the name is in range. -/
theorem mask_named (hK : K.Good) {id n : String} {x : Enumeration} {v : Int} (h : K.masks id = some x)
    (hv : x.named n = some v) : (RTy.int (baseTy x.base)).Holds v := by
  obtain ⟨i, hi, rfl⟩ := Option.map_eq_some_iff.1 hv
  exact hK.masks id x h i (List.mem_of_find?_eq_some hi)

theorem noConstants_good : (noConstants : Constants fo.F).Good where
  value _ _ h := by cases h
  none _ _ := rfl
  masks _ _ h := by cases h
  objects _ _ h := by cases h

theorem const_conforms (hK : K.Good) (w : World fo.F Object) (n : String) :
    Provided w ((K.symb n).bind symbTy) (K.value n) := by
  unfold Constants.symb
  cases ht : K.ty n with
  | none =>
    rw [hK.none n ht]
    cases K.enums n with
    | some e => rfl
    | none => cases K.masks n <;> rfl
  | some t =>
    obtain ⟨v, hv, h⟩ := hK.value n t ht
    rw [hv]
    cases t with
    | num m =>
      refine ⟨v, rfl, ?_⟩
      cases v with
      | int z =>
        simp only [ConstHas, numTy] at h ⊢
        cases hm : m.rustInt with
        | none => rw [hm] at h; obtain ⟨_, h, _⟩ := h; cases h
        | some i => rw [hm] at h; exact h
      | float f =>
        have h : m.rustInt = none := h
        simp only [numTy, h]
        trivial
      | _ => exact h.elim
    | bool => cases v <;> first | exact ⟨_, rfl, trivial⟩ | exact h.elim
    | string => cases v <;> first | exact ⟨_, rfl, trivial⟩ | exact h.elim
    | _ => cases v <;> exact h.elim

theorem textScope_ordinary (hK : K.Good) (s : Src.Struct) : Ordinary (textScope K s) := by
  intro id n y r h hr
  obtain ⟨m, hm, hy⟩ := Option.bind_eq_some_iff.1 h
  rcases part_simple hK hm hy with ⟨this, -⟩ | ⟨-, this⟩
  · rw [hr] at this
    exact this.elim
  · simpa using this

/-- Values that are not of the Rust types count as if they were not there. -/
theorem fits_good (y : Symb) (v : Val) : ShapeGood y (if shapeFits y v then v else .none) := by
  split
  · rename_i h
    intro x hx n i hn hi z hz
    have key : ∀ w, fitsRust y.ty w = true → w = x → i.Contains z := by
      rintro w hw rfl
      simpa [fitsRust, hn, hi, hz] using hw
    obtain ⟨t, sh⟩ := y
    cases sh with
    | optional =>
      cases hx
      exact key _ h rfl
    | array =>
      obtain ⟨xs, rfl, hx⟩ := hx
      exact key x (List.all_eq_true.1 h x hx) rfl
    | optionalArray =>
      obtain ⟨xs, rfl, hx⟩ := hx
      exact key x (List.all_eq_true.1 h x hx) rfl
    | _ =>
      cases hx
      exact key _ h rfl
  · exact shape_good_none _ _

theorem member_conforms (hK : K.Good) {w : World fo.F Object} (hw : ∀ o, w.isA o o.type) (o : Object) (n : String) :
    Provided w (((K.part o.type n).bind Member.symb).bind symbTy) (K.member float o n) := by
  simp only [Constants.member]
  cases hm : K.part o.type n with
  | none => rfl
  | some m =>
    cases hy : m.symb with
    | none =>
      simp only [Option.bind_some, hy]
      rfl
    | some y =>
      rcases part_simple hK hm hy with ⟨h1, h2⟩ | ⟨⟨t, rfl⟩, -⟩
      rotate_left
      · simp only [Option.bind_some, hy]
        rfl
      obtain ⟨T, hT, h⟩ := hasTy_shaped (float := float) (E := K.enums) w hw h1 h2 (fits_good y (m.value o.env))
      simp only [Option.bind_some, hy, hT]
      obtain ⟨ty, sh⟩ := y
      cases ty <;> first | exact h1.elim | exact ⟨_, rfl, h⟩

theorem returns_hasTy (w : World fo.F Object) {t : ZTy} {x : Datum fo.F Object} (h : returns t x = true) :
    ∃ T, valueTy t = some T ∧ HasTy w T x := by
  cases t with
  | num n =>
    refine ⟨numTy n, rfl, ?_⟩
    cases x with
    | int v =>
      simp only [returns] at h
      split at h
      · rename_i i hi
        simp only [numTy, hi]
        exact ⟨i, (rustInt_zero hi).1, of_decide_eq_true h⟩
      · cases h
    | float f =>
      have h : n.rustInt = none := by simpa [returns] using h
      simp only [numTy, h]
      trivial
    | _ => cases h
  | bool => cases x <;> first | exact ⟨_, rfl, trivial⟩ | cases h
  | string => cases x <;> first | exact ⟨_, rfl, trivial⟩ | cases h
  | _ => cases x <;> cases h

/-- What the expressions see of a valid object has the declared types. -/
theorem text_conforms_of {s : Src.Struct} {env : Env} (hK : K.Good)
    (hg : ∀ m ∈ membersOf K.types s, ∀ y, m.symb = some y → IsSimple y.ty ∧
      (y.shape = .plain ∨ y.shape = .optional ∨ y.shape = .array ∨ y.shape = .optionalArray) ∧
      ShapeGood y (m.value env)) :
    Conforms (textLook float K s env) (rscope (textScope K s)) where
  name n := by
    have hname : (rscope (F := fo.F) (textScope K s)).name n = ((textScope K s).ident n).bind symbTy := rfl
    rw [hname]
    simp only [textScope, textLook]
    cases hm : memberNamed K.types s n with
    | none =>
      cases hf : funcNamed s n with
      | none => exact const_conforms hK _ n
      | some f =>
        cases ht : typeIn K.types f.type with
        | none =>
          simp only [ht]
          rfl
        | some t =>
          simp only [ht]
          rfl
    | some m =>
      cases hy : m.symb with
      | none =>
        simp only [hy, Option.map_none]
        rfl
      | some y =>
        simp only [hy, Option.map_some]
        obtain ⟨h1, h2, h3⟩ := hg m (List.mem_of_find?_eq_some hm) y hy
        obtain ⟨T, hT, h⟩ := hasTy_shaped (float := float) (E := K.enums) (textLook float K s env) (fun _ => rfl) h1 h2 h3
        show Provided _ (symbTy y) _
        rw [hT]
        exact ⟨_, rfl, h⟩
  func n x hx := by
    show ∃ T, ((textScope K s).ident n).bind funcTy = some T ∧ _
    simp only [textLook] at hx
    split at hx
    · cases hx
    rename_i hm
    obtain ⟨f, hf, hx⟩ := Option.bind_eq_some_iff.1 hx
    obtain ⟨t, ht, hx⟩ := Option.bind_eq_some_iff.1 hx
    obtain ⟨-, hr⟩ := Option.filter_eq_some_iff.1 hx
    simp only [textScope, hm, hf, ht, Option.map_some, Option.bind_some, funcTy, ZTy.result]
    exact returns_hasTy _ hr
  member o id n h := by
    cases h
    exact member_conforms hK (fun _ => rfl) o n
  method o id n h := by
    show Returned _ (((K.part id n).bind Member.symb).bind funcTy) (K.method o n)
    cases h
    intro v hv
    obtain ⟨m, hm, hv⟩ := Option.bind_eq_some_iff.1 hv
    obtain ⟨y, hy, hv⟩ := Option.bind_eq_some_iff.1 hv
    split at hv
    · rename_i t ht
      obtain ⟨-, hr⟩ := Option.filter_eq_some_iff.1 hv
      simp only [hm, hy, Option.bind_some, funcTy, ht, ZTy.result]
      exact returns_hasTy _ hr
    · cases hv
  item e n := by
    show Provided _ ((rscope (textScope K s)).item e n) (K.item (textScope K s) e n)
    simp only [rscope, Constants.item]
    split
    · rename_i id b h
      simp only [h]
      obtain ⟨_, x, hx, hz⟩ | ⟨_, _, _, _, hz⟩ := typeName_found hK h <;> cases hz
      show Provided _ (if K.hasItem id n then _ else _) _
      simp only [Constants.hasItem, hx, Option.bind_some]
      cases x.named n with
      | none => rfl
      | some v => exact ⟨_, rfl, trivial⟩
    · rename_i id b h
      simp only [h]
      obtain ⟨_, _, _, hz⟩ | ⟨_, x, hx, hm, hz⟩ := typeName_found hK h <;> cases hz
      show Provided _ (if K.hasItem id n then _ else _) _
      simp only [Constants.hasItem, hx, hm, Option.bind_some]
      cases hv : x.named n with
      | none => rfl
      | some v => exact ⟨_, rfl, mask_named hK hm hv⟩
    · rename_i h1 h2
      split
      · rename_i id b h
        exact absurd h (h1 id b)
      · rename_i id b h
        exact absurd h (h2 id b)
      · rfl
  index := rfl

theorem text_conforms {cfg : Cfg} (hK : K.Good) {s : Src.Struct} {ws : List (Written fo.F)} (hs : StructStands round s ws)
    (hsup : (meaning (textLook float K s) ws).Supported cfg) {ps vs : List Val}
    {E' : String → Option Enumeration} (hp : ParamsValid cfg E' s.params ps)
    (hv : (meaning (textLook float K s) ws).Valid cfg ps [] vs) (i : Nat) :
    Conforms (textLook float K s ⟨ps, vs.take i⟩) (rscope (textScope K s)) :=
  text_conforms_of hK fun _ hm _ hy => members_good hs hsup hp hv i hm hy

end Zs
