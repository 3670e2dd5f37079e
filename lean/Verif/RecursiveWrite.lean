import Verif.RecursiveRead

/-!
# Lemmas: what is written does not depend on calls that are deeper than the object
-/

namespace Zs

open Spec

/-- Two types write the objects of the first one in the same way, and pack them in the same way. -/
structure WritesSame (cfg : Cfg) (a b : Ty) : Prop where
  write : ∀ env v, a.Valid cfg env v → (a.ops cfg).write env v = (b.ops cfg).write env v
  packed : ∀ env v n, a.Valid cfg env v → (a.ops cfg).writePacked env v n = (b.ops cfg).writePacked env v n
  init : ∀ env v n, a.Valid cfg env v → (a.ops cfg).initContext env v n = (b.ops cfg).initContext env v n
  elem : ∀ env v w, a.Valid cfg env v →
    ((a.ops cfg).arrayTrait env).write w v = ((b.ops cfg).arrayTrait env).write w v
  context : ∀ env v, a.Valid cfg env v → (a.ops cfg).createContext = (b.ops cfg).createContext

/-- The same, with the parts that do not depend on the object. -/
structure WritesAlike (cfg : Cfg) (a b : Ty) : Prop where
  marshaler : (a.ops cfg).isMarshaler = (b.ops cfg).isMarshaler
  packable : (a.ops cfg).isPackable = (b.ops cfg).isPackable
  init : ∀ env v n, (a.ops cfg).initContext env v n = (b.ops cfg).initContext env v n
  context : (a.ops cfg).createContext = (b.ops cfg).createContext
  same : WritesSame cfg a b

theorem noValues_writes (cfg : Cfg) (t : Ty) : WritesSame cfg noValues t := by
  have h : ∀ env v, ¬ noValues.Valid cfg env v := by
    intro env v hv
    simp only [noValues, Ty.Valid] at hv
    obtain ⟨i, x, _, h, _⟩ := hv
    simp [enumValues, enumValuesFrom] at h
  exact ⟨fun _ _ hv => absurd hv (h _ _), fun _ _ _ hv => absurd hv (h _ _), fun _ _ _ hv => absurd hv (h _ _),
    fun _ _ _ hv => absurd hv (h _ _), fun _ _ hv => absurd hv (h _ _)⟩

theorem WritesSame.refl (cfg : Cfg) (t : Ty) : WritesSame cfg t t :=
  ⟨fun _ _ _ => rfl, fun _ _ _ _ => rfl, fun _ _ _ _ => rfl, fun _ _ _ _ => rfl, fun _ _ _ => rfl⟩

theorem WritesAlike.refl (cfg : Cfg) (t : Ty) : WritesAlike cfg t t :=
  ⟨rfl, rfl, fun _ _ _ => rfl, rfl, WritesSame.refl cfg t⟩

/-! ## Arrays -/

theorem initAll_same {t u : ArrayTrait Val} : ∀ (xs : List Val) (n : Node),
    (∀ x ∈ xs, ∀ n, t.initContext n x = u.initContext n x) → ArrayDef.initAll t n xs = ArrayDef.initAll u n xs
  | [], _, _ => rfl
  | x :: xs, n, h => by
    simp only [ArrayDef.initAll]
    rw [h x List.mem_cons_self]
    congr 1
    funext n
    exact initAll_same xs n (fun y hy => h y (List.mem_cons_of_mem _ hy))

theorem writePackedAll_same {t u : ArrayTrait Val} (offsets : Bool) : ∀ (xs : List Val) (n : Node) (w : Writer),
    (∀ x ∈ xs, ∀ n w, t.writePacked n w x = u.writePacked n w x) →
    ArrayDef.writePackedAll t offsets n w xs = ArrayDef.writePackedAll u offsets n w xs
  | [], _, _, _ => rfl
  | x :: xs, n, w, h => by
    simp only [ArrayDef.writePackedAll]
    congr 1
    funext w
    rw [h x List.mem_cons_self]
    congr 1
    funext p
    exact writePackedAll_same offsets xs _ _ (fun y hy => h y (List.mem_cons_of_mem _ hy))

theorem writeAll_same {t u : ArrayTrait Val} (offsets : Bool) : ∀ (xs : List Val) (w : Writer),
    (∀ x ∈ xs, ∀ w, t.write w x = u.write w x) →
    ArrayDef.writeAll t offsets w xs = ArrayDef.writeAll u offsets w xs
  | [], _, _ => rfl
  | x :: xs, w, h => by
    simp only [ArrayDef.writeAll]
    congr 1
    funext w
    rw [h x List.mem_cons_self]
    congr 1
    funext w
    exact writeAll_same offsets xs _ (fun y hy => h y (List.mem_cons_of_mem _ hy))

theorem writeElements_same {cfg : Cfg} {a b : Ty} (h : WritesSame cfg a b) {p q : ArrayDef Val} {env : Env}
    (hp : p.arrayTrait = (a.ops cfg).arrayTrait env) (hq : q.arrayTrait = (b.ops cfg).arrayTrait env)
    (hpq : p.isPacked = q.isPacked) (w : Writer) (offsets : Bool) (xs : List Val) (hx : ∀ x ∈ xs, a.Valid cfg env x) :
    p.writeElements w xs offsets = q.writeElements w xs offsets := by
  unfold ArrayDef.writeElements
  cases xs with
  | nil => rfl
  | cons x xs =>
    have hcx := h.context env x (hx x List.mem_cons_self)
    have e1 : p.arrayTrait.createContext = q.arrayTrait.createContext := by
      rw [hp, hq, (a.coherent cfg).create, (b.coherent cfg).create, hcx]
    have e2 : ∀ n : Node, ArrayDef.initAll p.arrayTrait n (x :: xs) = ArrayDef.initAll q.arrayTrait n (x :: xs) :=
      fun n => initAll_same _ _ fun y hy m => by
        rw [hp, hq, (a.coherent cfg).init, (b.coherent cfg).init, h.init env y m (hx y hy)]
    have e3 : ∀ n w, ArrayDef.writePackedAll p.arrayTrait offsets n w (x :: xs) =
        ArrayDef.writePackedAll q.arrayTrait offsets n w (x :: xs) :=
      fun n w => writePackedAll_same offsets _ _ _ fun y hy m w => by
        rw [hp, hq, (a.coherent cfg).write, (b.coherent cfg).write, h.packed env y m (hx y hy)]
    have e4 : ArrayDef.writeAll p.arrayTrait offsets w (x :: xs) = ArrayDef.writeAll q.arrayTrait offsets w (x :: xs) :=
      writeAll_same offsets _ _ fun y hy w => by rw [hp, hq, h.elem env y w (hx y hy)]
    rw [e1, e2, e4, hpq]
    simp only [e3]

/-! ## Fields -/

namespace FieldOps

variable {cfg : Cfg} {info : FieldInfo} {a b : Ty}

theorem checkArgs_same (t u : TypeOps) (env : Env) : ∀ (i : Nat) (xs : List Val),
    (FieldOps.mk info t).checkArgsAll env i xs = (FieldOps.mk info u).checkArgsAll env i xs
  | _, [] => rfl
  | i, x :: xs => by
    simp only [checkArgsAll]
    rw [checkArgs_same t u env (i + 1) xs]
    rfl

theorem encodeContent_same (h : WritesSame cfg a b)
    (hs : info.array = none → (a.ops cfg).isPackable = (b.ops cfg).isPackable) (packed : Bool) (i : Nat) (env : Env)
    (x : Val) (n : Node) (w : Writer) (hx : info.ContentValid (a.Valid cfg) a.default env x) :
    (FieldOps.mk info (a.ops cfg)).encodeContent packed i env x n w =
      (FieldOps.mk info (b.ops cfg)).encodeContent packed i env x n w := by
  unfold FieldInfo.ContentValid at hx
  unfold encodeContent
  cases ha : info.array with
  | none =>
    simp only [ha] at hx
    have hp : (FieldOps.mk info (a.ops cfg)).isPackable = (FieldOps.mk info (b.ops cfg)).isPackable := by
      simp only [isPackable, hs ha]
    simp only [hp]
    unfold encodeType
    simp only [h.write env x hx.1, fun c => h.packed env x c hx.1]
    rfl
  | some arr =>
    simp only [ha] at hx
    obtain ⟨xs, rfl, _, hxs⟩ := hx
    have hm : ∀ y ∈ xs, a.Valid cfg env y := by
      intro y hy
      obtain ⟨j, hj, rfl⟩ := List.mem_iff_getElem.mp hy
      exact (hxs j _ (List.getElem?_eq_getElem hj)).1
    simp only [checkArgs_same (a.ops cfg) (b.ops cfg)]
    have e : ∀ w, ((FieldOps.mk info (a.ops cfg)).arrayDef packed env arr).zserioWrite w xs
          (FieldOps.mk info (a.ops cfg)).indexed =
        ((FieldOps.mk info (b.ops cfg)).arrayDef packed env arr).zserioWrite w xs
          (FieldOps.mk info (b.ops cfg)).indexed := by
      intro w
      unfold ArrayDef.zserioWrite
      have hl : ((FieldOps.mk info (a.ops cfg)).arrayDef packed env arr).writeLength w xs =
          ((FieldOps.mk info (b.ops cfg)).arrayDef packed env arr).writeLength w xs := rfl
      rw [hl]
      congr 1
      funext w
      exact writeElements_same h rfl rfl (by simp [arrayDef, isPackable, ha]) w _ xs hm
    simp only [e]

theorem encode_same (h : WritesSame cfg a b)
    (hs : info.array = none → (a.ops cfg).isPackable = (b.ops cfg).isPackable) (packed : Bool) (i : Nat) (env : Env)
    (v : Val) (n : Node) (w : Writer) (hv : info.FieldValid (a.Valid cfg) a.default env v) :
    (FieldOps.mk info (a.ops cfg)).encode packed i env v n w =
      (FieldOps.mk info (b.ops cfg)).encode packed i env v n w := by
  have hp : ∀ t : TypeOps, (FieldOps.mk info t).present env = info.clause.all (fun c => c env) := by
    intro t; unfold present; cases info.clause <;> rfl
  unfold FieldInfo.FieldValid at hv
  unfold encode
  simp only [hp]
  by_cases hc : info.clause.all (fun c => c env) = true
  · simp only [hc, if_true] at hv ⊢
    have ha : (FieldOps.mk info (a.ops cfg)).alignWriter w = (FieldOps.mk info (b.ops cfg)).alignWriter w := rfl
    rw [ha]
    congr 1
    funext w
    unfold encodeOptional
    by_cases ho : info.optional = true
    · simp only [ho, if_true] at hv ⊢
      rcases hv with rfl | ⟨x, rfl, hx⟩
      · rfl
      · simp only [fun w => encodeContent_same h hs packed i env x n w hx]
    · simp only [ho, if_false, Bool.false_eq_true] at hv ⊢
      exact encodeContent_same h hs packed i env v n w hv
  · simp only [hc, if_false, Bool.false_eq_true]

end FieldOps

/-- Two fields write valid values in the same way, and initialise and create packing contexts in the same way. -/
structure FieldWrites (cfg : Cfg) (info : FieldInfo) (a b : Ty) : Prop where
  context : (FieldOps.mk info (a.ops cfg)).createContext = (FieldOps.mk info (b.ops cfg)).createContext
  init : ∀ i env v n, (FieldOps.mk info (a.ops cfg)).initContext i env v n =
    (FieldOps.mk info (b.ops cfg)).initContext i env v n
  encode : ∀ packed i env v n w, info.FieldValid (a.Valid cfg) a.default env v →
    (FieldOps.mk info (a.ops cfg)).encode packed i env v n w = (FieldOps.mk info (b.ops cfg)).encode packed i env v n w

theorem FieldWrites.alike {cfg : Cfg} {a b : Ty} (info : FieldInfo) (h : WritesAlike cfg a b) :
    FieldWrites cfg info a b where
  context := by simp only [FieldOps.createContext, FieldOps.isPackable, h.marshaler, h.packable, h.context]
  init i env v n := by
    have hc : ∀ x, (FieldOps.mk info (a.ops cfg)).initContent i env x n =
        (FieldOps.mk info (b.ops cfg)).initContent i env x n := by
      intro x; simp only [FieldOps.initContent, h.init]
    simp only [FieldOps.initContext, FieldOps.isPackable, h.marshaler, h.packable, hc]
    rfl
  encode := FieldOps.encode_same h.same (fun _ => h.packable)

theorem FieldWrites.array {cfg : Cfg} {a b : Ty} (info : FieldInfo) (h : WritesSame cfg a b)
    (ha : info.array.isSome = true) : FieldWrites cfg info a b where
  context := by simp [FieldOps.createContext, ha]
  init i env v n := by simp [FieldOps.initContext, ha]
  encode := FieldOps.encode_same h (fun h0 => by simp [h0] at ha)

/-! ## Types -/

/-- What is known about two lists of fields. -/
structure FieldsWrite (cfg : Cfg) (fs gs : Fields) : Prop where
  contexts : (fs.ops cfg).map FieldOps.createContext = (gs.ops cfg).map FieldOps.createContext
  init : ∀ ps i done vs n, initFields ps (fs.ops cfg) i done vs n = initFields ps (gs.ops cfg) i done vs n
  encode : ∀ packed ps i done vs n w, fs.Valid cfg ps done vs →
    encodeFields packed ps (fs.ops cfg) i done vs n w = encodeFields packed ps (gs.ops cfg) i done vs n w
  member : ∀ ps sel vs, fs.ValidMember cfg ps sel vs → ∃ f g v, (fs.ops cfg)[sel]? = some f ∧
    (gs.ops cfg)[sel]? = some g ∧ vs[sel]? = some v ∧
    ∀ packed i n w, f.encode packed i ⟨ps, []⟩ v n w = g.encode packed i ⟨ps, []⟩ v n w

theorem FieldsWrite.cons {cfg : Cfg} {info : FieldInfo} {a b : Ty} {fs gs : Fields} (h : FieldWrites cfg info a b)
    (hr : FieldsWrite cfg fs gs) : FieldsWrite cfg (.cons info a fs) (.cons info b gs) where
  contexts := by simp only [Fields.ops, List.map_cons, h.context, hr.contexts]
  init ps i done vs n := by
    cases vs with
    | nil => rfl
    | cons v vs =>
      simp only [Fields.ops, initFields, h.init]
      congr 1
      funext n
      exact hr.init _ _ _ _ _
  encode packed ps i done vs n w hv := by
    simp only [Fields.Valid] at hv
    obtain ⟨v, vs, rfl, h1, h2⟩ := hv
    simp only [Fields.ops, encodeFields, h.encode packed i ⟨ps, done⟩ v n w h1]
    congr 1
    funext p
    exact hr.encode _ _ _ _ _ _ _ h2
  member ps sel vs hv := by
    simp only [Fields.ValidMember] at hv
    obtain ⟨v, vs, rfl, hv⟩ := hv
    cases sel with
    | zero => exact ⟨_, _, v, rfl, rfl, rfl, fun packed i n w => h.encode packed i ⟨ps, []⟩ v n w hv.1⟩
    | succ sel => exact hr.member ps sel vs hv.2

/-- What is known about two lists of cases. -/
structure CasesWrite (cfg : Cfg) (cs es : Cases) : Prop where
  contexts : (caseFields (cs.ops cfg)).map FieldOps.createContext = (caseFields (es.ops cfg)).map FieldOps.createContext
  init : ∀ ps i vs n, initChoice ps (caseFields (cs.ops cfg)) i vs n = initChoice ps (caseFields (es.ops cfg)) i vs n
  select : ∀ ps sel i vs, cs.Valid cfg ps sel false vs →
    (selectCase sel i (cs.ops cfg) = none ∧ selectCase sel i (es.ops cfg) = none) ∨
    ∃ k f g v, selectCase sel i (cs.ops cfg) = some (i + k, f) ∧ selectCase sel i (es.ops cfg) = some (i + k, g) ∧
      vs[k]? = some v ∧ ∀ packed m n w, f.encode packed m ⟨ps, []⟩ v n w = g.encode packed m ⟨ps, []⟩ v n w

theorem CasesWrite.field {cfg : Cfg} {labels : List Val} {info : FieldInfo} {a b : Ty} {cs es : Cases}
    (h : FieldWrites cfg info a b) (hr : CasesWrite cfg cs es) :
    CasesWrite cfg (.field labels info a cs) (.field labels info b es) where
  contexts := by
    have := hr.contexts
    simp only [caseFields] at this
    simp only [Cases.ops, caseFields, List.filterMap_cons, List.map_cons, h.context, this]
  init ps i vs n := by
    cases vs with
    | nil => rfl
    | cons v vs =>
      have := hr.init
      simp only [caseFields] at this
      simp only [Cases.ops, caseFields, List.filterMap_cons, initChoice, h.init]
      congr 1
      funext n
      exact this _ _ _ _
  select ps sel i vs hv := by
    simp only [Cases.Valid] at hv
    obtain ⟨v, vs, rfl, h1, h2⟩ := hv
    simp only [Cases.ops, selectCase]
    by_cases hl : sel ∈ labels
    · rw [if_pos ⟨trivial, hl⟩] at h1
      refine .inr ⟨0, ⟨info, a.ops cfg⟩, ⟨info, b.ops cfg⟩, v, ?_, ?_, rfl, fun packed m n w => h.encode _ _ _ _ _ _ h1⟩
      · simp [hl]
      · simp [hl]
    · simp only [hl, decide_false, Bool.or_false] at h2
      rcases hr.select ps sel (i + 1) vs h2 with ⟨h3, h4⟩ | ⟨k, f, g, v, h3, h4, h5, h6⟩
      · exact .inl (by simp [hl, h3, h4])
      · refine .inr ⟨k + 1, f, g, v, ?_, ?_, by simpa using h5, h6⟩
        · simp [hl, h3]; omega
        · simp [hl, h4]; omega

theorem CasesWrite.empty {cfg : Cfg} {labels : List Val} {cs es : Cases} (hr : CasesWrite cfg cs es) :
    CasesWrite cfg (.empty labels cs) (.empty labels es) where
  contexts := hr.contexts
  init := hr.init
  select ps sel i vs hv := by
    simp only [Cases.Valid] at hv
    simp only [Cases.ops, selectCase]
    by_cases hl : sel ∈ labels
    · exact .inl (by simp [hl])
    · simp only [hl, decide_false, Bool.or_false] at hv
      simpa [hl] using hr.select ps sel i vs hv

theorem WritesAlike.codec {cfg : Cfg} {a b : Ty} {c e : Codec} (ha : a.ops cfg = c.ops) (hb : b.ops cfg = e.ops)
    (hc : c.createContext = e.createContext) (hi : ∀ v n, c.initContext v n = e.initContext v n)
    (hw : ∀ env v, a.Valid cfg env v → c.write v = e.write v)
    (hp : ∀ env v n, a.Valid cfg env v → c.writePacked v n = e.writePacked v n) : WritesAlike cfg a b where
  marshaler := by rw [ha, hb]; rfl
  packable := by rw [ha, hb]; rfl
  init env v n := by rw [ha, hb]; exact hi v n
  context := by rw [ha, hb]; exact hc
  same := {
    write := fun env v hv => by rw [ha, hb]; exact hw env v hv
    packed := fun env v n hv => by rw [ha, hb]; exact hp env v n hv
    init := fun env v n _ => by rw [ha, hb]; exact hi v n
    elem := fun env v w hv => by rw [ha, hb]; exact congrFun (hw env v hv) w
    context := fun _ _ _ => by rw [ha, hb]; exact hc }

theorem struct_writes {cfg : Cfg} {fs gs : Fields} (ps : List Val) (h : FieldsWrite cfg fs gs) :
    WritesAlike cfg (.struct ps fs) (.struct ps gs) := by
  refine WritesAlike.codec (c := structCodec cfg ps (fs.ops cfg)) (e := structCodec cfg ps (gs.ops cfg))
    (by simp only [Ty.ops]) (by simp only [Ty.ops]) ?_ ?_ ?_ ?_
  · simp only [structCodec, h.contexts]
  · intro v n
    cases v <;> simp only [structCodec, h.init]
  · intro env v hv
    simp only [Ty.Valid] at hv
    obtain ⟨qs, vs, rfl, hv⟩ := hv
    funext w
    simp only [structCodec, h.encode false qs 0 [] vs Node.new w hv]
  · intro env v n hv
    simp only [Ty.Valid] at hv
    obtain ⟨qs, vs, rfl, hv⟩ := hv
    funext w
    simp only [structCodec, h.encode true qs 0 [] vs n w hv]

theorem choice_writes {cfg : Cfg} {cs es : Cases} (ps : List Val) (sel : List Val → Val) (h : CasesWrite cfg cs es) :
    WritesAlike cfg (.choice ps sel cs) (.choice ps sel es) := by
  have key : ∀ qs vs, cs.Valid cfg qs (sel qs) false vs → ∀ packed n w,
      encodeChoice packed sel (cs.ops cfg) qs vs n w = encodeChoice packed sel (es.ops cfg) qs vs n w := by
    intro qs vs hv packed n w
    unfold encodeChoice
    rcases h.select qs (sel qs) 0 vs hv with ⟨h3, h4⟩ | ⟨k, f, g, v, h3, h4, h5, h6⟩
    · simp only [h3, h4]
    · simp only [h3, h4, Nat.zero_add, h5, h6]
  refine WritesAlike.codec (c := choiceCodec cfg ps sel (cs.ops cfg)) (e := choiceCodec cfg ps sel (es.ops cfg))
    (by simp only [Ty.ops]) (by simp only [Ty.ops]) ?_ ?_ ?_ ?_
  · simp only [choiceCodec, h.contexts]
  · intro v n
    cases v <;> simp only [choiceCodec, h.init]
  · intro env v hv
    simp only [Ty.Valid] at hv
    obtain ⟨qs, vs, rfl, hv⟩ := hv
    funext w
    simp only [choiceCodec, key qs vs hv]
  · intro env v n hv
    simp only [Ty.Valid] at hv
    obtain ⟨qs, vs, rfl, hv⟩ := hv
    funext w
    simp only [choiceCodec, key qs vs hv]

theorem union_writes {cfg : Cfg} {fs gs : Fields} (ps : List Val) (h : FieldsWrite cfg fs gs) :
    WritesAlike cfg (.union ps fs) (.union ps gs) := by
  have key : ∀ qs sel vs, fs.ValidMember cfg qs sel vs → ∀ packed n w,
      encodeMember packed (fs.ops cfg) qs sel vs n w = encodeMember packed (gs.ops cfg) qs sel vs n w := by
    intro qs sel vs hv packed n w
    obtain ⟨f, g, v, h1, h2, h3, h4⟩ := h.member qs sel vs hv
    simp only [encodeMember, h1, h2, h3, h4]
  refine WritesAlike.codec (c := unionCodec cfg ps (fs.ops cfg)) (e := unionCodec cfg ps (gs.ops cfg))
    (by simp only [Ty.ops]) (by simp only [Ty.ops]) rfl (fun _ _ => rfl) ?_ ?_
  · intro env v hv
    simp only [Ty.Valid] at hv
    obtain ⟨qs, sel, vs, rfl, _, hv⟩ := hv
    funext w
    simp only [unionCodec, key qs sel vs hv]
  · intro env v n hv
    simp only [Ty.Valid] at hv
    obtain ⟨qs, sel, vs, rfl, _, hv⟩ := hv
    funext w
    simp only [unionCodec, key qs sel vs hv]

mutual
theorem DTy.close_writes {cfg : Cfg} {σ τ : Nat → Ty} (h : ∀ j, WritesSame cfg (σ j) (τ j)) :
    ∀ t : DTy, InArrays t → WritesAlike cfg (t.close σ) (t.close τ)
  | .ref _, ht => (ht : False).elim
  | .scalar _, _ => WritesAlike.refl cfg _
  | .enum _ _, _ => WritesAlike.refl cfg _
  | .bitmask _ _, _ => WritesAlike.refl cfg _
  | .struct ps fs, ht => by
    simp only [DTy.close]
    exact struct_writes ps (DFields.close_writes h fs (by simpa only [InArrays] using ht))
  | .choice ps sel cs, ht => by
    simp only [DTy.close]
    exact choice_writes ps sel (DCases.close_writes h cs (by simpa only [InArrays] using ht))
  | .union ps fs, ht => by
    simp only [DTy.close]
    exact union_writes ps (DFields.close_writes h fs (by simpa only [InArrays] using ht))
theorem DFields.close_writes {cfg : Cfg} {σ τ : Nat → Ty} (h : ∀ j, WritesSame cfg (σ j) (τ j)) :
    ∀ fs : DFields, FieldsInArrays fs → FieldsWrite cfg (fs.close σ) (fs.close τ)
  | .nil, _ => ⟨rfl, fun _ _ _ _ _ => rfl, fun _ _ _ _ _ _ _ _ => rfl, fun _ _ _ hv => by
      simp only [DFields.close, Fields.ValidMember] at hv⟩
  | .cons info ty rest, ht => by
    simp only [FieldsInArrays] at ht
    simp only [DFields.close]
    refine FieldsWrite.cons ?_ (DFields.close_writes h rest ht.2)
    rcases ht.1 with h' | h'
    · cases ty with
      | ref j => exact FieldWrites.array info (h j) h'.1
      | _ => cases h'.2
    · exact FieldWrites.alike info (DTy.close_writes h ty h')
theorem DCases.close_writes {cfg : Cfg} {σ τ : Nat → Ty} (h : ∀ j, WritesSame cfg (σ j) (τ j)) :
    ∀ cs : DCases, CasesInArrays cs → CasesWrite cfg (cs.close σ) (cs.close τ)
  | .nil, _ => ⟨rfl, fun _ _ _ _ => rfl, fun _ _ _ _ _ => .inl ⟨rfl, rfl⟩⟩
  | .field labels info ty rest, ht => by
    simp only [CasesInArrays] at ht
    simp only [DCases.close]
    refine CasesWrite.field ?_ (DCases.close_writes h rest ht.2)
    rcases ht.1 with h' | h'
    · cases ty with
      | ref j => exact FieldWrites.array info (h j) h'.1
      | _ => cases h'.2
    · exact FieldWrites.alike info (DTy.close_writes h ty h')
  | .empty labels rest, ht => by
    simp only [CasesInArrays] at ht
    simp only [DCases.close]
    exact CasesWrite.empty (DCases.close_writes h rest ht)
end

/-- An object that is complete after `n` steps is written in the same way by all that allow at least `n` calls. -/
theorem unfoldDecl_writes (cfg : Cfg) (d : Decls) (hd : ∀ i, InArrays (d i)) (below : Nat → Ty) :
    ∀ n m i, n ≤ m → WritesSame cfg (unfoldDecl d (fun _ => noValues) n i) (unfoldDecl d below m i)
  | 0, _, _, _ => noValues_writes cfg _
  | n + 1, 0, _, h => by omega
  | n + 1, m + 1, i, h =>
    (DTy.close_writes (fun j => unfoldDecl_writes cfg d hd below n m j (by omega)) (d i) (hd i)).same

end Zs
