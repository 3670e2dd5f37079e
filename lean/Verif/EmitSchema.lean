import Verif.EmitImpl
import Verif.SchemaCodec

/-!
# Every schema is something the generator can look at

For a schema of the model, the fields and types as the generator sees them.  They show that the
theorems on emitted code are about all schemas.
-/

namespace Zs

namespace Emit

open Spec

/-- A builtin type, as the generator sees it. -/
def refScalar : Scalar → RefTy
  | .bool => .builtin .bool 0 none
  | .string => .builtin .string 0 none
  | .bytes => .builtin .bytes 0 none
  | .extern => .builtin .extern 0 none
  | .float16 => .builtin .float16 0 none
  | .float32 => .builtin .float32 0 none
  | .float64 => .builtin .float64 0 none
  | .uint 8 => .builtin .uint8 0 none
  | .uint 16 => .builtin .uint16 0 none
  | .uint 32 => .builtin .uint32 0 none
  | .uint 64 => .builtin .uint64 0 none
  | .uint n => .builtin .bit n none
  | .int 8 => .builtin .int8 0 none
  | .int 16 => .builtin .int16 0 none
  | .int 32 => .builtin .int32 0 none
  | .int 64 => .builtin .int64 0 none
  | .int n => .builtin .int n none
  | .bits n => .builtin .bit n none
  | .ints n => .builtin .int n none
  | .bitsDyn len => .builtin .bit 0 (some ⟨fun env => .ok (len env), true⟩)
  | .intsDyn len => .builtin .int 0 (some ⟨fun env => .ok (len env), true⟩)
  | .varuint16 => .builtin .varuint16 0 none
  | .varuint32 => .builtin .varuint32 0 none
  | .varuint64 => .builtin .varuint64 0 none
  | .varuint => .builtin .varuint 0 none
  | .varsize => .builtin .varsize 0 none
  | .varint16 => .builtin .varint16 0 none
  | .varint32 => .builtin .varint32 0 none
  | .varint64 => .builtin .varint64 0 none
  | .varint => .builtin .varint 0 none

theorem refScalar_ok {E : Env → Prop} {s : Scalar} (h : s.WidthOk) :
    ∃ name bits length, refScalar s = .builtin name bits length ∧ IsScalar E name bits length s := by
  cases s with
  | uint n =>
    simp only [Scalar.WidthOk, List.mem_cons, List.not_mem_nil, or_false] at h
    rcases h with rfl | rfl | rfl | rfl
    · exact ⟨_, _, _, rfl, .uint8⟩
    · exact ⟨_, _, _, rfl, .uint16⟩
    · exact ⟨_, _, _, rfl, .uint32⟩
    · exact ⟨_, _, _, rfl, .uint64⟩
  | int n =>
    simp only [Scalar.WidthOk, List.mem_cons, List.not_mem_nil, or_false] at h
    rcases h with rfl | rfl | rfl | rfl
    · exact ⟨_, _, _, rfl, .int8⟩
    · exact ⟨_, _, _, rfl, .int16⟩
    · exact ⟨_, _, _, rfl, .int32⟩
    · exact ⟨_, _, _, rfl, .int64⟩
  | bits n => exact ⟨_, _, _, rfl, .bits n h.1⟩
  | ints n => exact ⟨_, _, _, rfl, .ints n h.1⟩
  | bitsDyn len => exact ⟨_, _, _, rfl, .bitsDyn _ len (fun _ _ => rfl) (by simp)⟩
  | intsDyn len => exact ⟨_, _, _, rfl, .intsDyn _ len (fun _ _ => rfl) (by simp)⟩
  | _ => exact ⟨_, _, _, rfl, by constructor⟩

/-- A reference to a type, as the generator sees it. -/
def refTy (cfg : Cfg) : Ty → RefTy
  | .scalar s => refScalar s
  | .enum base items => .compound (enumCodec cfg base items) 0
  | .bitmask base first => .compound (bitmaskCodec cfg base first) 0
  | .struct params fields => .compound (structCodec cfg params (fields.ops cfg)) params.length
  | .choice params sel cases => .compound (choiceCodec cfg params sel (cases.ops cfg)) params.length
  | .union params members => .compound (unionCodec cfg params (members.ops cfg)) params.length

theorem refTy_ok {cfg : Cfg} {E : Env → Prop} {t : Ty} (h : t.Emittable) :
    IsType cfg E (refTy cfg t) (t.ops cfg) := by
  cases t with
  | scalar s =>
    obtain ⟨name, bits, length, h1, h2⟩ := refScalar_ok (E := E) (by simpa only [Ty.Emittable] using h)
    rw [show refTy cfg (.scalar s) = refScalar s from rfl, h1]
    simpa only [Ty.ops] using IsType.scalar h2
  | _ => simpa only [refTy, Ty.ops] using IsType.compound _ _

/-- A field, as the generator sees it. -/
def emitField (info : FieldInfo) (ref : RefTy) : Field where
  ty := ref
  optional := info.optional
  clause := info.clause.map fun c env => .ok (c env)
  alignment := info.alignment
  offset := info.offset
  array := info.array.map fun a => ⟨a.isPacked, a.length.map fun l env => .ok (l env)⟩
  args := info.args.map fun b => ⟨fun env i => .ok (b env i), info.array.isSome⟩
  isOffsetField := info.isOffsetField

theorem areArgs_emit {E : Env → Prop} {u : Bool} : ∀ {bs : List (Env → Nat → Val)},
    (u = false → ∀ b ∈ bs, ∀ env i j, b env i = b env j) →
    AreArgs E (bs.map fun b => ⟨fun env i => .ok (b env i), u⟩) bs
  | [], _ => trivial
  | b :: bs, h => ⟨fun _ _ _ => rfl, fun hu env i j _ => h hu b (List.mem_cons_self ..) env i j,
      areArgs_emit fun hu b hb => h hu b (List.mem_cons_of_mem _ hb)⟩

theorem emitField_ok {cfg : Cfg} {E : Env → Prop} {info : FieldInfo} {t : Ty} (hi : FieldInfo.Emittable info t)
    (ht : t.Emittable) : Denotes cfg E (emitField info (refTy cfg t)) ⟨info, t.ops cfg⟩ where
  ty := refTy_ok ht
  optional := rfl
  clause := by
    show IsExpr E (info.clause.map _) info.clause
    cases info.clause with
    | none => trivial
    | some c => exact fun _ _ => rfl
  alignment := rfl
  offset := rfl
  array := by
    show IsArray E (info.array.map _) info.array
    cases info.array with
    | none => trivial
    | some a =>
      refine ⟨rfl, ?_⟩
      show IsExpr E (a.length.map _) a.length
      cases a.length with
      | none => trivial
      | some l => exact fun _ _ => rfl
  args := areArgs_emit fun hu => hi.2 (by
    cases h : info.array with
    | none => rfl
    | some a => rw [h] at hu; simp at hu)
  isOffsetField := rfl
  arity hne := by
    have hne' : info.args ≠ [] := fun h => hne (by simp [emitField, h])
    have hl : (emitField info (refTy cfg t)).args.length = info.args.length := by simp [emitField]
    have hc := hi.1 hne'
    cases t with
    | struct ps fs =>
      have hc : ps.length = info.args.length := by simpa [paramCount] using hc
      exact ⟨structCodec cfg ps (fs.ops cfg), by rw [hl, ← hc]; rfl, hc.trans hl.symm⟩
    | choice ps sel cs =>
      have hc : ps.length = info.args.length := by simpa [paramCount] using hc
      exact ⟨choiceCodec cfg ps sel (cs.ops cfg), by rw [hl, ← hc]; rfl, hc.trans hl.symm⟩
    | union ps fs =>
      have hc : ps.length = info.args.length := by simpa [paramCount] using hc
      exact ⟨unionCodec cfg ps (fs.ops cfg), by rw [hl, ← hc]; rfl, hc.trans hl.symm⟩
    | _ => simp [paramCount] at hc
  index ha a hm := by
    have : info.array = none := by
      cases h : info.array with
      | none => rfl
      | some b => simp [emitField, h] at ha
    simp only [emitField, List.mem_map] at hm
    obtain ⟨b, -, rfl⟩ := hm
    simp [this]

/-- The fields of a structure or union. -/
def emitFields (cfg : Cfg) : Fields → List Field
  | .nil => []
  | .cons info ty rest => emitField info (refTy cfg ty) :: emitFields cfg rest

theorem emitFields_ok {cfg : Cfg} {E : Nat → Env → Prop} : ∀ {i : Nat} {fs : Fields}, fs.Emittable →
    DenoteAll cfg E i (emitFields cfg fs) (fs.ops cfg)
  | _, .nil, _ => by simp [emitFields, Fields.ops, DenoteAll]
  | _, .cons info ty rest, h => by
    simp only [Fields.Emittable] at h
    simp only [emitFields, Fields.ops, DenoteAll]
    exact ⟨emitField_ok h.1 h.2.1, emitFields_ok h.2.2⟩

/-- The cases of a choice. -/
def emitCases (cfg : Cfg) : Cases → List Case
  | .nil => []
  | .field labels info ty rest => ⟨labels, some (emitField info (refTy cfg ty))⟩ :: emitCases cfg rest
  | .empty labels rest => ⟨labels, none⟩ :: emitCases cfg rest

theorem emitCases_ok {cfg : Cfg} {E : Nat → Env → Prop} : ∀ {i : Nat} {cs : Cases}, cs.Emittable →
    DenoteCases cfg E i (emitCases cfg cs) (cs.ops cfg)
  | _, .nil, _ => by simp [emitCases, Cases.ops, DenoteCases]
  | _, .field labels info ty rest, h => by
    simp only [Cases.Emittable] at h
    simp only [emitCases, Cases.ops, DenoteCases]
    exact ⟨trivial, emitField_ok h.1 h.2.1, emitCases_ok h.2.2⟩
  | _, .empty labels rest, h => by
    simp only [Cases.Emittable] at h
    simp only [emitCases, Cases.ops, DenoteCases]
    exact ⟨trivial, emitCases_ok h⟩

/-! ## Valid objects have the Rust types -/

/-- The shape of a value. -/
def shape : Val → Nat
  | .bool _ => 0
  | .str _ => 1
  | .bytes _ => 2
  | .extern _ => 3
  | .f32 _ => 4
  | .f64 _ => 5
  | .nat _ => 6
  | .int _ => 7
  | _ => 8

theorem hasRust_shape {r : RustTy} {a b : Val} (h : shape a = shape b) (ha : HasRust r a) :
    HasRust r b := by
  cases r <;> cases a <;> first | exact absurd ha id | skip
  all_goals cases b <;> first | trivial | (simp [shape] at h)

theorem shape_inRange {cfg : Cfg} {s : Scalar} {env : Env} {v : Val} (hv : s.InRange cfg env v) :
    shape s.dflt = shape v := by
  cases s <;> cases v <;> first | rfl | exact absurd hv id

theorem hasRust_dflt {E : Env → Prop} {name : BName} {bits : Nat} {length : Option LenExpr} {s : Scalar}
    (h : IsScalar E name bits length s) : HasRust (rustName name) s.dflt := by
  cases h <;> trivial

theorem hasRust_type {cfg : Cfg} {E : Env → Prop} {ref : RefTy} {ops : TypeOps}
    (h : IsType cfg E ref ops) {v : Val}
    (hv : ops.isMarshaler = false → shape ops.dflt = shape v) : HasRust ref.rust v := by
  cases h with
  | compound c n => trivial
  | scalar hs => exact hasRust_shape (hv rfl) (hasRust_dflt hs)

theorem shape_valid {cfg : Cfg} {t : Ty} {env : Env} {v : Val} (hv : t.Valid cfg env v)
    (hm : (t.ops cfg).isMarshaler = false) : shape (t.ops cfg).dflt = shape v := by
  cases t with
  | scalar s =>
    simp only [Ty.Valid] at hv
    simp only [Ty.ops]
    exact shape_inRange hv
  | _ => simp only [Ty.ops, Codec.ops, Bool.true_eq_false] at hm

theorem hasType_default {cfg : Cfg} {E : Env → Prop} {g : Field} {f : FieldOps} (h : Denotes cfg E g f) :
    HasType g f.dflt := by
  have ha := array_isSome h id
  rw [inScope_id] at ha
  unfold HasType HasContent FieldOps.dflt
  rw [h.optional, ha]
  split
  · exact .inl rfl
  · split
    · exact ⟨_, rfl⟩
    · exact hasRust_type h.ty fun _ => rfl

theorem haveTypes_default {cfg : Cfg} {E : Nat → Env → Prop} : ∀ {i : Nat} {gs : List Field} {fs : List FieldOps},
    DenoteAll cfg E i gs fs → HaveTypes gs (fs.map FieldOps.dflt)
  | _, [], [], _ => trivial
  | _, [], _ :: _, h => h.elim
  | _, _ :: _, [], h => h.elim
  | _, _ :: _, _ :: _, h => ⟨hasType_default h.1, haveTypes_default h.2⟩

theorem default_eq (cfg : Cfg) (info : FieldInfo) (t : Ty) :
    info.default t.default = FieldOps.dflt ⟨info, t.ops cfg⟩ := by
  rw [← Ty.dflt_eq cfg t]
  rfl

theorem hasContent_valid {cfg : Cfg} {E : Env → Prop} {g : Field} {info : FieldInfo} {t : Ty}
    (h : Denotes cfg E g ⟨info, t.ops cfg⟩) {d : Val} {env : Env} {x : Val}
    (hv : info.ContentValid (t.Valid cfg) d env x) : HasContent g x := by
  have ha := array_isSome h id
  rw [inScope_id] at ha
  unfold HasContent
  rw [ha]
  unfold FieldInfo.ContentValid at hv
  cases hi : info.array with
  | none =>
    rw [hi] at hv
    exact hasRust_type h.ty (shape_valid hv.1)
  | some a =>
    rw [hi] at hv
    obtain ⟨xs, rfl, -⟩ := hv
    exact ⟨xs, rfl⟩

theorem hasType_valid {cfg : Cfg} {E : Env → Prop} {g : Field} {info : FieldInfo} {t : Ty}
    (h : Denotes cfg E g ⟨info, t.ops cfg⟩) {env : Env} {v : Val}
    (hv : info.FieldValid (t.Valid cfg) t.default env v) : HasType g v := by
  unfold FieldInfo.FieldValid at hv
  split at hv
  · unfold HasType
    rw [h.optional]
    show if info.optional = true then _ else _
    split at hv
    · rename_i ho
      rw [if_pos ho]
      rcases hv with hv | ⟨x, hx, hv⟩
      · exact .inl hv
      · exact .inr ⟨x, hx, hasContent_valid h hv⟩
    · rename_i ho
      rw [if_neg ho]
      exact hasContent_valid h hv
  · rw [hv, default_eq cfg]
    exact hasType_default h

theorem haveTypes_valid {cfg : Cfg} {E : Nat → Env → Prop} : ∀ {i : Nat} {fs : Fields} {gs : List Field},
    DenoteAll cfg E i gs (fs.ops cfg) → ∀ {ps done vs : List Val}, fs.Valid cfg ps done vs →
    HaveTypes gs vs
  | _, .nil, [], _, _, _, _, hv => by
    simp only [Fields.Valid] at hv; subst hv; trivial
  | _, .nil, _ :: _, h, _, _, _, _ => by simp [Fields.ops, DenoteAll] at h
  | _, .cons _ _ _, [], h, _, _, _, _ => by simp [Fields.ops, DenoteAll] at h
  | _, .cons info ty rest, g :: gs, h, _, _, _, hv => by
    simp only [Fields.ops, DenoteAll] at h
    simp only [Fields.Valid] at hv
    obtain ⟨v, vs', rfl, h1, h2⟩ := hv
    exact ⟨hasType_valid h.1 h1, haveTypes_valid h.2 h2⟩

theorem haveTypes_defaults {cfg : Cfg} {E : Nat → Env → Prop} : ∀ {i : Nat} {fs : Fields} {gs : List Field},
    DenoteAll cfg E i gs (fs.ops cfg) → HaveTypes gs fs.defaults
  | _, .nil, [], _ => by simp [Fields.defaults, HaveTypes]
  | _, .nil, _ :: _, h => by simp [Fields.ops, DenoteAll] at h
  | _, .cons _ _ _, [], h => by simp [Fields.ops, DenoteAll] at h
  | _, .cons info ty rest, g :: gs, h => by
    simp only [Fields.ops, DenoteAll] at h
    simp only [Fields.defaults]
    rw [default_eq cfg]
    exact ⟨hasType_default h.1, haveTypes_defaults h.2⟩

theorem haveTypes_member {cfg : Cfg} {E : Nat → Env → Prop} : ∀ {i : Nat} {fs : Fields} {gs : List Field},
    DenoteAll cfg E i gs (fs.ops cfg) → ∀ {ps : List Val} {sel : Nat} {vs : List Val},
    fs.ValidMember cfg ps sel vs → HaveTypes gs vs
  | _, .nil, _, _, _, _, _, hv => by simp [Fields.ValidMember] at hv
  | _, .cons _ _ _, [], h, _, _, _, _ => by simp [Fields.ops, DenoteAll] at h
  | _, .cons info ty rest, g :: gs, h, _, sel, _, hv => by
    simp only [Fields.ops, DenoteAll] at h
    cases sel with
    | zero =>
      simp only [Fields.ValidMember] at hv
      obtain ⟨v, vs', rfl, h1, rfl⟩ := hv
      exact ⟨hasType_valid h.1 h1, haveTypes_defaults h.2⟩
    | succ sel =>
      simp only [Fields.ValidMember] at hv
      obtain ⟨v, vs', rfl, rfl, h2⟩ := hv
      rw [default_eq cfg]
      exact ⟨hasType_default h.1, haveTypes_member h.2 h2⟩

/-- The field of a case, if there is one, comes first. -/
theorem choiceFields_cons (c : Case) (cs : List Case) :
    choiceFields (c :: cs) = c.field.toList ++ choiceFields cs := by
  unfold choiceFields
  cases h : c.field with
  | none => rw [List.filterMap_cons_none h]; rfl
  | some g => rw [List.filterMap_cons_some h]; rfl

theorem haveTypes_cases {cfg : Cfg} {E : Nat → Env → Prop} : ∀ {i : Nat} {ds : Cases} {cs : List Case},
    DenoteCases cfg E i cs (ds.ops cfg) → ∀ {ps : List Val} {sel : Val} {taken : Bool} {vs : List Val},
    ds.Valid cfg ps sel taken vs → HaveTypes (choiceFields cs) vs
  | _, .nil, [], _, _, _, _, _, hv => by
    simp only [Cases.Valid] at hv; subst hv; trivial
  | _, .nil, _ :: _, h, _, _, _, _, _ => by simp [Cases.ops, DenoteCases] at h
  | _, .field _ _ _ _, [], h, _, _, _, _, _ => by simp [Cases.ops, DenoteCases] at h
  | _, .empty _ _, [], h, _, _, _, _, _ => by simp [Cases.ops, DenoteCases] at h
  | _, .field labels info ty rest, c :: cs, h, _, _, _, _, hv => by
    simp only [Cases.ops, DenoteCases] at h
    simp only [Cases.Valid] at hv
    obtain ⟨v, vs', rfl, h1, h2⟩ := hv
    rw [choiceFields_cons]
    obtain ⟨-, hf⟩ := h
    cases hc : c.field with
    | none => rw [hc] at hf; exact hf.elim
    | some g =>
      rw [hc] at hf
      obtain ⟨hf, hd⟩ := hf
      refine ⟨?_, haveTypes_cases hd h2⟩
      split at h1
      · exact hasType_valid hf h1
      · rw [h1, default_eq cfg]; exact hasType_default hf
  | _, .empty labels rest, c :: cs, h, _, _, _, _, hv => by
    simp only [Cases.ops, DenoteCases] at h
    simp only [Cases.Valid] at hv
    rw [choiceFields_cons]
    obtain ⟨-, hf⟩ := h
    cases hc : c.field with
    | none => rw [hc] at hf; exact haveTypes_cases hf hv
    | some g => rw [hc] at hf; exact hf.elim

theorem haveTypes_caseDefaults {cfg : Cfg} {E : Nat → Env → Prop} : ∀ {i : Nat} {ds : Cases} {cs : List Case},
    DenoteCases cfg E i cs (ds.ops cfg) → HaveTypes (choiceFields cs) ds.defaults
  | _, .nil, [], _ => by simp [Cases.defaults, choiceFields, HaveTypes]
  | _, .nil, _ :: _, h => by simp [Cases.ops, DenoteCases] at h
  | _, .field _ _ _ _, [], h => by simp [Cases.ops, DenoteCases] at h
  | _, .empty _ _, [], h => by simp [Cases.ops, DenoteCases] at h
  | _, .field labels info ty rest, c :: cs, h => by
    simp only [Cases.ops, DenoteCases] at h
    simp only [Cases.defaults]
    rw [choiceFields_cons, default_eq cfg]
    obtain ⟨-, hf⟩ := h
    cases hc : c.field with
    | none => rw [hc] at hf; exact hf.elim
    | some g =>
      rw [hc] at hf
      obtain ⟨hf, hd⟩ := hf
      exact ⟨hasType_default hf, haveTypes_caseDefaults hd⟩
  | _, .empty labels rest, c :: cs, h => by
    simp only [Cases.ops, DenoteCases] at h
    simp only [Cases.defaults]
    rw [choiceFields_cons]
    obtain ⟨-, hf⟩ := h
    cases hc : c.field with
    | none => rw [hc] at hf; exact haveTypes_caseDefaults hf
    | some g => rw [hc] at hf; exact hf.elim

theorem shape_ofInt {s : Scalar} (h : s.isPackable = true) (x : Int) :
    shape s.dflt = shape (s.ofInt x) := by
  cases s <;> first | rfl | exact absurd h (by simp [Scalar.isPackable])

/-! ## Objects behind `self` -/

theorem generated_ops {cfg : Cfg} {E : Nat → Env → Prop} {t : Ty} {b : Bodies} {c : Codec} {ok : Act → Core → Prop}
    (h : Generated cfg E t b c ok) : t.ops cfg = c.ops := by
  cases h <;> simp only [Ty.ops]

theorem generated_implements {cfg : Cfg} {E : Nat → Env → Prop} {t : Ty} {b : Bodies} {c : Codec} {ok : Act → Core → Prop}
    (h : Generated cfg E t b c ok) : Implements cfg b c (viewOf t) ok := by
  cases h with
  | struct h => exact struct_implements _ h
  | choice h => exact choice_implements _ _ h
  | union h => exact union_implements _ h
  | enum h hp items => exact number_implements h hp _ _ _ false
  | bitmask h hp first => exact number_implements h hp _ _ _ true

theorem haveTypes_length : ∀ {gs : List Field} {vs : List Val}, HaveTypes gs vs → vs.length = gs.length
  | [], [], _ => rfl
  | [], _ :: _, h => h.elim
  | _ :: _, [], h => h.elim
  | _ :: _, _ :: _, h => by simp [haveTypes_length h.2]

theorem generated_valid {cfg : Cfg} {E : Nat → Env → Prop} {t : Ty} {b : Bodies} {c : Codec}
    {ok : Act → Core → Prop} (h : Generated cfg E t b c ok) {env : Env} {k : Core}
    (hv : t.Valid cfg env (viewOf t k)) (hm : Met cfg E t k) : ok .write k ∧ ok .bitsize k := by
  cases h with
  | struct h =>
    simp only [Ty.Valid, viewOf, asObj, Val.obj.injEq] at hv
    obtain ⟨ps, vs, ⟨rfl, rfl⟩, hv⟩ := hv
    have ht := haveTypes_valid h hv
    have hm' := fun i (hi : i < _) => hm i (haveTypes_length ht ▸ hi)
    exact ⟨⟨ht, hm'⟩, ⟨ht, hm'⟩⟩
  | choice h =>
    simp only [Ty.Valid, viewOf, asObj, Val.obj.injEq] at hv
    obtain ⟨ps, vs, ⟨rfl, rfl⟩, hv⟩ := hv
    exact ⟨⟨haveTypes_cases h hv, hm⟩, ⟨haveTypes_cases h hv, hm⟩⟩
  | union h =>
    simp only [Ty.Valid, viewOf, asUnion, Val.union.injEq] at hv
    obtain ⟨ps, sel, vs, ⟨rfl, rfl, rfl⟩, -, hv⟩ := hv
    exact ⟨⟨haveTypes_member h hv, fun _ => hm⟩, ⟨haveTypes_member h hv, fun _ => hm⟩⟩
  | @enum name _ _ base h hp items =>
    suffices h : IsNumber (rustName name) (enumNumber base items) k from ⟨h, h⟩
    simp only [Ty.Valid, viewOf, asNumber] at hv
    obtain ⟨i, x, hk, hx, -⟩ := hv
    split at hk
    · rename_i v hf
      subst hk
      exact ⟨_, base.ofInt x, hf, by simp only [enumNumber, hx],
        hasRust_shape (shape_ofInt hp x) (hasRust_dflt h)⟩
    · cases hk
  | @bitmask name _ _ base h hp first =>
    suffices h : IsNumber (rustName name) .ok k from ⟨h, h⟩
    simp only [Ty.Valid, viewOf, asNumber] at hv
    split at hv
    · rename_i v hf
      exact ⟨v, v, hf, rfl, hasRust_shape (shape_inRange hv) (hasRust_dflt h)⟩
    · cases base <;> exact hv.elim

/-- The fields read so far stay as they are. -/
theorem decodeFields_prefix {cfg : Cfg} {packed : Bool} {ps : List Val} : ∀ {fs : List FieldOps} {i : Nat}
    {done olds : List Val} {n : Node} {r : Reader} {out : List Val} {n' : Node} {r' : Reader},
    decodeFields cfg packed ps fs i done olds n r = .ok ((out, n'), r') →
    ∃ tl, out = done ++ tl ∧ tl.length = olds.length
  | [], _, done, [], n, r, out, n', r', h => by
    simp only [decodeFields, Res.pure_eq, Res.ok.injEq, Prod.mk.injEq] at h
    exact ⟨[], by simp [h.1.1], rfl⟩
  | [], _, _, _ :: _, _, _, _, _, _, h => by simp [decodeFields] at h
  | _ :: _, _, _, [], _, _, _, _, _, h => by simp [decodeFields] at h
  | f :: fs, i, done, v :: vs, n, r, out, n', r', h => by
    simp only [decodeFields] at h
    cases hd : f.decode cfg packed i ⟨ps, done⟩ v n r with
    | ok x =>
      rw [hd] at h
      obtain ⟨tl, h1, h2⟩ := decodeFields_prefix (fs := fs) h
      exact ⟨x.1.1 :: tl, by rw [h1]; simp, by simp [h2]⟩
    | err e => rw [hd] at h; cases h
    | panic => rw [hd] at h; cases h

theorem readsIn_of {cfg : Cfg} {E : Nat → Env → Prop} {packed : Bool} {ps : List Val} :
    ∀ {fs : List FieldOps} {i : Nat} {done olds : List Val} {n : Node} {r : Reader} {out : List Val}
    {n' : Node} {r' : Reader},
    decodeFields cfg packed ps fs i done olds n r = .ok ((out, n'), r') → done.length = i →
    (∀ j < out.length, E j ⟨ps, out.take j⟩) →
    ReadsIn cfg E packed ps fs i done olds n r
  | [], _, _, [], _, _, _, _, _, _, _, _ => by simp [ReadsIn]
  | [], _, _, _ :: _, _, _, _, _, _, h, _, _ => by simp [decodeFields] at h
  | _ :: _, _, _, [], _, _, _, _, _, h, _, _ => by simp [decodeFields] at h
  | f :: fs, i, done, v :: vs, n, r, out, n', r', h, hl, hE => by
    obtain ⟨tl, h1, h2⟩ := decodeFields_prefix h
    refine ⟨?_, fun x hx => ?_⟩
    · have := hE i (by rw [h1, List.length_append, h2, List.length_cons]; omega)
      rwa [h1, ← hl, List.take_left'  rfl, hl] at this
    · simp only [decodeFields, hx, Res.ok_bind] at h
      exact readsIn_of h (by simp [hl]) hE

theorem generated_default {cfg : Cfg} {E : Nat → Env → Prop} {t : Ty} {b : Bodies} {c : Codec}
    {ok : Act → Core → Prop} (h : Generated cfg E t b c ok) {env : Env} {k : Core}
    (hv : t.Valid cfg env (viewOf t k)) (hm : Met cfg E t k) {k' : Core}
    (hk : viewOf t k' = t.default.withParams (viewOf t k).params) (hn : k'.node = Node.new) {r : Reader}
    (hr : c.read (viewOf t k') k'.r = .ok (viewOf t k, r)) : ok (.read false) k' := by
  cases h with
  | struct h =>
    simp only [viewOf, asObj, Ty.default, Val.withParams, Val.obj.injEq] at hk
    refine ⟨?_, ?_⟩
    · rw [hk.2]
      exact haveTypes_defaults h
    · simp only [structCodec, viewOf, asObj] at hr
      rw [hn]
      cases hd : decodeFields cfg false k'.params (Fields.ops cfg _) 0 [] k'.fields Node.new k'.r with
      | ok x =>
        rw [hd] at hr
        simp only [Res.ok_bind, Res.pure_eq, Res.ok.injEq, Prod.mk.injEq, Val.obj.injEq] at hr
        refine readsIn_of hd rfl ?_
        rw [hr.1.1, hr.1.2]
        exact hm
      | err e => rw [hd] at hr; cases hr
      | panic => rw [hd] at hr; cases hr
  | choice h =>
    simp only [viewOf, asObj, Ty.default, Val.withParams, Val.obj.injEq] at hk
    refine ⟨?_, ?_⟩
    · rw [hk.2]
      exact haveTypes_caseDefaults h
    · rw [hk.1]; exact hm
  | union h =>
    simp only [viewOf, asUnion, Ty.default, Val.withParams, Val.union.injEq] at hk
    refine ⟨?_, fun i r0 hi hlt => ?_⟩
    · rw [hk.2.2]
      exact haveTypes_defaults h
    · simp only [unionCodec, viewOf, asUnion, hi, Res.ok_bind] at hr
      rw [hk.1]
      unfold fromU32 at hr
      split at hr
      · simp only [Res.pure_eq, Res.ok_bind] at hr
        unfold decodeMember at hr
        split at hr
        · rename_i f old _ _
          cases hd : f.decode cfg false i ⟨k'.params, []⟩ old Node.new r0 with
          | ok x =>
            rw [hd] at hr
            simp only [Res.ok_bind, Res.pure_eq, Res.ok.injEq, Prod.mk.injEq, Val.union.injEq] at hr
            rw [hr.1.2.1]
            exact hm
          | err e => rw [hd] at hr; cases hr
          | panic => rw [hd] at hr; cases hr
        · cases hr
      · cases hr
  | @enum name _ _ base h hp items =>
    simp only [Ty.Valid] at hv
    obtain ⟨i, x, -, hx, -⟩ := hv
    have hi : 0 < (enumValues items).length := by
      have := (List.getElem?_eq_some_iff.1 hx).1
      omega
    simp only [viewOf, asNumber, Ty.default, Val.withParams] at hk
    split at hk
    · rename_i v hf
      subst hk
      exact ⟨_, base.ofInt (enumValues items)[0], hf,
        by simp only [enumNumber, List.getElem?_eq_getElem hi],
        hasRust_shape (shape_ofInt hp _) (hasRust_dflt h)⟩
    · cases hk
  | @bitmask name _ _ base h hp first =>
    have hw : ∀ ps, (base.ofInt first).withParams ps = base.ofInt first := by
      intro ps; cases base <;> rfl
    simp only [viewOf, asNumber, Ty.default, hw] at hk
    split at hk
    · rename_i v hf
      subst hk
      exact ⟨_, _, hf, rfl, hasRust_shape (shape_ofInt hp _) (hasRust_dflt h)⟩
    · exact absurd hk (by cases base <;> simp [Scalar.ofInt])

theorem every_generated (cfg : Cfg) (E : Nat → Env → Prop) {t : Ty} (ht : t.Emittable) (hc : t.isCompound = true) :
    ∃ b c ok, Generated cfg E t b c ok := by
  cases t with
  | scalar s => simp [Ty.isCompound] at hc
  | struct ps fs => exact ⟨_, _, _, .struct (emitFields_ok (by simpa only [Ty.Emittable] using ht))⟩
  | choice ps sel cs => exact ⟨_, _, _, .choice (emitCases_ok (by simpa only [Ty.Emittable] using ht))⟩
  | union ps fs => exact ⟨_, _, _, .union (emitFields_ok (by simpa only [Ty.Emittable] using ht))⟩
  | enum base items =>
    simp only [Ty.Emittable] at ht
    obtain ⟨name, bits, length, -, h⟩ := refScalar_ok ht.1
    exact ⟨_, _, _, .enum h ht.2 items⟩
  | bitmask base first =>
    simp only [Ty.Emittable] at ht
    obtain ⟨name, bits, length, -, h⟩ := refScalar_ok ht.1
    exact ⟨_, _, _, .bitmask h ht.2 first⟩

end Emit

end Zs
