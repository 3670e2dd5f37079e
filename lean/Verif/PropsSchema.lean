import Verif.SchemaExtra
import Verif.SchemaDemo
import Verif.PropsStream
import Verif.PropsArray

/-!
# Properties of generated code
-/

namespace Zs

open Spec

/-! ## C24: generated structures round-trip -/

/-- **C24** For every supported schema, decoding the encoding of any valid object gives that object
and consumes exactly the written bits.  The object is read into a default object that has the
parameters of the written one. -/
theorem C24_schema_round_trip (cfg : Cfg) (t : Ty) (hs : t.Supported cfg) (env : Env) (v : Val)
    (hv : t.Valid cfg env v) :
    RoundTrips (fun w => (t.ops cfg).write env v w)
      (fun r => (t.ops cfg).read env (t.default.withParams v.params) r) v := by
  rw [← Ty.dflt_eq cfg t]
  exact ((Ty.good cfg t).plain hs).1 env v hv

/-- **C24** for the functions users call: `to_bytes` gives bytes from which `from_bytes` restores the
object. -/
theorem C24_schema_bytes (cfg : Cfg) (t : Ty) (hs : t.Supported cfg) (env : Env) (v : Val)
    (hv : t.Valid cfg env v) :
    ∃ bytes, toBytes (fun w => (t.ops cfg).write env v w) = .ok bytes ∧
      ∀ trailing, fromBytes (fun r => (t.ops cfg).read env (t.default.withParams v.params) r)
        (bytes ++ trailing) = .ok v := by
  obtain ⟨_, bytes, _, _, h, _, _, _, h'⟩ :=
    C14_to_bytes_from_bytes _ _ v (C24_schema_round_trip cfg t hs env v hv)
  exact ⟨bytes, h, h'⟩

example : ∃ bytes, toBytes (fun w => (Demo.big.ops Demo.cfg).write ⟨[], []⟩ Demo.bigVal w) = .ok bytes ∧
    ∀ trailing, fromBytes (fun r => (Demo.big.ops Demo.cfg).read ⟨[], []⟩
      (Demo.big.default.withParams Demo.bigVal.params) r) (bytes ++ trailing) = .ok Demo.bigVal :=
  C24_schema_bytes _ _ (Demo.big_supported _) _ _ (Demo.big_valid _)

/-- **C34** for generated types: different valid objects with the same parameters have different
encodings, and neither is a prefix of the other. -/
theorem C34_schema_encodings_prefix_free (cfg : Cfg) (t : Ty) (hs : t.Supported cfg) (env : Env)
    (a b : Val) (ha : t.Valid cfg env a) (hb : t.Valid cfg env b) (hp : a.params = b.params)
    (hab : a ≠ b) (before bitsA bitsB : List Bool)
    (hA : (t.ops cfg).write env a ⟨before⟩ = .ok ⟨before ++ bitsA⟩)
    (hB : (t.ops cfg).write env b ⟨before⟩ = .ok ⟨before ++ bitsB⟩) :
    bitsA ≠ bitsB ∧ ¬ bitsA <+: bitsB ∧ ¬ bitsB <+: bitsA := by
  refine C34_encodings_prefix_free (fun v w => (t.ops cfg).write env v w)
    (fun r => (t.ops cfg).read env (t.default.withParams a.params) r) a b hab
    (C24_schema_round_trip cfg t hs env a ha) ?_ before bitsA bitsB hA hB
  rw [hp]
  exact C24_schema_round_trip cfg t hs env b hb

/-! ## C26: enums -/

theorem enumValuesFrom_get (next : Int) (items : List (Option Int)) :
    (enumValuesFrom next items).length = items.length ∧
    (∀ (i : Nat) (x : Int), items[i]? = some (some x) → (enumValuesFrom next items)[i]? = some x) ∧
    (items[0]? = some none → (enumValuesFrom next items)[0]? = some next) ∧
    (∀ (i : Nat) (y : Int), items[i + 1]? = some none → (enumValuesFrom next items)[i]? = some y →
      (enumValuesFrom next items)[i + 1]? = some (y + 1)) := by
  induction items generalizing next with
  | nil => simp [enumValuesFrom]
  | cons item items ih =>
    obtain ⟨h1, h2, h3, h4⟩ := ih (item.getD next + 1)
    simp only [enumValuesFrom]
    refine ⟨by simp [h1], fun i x h => ?_, fun h => ?_, fun i y h hy => ?_⟩
    · cases i with
      | zero => simp at h; simp [h]
      | succ i => simp at h; simpa using h2 i x h
    · simp at h; simp [h]
    · cases i with
      | zero =>
        simp at h hy
        simp [h3 (by simpa using h), ← hy]
      | succ i =>
        simp at h hy
        simpa using h4 i y h hy

/-- **C26** The values of enum items: the explicit value, or the previous value plus one, or 0 for the
first item. -/
theorem C26_enum_values (items : List (Option Int)) :
    (enumValues items).length = items.length ∧
    (∀ (i : Nat) (x : Int), items[i]? = some (some x) → (enumValues items)[i]? = some x) ∧
    (items[0]? = some none → (enumValues items)[0]? = some 0) ∧
    (∀ (i : Nat) (y : Int), items[i + 1]? = some none → (enumValues items)[i]? = some y →
      (enumValues items)[i + 1]? = some (y + 1)) :=
  enumValuesFrom_get 0 items

example : enumValues [none, none, some 10, none, some 3] = [0, 1, 10, 11, 3] := by decide

/-- **C26** Decoding an enum: whatever number `v` of the base type is stored, the item with that value
is restored, and a number that is not the value of an item is reported as an error.  The items have
different values, all in the range of the base type. -/
theorem C26_enum_decodes (cfg : Cfg) (base : Scalar) (items : List (Option Int))
    (hw : base.WidthOk) (hdistinct : (enumValues items).Nodup)
    (hvals : ∀ x ∈ enumValues items, base.Contains x ∧ x < 2 ^ 63)
    (v : Val) (hv : base.InRange cfg ⟨[], []⟩ v) (z : Int) (hz : v.number = some z)
    (before : List Bool) :
    ∃ bits, base.write cfg ⟨[], []⟩ v ⟨before⟩ = .ok ⟨before ++ bits⟩ ∧
      ∀ (env : Env) (old : Val) (after : List Bool),
        (∀ i, (enumValues items)[i]? = some z →
          ((Ty.enum base items).ops cfg).read env old ⟨before.length, bits ++ after⟩ =
            .ok (.item i, ⟨before.length + bits.length, after⟩)) ∧
        (z ∉ enumValues items →
          ((Ty.enum base items).ops cfg).read env old ⟨before.length, bits ++ after⟩ =
            .err .dataError) := by
  obtain ⟨bits, hwr, hrd⟩ := Scalar.roundTrips hw hv before
  refine ⟨bits, hwr, fun env old after => ?_⟩
  have hread : ((Ty.enum base items).ops cfg).read env old ⟨before.length, bits ++ after⟩ =
      (enumItem items v >>= fun x => .ok (x, ⟨before.length + bits.length, after⟩)) := by
    simp only [Ty.ops, Codec.ops, enumCodec, numberCodec, Res.pure_eq]
    rw [show base.read cfg ⟨[], []⟩ ⟨before.length, bits ++ after⟩ = _ from hrd after]
    rfl
  rw [hread]
  -- the number that is compared is `z`, or it is no value of an item
  have hcmp : ∃ k, v.asI64 = .ok k ∧ (k = z ∨ (k ∉ enumValues items ∧ z ∉ enumValues items)) := by
    cases v with
    | nat n =>
      cases hz
      refine ⟨asI64 n, rfl, ?_⟩
      have hn : n < 2 ^ 64 := by
        cases base with
        | uint k | bits k =>
          simp only [Scalar.InRange] at hv
          simp only [Scalar.WidthOk, List.mem_cons, List.not_mem_nil, or_false] at hw
          exact Nat.lt_of_lt_of_le hv (Nat.pow_le_pow_right (by decide) (by omega))
        | bitsDyn len =>
          simp only [Scalar.InRange] at hv
          exact Nat.lt_of_lt_of_le hv.2 (Nat.pow_le_pow_right (by decide) hv.1)
        | varuint16 | varuint32 | varuint64 | varuint | varsize =>
          simp only [Scalar.InRange] at hv; omega
        | _ => exact absurd hv (by simp [Scalar.InRange])
      rw [asI64_of_lt hn]
      by_cases h63 : n < 2 ^ 63
      · rw [if_pos h63]; exact .inl rfl
      · rw [if_neg h63]
        refine .inr ⟨fun h => ?_, fun h => ?_⟩
        · have hneg : (n : Int) - 2 ^ 64 < 0 := by omega
          have hc := (hvals _ h).1
          cases base <;> simp only [Scalar.InRange, Scalar.Contains] at hv hc <;> omega
        · have := (hvals _ h).2; omega
    | int i => cases hz; exact ⟨_, rfl, .inl rfl⟩
    | _ => cases hz
  obtain ⟨k, hk, hcmp⟩ := hcmp
  have hnone : ∀ y, y ∉ enumValues items → enumTryFrom items y = .err .dataError := by
    intro y hy
    unfold enumTryFrom
    have : (enumValues items).findIdx? (fun x => x == y) = none := by
      rw [List.findIdx?_eq_none_iff]
      intro x hx
      simp only [beq_eq_false_iff_ne, ne_eq]
      rintro rfl
      exact hy hx
    rw [this]
  unfold enumItem
  simp only [hk, Res.ok_bind, Res.pure_eq]
  refine ⟨fun i hi => ?_, fun hno => ?_⟩
  · rcases hcmp with rfl | ⟨_, h⟩
    · rw [enumTryFrom_get hdistinct hi]; rfl
    · exact absurd (List.mem_of_getElem? hi) h
  · rcases hcmp with rfl | ⟨h, _⟩
    · rw [hnone _ hno]; rfl
    · rw [hnone _ h]; rfl

example : (enumValues [some (-3), none, some 100]).Nodup ∧
    (∀ x ∈ enumValues [some (-3), none, some 100], Scalar.varint16.Contains x ∧ x < 2 ^ 63) ∧
    Scalar.varint16.InRange Demo.cfg ⟨[], []⟩ (.int 7) := by
  refine ⟨by decide, ?_, ?_⟩
  · intro x hx
    simp [enumValues, enumValuesFrom] at hx
    rcases hx with rfl | rfl | rfl <;> simp [Scalar.Contains]
  · simp [Scalar.InRange]

/-! ## C27: bitmasks -/

/-- **C27** Bitmask items without explicit values (at most 64 of them) get the powers of two in order:
item number i gets 2^i. -/
theorem C27_implicit_values_partial (k : Nat) (hk : k ≤ 64) :
    bitmaskValues (List.replicate k none) = .ok ((List.range k).map (2 ^ ·)) := by
  have h : ∀ k j, j + k ≤ 64 → bitmaskValuesFrom (2 ^ j % 2 ^ 64) (List.replicate k none) =
      .ok ((List.range' j k).map (2 ^ ·)) := by
    intro k
    induction k with
    | zero => intro j _; rfl
    | succ k ih =>
      intro j hj
      have hlt : 2 ^ j < 2 ^ 64 := Nat.pow_lt_pow_right (by decide) (by omega)
      have hpos : 0 < 2 ^ j := Nat.pow_pos (by decide)
      simp only [List.replicate_succ, bitmaskValuesFrom, Res.pure_eq, Res.ok_bind,
        Nat.mod_eq_of_lt hlt, if_neg (Nat.pos_iff_ne_zero.1 hpos), ← Nat.pow_succ]
      rw [ih (j + 1) (by omega)]
      simp [List.range'_succ]
  have := h k 0 (by omega)
  rw [List.range_eq_range']
  exact this

/-- **C27** with explicit values that are powers of two: if the schema is accepted and the highest bit
is not used before the last item, all items get distinct powers of two in increasing order. -/
theorem C27_mixed_values_partial (items : List (Option Nat))
    (hexp : ∀ x, some x ∈ items → ∃ j, x = 2 ^ j) (vs : List Nat) (hok : bitmaskValues items = .ok vs)
    (hhigh : ∀ v ∈ vs.dropLast, v < 2 ^ 63) :
    vs.length = items.length ∧ vs.Pairwise (· < ·) ∧ ∀ v ∈ vs, ∃ j, v = 2 ^ j := by
  have h : ∀ (items : List (Option Nat)) (next : Nat) (vs : List Nat),
      (∀ x, some x ∈ items → ∃ j, x = 2 ^ j) → (∃ j, next = 2 ^ j) →
      bitmaskValuesFrom next items = .ok vs → (∀ v ∈ vs.dropLast, v < 2 ^ 63) →
      vs.length = items.length ∧ vs.Pairwise (· < ·) ∧ ∀ v ∈ vs, next ≤ v ∧ ∃ j, v = 2 ^ j := by
    intro items
    induction items with
    | nil => intro next vs _ _ h _; simp [bitmaskValuesFrom] at h; subst h; simp
    | cons item items ih =>
      intro next vs hexp hnext hok hhigh
      simp only [bitmaskValuesFrom] at hok
      obtain ⟨value, hv, hok⟩ := Res.bind_eq_ok.1 hok
      obtain ⟨rest, hr, hok⟩ := Res.bind_eq_ok.1 hok
      cases hok
      have hval : next ≤ value ∧ ∃ j, value = 2 ^ j := by
        cases item with
        | none => cases hv; exact ⟨Nat.le_refl _, hnext⟩
        | some x =>
          obtain ⟨j, hj⟩ := hexp x (List.mem_cons_self ..)
          simp only at hv
          split at hv
          · cases hv
          · rename_i hc
            cases hv
            have : 0 < 2 ^ j := Nat.pow_pos (by decide)
            exact ⟨by omega, j, hj⟩
      obtain ⟨hle, j, rfl⟩ := hval
      have hpos : 0 < 2 ^ j := Nat.pow_pos (by decide)
      rw [if_neg (by omega)] at hr
      cases items with
      | nil =>
        simp [bitmaskValuesFrom] at hr
        subst hr
        simp only [List.length_cons, List.length_nil, List.pairwise_singleton, List.mem_singleton,
          true_and]
        rintro v rfl
        exact ⟨hle, j, rfl⟩
      | cons item2 items =>
        have hne : rest ≠ [] := by
          rintro rfl
          simp only [bitmaskValuesFrom] at hr
          obtain ⟨_, _, hr⟩ := Res.bind_eq_ok.1 hr
          obtain ⟨_, _, hr⟩ := Res.bind_eq_ok.1 hr
          cases hr
        rw [List.dropLast_cons_of_ne_nil hne] at hhigh
        have hlt := hhigh (2 ^ j) (List.mem_cons_self ..)
        have hm : 2 ^ j * 2 % 2 ^ 64 = 2 ^ (j + 1) := by rw [Nat.pow_succ]; omega
        rw [hm] at hr
        obtain ⟨h1, h2, h3⟩ := ih (2 ^ (j + 1)) rest
          (fun x hx => hexp x (List.mem_cons_of_mem _ hx)) ⟨_, rfl⟩ hr
          (fun v hv => hhigh v (List.mem_cons_of_mem _ hv))
        refine ⟨by simp [h1], List.pairwise_cons.2 ⟨fun v hv => ?_, h2⟩, fun v hv => ?_⟩
        · have := (h3 v hv).1
          rw [Nat.pow_succ] at this
          omega
        · rcases List.mem_cons.1 hv with rfl | hv
          · exact ⟨hle, j, rfl⟩
          · refine ⟨?_, (h3 v hv).2⟩
            have := (h3 v hv).1
            rw [Nat.pow_succ] at this
            omega
  obtain ⟨h1, h2, h3⟩ := h items 1 vs hexp ⟨0, rfl⟩ hok hhigh
  exact ⟨h1, h2, fun v hv => (h3 v hv).2⟩

example : bitmaskValues [none, some 8, none, none] = .ok [1, 8, 16, 32] := by decide +kernel

/-- **C27, violated**: item number 65 gets 0 and number 66 the value of the first item; an explicit value
with several bits, or an explicit 0 behind other items, makes implicit values that are no single bit or
that repeat an earlier one. -/
theorem C27_values_violated :
    bitmaskValues (List.replicate 66 none) =
      .ok ((List.range 64).map (2 ^ ·) ++ [0, 1]) ∧
    bitmaskValues [some 3, none] = .ok [3, 6] ∧
    bitmaskValues [none, some 0, none] = .ok [1, 0, 1] := by
  refine ⟨by decide +kernel, by decide +kernel, by decide +kernel⟩

/-! ## C28: unions -/

/-- **C28** (first half) A union is written as the number of the member that is set, followed by the
encoding of this member; decoding restores the member and its value. -/
theorem C28_union_round_trip_partial (cfg : Cfg) (params : List Val) (members : Fields)
    (hs : members.Supported cfg) (env : Env) (ps vs : List Val) (sel : Nat)
    (hv : (Ty.union params members).Valid cfg env (.union ps sel vs)) :
    (∀ before, ∃ header body, ∃ f v, (members.ops cfg)[sel]? = some f ∧ vs[sel]? = some v ∧
      writeVarsize ⟨before⟩ sel = .ok ⟨before ++ header⟩ ∧
      (∀ after, readVarsize ⟨before.length, header ++ after⟩ =
        .ok (sel, ⟨before.length + header.length, after⟩)) ∧
      f.encode false sel ⟨ps, []⟩ v Node.new ⟨before ++ header⟩ =
        .ok (⟨before ++ header ++ body⟩, Node.new) ∧
      ((Ty.union params members).ops cfg).write env (.union ps sel vs) ⟨before⟩ =
        .ok ⟨before ++ header ++ body⟩) ∧
    RoundTrips (fun w => ((Ty.union params members).ops cfg).write env (.union ps sel vs) w)
      (fun r => ((Ty.union params members).ops cfg).read env
        ((Ty.union params members).default.withParams ps) r) (.union ps sel vs) := by
  refine ⟨fun before => ?_, C24_schema_round_trip cfg _ (by simpa only [Ty.Supported] using hs) env
    _ hv⟩
  rw [Ty.valid_union, Fields.validMember_iff] at hv
  obtain ⟨hsel, hv⟩ := hv
  obtain ⟨s, v, h1, h2, rfl⟩ := validMember_get hv
  have hlt : sel < (defaultsOf (members.specs cfg)).length :=
    (List.getElem?_eq_some_iff.1 (defaultsOf_get h1)).1
  obtain ⟨b1, e1, d1⟩ := C01_varuint_round_trip.2.2.2.2 sel hsel before
  simp only at e1
  obtain ⟨b2, e2, d2⟩ := FieldOps.field_plain cfg s.ops
    ((Fields.good cfg members).1 hs false s (List.mem_of_getElem? h1)) h2 sel (before ++ b1)
  have hf : (members.ops cfg)[sel]? = some s.ops := by
    rw [← Fields.specs_ops]; simp [opsOf, h1]
  have hvs : ((defaultsOf (members.specs cfg)).set sel v)[sel]? = some v := by
    simp [List.getElem?_set_self hlt]
  refine ⟨b1, b2, s.ops, v, hf, hvs, e1, d1, e2 _, ?_⟩
  simp only [Ty.ops, Codec.ops, unionCodec, encodeMember, hf, hvs]
  rw [show asU32 sel = sel from Nat.mod_eq_of_lt (by omega), e1]
  simp only [Res.ok_bind, e2, Res.pure_eq]

example : (Ty.union [] (.cons {} (.scalar .varuint) (.cons {} (.scalar .string) .nil))).Valid
    Demo.cfg ⟨[], []⟩ (.union [] 1 [.nat 0, .str "abc"]) := by
  have h : "abc".utf8ByteSize < 2 ^ 31 := by decide
  simp [FieldInfo.FieldValid, FieldInfo.contentValid_single, FieldInfo.expectedParams,
    FieldInfo.default, Ty.default, Scalar.dflt, Scalar.InRange, Val.params, h, Fields.defaults]

/-- **C28** (second half is violated) A union reader that meets the number of a member that does not
exist panics instead of returning an error, whatever follows and whatever object is read into. -/
theorem C28_unknown_selector_violated (cfg : Cfg) (params : List Val) (members : Fields)
    (s : Nat) (hlarge : (members.ops cfg).length ≤ s) (hs : s < 2 ^ 31) (before : List Bool) :
    ∃ bits, writeVarsize ⟨before⟩ s = .ok ⟨before ++ bits⟩ ∧ ∀ env ps old vs after,
      ((Ty.union params members).ops cfg).read env (.union ps old vs)
        ⟨before.length, bits ++ after⟩ = .panic := by
  obtain ⟨b1, e1, d1⟩ := C01_varuint_round_trip.2.2.2.2 s hs before
  refine ⟨b1, e1, fun env ps old vs after => ?_⟩
  simp only [Ty.ops, Codec.ops, unionCodec]
  rw [show readVarsize ⟨before.length, b1 ++ after⟩ = _ from d1 after]
  simp only [Res.ok_bind, fromU32, if_neg (Nat.not_lt.2 hlarge), Res.panic_bind]

example : fromBytes (fun r => (Demo.shape.ops Demo.cfg).read ⟨[], []⟩ Demo.shape.default r) [2] = .panic := by
  decide +kernel

/-! ## C29: choices -/

/-- **C29** A choice writes the field of the first case that lists the selector, and counts this field
only; the other fields have no influence. -/
theorem C29_choice_selected_branch (cfg : Cfg) (params : List Val) (sel : List Val → Val)
    (cases : Cases) (ps : List Val) (labels : List Val) (info : FieldInfo) (ty : Ty)
    (pre post : List (List Val × Option (FieldInfo × Ty)))
    (hcase : cases.list = pre ++ (labels, some (info, ty)) :: post)
    (hpre : ∀ c ∈ pre, sel ps ∉ c.1) (hsel : sel ps ∈ labels) (vs : List Val) (v : Val)
    (hv : vs[(pre.filterMap Prod.snd).length]? = some v) (env : Env) :
    (∀ w, ((Ty.choice params sel cases).ops cfg).write env (.obj ps vs) w =
      (FieldOps.encode ⟨info, ty.ops cfg⟩ false (pre.filterMap Prod.snd).length ⟨ps, []⟩ v Node.new w
        >>= fun p => .ok p.1)) ∧
    (∀ pos, ((Ty.choice params sel cases).ops cfg).bitsize env (.obj ps vs) pos =
      (FieldOps.bitsize ⟨info, ty.ops cfg⟩ false (pre.filterMap Prod.snd).length ⟨ps, []⟩ v Node.new
        pos >>= fun p => .ok (p.1 - pos)).unwrap) ∧
    (∀ vs', vs'[(pre.filterMap Prod.snd).length]? = some v → ∀ w,
      ((Ty.choice params sel cases).ops cfg).write env (.obj ps vs') w =
        ((Ty.choice params sel cases).ops cfg).write env (.obj ps vs) w) := by
  have hw : ∀ vs : List Val, vs[(pre.filterMap Prod.snd).length]? = some v → ∀ w,
      ((Ty.choice params sel cases).ops cfg).write env (.obj ps vs) w =
      (FieldOps.encode ⟨info, ty.ops cfg⟩ false (pre.filterMap Prod.snd).length ⟨ps, []⟩ v Node.new w
        >>= fun p => .ok p.1) := by
    intro vs hv w
    simp only [Ty.ops, Codec.ops, choiceCodec, encodeChoice, selectCase_first hcase hpre hsel 0,
      Option.map_some, Nat.zero_add, hv, Res.pure_eq]
  refine ⟨hw vs hv, fun pos => ?_, fun vs' hv' w => by rw [hw vs hv, hw vs' hv']⟩
  simp only [Ty.ops, Codec.ops, choiceCodec, bitsizeChoice, selectCase_first hcase hpre hsel 0,
    Option.map_some, Nat.zero_add, hv, Res.pure_eq]

example : Demo.inner = .choice [.nat 0] (fun ps => ps.headD (.nat 0))
      (.field [.nat 1] {} (.scalar (.int 32)) (.field [.nat 2, .nat 3] {} (.scalar .string)
        (.empty [.nat 4] .nil))) ∧
    (Cases.field [.nat 1] {} (.scalar (.int 32)) (.field [.nat 2, .nat 3] {} (.scalar .string)
        (.empty [.nat 4] .nil))).list =
      [([.nat 1], some (({} : FieldInfo), .scalar (.int 32)))] ++
        ([.nat 2, .nat 3], some (({} : FieldInfo), .scalar .string)) :: [([.nat 4], none)] :=
  ⟨rfl, by simp [Cases.list]⟩

/-- **C29** A choice writes nothing, needs no space and reads nothing when no case lists the selector,
or when the first case that does has no field. -/
theorem C29_choice_nothing_selected (cfg : Cfg) (params : List Val) (sel : List Val → Val)
    (cases : Cases) (ps : List Val)
    (h : (∀ c ∈ cases.list, sel ps ∉ c.1) ∨ ∃ pre labels post,
      cases.list = pre ++ (labels, none) :: post ∧ (∀ c ∈ pre, sel ps ∉ c.1) ∧ sel ps ∈ labels)
    (vs : List Val) (env : Env) :
    (∀ w, ((Ty.choice params sel cases).ops cfg).write env (.obj ps vs) w = .ok w) ∧
    (∀ pos, ((Ty.choice params sel cases).ops cfg).bitsize env (.obj ps vs) pos = .ok 0) ∧
    (∀ r, ((Ty.choice params sel cases).ops cfg).read env (.obj ps vs) r = .ok (.obj ps vs, r)) := by
  have hs : selectCase (sel ps) 0 (cases.ops cfg) = none := by
    rcases h with h | ⟨pre, labels, post, h1, h2, h3⟩
    · exact selectCase_none h 0
    · exact selectCase_first h1 h2 h3 0
  refine ⟨fun w => ?_, fun pos => ?_, fun r => ?_⟩
  · simp only [Ty.ops, Codec.ops, choiceCodec, encodeChoice, hs, Res.pure_eq, Res.ok_bind]
  · simp only [Ty.ops, Codec.ops, choiceCodec, bitsizeChoice, hs, Res.pure_eq, Res.ok_bind,
      Res.unwrap_ok, Nat.sub_self]
  · simp only [Ty.ops, Codec.ops, choiceCodec, decodeChoice, hs, Res.pure_eq, Res.ok_bind]

/-- **C29** Decoding with the same parameters restores the choice. -/
theorem C29_choice_round_trip (cfg : Cfg) (params : List Val) (sel : List Val → Val)
    (cases : Cases) (hs : cases.Supported cfg) (env : Env) (ps vs : List Val)
    (hv : cases.Valid cfg ps (sel ps) false vs) :
    RoundTrips (fun w => ((Ty.choice params sel cases).ops cfg).write env (.obj ps vs) w)
      (fun r => ((Ty.choice params sel cases).ops cfg).read env (.obj ps cases.defaults) r)
      (.obj ps vs) := by
  have := C24_schema_round_trip cfg (.choice params sel cases) (by simpa only [Ty.Supported] using hs)
    env (.obj ps vs) (Ty.valid_choice.2 hv)
  simpa only [Ty.default, Val.params, Val.withParams] using this

/-! ## C30: optional and conditional fields -/

/-- **C30** A field whose condition is false takes no bits, packed or not, whatever it holds. -/
theorem C30_condition_false (cfg : Cfg) (info : FieldInfo) (ty : Ty) (env : Env) (c : Env → Bool)
    (hc : info.clause = some c) (hfalse : c env = false) (packed : Bool) (i : Nat) (v : Val)
    (n : Node) :
    (∀ w, FieldOps.encode ⟨info, ty.ops cfg⟩ packed i env v n w = .ok (w, n)) ∧
    (∀ pos, FieldOps.bitsize ⟨info, ty.ops cfg⟩ packed i env v n pos = .ok (pos, n)) ∧
    (∀ r, FieldOps.decode cfg ⟨info, ty.ops cfg⟩ packed i env v n r = .ok ((v, n), r)) := by
  have hp : FieldOps.present ⟨info, ty.ops cfg⟩ env = false := by
    simp only [FieldOps.present, hc, hfalse]
  refine ⟨fun w => ?_, fun pos => ?_, fun r => ?_⟩
  · simp [FieldOps.encode, hp]
  · simp [FieldOps.bitsize, hp]
  · simp [FieldOps.decode, hp]

example : ∃ c : Env → Bool, ({ clause := some (fun env => Demo.num env 0 == 1) } : FieldInfo).clause =
    some c ∧ c ⟨[], [.nat 2]⟩ = false := ⟨_, rfl, rfl⟩

/-- **C30** An optional field whose condition holds: behind the alignment `pad` (empty when the field is
not aligned), an absent field takes one bit and is read back as absent; a present one takes one bit, and
then exactly what the same field without `optional` takes; it is read back accordingly.  This holds
for every type, packed or not. -/
theorem C30_optional_field (cfg : Cfg) (info : FieldInfo) (ty : Ty) (env : Env)
    (ho : info.optional = true) (hc : ∀ c, info.clause = some c → c env = true)
    (before : List Bool) :
    ∃ pad : List Bool, (info.alignment = 0 → info.offset ≠ .plain → pad = []) ∧
    ∀ (packed : Bool) (i : Nat) (n : Node),
    -- absent
    FieldOps.encode ⟨info, ty.ops cfg⟩ packed i env .none n ⟨before⟩ =
      .ok (⟨before ++ pad ++ [false]⟩, n) ∧
    FieldOps.bitsize ⟨info, ty.ops cfg⟩ packed i env .none n before.length =
      .ok ((before ++ pad ++ [false]).length, n) ∧
    (∀ after, FieldOps.decode cfg ⟨info, ty.ops cfg⟩ packed i env .none n
      ⟨before.length, pad ++ [false] ++ after⟩ =
        .ok ((.none, n), ⟨(before ++ pad ++ [false]).length, after⟩)) ∧
    -- present
    (∀ x, FieldOps.encode ⟨info, ty.ops cfg⟩ packed i env (.some x) n ⟨before⟩ =
      FieldOps.encode ⟨info.mandatory, ty.ops cfg⟩ packed i env x n ⟨before ++ pad ++ [true]⟩) ∧
    (∀ x, FieldOps.bitsize ⟨info, ty.ops cfg⟩ packed i env (.some x) n before.length =
      FieldOps.bitsize ⟨info.mandatory, ty.ops cfg⟩ packed i env x n
        (before ++ pad ++ [true]).length) ∧
    (∀ old after, FieldOps.decode cfg ⟨info, ty.ops cfg⟩ packed i env old n
      ⟨before.length, pad ++ [true] ++ after⟩ =
      (FieldOps.decode cfg ⟨info.mandatory, ty.ops cfg⟩ packed i env
        (info.mandatory.default ty.default) n ⟨(before ++ pad ++ [true]).length, after⟩ >>= fun p =>
          .ok ((.some p.1.1, p.1.2), p.2))) := by
  have hp : FieldOps.present ⟨info, ty.ops cfg⟩ env = true := by
    simp only [FieldOps.present]
    cases h : info.clause with
    | none => rfl
    | some c => exact hc c h
  obtain ⟨pad, h1, h2, h3⟩ := FieldOps.align_step ⟨info, ty.ops cfg⟩ before
  refine ⟨pad, fun ha hoff => ?_, fun packed i n => ⟨?_, ?_, fun after => ?_, fun x => ?_, fun x => ?_,
    fun old after => ?_⟩⟩
  · simp [FieldOps.alignWriter, ha, hoff] at h1
    exact h1
  · simp [FieldOps.encode, hp, h1, FieldOps.encodeOptional, ho, Writer.writeBool, Writer.append]
  · simp [FieldOps.bitsize, hp, h2, FieldOps.bitsizeOptional, ho, Nat.add_assoc]
  · simp only [FieldOps.decode, hp, if_true, List.append_assoc, h3, Res.ok_bind,
      FieldOps.decodeOptional, ho]
    rw [show ([false] : List Bool) ++ after = false :: after from rfl]
    simp [Reader.readBool, Nat.add_assoc]
  · rw [FieldOps.mandatory_encode]
    simp [FieldOps.encode, hp, h1, FieldOps.encodeOptional, ho, Writer.writeBool, Writer.append]
  · rw [FieldOps.mandatory_bitsize]
    simp [FieldOps.bitsize, hp, h2, FieldOps.bitsizeOptional, ho, Nat.add_assoc]
  · rw [FieldOps.mandatory_decode]
    simp only [FieldOps.decode, hp, if_true, List.append_assoc, h3, Res.ok_bind,
      FieldOps.decodeOptional, ho]
    have hd : FieldOps.contentDflt ⟨info, ty.ops cfg⟩ = info.mandatory.default ty.default := by
      simp only [FieldOps.contentDflt, FieldInfo.mandatory, FieldInfo.default, Ty.dflt_eq]; rfl
    rw [show ([true] : List Bool) ++ after = true :: after from rfl]
    simp [Reader.readBool, Nat.add_assoc, hd]

example : ({ optional := true, offset := .plain } : FieldInfo).optional = true ∧
    ∀ c, ({ optional := true, offset := .plain } : FieldInfo).clause = some c →
      c ⟨[], []⟩ = true := ⟨rfl, fun _ h => by cases h⟩

/-! ## C31: packed arrays of structures -/

/-- **C31** A packed array of structures (with nested structures, choices, enums, bitmasks, optional
and conditional fields and inner arrays) is read back, with and without a fixed length, with type
arguments (also such that use the index) and with aligned elements.

Missing: what `Ty.Packable` excludes.  64-bit integers in debug builds (C20), inner arrays of
`bool`, `string`, `float`, `bytes` and `extern` (C21, `C31_inner_arrays_violated`), unions
(C33) and, below choices, enums and bitmasks whose default is not 0 (C33). -/
theorem C31_packed_structures_round_trip_partial (cfg : Cfg) (t : Ty) (ht : t.Packable cfg false)
    (info : FieldInfo) (a : ArrayInfo) (ha : info.array = some a) (hpacked : a.isPacked = true)
    (hoff : info.isOffsetField = false) (env : Env) (xs : List Val)
    (hlen : LengthFits (a.length.map (fun e => e env)) xs.length)
    (hx : ∀ i y, xs[i]? = some y → t.Valid cfg env y ∧
      y.params = info.expectedParams t.default env i) :
    RoundTrips
      (fun w => (FieldOps.arrayDef ⟨info, t.ops cfg⟩ false env a).zserioWrite w xs
        (decide (info.offset = .indexed)))
      (fun r => FieldOps.decodeArray cfg ⟨info, t.ops cfg⟩
        (FieldOps.arrayDef ⟨info, t.ops cfg⟩ false env a) env Vec.new r) (.list xs) ∧
    (FieldOps.arrayDef ⟨info, t.ops cfg⟩ false env a).isPacked = true := by
  refine ⟨?_, by simp [FieldOps.arrayDef, hpacked, FieldOps.isPackable, hoff, ha]⟩
  have hcod := FieldSpec.codable_plain (info := info) (Ty.good cfg t)
    (by simpa [ha, hpacked, hoff] using ht) false
  intro before
  exact FieldOps.array_rt cfg ⟨info, t.ops cfg⟩ hcod ha hlen (by rwa [Ty.dflt_eq]) before

example (cfg : Cfg) : Demo.point.Packable cfg false ∧ ∀ (i : Nat) (y : Val),
    [Val.obj [] [.int (-2048), .none, .list [.nat 1, .nat 2, .nat 3]],
      Val.obj [] [.int (-2047), .some (.int 7), .list [.nat 65535, .nat 0, .nat 3]]][i]? = some y →
    Demo.point.Valid cfg ⟨[], []⟩ y ∧ y.params =
      ({ array := some ⟨true, none⟩ } : FieldInfo).expectedParams Demo.point.default ⟨[], []⟩ i := by
  constructor
  · simp [Demo.point, Ty.Packable, Fields.Packable, Scalar.WidthOk, Scalar.isPackable,
      Scalar.Narrow, FieldInfo.isDelta]
  · simp [Demo.point, FieldInfo.FieldValid, FieldInfo.contentValid_single,
      FieldInfo.contentValid_list, FieldInfo.expectedParams, forall_get_cons, LengthFits,
      Ty.default, Val.params, Scalar.InRange, Scalar.dflt]

namespace Demo

/-- `struct { packed T xs[]; }` -/
def packedOf (t : Ty) (args : List (Env → Nat → Val) := []) : Ty :=
  .struct [] (.cons { array := some ⟨true, none⟩, args := args } t .nil)

/-- `struct { string xs[]; }` -/
def strings : Ty := .struct [] (.cons { array := some ⟨false, none⟩ } (.scalar .string) .nil)

/-- One structure with the strings "a", "b". -/
def stringsVal : Val := .obj [] [.list [.obj [] [.list [.str "a", .str "b"]]]]

/-- `union { string a; string b; }` -/
def either : Ty := .union [] (.cons {} (.scalar .string) (.cons {} (.scalar .string) .nil))

/-- One union that holds b = "a". -/
def eitherVal : Val := .obj [] [.list [.union [] 1 [.str "", .str "a"]]]

/-- `union { uint8 a; uint8 b; }` -/
def eitherNum : Ty := .union [] (.cons {} (.scalar (.uint 8)) (.cons {} (.scalar (.uint 8)) .nil))

/-- One union that holds b = 3. -/
def eitherNumVal : Val := .obj [] [.list [.union [] 1 [.nat 0, .nat 3]]]

/-- `enum uint16 { A = 500, B = 1001, C = 0 }`, `choice (uint8 k) on k { case 1: E a; case 2: uint16 b; }` -/
def chosen : Ty := .choice [.nat 0] (fun ps => ps.headD (.nat 0))
  (.field [.nat 1] {} (.enum (.uint 16) [some 500, some 1001, some 0])
  (.field [.nat 2] {} (.scalar (.uint 16)) .nil))

/-- A packed array of three choices with the selectors 1, 2, 1. -/
def chosenArray : Ty := packedOf chosen [fun _ i => .nat ([1, 2, 1].getD i 0)]

/-- Three choices: a = C, b = 5, a = B. -/
def chosenVal : Val := .obj [] [.list [.obj [.nat 1] [.item 2, .nat 0],
  .obj [.nat 2] [.item 0, .nat 5], .obj [.nat 1] [.item 1, .nat 0]]]

end Demo

/-- **C31, violated** for structures that contain an array of strings: the inner array is packed too,
and a packed array of strings keeps the first string only. -/
theorem C31_inner_arrays_violated :
    (Demo.packedOf Demo.strings).Valid Demo.cfg ⟨[], []⟩ Demo.stringsVal ∧
    toBytes (fun w => ((Demo.packedOf Demo.strings).ops Demo.cfg).write ⟨[], []⟩ Demo.stringsVal w) =
      .ok [1, 2, 128, 2, 194] ∧
    fromBytes (fun r => ((Demo.packedOf Demo.strings).ops Demo.cfg).read ⟨[], []⟩
      (Demo.packedOf Demo.strings).default r) [1, 2, 128, 2, 194] =
      .ok (.obj [] [.list [.obj [] [.list [.str "a", .str ""]]]]) := by
  refine ⟨?_, by decide +kernel, by decide +kernel⟩
  have h : "a".utf8ByteSize < 2 ^ 31 := by decide
  have h' : "b".utf8ByteSize < 2 ^ 31 := by decide
  simp [Demo.packedOf, Demo.strings, Demo.stringsVal, FieldInfo.FieldValid,
    FieldInfo.contentValid_list, FieldInfo.expectedParams, forall_get_cons, LengthFits, Ty.default,
    Val.params, Scalar.InRange, Scalar.dflt, h, h']

/-! ## C33: packed unions and choices -/

/-- **C33** for choices: a packed array of choices whose enums and bitmasks have the default 0 is read
back (any mixture of selectors).  Missing: unions (`C33_packed_union_violated`), other defaults
(`C33_packed_choice_violated`) and what is missing in C31. -/
theorem C33_packed_choices_round_trip_partial (cfg : Cfg) (params : List Val)
    (sel : List Val → Val) (cases : Cases) (ht : cases.Packable cfg)
    (info : FieldInfo) (a : ArrayInfo) (ha : info.array = some a) (hpacked : a.isPacked = true)
    (hoff : info.isOffsetField = false) (env : Env) (xs : List Val)
    (hlen : LengthFits (a.length.map (fun e => e env)) xs.length)
    (hx : ∀ i y, xs[i]? = some y → (Ty.choice params sel cases).Valid cfg env y ∧
      y.params = info.expectedParams (Ty.choice params sel cases).default env i) :
    RoundTrips
      (fun w => (FieldOps.arrayDef ⟨info, (Ty.choice params sel cases).ops cfg⟩ false env
        a).zserioWrite w xs (decide (info.offset = .indexed)))
      (fun r => FieldOps.decodeArray cfg ⟨info, (Ty.choice params sel cases).ops cfg⟩
        (FieldOps.arrayDef ⟨info, (Ty.choice params sel cases).ops cfg⟩ false env a) env Vec.new r)
      (.list xs) :=
  (C31_packed_structures_round_trip_partial cfg _ (by simpa only [Ty.Packable] using ht) info a ha
    hpacked hoff env xs hlen hx).1

example (cfg : Cfg) : (Cases.field [.nat 1] {} (.scalar (.int 32)) (.field [.nat 2, .nat 3] {}
    (.enum (.uint 8) [none, some 7]) (.empty [.nat 4] .nil))).Packable cfg := by
  simp [Cases.Packable, Ty.Packable, Scalar.WidthOk, Scalar.isPackable, Scalar.Narrow,
    FieldInfo.isDelta, enumValues, enumValuesFrom, Scalar.Contains]

/-- **C33, violated** for unions: the selector is written but not read (a packed union of strings comes
back as its first member, with the selector taken for the string), and a union with an integer member
cannot be packed at all (panic). -/
theorem C33_packed_union_violated :
    ((Demo.packedOf Demo.either).Valid Demo.cfg ⟨[], []⟩ Demo.eitherVal ∧
    toBytes (fun w => ((Demo.packedOf Demo.either).ops Demo.cfg).write ⟨[], []⟩ Demo.eitherVal w) =
      .ok [1, 1, 1, 97] ∧
    fromBytes (fun r => ((Demo.packedOf Demo.either).ops Demo.cfg).read ⟨[], []⟩
      (Demo.packedOf Demo.either).default r) [1, 1, 1, 97] =
      .ok (.obj [] [.list [.union [] 0 [.str "\x01", .str ""]]])) ∧
    ((Demo.packedOf Demo.eitherNum).Valid Demo.cfg ⟨[], []⟩ Demo.eitherNumVal ∧
    toBytes (fun w => ((Demo.packedOf Demo.eitherNum).ops Demo.cfg).write ⟨[], []⟩
      Demo.eitherNumVal w) = .panic) := by
  have h : "a".utf8ByteSize < 2 ^ 31 := by decide
  refine ⟨⟨?_, by decide +kernel, by decide +kernel⟩, ?_, by decide +kernel⟩
  all_goals simp [Demo.packedOf, Demo.either, Demo.eitherVal, Demo.eitherNum, Demo.eitherNumVal,
    FieldInfo.FieldValid, FieldInfo.contentValid_list, FieldInfo.contentValid_single,
    FieldInfo.expectedParams, forall_get_cons, LengthFits, Ty.default, Val.params, Scalar.InRange,
    Scalar.dflt, FieldInfo.default, Fields.defaults, h]

/-- **C33, violated** for choices with an enum whose default (its first item) is not 0: unselected
branches take part in choosing the delta width, so the width can be too small for the branches that
are written.  The array is written, but reading it back fails. -/
theorem C33_packed_choice_violated :
    Demo.chosenArray.Valid Demo.cfg ⟨[], []⟩ Demo.chosenVal ∧
    toBytes (fun w => (Demo.chosenArray.ops Demo.cfg).write ⟨[], []⟩ Demo.chosenVal w) =
      .ok [3, 146, 0, 1, 12, 0, 23, 233] ∧
    fromBytes (fun r => (Demo.chosenArray.ops Demo.cfg).read ⟨[], []⟩ Demo.chosenArray.default r)
      [3, 146, 0, 1, 12, 0, 23, 233] = .err .dataError := by
  refine ⟨?_, by decide +kernel, by decide +kernel⟩
  simp [Demo.chosenArray, Demo.packedOf, Demo.chosen, Demo.chosenVal, FieldInfo.FieldValid,
    FieldInfo.contentValid_list, FieldInfo.contentValid_single, FieldInfo.expectedParams,
    forall_get_cons, LengthFits, Ty.default, Val.params, Scalar.InRange, Scalar.dflt,
    FieldInfo.default, enumValues, enumValuesFrom, Scalar.Contains]

/-! ## C41: reading into used objects -/

/-- **C41** Reading a structure whose fields are neither optional nor conditional gives the same result
for every old content of the object (nested types are unrestricted: they are read into fresh
objects); so does reading builtin types, enums and bitmasks.

Missing: `C41_used_object_violated`. -/
theorem C41_used_object_partial (cfg : Cfg) (env : Env) (r : Reader) :
    (∀ (params : List Val) (fields : Fields), fields.AlwaysPresent →
      ∀ ps vs vs', fields.Shaped vs → fields.Shaped vs' →
      ((Ty.struct params fields).ops cfg).read env (.obj ps vs) r =
        ((Ty.struct params fields).ops cfg).read env (.obj ps vs') r) ∧
    (∀ s old old', ((Ty.scalar s).ops cfg).read env old r = ((Ty.scalar s).ops cfg).read env old' r) ∧
    (∀ base items old old', ((Ty.enum base items).ops cfg).read env old r =
      ((Ty.enum base items).ops cfg).read env old' r) ∧
    (∀ base first old old', ((Ty.bitmask base first).ops cfg).read env old r =
      ((Ty.bitmask base first).ops cfg).read env old' r) := by
  refine ⟨fun params fields ha ps vs vs' hs hs' => ?_, fun s old old' => ?_,
    fun base items old old' => ?_, fun base first old old' => ?_⟩
  · simp only [Ty.ops, Codec.ops, structCodec]
    rw [decodeFields_used cfg false ps fields ha vs vs' hs hs']
  all_goals simp only [Ty.ops]; rfl

example : (Fields.cons {} Demo.inner (.cons { array := some ⟨true, none⟩ } Demo.point
      .nil)).AlwaysPresent ∧
    (Fields.cons {} Demo.inner (.cons { array := some ⟨true, none⟩ } Demo.point .nil)).Shaped
      [.obj [.nat 2] [.int 0, .str "old"], .list [.nat 3]] := by
  refine ⟨by simp [Fields.AlwaysPresent], ?_⟩
  simp only [Fields.Shaped, FieldInfo.Shaped]
  exact ⟨_, _, rfl, fun h => by simp at h, _, _, rfl, fun _ => ⟨_, rfl⟩, rfl⟩

/-- **C41, violated**: absent optional fields, conditional fields whose condition is false, unselected
branches of choices and unselected members of unions keep their old content. -/
theorem C41_used_object_violated (cfg : Cfg) (env : Env) (ty : Ty) (x : Val) (p : Nat)
    (bits after : List Bool) :
    -- struct { optional T a; }
    ((Ty.struct [] (.cons { optional := true } ty .nil)).ops cfg).read env (.obj [] [.some x])
      ⟨p, false :: after⟩ = .ok (.obj [] [.some x], ⟨p + 1, after⟩) ∧
    ((Ty.struct [] (.cons { optional := true } ty .nil)).ops cfg).read env (.obj [] [.none])
      ⟨p, false :: after⟩ = .ok (.obj [] [.none], ⟨p + 1, after⟩) ∧
    -- struct { T a if false; }
    (∀ v, ((Ty.struct [] (.cons { clause := some (fun _ => false) } ty .nil)).ops cfg).read env
      (.obj [] [v]) ⟨p, bits⟩ = .ok (.obj [] [v], ⟨p, bits⟩)) ∧
    -- choice { case 1: bool a; case 2: T b; } with selector 1
    (∀ v b old, ((Ty.choice [] (fun _ => .nat 1) (.field [.nat 1] {} (.scalar .bool)
        (.field [.nat 2] {} ty .nil))).ops cfg).read env (.obj [] [old, v]) ⟨p, b :: after⟩ =
      .ok (.obj [] [.bool b, v], ⟨p + 1, after⟩)) ∧
    -- union { bool a; T b; } holding a
    (∀ v b, ((Ty.union [] (.cons {} (.scalar .bool) (.cons {} ty .nil))).ops cfg).read env
        (.union [] 1 [.bool false, v]) ⟨0, [false, false, false, false, false, false, false, false, b]⟩ =
      .ok (.union [] 0 [.bool b, v], ⟨9, []⟩)) := by
  refine ⟨rfl, rfl, fun v => rfl, fun v b old => ?_, fun v b => ?_⟩
  · simp [Ty.ops, Cases.ops, Codec.ops, choiceCodec, decodeChoice, selectCase, FieldOps.decode,
      FieldOps.present, FieldOps.alignReader, FieldOps.decodeOptional, FieldOps.decodeContent,
      FieldOps.decodeType, Scalar.ops, Scalar.read, Scalar.readAs, Reader.readBool]
  · have h : readVarsize ⟨0, [false, false, false, false, false, false, false, false, b]⟩ =
        .ok (0, ⟨8, [b]⟩) := by cases b <;> decide +kernel
    simp [Ty.ops, Fields.ops, Codec.ops, unionCodec, h, fromU32, decodeMember, FieldOps.decode,
      FieldOps.present, FieldOps.alignReader, FieldOps.decodeOptional, FieldOps.decodeContent,
      FieldOps.decodeType, Scalar.ops, Scalar.read, Scalar.readAs, Reader.readBool]

end Zs
