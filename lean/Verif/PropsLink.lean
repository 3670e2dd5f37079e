import Verif.LinkMain
import Verif.PropsSource

/-!
# Properties of whole schemas: emitted functions that call each other (C73)
-/

namespace Zs

open Spec Emit

variable {fo : FloatOps} {O : Type} {cfg : Cfg} {md : Mode} {build : Mode} {look : Env → World fo.F O}

/-! ## C73: the code generated for a whole schema does what the schema text says -/

/-- **C73 (partial)** All types of a schema are emitted, with the Rust code of their expressions, and the emitted
functions call each other.  The writer of a valid object appends bits from which the reader restores the object
and stops behind them, if the expressions are in range for the object and everything inside it.  Missing:
selectors of choices as expressions, arguments that use `@index` or have operators (C90), arguments that are floats, bitmasks or
compound. -/
theorem C73_round_trip_partial (t : SourceTy fo.F O) (c : Codec) (hacc : t.Accepts md)
    (hl : t.Linked cfg md build c) (hs : (t.meaning look).Supported cfg) (env : Env) (v : Val)
    (hv : (t.meaning look).Valid cfg env v) (hin : t.InRange md false v) (before : List Bool) :
    ∃ bits, c.write v ⟨before⟩ = .ok ⟨before ++ bits⟩ ∧ ∀ after,
      c.read ((t.meaning look).default.withParams v.params) ⟨before.length, bits ++ after⟩ =
        .ok (v, ⟨before.length + bits.length, after⟩) := by
  obtain ⟨c0, ho, ha⟩ := Link.ty_agrees cfg md build look t hacc c hl
  obtain ⟨bits, hw, hr⟩ := C24_schema_round_trip cfg _ hs env v hv before
  rw [← Ty.dflt_eq cfg] at hr ⊢
  rw [ho] at hw hr
  rw [ho]
  exact ⟨bits, (ha.write false v _ hin).trans hw, fun after => ha.read false _ _ _ _ (hr after) hin⟩

/-- **C73 (partial)** The bits are those of the zserio encoding, in which presence of fields, numbers of elements
and widths are, at all levels, the values of the expressions of the schema text.  Missing: as above. -/
theorem C73_encoding_partial (t : SourceTy fo.F O) (c : Codec) (hacc : t.Accepts md)
    (hl : t.Linked cfg md build c) (hs : (t.meaning look).Supported cfg) (env : Env) (v : Val)
    (hv : (t.meaning look).Valid cfg env v) (hin : t.InRange md false v) (before : List Bool) :
    ∃ bits last, c.write v ⟨before⟩ = .ok ⟨before ++ bits⟩ ∧
      (t.meaning look).Wire cfg exactPacking none env v (fun _ => none) before.length bits last := by
  obtain ⟨c0, ho, ha⟩ := Link.ty_agrees cfg md build look t hacc c hl
  obtain ⟨bits, hw, last, h⟩ := C48_encoding cfg _ hs env v hv before
  rw [ho] at hw
  exact ⟨bits, last, (ha.write false v _ hin).trans hw, h⟩

/-- **C73 (partial)** The size function gives the number of bits that the writer appends.  Missing: as above, and
what C25 excludes, because the property is false there. -/
theorem C73_bitsize_partial (t : SourceTy fo.F O) (c : Codec) (hacc : t.Accepts md)
    (hl : t.Linked cfg md build c) (ht : (t.meaning look).Sized) (hs : (t.meaning look).Supported cfg) (env : Env)
    (v : Val) (hv : (t.meaning look).Valid cfg env v) (hin : t.InRange md false v) (before : List Bool) :
    ∃ bits, c.write v ⟨before⟩ = .ok ⟨before ++ bits⟩ ∧ c.bitsize v before.length = .ok bits.length := by
  obtain ⟨c0, ho, ha⟩ := Link.ty_agrees cfg md build look t hacc c hl
  obtain ⟨bits, hw, hb⟩ := C25_valid_objects_partial cfg _ ht hs env v hv before
  rw [ho] at hw hb
  refine ⟨bits, (ha.write false v _ hin).trans hw, (ha.bitsize false v _ hin).trans ?_⟩
  have hb : (c0.bitsize v before.length).unwrap = .ok bits.length := hb
  cases h : c0.bitsize v before.length <;> rw [h] at hb <;> simp_all [Res.unwrap]

/-- **C73** A writer that succeeds is an execution of the lines that are emitted, and so is a reader. -/
theorem C73_executes (b : Bodies) (view : Core → Val) (dflt : Val) :
    (∀ v w w', (linked cfg b view dflt).write v w = .ok w' →
      Executes cfg (b.write false) (call v Node.new w ⟨0, []⟩ 0) Core.w (.ok w')) ∧
    (∀ v r x r', (linked cfg b view dflt).read v r = .ok (x, r') →
      Executes cfg (b.read false) (call v Node.new ⟨[]⟩ r 0) (fun k => (view k, k.r)) (.ok (x, r'))) := by
  have h : ∀ {α : Type} (ls : List Line) (k : Core) (vw : Core → α) (a : α), outcome cfg ls k vw = .ok a →
      Executes cfg ls k vw (.ok a) := by
    intro α ls k vw a h
    by_cases hex : ∃ out, Executes cfg ls k vw out
    · obtain ⟨out, ho⟩ := hex
      rw [Link.outcome_eq ho] at h
      rwa [h] at ho
    · unfold outcome at h
      rw [dif_neg hex] at h
      cases h
  exact ⟨fun v w w' hw => h _ _ _ _ hw, fun v r x r' hr => h _ _ _ _ hr⟩

/-! ### There are such functions -/

theorem Link.mods_exist {sc : TScope} (m : Modifiers fo.F) (ref : RefTy)
    (hr : m.args ≠ [] → ∃ c, ref = .compound c m.args.length ∧ c.dflt.params.length = m.args.length) :
    ∃ g, EmittedMods md sc build look m g ∧ g.ty = ref := by
  obtain ⟨cl, hcl⟩ : ∃ cl, RunsClause md sc build look m.clause cl := by
    cases m.clause with
    | none => exact ⟨none, trivial⟩
    | some e =>
      obtain ⟨r, hr⟩ := runs_exists (look := look) (build := build) (rscope sc) (conditionCode md sc e)
        (· = .bool) Datum.bool (fun a b h => by simpa using h)
      exact ⟨some r, hr⟩
  obtain ⟨ar, har⟩ : ∃ ar, RunsArray md sc build look m.array ar := by
    cases m.array with
    | none => exact ⟨none, trivial⟩
    | some a =>
      obtain ⟨p, e⟩ := a
      cases e with
      | none => exact ⟨some ⟨p, none⟩, rfl, rfl⟩
      | some e =>
        obtain ⟨r, hr⟩ := runs_exists (look := look) (build := build) (rscope sc) (lengthCode md sc e)
          (· = .usize) (fun n : Nat => .int n) (fun a b h => by simpa [Int.ofNat_inj] using h)
        exact ⟨some ⟨p, some r⟩, rfl, r, rfl, hr⟩
  obtain ⟨as, has, hlen⟩ := runsArgs_exists (md := md) (sc := sc) (build := build) (look := look) m.args
  refine ⟨⟨ref, m.optional, cl, m.alignment, m.offset, ar, as, m.isOffsetField⟩,
    ⟨rfl, hcl, rfl, rfl, har, has, rfl, fun h => ?_⟩, rfl⟩
  show ∃ c, ref = .compound c as.length ∧ c.dflt.params.length = as.length
  rw [hlen]
  exact hr fun h' => h (List.length_eq_zero_iff.1 (by rw [hlen, h']; rfl))

theorem Link.field_exists {sc : TScope} (m : Modifiers fo.F) (ty : SourceTy fo.F O) (hm : m.Emittable ty)
    {Fns : Codec → Prop}
    (hf : (∃ c, Fns c ∧ c.dflt.params.length = ty.numParams) ∨ ∃ x : WrittenTy fo.F,
      (∀ ref, RunsType cfg md sc build look x ref → ty.Refers cfg md build sc look Fns ref) ∧ ty.numParams = 0 ∧
      ∃ ref, RunsType cfg md sc build look x ref)
    (hcomp : ∀ c, Fns c → ty.Refers cfg md build sc look Fns (.compound c ty.numParams)) :
    ∃ g, EmittedMods md sc build look m g ∧ ty.Refers cfg md build sc look Fns g.ty := by
  rcases hf with ⟨c, hc, hp⟩ | ⟨x, hx, h0, ref, hr⟩
  · obtain ⟨g, h1, h2⟩ := Link.mods_exist (md := md) (build := build) (look := look) (sc := sc) m
      (.compound c ty.numParams) fun h => ⟨c, by rw [hm h], by rw [hp, hm h]⟩
    exact ⟨g, h1, h2 ▸ hcomp c hc⟩
  · obtain ⟨g, h1, h2⟩ := Link.mods_exist (md := md) (build := build) (look := look) (sc := sc) m ref fun h => by
      have := hm h
      rw [h0] at this
      exact absurd (List.length_eq_zero_iff.1 this.symm) h
    exact ⟨g, h1, h2 ▸ hx ref hr⟩

/-- Types that have functions of their own. -/
def Spec.SourceTy.isCompound : SourceTy fo.F O → Bool
  | .builtin _ | .bit _ | .int _ => false
  | _ => true

mutual
theorem Link.ty_exists (cfg : Cfg) (md build : Mode) : ∀ (t : SourceTy fo.F O), t.Emittable → t.isCompound = true →
    ∃ c, t.Linked cfg md build c ∧ c.dflt.params.length = t.numParams
  | .builtin _, _, hc => by cases hc
  | .bit _, _, hc => by cases hc
  | .int _, _, hc => by cases hc
  | .enum base items, ht, _ => by
    simp only [SourceTy.Emittable] at ht
    obtain ⟨name, bits, length, -, h⟩ := refScalar_ok (E := NoObject) ht
    exact ⟨_, by simp only [SourceTy.Linked]; exact ⟨name, bits, length, h, rfl⟩, rfl⟩
  | .bitmask base first, ht, _ => by
    simp only [SourceTy.Emittable] at ht
    obtain ⟨name, bits, length, -, h⟩ := refScalar_ok (E := NoObject) ht
    refine ⟨_, by simp only [SourceTy.Linked]; exact ⟨name, bits, length, h, rfl⟩, ?_⟩
    show (base.ofInt first).params.length = 0
    cases base <;> rfl
  | .struct sc look params fields, ht, _ => by
    simp only [SourceTy.Emittable] at ht
    obtain ⟨gs, h⟩ := Link.fields_exist cfg md build sc look fields ht
    exact ⟨_, by simp only [SourceTy.Linked]; exact ⟨gs, h, rfl⟩, rfl⟩
  | .choice sc look params selector cases, ht, _ => by
    simp only [SourceTy.Emittable] at ht
    obtain ⟨ds, h⟩ := Link.cases_exist cfg md build sc look cases ht
    exact ⟨_, by simp only [SourceTy.Linked]; exact ⟨ds, h, rfl⟩, rfl⟩
  | .union sc look params members, ht, _ => by
    simp only [SourceTy.Emittable] at ht
    obtain ⟨gs, h⟩ := Link.fields_exist cfg md build sc look members ht
    exact ⟨_, by simp only [SourceTy.Linked]; exact ⟨gs, h, rfl⟩, rfl⟩
theorem Link.use_exists (cfg : Cfg) (md build : Mode) (sc : TScope) (look : Env → World fo.F O) :
    ∀ (ty : SourceTy fo.F O) (m : Modifiers fo.F), m.Emittable ty → ty.Emittable →
    ∃ g, EmittedMods md sc build look m g ∧ ty.Refers cfg md build sc look (ty.Linked cfg md build) g.ty
  | .builtin s, m, hm, ht => by
    refine Link.field_exists m _ hm (.inr ⟨.plain (.scalar s), fun ref h => h, rfl, refTy cfg (.scalar s), ?_⟩)
      fun c h => by simp only [SourceTy.Linked] at h
    exact refTy_ok (by simpa only [SourceTy.Emittable, Ty.Emittable] using ht)
  | .bit e, m, hm, ht => by
    obtain ⟨l, hl⟩ := runsWidth_exists (md := md) (sc := sc) (build := build) (look := look) e
    exact Link.field_exists m _ hm (.inr ⟨.bit e, fun ref h => h, rfl, _, l, rfl, hl⟩)
      fun c h => by simp only [SourceTy.Linked] at h
  | .int e, m, hm, ht => by
    obtain ⟨l, hl⟩ := runsWidth_exists (md := md) (sc := sc) (build := build) (look := look) e
    exact Link.field_exists m _ hm (.inr ⟨.int e, fun ref h => h, rfl, _, l, rfl, hl⟩)
      fun c h => by simp only [SourceTy.Linked] at h
  | .enum base items, m, hm, ht =>
    Link.field_exists m _ hm (.inl (Link.ty_exists cfg md build (.enum base items) ht rfl)) fun c h => ⟨c, h, rfl⟩
  | .bitmask base first, m, hm, ht =>
    Link.field_exists m _ hm (.inl (Link.ty_exists cfg md build (.bitmask base first) ht rfl)) fun c h => ⟨c, h, rfl⟩
  | .struct sc' look' params fields, m, hm, ht =>
    Link.field_exists m _ hm (.inl (Link.ty_exists cfg md build (.struct sc' look' params fields) ht rfl))
      fun c h => ⟨c, h, rfl⟩
  | .choice sc' look' params selector cases, m, hm, ht =>
    Link.field_exists m _ hm (.inl (Link.ty_exists cfg md build (.choice sc' look' params selector cases) ht rfl))
      fun c h => ⟨c, h, rfl⟩
  | .union sc' look' params members, m, hm, ht =>
    Link.field_exists m _ hm (.inl (Link.ty_exists cfg md build (.union sc' look' params members) ht rfl))
      fun c h => ⟨c, h, rfl⟩
theorem Link.fields_exist (cfg : Cfg) (md build : Mode) (sc : TScope) (look : Env → World fo.F O) :
    ∀ (fs : SourceFields fo.F O), fs.Emittable → ∃ gs, fs.Emitted cfg md build sc look gs
  | .nil, _ => ⟨[], by simp only [SourceFields.Emitted]⟩
  | .cons m ty rest, h => by
    simp only [SourceFields.Emittable] at h
    obtain ⟨g, h1, h2⟩ := Link.use_exists cfg md build sc look ty m h.1 h.2.1
    obtain ⟨gs, h3⟩ := Link.fields_exist cfg md build sc look rest h.2.2
    exact ⟨g :: gs, by simp only [SourceFields.Emitted]; exact ⟨g, gs, rfl, h1, h2, h3⟩⟩
theorem Link.cases_exist (cfg : Cfg) (md build : Mode) (sc : TScope) (look : Env → World fo.F O) :
    ∀ (cs : SourceCases fo.F O), cs.Emittable → ∃ ds, cs.Emitted cfg md build sc look ds
  | .nil, _ => ⟨[], by simp only [SourceCases.Emitted]⟩
  | .field labels m ty rest, h => by
    simp only [SourceCases.Emittable] at h
    obtain ⟨g, h1, h2⟩ := Link.use_exists cfg md build sc look ty m h.1 h.2.1
    obtain ⟨ds, h3⟩ := Link.cases_exist cfg md build sc look rest h.2.2
    exact ⟨⟨labels, some g⟩ :: ds, by simp only [SourceCases.Emitted]; exact ⟨g, ds, rfl, h1, h2, h3⟩⟩
  | .empty labels rest, h => by
    simp only [SourceCases.Emittable] at h
    obtain ⟨ds, h3⟩ := Link.cases_exist cfg md build sc look rest h
    exact ⟨⟨labels, none⟩ :: ds, by simp only [SourceCases.Emitted]; exact ⟨ds, rfl, h3⟩⟩
end

/-- **C73** Functions are emitted for every structure, choice, union, enum and bitmask, with all types it uses. -/
theorem C73_every_schema (cfg : Cfg) (md build : Mode) (t : SourceTy fo.F O) (ht : t.Emittable)
    (hc : t.isCompound = true) : ∃ c, t.Linked cfg md build c := by
  obtain ⟨c, h, -⟩ := Link.ty_exists cfg md build t ht hc
  exact ⟨c, h⟩

/-! ### An example -/

/-- The parameter `a` and the first field `b`. -/
def linkLook (env : Env) : World tenths.F Unit := sourceLook ⟨[], env.params ++ env.fields⟩

/-- `struct Inner(uint8 a) { uint8 b; uint16 c[a + b]; }` -/
def linkInner : SourceTy tenths.F Unit := .struct sourceScope linkLook [.nat 0]
  (.cons {} (.builtin (.uint 8))
  (.cons { array := some (false, some (.arith .add (.ident "a") (.ident "b"))) } (.builtin (.uint 16)) .nil))

/-- `struct Outer { uint8 a; uint8 b; Inner(a) items[a + b]; bit<a> d if a < 10; }` -/
def linkOuter : SourceTy tenths.F Unit := .struct sourceScope sourceLook []
  (.cons {} (.builtin (.uint 8))
  (.cons {} (.builtin (.uint 8))
  (.cons { array := some (false, some (.arith .add (.ident "a") (.ident "b"))), args := [(.num .uint8, .ident "a")] } linkInner
  (.cons { clause := some (.cmp .lt (.ident "a") (.intLit 10)) } (.bit (.ident "a")) .nil))))

/-- The elements of `items`. -/
def linkItems : List Val := [
  .obj [.nat 1] [.nat 0, .list [.nat 5]],
  .obj [.nat 1] [.nat 2, .list [.nat 6, .nat 700, .nat 8]]]

/-- An object. -/
def linkVal : Val := .obj [] [.nat 1, .nat 1, .list linkItems, .nat 1]

theorem linkOuter_accepts : linkOuter.Accepts .debug := by
  simp only [linkOuter, linkInner, SourceTy.Accepts, SourceFields.Accepts, SourceTy.written, and_true, true_and]
  refine ⟨sourceScope_ordinary, ?_, ?_, ?_, ⟨sourceScope_ordinary, ?_, ?_⟩, ?_⟩ <;> constructor <;>
    simp [Modifiers.with, Written.Mentions, Expr.Separable, Expr.Unit, Expr.level, Expr.isCmp,
      Expr.isIsset, Expr.isValueof, Expr.endsWithCast, or_imp, forall_and]
  · exact ⟨rfl, .int ⟨false, 8⟩, ⟨rfl, rfl, trivial⟩, .inr (.inl ⟨trivial, trivial⟩)⟩
  · exact ⟨.int ⟨false, 8⟩, rfl, rfl⟩
  · exact ⟨rfl, .int ⟨false, 8⟩, ⟨rfl, rfl, trivial⟩, .inr (.inl ⟨trivial, trivial⟩)⟩
  · exact ⟨rfl, .int ⟨false, 8⟩, .int ⟨false, 8⟩, rfl, trivial, rfl⟩
  · exact rfl

theorem linkOuter_supported (cfg : Cfg) : (linkOuter.meaning sourceLook).Supported cfg := by
  simp [linkOuter, linkInner, SourceTy.meaning, SourceFields.meaning, Modifiers.info, Ty.Supported, Fields.Supported,
    Scalar.WidthOk]

theorem linkOuter_emittable : linkOuter.Emittable := by
  simp [linkOuter, linkInner, SourceTy.Emittable, SourceFields.Emittable, Modifiers.Emittable, Scalar.WidthOk,
    SourceTy.numParams]

theorem linkOuter_valid (cfg : Cfg) : (linkOuter.meaning sourceLook).Valid cfg ⟨[], []⟩ linkVal := by
  simp [linkOuter, linkInner, linkVal, SourceTy.meaning, SourceFields.meaning, Modifiers.info, FieldInfo.FieldValid,
    FieldInfo.contentValid_single, FieldInfo.expectedParams, FieldInfo.default, Ty.default, Demo.num, Val.params,
    Scalar.dflt, Scalar.InRange, condition, lengthValue, sourceLook, means, truth]
  constructor
  · refine ⟨_, rfl, rfl, fun i y h => ?_⟩
    have hy : y ∈ linkItems := List.mem_of_getElem? h
    simp only [linkItems, List.mem_cons, List.not_mem_nil, or_false] at hy
    rcases hy with rfl | rfl
    · simp [FieldInfo.expectedParams, argumentValue, ParamTy.val, numberVal, NumName.rustInt, means, Val.params, linkLook,
        FieldInfo.FieldValid, FieldInfo.contentValid_single, Ty.default, Scalar.dflt, Scalar.InRange]
      refine ⟨_, rfl, rfl, fun i y h => ?_⟩
      have hy : y ∈ [Val.nat 5] := List.mem_of_getElem? h
      simp only [List.mem_cons, List.not_mem_nil, or_false] at hy
      subst hy
      simp [FieldInfo.expectedParams, Val.params, Scalar.InRange]
    · simp [FieldInfo.expectedParams, argumentValue, ParamTy.val, numberVal, NumName.rustInt, means, Val.params, linkLook,
        FieldInfo.FieldValid, FieldInfo.contentValid_single, Ty.default, Scalar.dflt, Scalar.InRange]
      refine ⟨_, rfl, rfl, fun i y h => ?_⟩
      have hy : y ∈ [Val.nat 6, .nat 700, .nat 8] := List.mem_of_getElem? h
      simp only [List.mem_cons, List.not_mem_nil, or_false] at hy
      rcases hy with rfl | rfl | rfl <;> simp [FieldInfo.expectedParams, Val.params, Scalar.InRange]
  · decide

theorem linkAdd_fitting {m : Modifiers tenths.F} {ty : WrittenTy tenths.F} {look : Env → World tenths.F Unit}
    {env env' : Env} (hlook : look env = sourceLook env') (hc : m.clause = none)
    (ha : m.array = some (false, some (.arith .add (.ident "a") (.ident "b"))))
    (hsum : Demo.num env' 0 % 256 + Demo.num env' 1 % 256 < 256)
    (hargs : ∀ p e, (p, e) ∈ m.args → p = .num .uint8 ∧ e = .ident "a") (hty : ∀ e, ¬ (ty = .bit e ∨ ty = .int e)) :
    (m.with ty).Fitting .debug sourceScope look env where
  clause e he := by
    have he : m.clause = some e := he
    rw [hc] at he
    cases he
  length p e he := by
    have he : m.array = some (p, some e) := he
    rw [ha] at he
    cases he
    rw [hlook]
    refine ⟨Demo.num env' 0 % 256 + Demo.num env' 1 % 256, by omega, rfl, fun s hs => ?_⟩
    obtain ⟨⟨h, _⟩, _⟩ := hs
    cases h
    refine ⟨trivial, trivial, fun n hn => ?_, nofun⟩
    cases hn
    refine ⟨_, rfl, ?_⟩
    simp only [IntTy.Contains, IntTy.min, IntTy.max]
    simp
    omega
  width _ e he := absurd he (hty e)
  args _ p e he := by
    obtain ⟨rfl, rfl⟩ := hargs p e he
    rw [hlook]
    have := Nat.mod_lt (Demo.num env' 0) (show 256 > 0 by decide)
    refine ⟨.int _, ?_, rfl, fun _ _ => trivial⟩
    refine ⟨_, rfl, ?_⟩
    simp only [IntTy.Contains, IntTy.min, IntTy.max]
    simp
    omega

theorem linkAdd_inRange {m : Modifiers tenths.F} {ty : WrittenTy tenths.F} {look : Env → World tenths.F Unit}
    {env env' : Env} (hlook : look env = sourceLook env') (hc : m.clause = none)
    (ha : m.array = some (false, some (.arith .add (.ident "a") (.ident "b"))))
    (hsum : Demo.num env' 0 % 256 + Demo.num env' 1 % 256 < 256)
    (hargs : ∀ p e, (p, e) ∈ m.args → p = .num .uint8 ∧ e = .ident "a") (hty : ∀ e, ¬ (ty = .bit e ∨ ty = .int e)) :
    (m.with ty).InRange .debug sourceScope look env where
  conforms := by rw [hlook]; exact sourceLook_conforms _
  fitting := linkAdd_fitting hlook hc ha hsum hargs hty

theorem linkPlain_inRange {look : Env → World tenths.F Unit} {env env' : Env} (hlook : look env = sourceLook env')
    (s : Scalar) : (({} : Modifiers tenths.F).with (.plain (.scalar s))).InRange .debug sourceScope look env :=
  ⟨by rw [hlook]; exact sourceLook_conforms _, by simp [Modifiers.with], by simp [Modifiers.with],
    by simp [Modifiers.with], by simp [Modifiers.with]⟩

theorem linkInner_inRange (b : Bool) : ∀ x ∈ linkItems, linkInner.InRange .debug b x := by
  intro x hx
  simp only [linkItems, List.mem_cons, List.not_mem_nil, or_false] at hx
  rcases hx with rfl | rfl <;>
  · simp only [linkInner, SourceTy.InRange, SourceFields.InRange]
    refine ⟨_, _, rfl, _, _, rfl, trivial, ⟨linkPlain_inRange (look := linkLook) (env' := ⟨[], _⟩) rfl _, fun _ _ _ => trivial⟩, _, _, rfl, ⟨_, rfl⟩,
      ⟨linkAdd_inRange (look := linkLook) (env' := ⟨[], _⟩) rfl rfl rfl (by decide) nofun nofun, fun _ _ _ => trivial⟩, rfl⟩

theorem linkOuter_inRange : linkOuter.InRange .debug false linkVal := by
  simp only [linkOuter, linkVal, SourceTy.InRange, SourceFields.InRange]
  refine ⟨_, _, rfl, _, _, rfl, trivial, ⟨linkPlain_inRange rfl _, fun _ _ _ => trivial⟩,
    _, _, rfl, trivial, ⟨linkPlain_inRange rfl _, fun _ _ _ => trivial⟩,
    _, _, rfl, ⟨_, rfl⟩, ⟨linkAdd_inRange rfl rfl rfl (by decide) ?_ nofun, fun _ x hx => ?_⟩,
    _, _, rfl, ⟨_, rfl⟩, ⟨⟨sourceLook_conforms _, fun e he => ?_, nofun, fun _ e he => ?_, nofun⟩, fun _ _ _ => trivial⟩, rfl⟩
  · intro p e h
    simpa using h
  · obtain ⟨y, h1, xs, h2, h3⟩ := hx
    cases h1
    cases h2
    exact linkInner_inRange _ x h3
  · cases he
    refine ⟨_, _, rfl, rfl, fun s hs u v h => ?_⟩
    obtain ⟨hu, hv, hc, _⟩ := h
    cases hu
    cases comparable_int hc
    exact ⟨trivial, _, rfl, by decide⟩
  · simp only [Modifiers.with, SourceTy.written, WrittenTy.bit.injEq, reduceCtorEq, or_false] at he
    subst he
    exact ⟨1, by decide, rfl, fun _ _ => trivial⟩

-- The functions emitted for `Outer` and `Inner` write and restore an object with two elements, whose arrays have
-- one and three elements.
example (cfg : Cfg) (build : Mode) : ∃ c, linkOuter.Linked cfg .debug build c ∧ ∃ bits,
    c.write linkVal ⟨[]⟩ = .ok ⟨bits⟩ ∧
    c.read (linkOuter.meaning sourceLook).default ⟨0, bits⟩ = .ok (linkVal, ⟨bits.length, []⟩) := by
  obtain ⟨c, hc⟩ := C73_every_schema cfg .debug build linkOuter linkOuter_emittable rfl
  obtain ⟨bits, hw, hr⟩ := C73_round_trip_partial (look := sourceLook) linkOuter c linkOuter_accepts hc
    (linkOuter_supported cfg) ⟨[], []⟩ linkVal (linkOuter_valid cfg) linkOuter_inRange []
  refine ⟨c, hc, bits, hw, ?_⟩
  have := hr []
  rwa [List.append_nil, List.length_nil, Nat.zero_add] at this

end Zs
