import Verif.SourceLemmas
import Verif.PropsEmit

/-!
# Properties of emitted code with the expressions of the schema text (C71)
-/

namespace Zs

open Spec Emit

variable {fo : FloatOps} {O : Type} {cfg : Cfg} {md : Mode} {sc : TScope} {build : Mode}
  {look : Env → World fo.F O}

/-! ## C71: generated code with generated expressions does what the schema text says -/

/-- **C71 (partial)** For a structure, choice or union, the emitted function bodies, which contain the Rust
code of the conditions, array lengths, widths and type arguments of the schema text, are bodies for the type
whose conditions, lengths, widths and arguments have the values of these expressions (over the integers):
everything C55 says holds for them, for the objects for which no Rust type is too small.  Missing:
selectors of choices, arguments that use `@index` or have operators (C90), arguments that are floats, bitmasks or compound. -/
theorem C71_generated_partial (hord : Ordinary sc) (t : WrittenType fo.F) (b : Bodies)
    (hacc : ∀ f ∈ t.fields, f.Accepts md sc) (hb : t.Bodies cfg md sc build look b) :
    ∃ c ok, Generated cfg (RangeOf md sc look t.fields) (t.meaning look) b c ok := by
  cases t with
  | struct ps fs =>
    obtain ⟨gs, h, rfl⟩ := hb
    exact ⟨_, _, .struct (emitted_all hord fs (by simp [WrittenType.fields]) hacc h)⟩
  | choice ps sel cs =>
    obtain ⟨ds, h, rfl⟩ := hb
    exact ⟨_, _, .choice (emitted_cases hord _ (by simp [WrittenType.fields]) hacc h)⟩
  | union ps fs =>
    obtain ⟨gs, h, rfl⟩ := hb
    exact ⟨_, _, .union (emitted_all hord fs (by simp [WrittenType.fields]) hacc h)⟩

/-- **C71 (partial)** The emitted writer, executed on a valid object, appends bits from which the emitted
reader restores the object; which objects are valid is determined by the values of the expressions of the
schema text.  Missing: as for `C71_generated_partial`. -/
theorem C71_round_trip_partial (hord : Ordinary sc) (t : WrittenType fo.F) (b : Bodies)
    (hacc : ∀ f ∈ t.fields, f.Accepts md sc) (hb : t.Bodies cfg md sc build look b)
    (hs : (t.meaning look).Supported cfg) (env : Env) (k : Core)
    (hv : (t.meaning look).Valid cfg env (viewOf (t.meaning look) k))
    (hm : Met cfg (RangeOf md sc look t.fields) (t.meaning look) k) (hn : k.node = Node.new) :
    ∃ bits, Executes cfg (b.write false) k Core.w (.ok ⟨k.w.bits ++ bits⟩) ∧
      ∀ after k', k'.node = Node.new →
        viewOf (t.meaning look) k' = (t.meaning look).default.withParams (viewOf (t.meaning look) k).params →
        k'.r = ⟨k.w.bits.length, bits ++ after⟩ →
        Executes cfg (b.read false) k' (fun k => (viewOf (t.meaning look) k, k.r))
          (.ok (viewOf (t.meaning look) k, ⟨k.w.bits.length + bits.length, after⟩)) := by
  obtain ⟨c, ok, hg⟩ := C71_generated_partial hord t b hacc hb
  exact C55_emitted_round_trip cfg _ _ b c ok hg hs env k hv hm hn

/-- **C71 (partial)** The emitted writer appends the bits of the zserio encoding, in which presence of fields,
numbers of elements and widths are the values of the expressions of the schema text.  Missing: as for
`C71_generated_partial`. -/
theorem C71_encoding_partial (hord : Ordinary sc) (t : WrittenType fo.F) (b : Bodies)
    (hacc : ∀ f ∈ t.fields, f.Accepts md sc) (hb : t.Bodies cfg md sc build look b)
    (hs : (t.meaning look).Supported cfg) (env : Env) (k : Core)
    (hv : (t.meaning look).Valid cfg env (viewOf (t.meaning look) k))
    (hm : Met cfg (RangeOf md sc look t.fields) (t.meaning look) k) (hn : k.node = Node.new) :
    ∃ bits last, Executes cfg (b.write false) k Core.w (.ok ⟨k.w.bits ++ bits⟩) ∧
      (t.meaning look).Wire cfg exactPacking none env (viewOf (t.meaning look) k) (fun _ => none)
        k.w.bits.length bits last := by
  obtain ⟨c, ok, hg⟩ := C71_generated_partial hord t b hacc hb
  exact C55_emitted_encoding cfg _ _ b c ok hg hs env k hv hm hn

/-! ### There are such bodies -/

theorem runs_exists {α : Type} (Γ : RScope fo.F) (x : RExpr fo.F) (T : RTy → Prop)
    (datum : α → Datum fo.F O) (hinj : ∀ a b, datum a = datum b → a = b) :
    ∃ r : Env → Res α, Runs look Γ build x T datum r := by
  classical
  have uniq : ∀ a b : Res α, (a.bind fun v => .ok (datum v)) = (b.bind fun v => .ok (datum v)) → a = b := by
    intro a b h
    cases a <;> cases b <;> simp [Res.bind] at h ⊢
    · exact hinj _ _ h
    · exact h
  refine ⟨fun env => if h : ∃ a : Res α, ∀ o, (∃ t, T t ∧ Evals (look env) Γ build x t o) ↔
      o = a.bind fun v => .ok (datum v) then Classical.choose h else .panic, fun env a ha => ?_⟩
  have h : ∃ a : Res α, ∀ o, (∃ t, T t ∧ Evals (look env) Γ build x t o) ↔
      o = a.bind fun v => .ok (datum v) := ⟨a, ha⟩
  show dite _ _ _ = a
  rw [dif_pos h]
  exact uniq _ _ (((ha _).1 ((Classical.choose_spec h _).2 rfl)))

theorem runsWidth_exists (e : Expr fo.F) : ∃ l, RunsWidth md sc build look e l := by
  obtain ⟨r, hr⟩ := runs_exists (look := look) (build := build) (rscope sc) (code md sc e)
    (fun t => if widthCast md sc e = true then
      Infers (rscope sc) (code md sc e) (.int ⟨false, 8⟩) t ∧ t.CanCast (.int ⟨false, 8⟩)
      else t = .int ⟨false, 8⟩) (fun n : Nat => .int n)
    (fun a b h => by simpa [Int.ofNat_inj] using h)
  exact ⟨⟨r, widthCast md sc e⟩, rfl, hr⟩

theorem runsArgs_exists : ∀ es : List (ParamTy × Expr fo.F),
    ∃ as, RunsArgs md sc build look es as ∧ as.length = es.length
  | [] => ⟨[], trivial, rfl⟩
  | (p, e) :: es => by
    obtain ⟨r, hr⟩ := runs_exists (look := look) (build := build) (rscope sc) (argumentCode md sc p.ty e)
      (· = p.rust) id (fun a b h => h)
    obtain ⟨as, ha, hl⟩ := runsArgs_exists es
    exact ⟨⟨fun env _ => (r env).bind fun v => .ok (p.val v), false⟩ :: as,
      ⟨rfl, ⟨r, fun _ _ => rfl, hr⟩, ha⟩, by simp [hl]⟩

theorem refTy_arity (cfg : Cfg) {t : Ty} {n : Nat} (h : paramCount t = some n) :
    ∃ c, refTy cfg t = .compound c n ∧ c.dflt.params.length = n := by
  cases t <;> simp only [paramCount, Option.some.injEq, reduceCtorEq] at h <;> subst h
  · exact ⟨_, rfl, rfl⟩
  · exact ⟨_, rfl, rfl⟩
  · exact ⟨_, rfl, rfl⟩

theorem emittedFor_exists (cfg : Cfg) (f : Written fo.F) (hf : f.Emittable) :
    ∃ g, EmittedFor cfg md sc build look f g := by
  obtain ⟨cl, hcl⟩ : ∃ cl, RunsClause md sc build look f.clause cl := by
    cases f.clause with
    | none => exact ⟨none, trivial⟩
    | some e =>
      obtain ⟨r, hr⟩ := runs_exists (look := look) (build := build) (rscope sc) (conditionCode md sc e)
        (· = .bool) Datum.bool (fun a b h => by simpa using h)
      exact ⟨some r, hr⟩
  obtain ⟨ar, har⟩ : ∃ ar, RunsArray md sc build look f.array ar := by
    cases f.array with
    | none => exact ⟨none, trivial⟩
    | some a =>
      obtain ⟨p, e⟩ := a
      cases e with
      | none => exact ⟨some ⟨p, none⟩, rfl, rfl⟩
      | some e =>
        obtain ⟨r, hr⟩ := runs_exists (look := look) (build := build) (rscope sc) (lengthCode md sc e)
          (· = .usize) (fun n : Nat => .int n)
            (fun a b h => by simpa [Int.ofNat_inj] using h)
        exact ⟨some ⟨p, some r⟩, rfl, r, rfl, hr⟩
  obtain ⟨as, has, hlen⟩ := runsArgs_exists (md := md) (sc := sc) (build := build) (look := look) f.args
  obtain ⟨ref, href, hcomp⟩ : ∃ ref, RunsType cfg md sc build look f.ty ref ∧
      (as ≠ [] → ∃ c, ref = .compound c as.length ∧ c.dflt.params.length = as.length) := by
    have hne : as ≠ [] → f.args ≠ [] := fun h h' => h (List.length_eq_zero_iff.1 (by rw [hlen, h']; rfl))
    cases hty : f.ty with
    | plain t =>
      refine ⟨refTy cfg t, refTy_ok (hf.1 t hty), fun h => ?_⟩
      obtain ⟨t', ht', hp⟩ := hf.2 (hne h)
      rw [hty] at ht'
      cases ht'
      rw [← hlen] at hp
      exact refTy_arity cfg hp
    | bit e =>
      obtain ⟨l, hl⟩ := runsWidth_exists (md := md) (sc := sc) (build := build) (look := look) e
      refine ⟨_, ⟨l, rfl, hl⟩, fun h => ?_⟩
      obtain ⟨t', ht', -⟩ := hf.2 (hne h)
      rw [hty] at ht'
      cases ht'
    | int e =>
      obtain ⟨l, hl⟩ := runsWidth_exists (md := md) (sc := sc) (build := build) (look := look) e
      refine ⟨_, ⟨l, rfl, hl⟩, fun h => ?_⟩
      obtain ⟨t', ht', -⟩ := hf.2 (hne h)
      rw [hty] at ht'
      cases ht'
  exact ⟨⟨ref, f.optional, cl, f.alignment, f.offset, ar, as, f.isOffsetField⟩,
    ⟨⟨rfl, hcl, rfl, rfl, har, has, rfl, hcomp⟩, href⟩⟩

theorem emittedAll_exists (cfg : Cfg) (md : Mode) (sc : TScope) (build : Mode)
    (look : Env → World fo.F O) : ∀ fs : List (Written fo.F), (∀ f ∈ fs, f.Emittable) →
    ∃ gs, EmittedAll cfg md sc build look fs gs
  | [], _ => ⟨[], trivial⟩
  | f :: fs, h => by
    obtain ⟨g, hg⟩ := emittedFor_exists (md := md) (sc := sc) (build := build) (look := look) cfg f
      (h f (List.mem_cons_self ..))
    obtain ⟨gs, hgs⟩ := emittedAll_exists cfg md sc build look fs
      fun f hf => h f (List.mem_cons_of_mem _ hf)
    exact ⟨g :: gs, hg, hgs⟩

theorem emittedCases_exists (cfg : Cfg) (md : Mode) (sc : TScope) (build : Mode)
    (look : Env → World fo.F O) : ∀ fs : List (List Val × Option (Written fo.F)),
    (∀ f ∈ fs.filterMap Prod.snd, f.Emittable) → ∃ cs, EmittedCases cfg md sc build look fs cs
  | [], _ => ⟨[], trivial⟩
  | (labels, none) :: fs, h => by
    obtain ⟨cs, hcs⟩ := emittedCases_exists cfg md sc build look fs
      (by simpa using h)
    exact ⟨⟨labels, none⟩ :: cs, rfl, trivial, hcs⟩
  | (labels, some f) :: fs, h => by
    have h : ∀ f' ∈ f :: fs.filterMap Prod.snd, f'.Emittable := h
    obtain ⟨g, hg⟩ := emittedFor_exists (md := md) (sc := sc) (build := build) (look := look) cfg f
      (h f (List.mem_cons_self ..))
    obtain ⟨cs, hcs⟩ := emittedCases_exists cfg md sc build look fs
      fun f hf => h f (List.mem_cons_of_mem _ hf)
    exact ⟨⟨labels, some g⟩ :: cs, rfl, hg, hcs⟩

/-- **C71** Bodies are emitted for every structure, choice and union as it is written. -/
theorem C71_every_type (cfg : Cfg) (md : Mode) (sc : TScope) (build : Mode) (look : Env → World fo.F O)
    (t : WrittenType fo.F) (ht : ∀ f ∈ t.fields, f.Emittable) : ∃ b, t.Bodies cfg md sc build look b := by
  cases t with
  | struct ps fs =>
    obtain ⟨gs, h⟩ := emittedAll_exists cfg md sc build look fs ht
    exact ⟨_, gs, h, rfl⟩
  | choice ps sel cs =>
    obtain ⟨ds, h⟩ := emittedCases_exists cfg md sc build look cs ht
    exact ⟨_, ds, h, rfl⟩
  | union ps fs =>
    obtain ⟨gs, h⟩ := emittedAll_exists cfg md sc build look fs ht
    exact ⟨_, gs, h, rfl⟩

/-! ### An example -/

/-- `a : uint8`, `b : uint8`. -/
def sourceScope : TScope where
  ident := fun x => if x = "a" ∨ x = "b" then some ⟨.num .uint8, .plain⟩ else none
  member := fun _ _ => none
  hasItem := fun _ _ => false
  index := false

/-- The first two fields of the object. -/
def sourceLook (env : Env) : World tenths.F Unit where
  name := fun x =>
    if x = "a" then some (.int (Demo.num env 0 % 256 : Nat))
    else if x = "b" then some (.int (Demo.num env 1 % 256 : Nat))
    else none
  func := fun _ => none
  member := fun _ _ => none
  method := fun _ _ => none
  item := fun _ _ => none
  index := none
  isA := fun _ _ => False

/-- `struct Sample { uint8 a; uint8 b; uint16 c[a + b]; bit<a> d if a < 10; }` -/
def sourceStruct : WrittenType tenths.F := .struct [] [
  { ty := .plain (.scalar (.uint 8)) },
  { ty := .plain (.scalar (.uint 8)) },
  { ty := .plain (.scalar (.uint 16)), array := some (false, some (.arith .add (.ident "a") (.ident "b"))) },
  { ty := .bit (.ident "a"), clause := some (.cmp .lt (.ident "a") (.intLit 10)) }]

/-- An object. -/
def sourceCore : Core :=
  ⟨[], [.nat 4, .nat 2, .list [.nat 1, .nat 2, .nat 3, .nat 4, .nat 5, .nat 600], .nat 9], 0, Node.new, ⟨[]⟩,
    ⟨0, []⟩, 0, 0, 0⟩

theorem sourceScope_ordinary : Ordinary sourceScope := by
  intro id n s r h _
  cases h

theorem sourceLook_conforms (env : Env) : Conforms (sourceLook env) (rscope sourceScope) where
  name := by
    intro n
    have h : ∀ i, (⟨false, 8⟩ : IntTy).Contains ((Demo.num env i % 256 : Nat) : Int) := fun i => by
      simp only [IntTy.Contains, IntTy.min, IntTy.max]
      have := Nat.mod_lt (Demo.num env i) (show 256 > 0 by decide)
      simp
      omega
    by_cases ha : n = "a"
    · subst ha
      exact ⟨_, rfl, _, rfl, h 0⟩
    · by_cases hb : n = "b"
      · subst hb
        exact ⟨_, rfl, _, rfl, h 1⟩
      · simp only [rscope, sourceScope, sourceLook, ha, hb, or_self, if_false]
        rfl
  func := by
    intro n x hx
    cases hx
  member := by intro o id n h; exact h.elim
  method := by intro o id n h; exact h.elim
  item := by
    intro e n
    simp only [rscope, sourceScope, sourceLook]
    repeat' split
    all_goals rfl
  index := rfl

theorem sourceStruct_supported (cfg : Cfg) : (sourceStruct.meaning sourceLook).Supported cfg := by
  simp [sourceStruct, WrittenType.meaning, meaning, Modifiers.info, Written.type, Ty.Supported, Fields.Supported,
    Scalar.WidthOk]

theorem sourceStruct_valid (cfg : Cfg) : (sourceStruct.meaning sourceLook).Valid cfg ⟨[], []⟩
    (viewOf (sourceStruct.meaning sourceLook) sourceCore) := by
  simp [sourceStruct, WrittenType.meaning, meaning, Modifiers.info, Written.type, viewOf, asObj, sourceCore,
    FieldInfo.FieldValid, FieldInfo.contentValid_single, FieldInfo.expectedParams, FieldInfo.default,
    Ty.default, Demo.num, Val.params, Scalar.dflt, Scalar.InRange, condition, lengthValue, sourceLook, means]
  constructor
  · refine ⟨_, rfl, rfl, fun i y h => ?_⟩
    have hy : y ∈ [Val.nat 1, .nat 2, .nat 3, .nat 4, .nat 5, .nat 600] := List.mem_of_getElem? h
    simp only [List.mem_cons, List.not_mem_nil, or_false] at hy
    rcases hy with rfl | rfl | rfl | rfl | rfl | rfl <;>
      simp [FieldInfo.expectedParams, Val.params, Scalar.InRange]
  · rfl

theorem sourceStruct_accepts (f : Written tenths.F) (hf : f ∈ sourceStruct.fields) :
    f.Accepts .debug sourceScope := by
  simp only [sourceStruct, WrittenType.fields, List.mem_cons, List.not_mem_nil, or_false] at hf
  rcases hf with rfl | rfl | rfl | rfl <;> constructor <;>
    simp [Written.Mentions, Expr.Separable, Expr.Unit, Expr.level, Expr.isCmp,
      Expr.isIsset, Expr.isValueof, Expr.endsWithCast, or_imp, forall_and]
  · exact ⟨rfl, .int ⟨false, 8⟩, ⟨rfl, rfl, trivial⟩, .inr (.inl ⟨trivial, trivial⟩)⟩
  · exact ⟨rfl, .int ⟨false, 8⟩, .int ⟨false, 8⟩, rfl, trivial, rfl⟩
  · exact rfl

theorem sourceStruct_inRange (cfg : Cfg) : Met cfg (RangeOf .debug sourceScope sourceLook sourceStruct.fields)
    (sourceStruct.meaning sourceLook) sourceCore := by
  intro i hi f hf
  have hi : i < 4 := hi
  rcases i with _ | _ | _ | _ | i
  · cases hf
    exact ⟨sourceLook_conforms _, by simp, by simp, by simp, by simp⟩
  · cases hf
    exact ⟨sourceLook_conforms _, by simp, by simp, by simp, by simp⟩
  · cases hf
    refine ⟨sourceLook_conforms _, by simp, fun p e he => ?_, by simp, by simp⟩
    cases he
    refine ⟨6, by decide, rfl, fun s hs => ?_⟩
    obtain ⟨⟨h, _⟩, _⟩ := hs
    cases h
    exact ⟨trivial, trivial, fun n hn => by cases hn; exact ⟨_, rfl, by decide⟩, nofun⟩
  · cases hf
    refine ⟨sourceLook_conforms _, fun e he => ?_, by simp, fun _ e he => ?_, by simp⟩
    · cases he
      refine ⟨_, _, rfl, rfl, fun s hs u v h => ?_⟩
      obtain ⟨hu, hv, hc, _⟩ := h
      cases hu
      cases comparable_int hc
      exact ⟨trivial, _, rfl, by decide⟩
    · simp only [WrittenTy.bit.injEq, reduceCtorEq, or_false] at he
      subst he
      exact ⟨4, by decide, rfl, fun _ _ => trivial⟩
  · omega

theorem sourceStruct_emittable (f : Written tenths.F) (hf : f ∈ sourceStruct.fields) : f.Emittable := by
  simp only [sourceStruct, WrittenType.fields, List.mem_cons, List.not_mem_nil, or_false] at hf
  rcases hf with rfl | rfl | rfl | rfl <;> simp [Written.Emittable, Ty.Emittable, Scalar.WidthOk]

-- `uint8 a; uint8 b; uint16 c[a + b]; bit<a> d if a < 10;`: the bodies that are emitted write and restore
-- the object with `a = 4`, `b = 2`, six elements and the four bits of `d`.
example (cfg : Cfg) (build : Mode) : ∃ b, sourceStruct.Bodies cfg .debug sourceScope build sourceLook b ∧
    ∃ bits, Executes cfg (b.write false) sourceCore Core.w (.ok ⟨bits⟩) ∧
      ∀ k', k'.node = Node.new → viewOf (sourceStruct.meaning sourceLook) k' =
          (sourceStruct.meaning sourceLook).default → k'.r = ⟨0, bits⟩ →
        Executes cfg (b.read false) k' (fun k => (viewOf (sourceStruct.meaning sourceLook) k, k.r))
          (.ok (viewOf (sourceStruct.meaning sourceLook) sourceCore, ⟨bits.length, []⟩)) := by
  obtain ⟨b, hb⟩ := C71_every_type cfg .debug sourceScope build sourceLook sourceStruct sourceStruct_emittable
  obtain ⟨bits, hw, hr⟩ := C71_round_trip_partial sourceScope_ordinary sourceStruct b sourceStruct_accepts hb
    (sourceStruct_supported cfg) ⟨[], []⟩ sourceCore (sourceStruct_valid cfg) (sourceStruct_inRange cfg) rfl
  refine ⟨b, hb, bits, hw, fun k' h1 h2 h3 => ?_⟩
  have := hr [] k' h1 h2 (by simpa [sourceCore] using h3)
  simpa [sourceCore] using this

/-! ### Objects out of range -/

/-- `struct Sample { uint8 a; uint8 b; uint8 c[a + b]; }` -/
def panicStruct : WrittenType tenths.F := .struct [] [
  { ty := .plain (.scalar (.uint 8)) },
  { ty := .plain (.scalar (.uint 8)) },
  { ty := .plain (.scalar (.uint 8)), array := some (false, some (.arith .add (.ident "a") (.ident "b"))) }]

/-- `(self.a + self.b) as usize` in a debug build. -/
def panicLength (env : Env) : Res Nat :=
  if Demo.num env 0 % 256 + Demo.num env 1 % 256 < 256 then .ok (Demo.num env 0 % 256 + Demo.num env 1 % 256)
  else .panic

/-- The fields as the generator sees them. -/
def panicFields : List Field := [
  { ty := .builtin .uint8 0 none },
  { ty := .builtin .uint8 0 none },
  { ty := .builtin .uint8 0 none, array := some ⟨false, some panicLength⟩ }]

/-- An object whose array has `200 + 200` elements. -/
def panicCore : Core :=
  ⟨[], [.nat 200, .nat 200, .list (List.replicate 400 (.nat 0))], 0, Node.new, ⟨[]⟩, ⟨0, []⟩, 0, 0, 0⟩

theorem panicLength_runs : Runs sourceLook (rscope sourceScope) .debug
    (lengthCode .debug sourceScope (.arith .add (.ident "a") (.ident "b"))) (· = .usize)
    (fun n : Nat => .int n) panicLength := by
  intro env r h
  have hcode : lengthCode .debug sourceScope (.arith .add (.ident "a") (.ident "b") : Expr tenths.F) =
      .cast (.paren (.bin (.arith .add) (.atom (.name "a")) (.atom (.name "b")))) "usize" := rfl
  have hin : Evals (sourceLook env) (rscope sourceScope) .debug
      (.bin (.arith .add) (.atom (.name "a")) (.atom (.name "b"))) (.int ⟨false, 8⟩)
      (inType .debug ⟨false, 8⟩ ((Demo.num env 0 % 256 : Nat) + (Demo.num env 1 % 256 : Nat) : Int)) := by
    refine ⟨_, ⟨_, rfl, rfl⟩, _, ⟨_, rfl, rfl⟩, _, rfl, ?_⟩
    rw [if_neg (by simp)]
    exact ⟨_, rfl, rfl⟩
  have hty : Infers (rscope sourceScope) (.paren (.bin (.arith .add) (.atom (.name "a")) (.atom (.name "b"))) :
      RExpr tenths.F) .usize (.int ⟨false, 8⟩) := by
    refine ⟨⟨rfl, rfl, trivial⟩, ?_⟩
    rintro ⟨h, _⟩
    cases h
  have hev : Evals (sourceLook env) (rscope sourceScope) .debug
      (lengthCode .debug sourceScope (.arith .add (.ident "a") (.ident "b"))) .usize
      ((panicLength env).bind fun n => .ok (.int n)) := by
    rw [hcode]
    refine ⟨rfl, _, hty, .inr (.inl ⟨trivial, trivial⟩), _, hin, ?_⟩
    have h0 := Nat.mod_lt (Demo.num env 0) (show 256 > 0 by decide)
    have h1 := Nat.mod_lt (Demo.num env 1) (show 256 > 0 by decide)
    unfold panicLength inType
    by_cases hlt : Demo.num env 0 % 256 + Demo.num env 1 % 256 < 256
    · rw [if_pos hlt, if_pos (by simp only [IntTy.Contains, IntTy.min, IntTy.max]; simp; omega)]
      have hw : ((Demo.num env 0 % 256 + Demo.num env 1 % 256 : Nat) : Int) = IntTy.wrap ⟨false, 64⟩
          ((Demo.num env 0 % 256 : Nat) + (Demo.num env 1 % 256 : Nat) : Int) := by
        simp only [IntTy.wrap, IntTy.min]
        simp
        omega
      exact congrArg (fun z => Res.ok (Datum.int z)) hw
    · rw [if_neg hlt, if_neg (by simp only [IntTy.Contains, IntTy.min, IntTy.max]; simp; omega)]
      rfl
  have heq := (h _).1 ⟨_, rfl, hev⟩
  cases hp : panicLength env <;> rw [hp] at heq <;> cases r <;> simp [Res.bind] at heq ⊢
  · exact_mod_cast heq
  · exact heq

theorem panicStruct_bodies (cfg : Cfg) :
    panicStruct.Bodies cfg .debug sourceScope .debug sourceLook (structBodies panicFields) :=
  ⟨panicFields, ⟨⟨⟨rfl, trivial, rfl, rfl, trivial, trivial, rfl, fun h => absurd rfl h⟩, .scalar .uint8⟩,
    ⟨⟨rfl, trivial, rfl, rfl, trivial, trivial, rfl, fun h => absurd rfl h⟩, .scalar .uint8⟩,
    ⟨⟨rfl, trivial, rfl, rfl, ⟨rfl, _, rfl, panicLength_runs⟩, trivial, rfl, fun h => absurd rfl h⟩, .scalar .uint8⟩,
    trivial⟩, rfl⟩

/-- **C71** is violated when a Rust type is too small: of a structure that Rust accepts there are objects,
valid as the schema says, that the emitted writer does not write: it panics.  With `uint8 a; uint8 b;
uint8 c[a + b];` one is `a = b = 200` with 400 elements. -/
theorem C71_panic_violated (cfg : Cfg) : ∃ (t : WrittenType tenths.F) (b : Bodies) (k : Core),
    (∀ f ∈ t.fields, f.Accepts .debug sourceScope) ∧ t.Bodies cfg .debug sourceScope .debug sourceLook b ∧
    (t.meaning sourceLook).Supported cfg ∧
    (t.meaning sourceLook).Valid cfg ⟨[], []⟩ (viewOf (t.meaning sourceLook) k) ∧ k.node = Node.new ∧
    Executes cfg (b.write false) k Core.w .panic := by
  refine ⟨panicStruct, _, panicCore, fun f hf => ?_, panicStruct_bodies cfg, ?_, ?_, rfl, ?_⟩
  · simp only [panicStruct, WrittenType.fields, List.mem_cons, List.not_mem_nil, or_false] at hf
    rcases hf with rfl | rfl | rfl <;> constructor <;>
    simp [Written.Mentions, Expr.Separable, Expr.Unit, Expr.level, Expr.isCmp,
      Expr.isIsset, Expr.isValueof, Expr.endsWithCast, or_imp, forall_and]
    exact ⟨rfl, .int ⟨false, 8⟩, ⟨rfl, rfl, trivial⟩, .inr (.inl ⟨trivial, trivial⟩)⟩
  · simp [panicStruct, WrittenType.meaning, meaning, Modifiers.info, Written.type, Ty.Supported, Fields.Supported,
      Scalar.WidthOk]
  · simp [panicStruct, WrittenType.meaning, meaning, Modifiers.info, Written.type, viewOf, asObj, panicCore,
      FieldInfo.FieldValid, FieldInfo.contentValid_single, FieldInfo.expectedParams,
      Ty.default, Demo.num, Val.params, Scalar.dflt, Scalar.InRange, lengthValue, sourceLook, means,
      -List.reduceReplicate]
    refine ⟨_, rfl, by rw [List.length_replicate]; rfl, fun i y h => ?_⟩
    have hy := List.eq_of_mem_replicate (List.mem_of_getElem? h)
    subst hy
    simp [FieldInfo.expectedParams, Val.params, Scalar.InRange]
  · refine ⟨structCode encodeCode false 0 panicFields ++ Code.one .okUnit, ?_, ?_⟩
    · rw [Code.lines_append, lines_structCode lines_encodeCode]; rfl
    · rfl

end Zs
