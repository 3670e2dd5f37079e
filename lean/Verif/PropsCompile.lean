import Verif.TextConforms
import Verif.CompileSpec

/-!
# C76: from the text of a structure to the bits
-/

namespace Zs

open Spec Emit

variable {fo : FloatOps} {round : List Char → fo.F} {display : fo.F → List Char} {float : Val → fo.F}
  {cfg : Cfg} {md build : Mode} {s : Src.Struct} {ws : List (Written fo.F)} {d : Ast.Struct fo.F}
  {gs : List Emit.Field}

/-- **C76** The names that the expressions of a structure can use have the types that its text says. -/
theorem C76_names (hs : StructStands round s ws) (hd : visitStruct (floatText fo round display) s = .ok d) :
    (d.scope Ast.Names.empty) = textScope (F := fo.F) noConstants s :=
  scope_plain (K := (noConstants : Constants fo.F)) hd hs.functions hs.names

/-- **C76** What the generator sees of a structure are the fields of its text: with their types, arrays,
conditions, alignments and offsets. -/
theorem C76_fields {O : Type} {look : Env → World fo.F O} (hs : StructStands round s ws)
    (hd : visitStruct (floatText fo round display) s = .ok d) (hg : SeenAll md build look Ast.Names.empty d d.fields gs) :
    EmittedAll cfg md (textScope (F := fo.F) noConstants s) build look ws gs := by
  have hd' := hd
  simp only [visitStruct, Res.bind_eq_ok, Res.ok.injEq] at hd
  obtain ⟨ps, hps, fs, hfs, us, hus, rfl⟩ := hd
  exact fields_seen hs hd' hs.fields hfs hg

/-- The object is as the text of the structure says, in front of each field the values of its expressions are
there, and the Rust types in which they are computed are large enough. -/
structure Proper (cfg : Cfg) (md : Mode) (float : Val → fo.F) (s : Src.Struct) (ws : List (Written fo.F))
    (k : Core) : Prop where
  params : ParamsValid cfg (fun _ => none) s.params k.params
  valid : (meaning (textLook float noConstants s) ws).Valid cfg k.params [] k.fields
  fitting : ∀ i (f : Written fo.F), ws[i]? = some f → f.Fitting md (textScope (F := fo.F) noConstants s) (textLook float noConstants s) ⟨k.params, k.fields.take i⟩

theorem proper_met (hs : StructStands round s ws) (hsup : ((textType s ws).meaning (textLook float noConstants s)).Supported cfg)
    {k : Core} (hk : Proper cfg md float s ws k) :
    Met cfg (RangeOf md (textScope (F := fo.F) noConstants s) (textLook float noConstants s) (textType s ws).fields)
      ((textType s ws).meaning (textLook float noConstants s)) k := by
  intro i _ f hf
  have hsup' : (meaning (textLook float noConstants s) ws).Supported cfg := by
    simpa [textType, WrittenType.meaning, Ty.Supported] using hsup
  exact ⟨text_conforms noConstants_good hs hsup' hk.params hk.valid i, hk.fitting i f hf⟩

/-- **C76 (partial)** From the text of a structure to the bits and back: the compiler reads the parse tree of the
structure, and the writer that it emits, executed on an object that the text permits, appends bits from which
the emitted reader restores the object.  Missing: functions, templates, types that are not builtin, names that
are used in front of their declaration, binary literals and strings with escapes. -/
theorem C76_round_trip_partial (hs : StructStands round s ws)
    (hd : visitStruct (floatText fo round display) s = .ok d)
    (hg : SeenAll md build (textLook float noConstants s) Ast.Names.empty d d.fields gs)
    (hacc : ∀ f ∈ ws, f.Accepts md (textScope (F := fo.F) noConstants s))
    (hsup : ((textType s ws).meaning (textLook float noConstants s)).Supported cfg)
    (k : Core) (hk : Proper cfg md float s ws k) (hn : k.node = Node.new) :
    ∃ bits, Executes cfg ((structBodies gs).write false) k Core.w (.ok ⟨k.w.bits ++ bits⟩) ∧
      ∀ after k', k'.node = Node.new →
        asObj k' = ((textType s ws).meaning (textLook float noConstants s)).default.withParams k.params →
        k'.r = ⟨k.w.bits.length, bits ++ after⟩ →
        Executes cfg ((structBodies gs).read false) k' (fun k => (asObj k, k.r))
          (.ok (asObj k, ⟨k.w.bits.length + bits.length, after⟩)) :=
  C71_round_trip_partial (look := textLook float noConstants s) (textScope_ordinary noConstants_good s) (textType s ws) (structBodies gs) hacc
    ⟨gs, C76_fields hs hd hg, rfl⟩ hsup ⟨[], []⟩ k ⟨k.params, k.fields, rfl, hk.valid⟩ (proper_met hs hsup hk) hn

/-- **C76 (partial)** The bits are the zserio encoding of the object, where presence of fields, numbers of
elements and widths are the values of the expressions in the text.  Missing: as for
`C76_round_trip_partial`. -/
theorem C76_encoding_partial (hs : StructStands round s ws)
    (hd : visitStruct (floatText fo round display) s = .ok d)
    (hg : SeenAll md build (textLook float noConstants s) Ast.Names.empty d d.fields gs)
    (hacc : ∀ f ∈ ws, f.Accepts md (textScope (F := fo.F) noConstants s))
    (hsup : ((textType s ws).meaning (textLook float noConstants s)).Supported cfg)
    (k : Core) (hk : Proper cfg md float s ws k) (hn : k.node = Node.new) :
    ∃ bits last, Executes cfg ((structBodies gs).write false) k Core.w (.ok ⟨k.w.bits ++ bits⟩) ∧
      ((textType s ws).meaning (textLook float noConstants s)).Wire cfg exactPacking none ⟨[], []⟩ (asObj k) (fun _ => none)
        k.w.bits.length bits last :=
  C71_encoding_partial (look := textLook float noConstants s) (textScope_ordinary noConstants_good s) (textType s ws) (structBodies gs) hacc
    ⟨gs, C76_fields hs hd hg, rfl⟩ hsup ⟨[], []⟩ k ⟨k.params, k.fields, rfl, hk.valid⟩ (proper_met hs hsup hk) hn

/-! ### There are such functions -/

theorem exprOption_clause {O : Type} {look : Env → World fo.F O} {sc : TScope} (x : Option (Expr fo.F)) :
    ∃ c, RunsClause md sc build look x c := by
  cases x with
  | none => exact ⟨none, trivial⟩
  | some e =>
    obtain ⟨r, hr⟩ := runs_exists (look := look) (build := build) (rscope sc) (conditionCode md sc e)
      (· = .bool) Datum.bool (fun a b h => by simpa using h)
    exact ⟨some r, hr⟩

theorem runsArray_exists {O : Type} {look : Env → World fo.F O} {sc : TScope} (p : Bool) (x : Option (Expr fo.F)) :
    ∃ g, RunsArray md sc build look (some (p, x)) g := by
  cases x with
  | none => exact ⟨some ⟨p, none⟩, rfl, rfl⟩
  | some e =>
    obtain ⟨r, hr⟩ := runs_exists (look := look) (build := build) (rscope sc) (lengthCode md sc e)
      (· = .usize) (fun n : Nat => .int n)
        (fun a b h => by simpa [Int.ofNat_inj] using h)
    exact ⟨some ⟨p, some r⟩, rfl, r, rfl, hr⟩

theorem typeSeen_exists {O : Type} {look : Env → World fo.F O} {sc : TScope} {known : List String} {i : Src.Inst}
    {t : WrittenTy fo.F} (h : TypeStands round known i t) {r : Ast.TypeRef fo.F}
    (hr : visitInst (floatText fo round display) i = .ok r) : ∃ ref, TypeSeen md sc build look r ref := by
  cases h with
  | scalar hsc =>
    simp only [visitInst, Res.bind_eq_ok] at hr
    obtain ⟨r', hr', hr⟩ := hr
    cases hr
    obtain ⟨name, bits, n, rfl, hn, -⟩ := scalar_seen (cfg := ⟨.debug, fun _ => 0, fun _ => 0, 0, 0⟩) hsc hr'
    exact ⟨.builtin n bits none, rfl, n, hn, rfl⟩
  | bit he =>
    simp only [visitInst, visitTy, Res.bind_eq_ok, Res.ok.injEq] at hr
    obtain ⟨_, rfl, hr⟩ := hr
    simp only [Res.bind_eq_ok, Res.ok.injEq] at hr
    obtain ⟨l, hl, rfl⟩ := hr
    obtain ⟨w, hw⟩ := runsWidth_exists (md := md) (sc := sc) (build := build) (look := look) _
    exact ⟨.builtin .bit 0 (some w), rfl, .bit, rfl, _, _, expr_visit he l hl, hw, rfl⟩
  | int he =>
    simp only [visitInst, visitTy, Res.bind_eq_ok, Res.ok.injEq] at hr
    obtain ⟨_, rfl, hr⟩ := hr
    simp only [Res.bind_eq_ok, Res.ok.injEq] at hr
    obtain ⟨l, hl, rfl⟩ := hr
    obtain ⟨w, hw⟩ := runsWidth_exists (md := md) (sc := sc) (build := build) (look := look) _
    exact ⟨.builtin .int 0 (some w), rfl, .int, rfl, _, _, expr_visit he l hl, hw, rfl⟩

theorem seenAs_exists {O : Type} {look : Env → World fo.F O} {known : List String} {f : Src.StructField}
    {w : Written fo.F} (hf : FieldStands round s known f w) {x : Ast.Field fo.F}
    (hx : visitStructField (floatText fo round display) f = .ok x) : ∃ g, SeenAs md build look Ast.Names.empty d x g := by
  obtain ⟨-, h2, h3, -, -, -, h7⟩ := visitStructField_parts hx
  obtain ⟨c, hc⟩ := exprOption_clause (md := md) (build := build) (look := look) (sc := d.scope Ast.Names.empty) w.clause
  obtain ⟨ref, href⟩ := typeSeen_exists (md := md) (build := build) (look := look) (sc := d.scope Ast.Names.empty) hf.ty h2
  obtain ⟨a, ha⟩ : ∃ a, ArraySeen md (d.scope Ast.Names.empty) build look x.array a := by
    have har := hf.array
    cases hwa : w.array with
    | none =>
      rw [hwa] at har
      rw [show f.typeId.array = none from har] at h3
      simp only [visitOption, Res.ok.injEq] at h3
      rw [← h3]
      exact ⟨none, rfl⟩
    | some px =>
      obtain ⟨p, y⟩ := px
      rw [hwa] at har
      obtain ⟨-, -, e, he, hy⟩ := har
      rw [he] at h3
      simp only [visitOption, Res.bind_eq_ok, Res.ok.injEq] at h3
      obtain ⟨_, ⟨l, hl, rfl⟩, h3⟩ := h3
      rw [← h3]
      obtain ⟨g, hg⟩ := runsArray_exists (md := md) (build := build) (look := look) (sc := d.scope Ast.Names.empty) f.typeId.packed y
      exact ⟨g, y, exprOption_visit hy _ hl, hg⟩
  exact ⟨⟨ref, x.optional, c, x.alignment, Ast.offsetKind x.offset, a, [], d.marks x⟩,
    ⟨rfl, rfl, rfl, rfl, ⟨_, exprOption_visit hf.clause _ h7, hc⟩, ha, href, rfl⟩⟩

theorem seenAll_exists {O : Type} {look : Env → World fo.F O} :
    ∀ {known : List String} {fs : List Src.StructField} {vs : List (Written fo.F)},
    FieldsStand round s known fs vs → ∀ {xs : List (Ast.Field fo.F)},
    visitList (visitStructField (floatText fo round display)) fs = .ok xs → ∃ gs, SeenAll md build look Ast.Names.empty d xs gs
  | _, [], [], _, xs, hx => by
    simp only [visitList, Res.ok.injEq] at hx
    subst hx
    exact ⟨[], trivial⟩
  | _, [], _ :: _, h, _, _ => h.elim
  | _, _ :: _, [], h, _, _ => h.elim
  | _, f :: fs, w :: vs, h, xs, hx => by
    simp only [visitList, Res.bind_eq_ok, Res.ok.injEq] at hx
    obtain ⟨x, hx, xs, hxs, rfl⟩ := hx
    obtain ⟨g, hg⟩ := seenAs_exists (md := md) (build := build) (look := look) (d := d) h.1 hx
    obtain ⟨gs, hgs⟩ := seenAll_exists h.2 hxs
    exact ⟨g :: gs, hg, hgs⟩

/-- **C76** There is code for every structure that the visitor accepts. -/
theorem C76_every_structure {O : Type} (md build : Mode) (look : Env → World fo.F O) (hs : StructStands round s ws)
    (hd : visitStruct (floatText fo round display) s = .ok d) : ∃ gs, SeenAll md build look Ast.Names.empty d d.fields gs := by
  simp only [visitStruct, Res.bind_eq_ok, Res.ok.injEq] at hd
  obtain ⟨ps, hps, fs, hfs, us, hus, rfl⟩ := hd
  exact seenAll_exists hs.fields hfs

/-! ### An example -/

/-- A field without modifiers. -/
def textField (t : Src.Inst) (name : String) : Src.StructField where
  align := none
  offset := none
  extended := false
  optional := false
  typeId := { packed := false, implicit_ := false, type := t, name := name, array := none }
  initializer := none
  clause := none
  constraint := none

/-- `uint16 c[a + p];` -/
def textArray : Src.StructField :=
  { textField ⟨.builtin "uint16", .none⟩ "c" with
    typeId := { packed := false, implicit_ := false, type := ⟨.builtin "uint16", .none⟩, name := "c",
                array := some (some (.binary .add (.id "a") (.id "p"))) } }

/-- `align(8): bit<a> d if a < 10;` -/
def textWidth : Src.StructField :=
  { textField ⟨.builtin "bit", .length (.id "a")⟩ "d" with
    align := some (.lit .decimal "8".toList)
    clause := some (.binary .lt (.id "a") (.lit .decimal "10".toList)) }

/-- `struct Sample(uint8 p) { uint8 a; uint16 c[a + p]; align(8): bit<a> d if a < 10; };` -/
def textStruct : Src.Struct where
  name := "Sample"
  templates := []
  params := [⟨.builtin "uint8", "p"⟩]
  fields := [textField ⟨.builtin "uint8", .none⟩ "a", textArray, textWidth]
  functions := []

/-- Its fields. -/
def textWritten : List (Written tenths.F) := [
  { ty := .plain (.scalar (.uint 8)) },
  { ty := .plain (.scalar (.uint 16)), array := some (false, some (.arith .add (.ident "a") (.ident "p"))) },
  { ty := .bit (.ident "a"), clause := some (.cmp .lt (.ident "a") (.intLit 10)), alignment := 8 }]

/-- There are no literals with a point in it. -/
def noRound (_ : List Char) : tenths.F := (0 : Int)

/-- There are no fields of floating-point numbers in it. -/
def noNumber (_ : Val) : tenths.F := (0 : Int)

theorem text_stands : StructStands noRound textStruct textWritten where
  templates := rfl
  functions := rfl
  params := by simp [textStruct, scalarOf]
  names := by decide
  fields := by
    have hoff : ∀ n, ¬ ∃ g ∈ textStruct.fields, OffsetIn n g.offset := by
      simp [textStruct, textField, textArray, textWidth, OffsetIn]
    have hten : Stands noRound ["p", "a", "c"] (.lit .decimal "10".toList) (.intLit 10) :=
      .int (l := .decimal [1, 0]) (by simp [IntLit.WellFormed]) (by simp [IntLit.IsBinary])
    refine ⟨⟨rfl, .scalar rfl, rfl, rfl, trivial, rfl, .none, ?_, rfl⟩,
      ⟨rfl, .scalar rfl, ⟨rfl, rfl, _, rfl, ?_⟩, rfl, trivial, rfl, .none, ?_, rfl⟩,
      ⟨rfl, .bit (.id (by decide)), rfl, rfl, ?_, rfl, .none, ?_, rfl⟩, trivial⟩
    · exact ⟨nofun, fun h => (hoff _ h).elim⟩
    · exact .binary (op := .add) (.id (by decide)) (.id (by decide))
    · exact ⟨nofun, fun h => (hoff _ h).elim⟩
    · exact .binary (op := .lt) (.id (by decide)) hten
    · exact ⟨nofun, fun h => (hoff _ h).elim⟩

/-- `Sample` with `p = 2`, `a = 4`, six elements and the four bits of `d`. -/
def textCore : Core :=
  ⟨[.nat 2], [.nat 4, .list [.nat 1, .nat 2, .nat 3, .nat 4, .nat 5, .nat 600], .nat 9], 0, Node.new, ⟨[]⟩,
    ⟨0, []⟩, 0, 0, 0⟩

theorem text_visit (display : tenths.F → List Char) :
    ∃ d, visitStruct (floatText tenths noRound display) textStruct = .ok d :=
  ⟨_, by with_unfolding_all rfl⟩

theorem text_accepts (f : Written tenths.F) (hf : f ∈ textWritten) : f.Accepts .debug (textScope (F := tenths.F) noConstants textStruct) := by
  simp only [textWritten, List.mem_cons, List.not_mem_nil, or_false] at hf
  rcases hf with rfl | rfl | rfl <;> constructor <;>
    simp [Written.Mentions, Expr.Separable, Expr.Unit, Expr.level, Expr.isCmp,
      Expr.isIsset, Expr.isValueof, Expr.endsWithCast, or_imp, forall_and]
  · exact ⟨rfl, .int ⟨false, 8⟩, ⟨rfl, rfl, trivial⟩, .inr (.inl ⟨trivial, trivial⟩)⟩
  · exact ⟨rfl, .int ⟨false, 8⟩, .int ⟨false, 8⟩, rfl, trivial, rfl⟩
  · exact rfl

theorem text_supported (cfg : Cfg) :
    ((textType textStruct textWritten).meaning (textLook noNumber noConstants textStruct)).Supported cfg := by
  simp [textType, textWritten, WrittenType.meaning, meaning, Modifiers.info, Written.type, Ty.Supported,
    Fields.Supported, Scalar.WidthOk]

theorem text_proper (cfg : Cfg) : Proper cfg .debug noNumber textStruct textWritten textCore where
  params := by simp [ParamsValid, textStruct, textCore, scalarOf, Scalar.WidthOk, Scalar.InRange]
  valid := by
    have hc : condition (textLook noNumber noConstants textStruct ⟨[.nat 2], [.nat 4,
      .list [.nat 1, .nat 2, .nat 3, .nat 4, .nat 5, .nat 600]]⟩)
        (.cmp .lt (.ident "a") (.intLit 10) : Expr tenths.F) = true := by rfl
    simp [textWritten, meaning, Modifiers.info, Written.type, textCore,
      FieldInfo.FieldValid, FieldInfo.contentValid_single, FieldInfo.expectedParams,
      Ty.default, Val.params, Scalar.dflt, Scalar.InRange, hc]
    constructor
    · refine ⟨_, rfl, rfl, fun i y h => ?_⟩
      have hy : y ∈ [Val.nat 1, .nat 2, .nat 3, .nat 4, .nat 5, .nat 600] := List.mem_of_getElem? h
      simp only [List.mem_cons, List.not_mem_nil, or_false] at hy
      rcases hy with rfl | rfl | rfl | rfl | rfl | rfl <;>
        simp [FieldInfo.expectedParams, Val.params, Scalar.InRange]
    · decide
  fitting := by
    intro i f hf
    rcases i with _ | _ | _ | i
    · cases hf
      exact ⟨by simp, by simp, by simp, by simp⟩
    · cases hf
      refine ⟨by simp, fun p e he => ?_, by simp, by simp⟩
      cases he
      refine ⟨6, by decide, rfl, fun s hs => ?_⟩
      obtain ⟨⟨h, _⟩, _⟩ := hs
      cases h
      exact ⟨trivial, trivial, fun n hn => by cases hn; exact ⟨_, rfl, by decide⟩, nofun⟩
    · cases hf
      refine ⟨fun e he => ?_, by simp, fun _ e he => ?_, by simp⟩
      · cases he
        refine ⟨_, _, rfl, rfl, fun s hs u v h => ?_⟩
        obtain ⟨hu, hv, hc, _⟩ := h
        cases hu
        cases comparable_int hc
        exact ⟨trivial, _, rfl, by decide⟩
      · simp only [WrittenTy.bit.injEq, reduceCtorEq, or_false] at he
        subst he
        exact ⟨4, by decide, rfl, fun _ _ => trivial⟩
    · cases hf

-- `struct Sample(uint8 p) { uint8 a; uint16 c[a + p]; align(8): bit<a> d if a < 10; };`: the functions that are
-- emitted for this text write and restore the object with `p = 2`, `a = 4`, six elements and the four bits of `d`.
example (cfg : Cfg) (build : Mode) (display : tenths.F → List Char) : ∃ d gs,
    visitStruct (floatText tenths noRound display) textStruct = .ok d ∧
    SeenAll .debug build (textLook noNumber noConstants textStruct) Ast.Names.empty d d.fields gs ∧
    ∃ bits, Executes cfg ((structBodies gs).write false) textCore Core.w (.ok ⟨bits⟩) ∧
      ∀ k', k'.node = Node.new → asObj k' = .obj [.nat 2] [.nat 0, .list [], .nat 0] → k'.r = ⟨0, bits⟩ →
        Executes cfg ((structBodies gs).read false) k' (fun k => (asObj k, k.r))
          (.ok (asObj textCore, ⟨bits.length, []⟩)) := by
  obtain ⟨d, hd⟩ := text_visit display
  obtain ⟨gs, hgs⟩ := C76_every_structure .debug build (textLook noNumber noConstants textStruct) text_stands hd
  obtain ⟨bits, hw, hr⟩ := C76_round_trip_partial text_stands hd hgs text_accepts (text_supported cfg) textCore
    (text_proper cfg) rfl
  refine ⟨d, gs, hd, hgs, bits, hw, fun k' h1 h2 h3 => ?_⟩
  have := hr [] k' h1 (by rw [h2]; rfl) (by simpa [textCore] using h3)
  simpa [textCore] using this

end Zs
