import Verif.PackageLink
import Verif.PackageValues

/-!
# C78: from the text of a package to bits

The parser and the visitor turn the text of a package into a tree of declarations, the generator reads it and emits
functions for all types, and the functions of a type call those of the types that it uses.
-/

namespace Zs

open Ast Spec Emit

variable {fo : FloatOps} {K : Constants fo.F} {round : List Char → fo.F} {display : fo.F → List Char} {float : Val → fo.F}
variable {cfg : Cfg} {md build : Mode} {esc : EScope fo.F}
variable {P : Src.Package} {Q : Ast.Package fo.F} {t : SourceTy fo.F Object} {name : String} {ps : List Src.Param}
variable {c : Codec} {qs : List (Ast.Param fo.F)} {look : Env → World fo.F Object}

/-- **C78** The functions that are emitted for a type of the package are those of the type that the text declares. -/
theorem C78_types (hQ : visitPackage (floatText fo round display) P = .ok Q)
    (hn : ((P.directives.filterMap declares).map Prod.fst).Nodup) (ht : t.Declares round float K P.directives name ps)
    (hc : CodeOf cfg md build float K esc (fileSymbols Q) name c qs) : t.Linked cfg md build c :=
  (type_linked hQ hn t ht hc).1

/-- **C78** There is code for every type that the text declares. -/
theorem C78_every_type (cfg : Cfg) (md build : Mode) (esc : EScope fo.F)
    (hQ : visitPackage (floatText fo round display) P = .ok Q)
    (hn : ((P.directives.filterMap declares).map Prod.fst).Nodup)
    (ht : t.Declares round float K P.directives name ps) : ∃ c qs, CodeOf cfg md build float K esc (fileSymbols Q) name c qs :=
  type_code hQ hn cfg md build esc t ht

/-- A valid object of the declared type, whose expressions have values and fit the Rust types. -/
structure PackageValue (cfg : Cfg) (md : Mode) (E : String → Option Enumeration) (ps : List Src.Param) (t : SourceTy fo.F Object)
    (look : Env → World fo.F Object) (v : Val) : Prop where
  params : ParamsValid cfg E ps v.params
  valid : ∃ env, (t.meaning look).Valid cfg env v
  fit : t.Fit md false v

/-- What expressions see of such an object has the declared types. -/
theorem PackageValue.inRange (hK : K.Good) (ht : t.Declares round float K P.directives name ps)
    (hs : (t.meaning look).Supported cfg) {v : Val} (hv : PackageValue cfg md K.enums ps t look v) : t.InRange md false v :=
  ty_ranges hK look t false v name ps ht (.inl ⟨.inl hs, hv.valid, fun j p v z h1 h2 ⟨_, _, hz⟩ => params_good hv.params j p v z h1 h2 hz⟩) hv.fit

/-- **C78 (partial)** The functions that are emitted for a type of a package write every valid object, and the reader
restores it.  Missing: types that contain themselves, templates, subtypes (C86), functions of choices and unions that use fields, that the
constants, enumerations and functions `K` are those of the package (C87, C88, C91-C94), imports, members of choices and unions in expressions, `@index`,
arguments with operators (C90), arguments that are no integers, booleans, strings or items of enumerations, selectors other than parameters, default
cases, binary literals, and strings with escapes. -/
theorem C78_round_trip_partial (hK : K.Good) (hQ : visitPackage (floatText fo round display) P = .ok Q)
    (hn : ((P.directives.filterMap declares).map Prod.fst).Nodup) (ht : t.Declares round float K P.directives name ps)
    (hc : CodeOf cfg md build float K esc (fileSymbols Q) name c qs) (hacc : t.Accepts md) (hs : (t.meaning look).Supported cfg)
    (v : Val) (hv : PackageValue cfg md K.enums ps t look v) (before : List Bool) :
    ∃ bits, c.write v ⟨before⟩ = .ok ⟨before ++ bits⟩ ∧ ∀ after,
      c.read ((t.meaning look).default.withParams v.params) ⟨before.length, bits ++ after⟩ =
        .ok (v, ⟨before.length + bits.length, after⟩) := by
  obtain ⟨env, hval⟩ := hv.valid
  exact C73_round_trip_partial t c hacc (C78_types hQ hn ht hc) hs env v hval (hv.inRange hK ht hs) before

/-- **C78 (partial)** The bits are those of the zserio encoding of the type that the text declares.  Missing: as
above. -/
theorem C78_encoding_partial (hK : K.Good) (hQ : visitPackage (floatText fo round display) P = .ok Q)
    (hn : ((P.directives.filterMap declares).map Prod.fst).Nodup) (ht : t.Declares round float K P.directives name ps)
    (hc : CodeOf cfg md build float K esc (fileSymbols Q) name c qs) (hacc : t.Accepts md) (hs : (t.meaning look).Supported cfg)
    (v : Val) (hv : PackageValue cfg md K.enums ps t look v) (before : List Bool) :
    ∃ bits env last, c.write v ⟨before⟩ = .ok ⟨before ++ bits⟩ ∧
      (t.meaning look).Wire cfg exactPacking none env v (fun _ => none) before.length bits last := by
  obtain ⟨env, hval⟩ := hv.valid
  obtain ⟨bits, last, h1, h2⟩ := C73_encoding_partial t c hacc (C78_types hQ hn ht hc) hs env v hval
    (hv.inRange hK ht hs) before
  exact ⟨bits, env, last, h1, h2⟩

/-- **C78 (partial)** The size function gives the number of bits that the writer appends.  Missing: as above, and what
C25 excludes, because the property is false there. -/
theorem C78_bitsize_partial (hK : K.Good) (hQ : visitPackage (floatText fo round display) P = .ok Q)
    (hn : ((P.directives.filterMap declares).map Prod.fst).Nodup) (ht : t.Declares round float K P.directives name ps)
    (hc : CodeOf cfg md build float K esc (fileSymbols Q) name c qs) (hacc : t.Accepts md) (hs : (t.meaning look).Supported cfg)
    (hz : (t.meaning look).Sized) (v : Val) (hv : PackageValue cfg md K.enums ps t look v) (before : List Bool) :
    ∃ bits, c.write v ⟨before⟩ = .ok ⟨before ++ bits⟩ ∧ c.bitsize v before.length = .ok bits.length := by
  obtain ⟨env, hval⟩ := hv.valid
  exact C73_bitsize_partial t c hacc (C78_types hQ hn ht hc) hz hs env v hval (hv.inRange hK ht hs) before

/-! ### An example -/

/-- `enum uint8 Color { RED, BLUE = 5 };` -/
def packColor : Src.Enum := ⟨⟨.builtin "uint8", .none⟩, "Color",
  [⟨.none, "RED", none⟩, ⟨.none, "BLUE", some (.lit .decimal "5".toList)⟩]⟩

/-- `uint16 c[n];` -/
def packArray : Src.StructField :=
  { textField ⟨.builtin "uint16", .none⟩ "c" with
    typeId := { packed := false, implicit_ := false, type := ⟨.builtin "uint16", .none⟩, name := "c",
                array := some (some (.id "n")) } }

/-- `struct Inner(uint8 n) { uint16 c[n]; };` -/
def packInner : Src.Struct := ⟨"Inner", [], [⟨.builtin "uint8", "n"⟩], [packArray], []⟩

/-- `uint8 x;` -/
def packX : Src.ChoiceField := ⟨(textField ⟨.builtin "uint8", .none⟩ "x").typeId, none⟩

/-- `Inner(k) y;` -/
def packY : Src.ChoiceField := ⟨(textField ⟨.named "Inner" [] [], .args (.expr (.id "k")) []⟩ "y").typeId, none⟩

/-- `choice Pick(uint8 k) on k { case 1: uint8 x; case 2: case 3: Inner(k) y; };` -/
def packPick : Src.Choice := ⟨"Pick", [], [⟨.builtin "uint8", "k"⟩], .id "k",
  [⟨[.lit .decimal "1".toList], some packX⟩, ⟨[.lit .decimal "2".toList, .lit .decimal "3".toList], some packY⟩], none, []⟩

/-- `Inner(a) items[a];` -/
def packItems : Src.StructField :=
  { textField ⟨.builtin "uint16", .none⟩ "items" with
    typeId := { packed := false, implicit_ := false, type := ⟨.named "Inner" [] [], .args (.expr (.id "a")) []⟩,
                name := "items", array := some (some (.id "a")) } }

/-- `bit<a> d if a < 10;` -/
def packWidth : Src.StructField :=
  { textField ⟨.builtin "bit", .length (.id "a")⟩ "d" with
    clause := some (.binary .lt (.id "a") (.lit .decimal "10".toList)) }

/-- `struct Outer { uint8 a; Inner(a) items[a]; Color color; Pick(a) pick; bit<a> d if a < 10; };` -/
def packOuter : Src.Struct := ⟨"Outer", [], [],
  [textField ⟨.builtin "uint8", .none⟩ "a", packItems, textField ⟨.named "Color" [] [], .none⟩ "color",
   textField ⟨.named "Pick" [] [], .args (.expr (.id "a")) []⟩ "pick", packWidth], []⟩

/-- The package. -/
def packText : Src.Package := ⟨none, some ["demo"], [],
  [.struct packOuter, .choice packPick, .enum packColor, .struct packInner]⟩

/-- `Color` -/
def packColorTy : SourceTy tenths.F Object := .enum (.uint 8) [none, some 5]

/-- `Inner` -/
def packInnerTy : SourceTy tenths.F Object := .struct (textScope (F := tenths.F) noConstants packInner) (textLook noNumber noConstants packInner) [.nat 0]
  (.cons { array := some (false, some (.ident "n")) } (.builtin (.uint 16)) .nil)

/-- `Pick` -/
def packPickTy : SourceTy tenths.F Object :=
  .choice (textScope (F := tenths.F) noConstants (Choice.shape packPick)) (textLook noNumber noConstants (Choice.shape packPick)) [.nat 0]
    (fun vs => vs.getD 0 .none)
    (.field [.nat 1] {} (.builtin (.uint 8))
    (.field [.nat 2, .nat 3] { args := [(.num .uint8, .ident "k")] } packInnerTy .nil))

/-- `Outer` -/
def packOuterTy : SourceTy tenths.F Object := .struct (textScope (F := tenths.F) noConstants packOuter) (textLook noNumber noConstants packOuter) []
  (.cons {} (.builtin (.uint 8))
  (.cons { array := some (false, some (.ident "a")), args := [(.num .uint8, .ident "a")] } packInnerTy
  (.cons {} packColorTy
  (.cons { args := [(.num .uint8, .ident "a")] } packPickTy
  (.cons { clause := some (.cmp .lt (.ident "a") (.intLit 10)) } (.bit (.ident "a")) .nil)))))

theorem pack_visit (display : tenths.F → List Char) :
    ∃ Q, visitPackage (floatText tenths noRound display) packText = .ok Q :=
  ⟨_, by with_unfolding_all rfl⟩

theorem pack_names : ((packText.directives.filterMap declares).map Prod.fst).Nodup := by decide

theorem packColor_declares :
    packColorTy.Declares noRound noNumber noConstants packText.directives "Color" [] := by
  simp only [packColorTy, SourceTy.Declares, true_and]
  refine ⟨packColor, _, by simp [packText], rfl, rfl, rfl, ⟨trivial, ?_, trivial⟩, ?_⟩
  · exact IntText.lit (l := .decimal [5]) (by simp [IntLit.WellFormed]) (by simp [IntLit.IsBinary])
  · decide

theorem packInner_declares : packInnerTy.Declares noRound noNumber noConstants packText.directives "Inner" packInner.params := by
  simp only [packInnerTy, SourceTy.Declares, SourceFields.Declares]
  refine ⟨packInner, by simp [packText], rfl, rfl, ⟨rfl, by simp [packInner, scalarOf], by decide⟩, rfl, rfl, rfl,
    _, _, rfl, ⟨rfl, ⟨rfl, rfl, _, rfl, .id (by decide)⟩, rfl, trivial, rfl, .none, ?_⟩, ⟨.scalar rfl, rfl⟩, rfl⟩
  simp [packInner, packArray, textField, OffsetIn]

theorem packPick_declares : packPickTy.Declares noRound noNumber noConstants packText.directives "Pick" packPick.params := by
  have hoff : ∀ n, ¬ ∃ g ∈ (Choice.shape packPick).fields, OffsetIn n g.offset := by
    simp [packPick, Choice.shape, bare, OffsetIn]
  simp only [packPickTy, SourceTy.Declares, SourceCases.Declares]
  refine ⟨packPick, .num .uint8, by simp [packText], rfl, rfl, ⟨rfl, by simp [packPick, Choice.shape, scalarOf], by decide⟩,
    rfl, rfl, rfl, rfl, ⟨0, _, rfl, rfl, ⟨rfl, rfl⟩, nofun, rfl⟩, _, _, _, rfl, nofun, ⟨⟨.int 1, .int ?_, ?_, rfl⟩, trivial⟩, rfl,
    ⟨rfl, rfl, rfl, trivial, rfl, .none, ?_⟩, ⟨.scalar rfl, rfl⟩,
    _, _, _, rfl, nofun, ⟨⟨.int 2, .int ?_, ?_, rfl⟩, ⟨.int 3, .int ?_, ?_, rfl⟩, trivial⟩, rfl,
    ⟨rfl, rfl, rfl, trivial, rfl, .none, ?_⟩, ⟨_, _, _, packInner_declares, rfl, rfl, ?_⟩, rfl⟩
  · exact .lit (l := .decimal [1]) (by simp [IntLit.WellFormed]) (by simp [IntLit.IsBinary])
  · exact ⟨_, rfl, by decide⟩
  · exact ⟨nofun, fun h => (hoff _ h).elim⟩
  · exact .lit (l := .decimal [2]) (by simp [IntLit.WellFormed]) (by simp [IntLit.IsBinary])
  · exact ⟨_, rfl, by decide⟩
  · exact .lit (l := .decimal [3]) (by simp [IntLit.WellFormed]) (by simp [IntLit.IsBinary])
  · exact ⟨_, rfl, by decide⟩
  · exact ⟨nofun, fun h => (hoff _ h).elim⟩
  · exact ⟨⟨rfl, rfl⟩, .id (by decide), trivial⟩

theorem packOuter_declares : packOuterTy.Declares noRound noNumber noConstants packText.directives "Outer" [] := by
  have hoff : ∀ n, ¬ ∃ g ∈ packOuter.fields, OffsetIn n g.offset := by
    simp [packOuter, packItems, packWidth, textField, OffsetIn]
  have hten : ∀ known, Stands noRound known (.lit .decimal "10".toList) (.intLit 10) := fun known =>
    .int (l := .decimal [1, 0]) (by simp [IntLit.WellFormed]) (by simp [IntLit.IsBinary])
  simp only [packOuterTy, SourceTy.Declares, SourceFields.Declares]
  refine ⟨packOuter, by simp [packText], rfl, rfl, ⟨rfl, by simp [packOuter], by decide⟩, rfl, rfl, rfl,
    _, _, rfl, ⟨rfl, rfl, rfl, trivial, rfl, .none, ?_⟩, ⟨.scalar rfl, rfl⟩,
    _, _, rfl, ⟨rfl, ⟨rfl, rfl, _, rfl, .id (by decide)⟩, rfl, trivial, rfl, .none, ?_⟩,
      ⟨_, _, _, packInner_declares, rfl, rfl, ⟨⟨rfl, rfl⟩, .id (by decide), trivial⟩⟩,
    _, _, rfl, ⟨rfl, rfl, rfl, trivial, rfl, .none, ?_⟩, ⟨_, _, _, packColor_declares, rfl, rfl, trivial⟩,
    _, _, rfl, ⟨rfl, rfl, rfl, trivial, rfl, .none, ?_⟩,
      ⟨_, _, _, packPick_declares, rfl, rfl, ⟨⟨rfl, rfl⟩, .id (by decide), trivial⟩⟩,
    _, _, rfl, ⟨rfl, rfl, rfl, .binary (op := .lt) (.id (by decide)) (hten _), rfl, .none, ?_⟩,
      ⟨.bit (.id (by decide)), rfl⟩, rfl⟩ <;>
  exact ⟨nofun, fun h => (hoff _ h).elim⟩

/-- Two elements, each with two numbers; a colour; the second case of the choice; two bits. -/
def packVal : Val := .obj [] [.nat 2, .list [.obj [.nat 2] [.list [.nat 5, .nat 600]], .obj [.nat 2] [.list [.nat 7, .nat 8]]],
  .item 1, .obj [.nat 2] [.nat 0, .obj [.nat 2] [.list [.nat 1, .nat 2]]], .nat 3]

theorem pack_accepts : packOuterTy.Accepts .debug := by
  simp only [packOuterTy, packPickTy, packColorTy, packInnerTy, SourceTy.Accepts, SourceFields.Accepts,
    SourceCases.Accepts, SourceTy.written, and_true, true_and]
  refine ⟨textScope_ordinary noConstants_good _, ?_, ?_, ⟨textScope_ordinary noConstants_good _, ?_⟩, ?_, rfl, ?_,
    ⟨textScope_ordinary noConstants_good _, ?_, ?_, textScope_ordinary noConstants_good _, ?_⟩, ?_⟩ <;> constructor <;>
    simp [Modifiers.with, Written.Mentions, Expr.Separable, Expr.Unit, Expr.level, Expr.isCmp,
      Expr.isIsset, Expr.isValueof, Expr.endsWithCast, or_imp, forall_and]
  · exact ⟨rfl, .int ⟨false, 8⟩, rfl, .inr (.inl ⟨trivial, trivial⟩)⟩
  · exact ⟨.int ⟨false, 8⟩, rfl, rfl⟩
  · exact ⟨rfl, .int ⟨false, 8⟩, rfl, .inr (.inl ⟨trivial, trivial⟩)⟩
  · exact ⟨.int ⟨false, 8⟩, rfl, rfl⟩
  · exact ⟨.int ⟨false, 8⟩, rfl, rfl⟩
  · exact ⟨rfl, .int ⟨false, 8⟩, rfl, .inr (.inl ⟨trivial, trivial⟩)⟩
  · exact ⟨rfl, .int ⟨false, 8⟩, .int ⟨false, 8⟩, rfl, trivial, rfl⟩
  · exact rfl

theorem pack_supported (cfg : Cfg) : (packOuterTy.meaning (textLook noNumber noConstants packOuter)).Supported cfg := by
  simp [packOuterTy, packPickTy, packColorTy, packInnerTy, SourceTy.meaning, SourceFields.meaning, SourceCases.meaning,
    Modifiers.info, Ty.Supported, Fields.Supported, Cases.Supported, Scalar.WidthOk]
  decide

theorem packInner_valid (cfg : Cfg) (look : Env → World tenths.F Object) (env : Env) (a b : Nat) (ha : a < 2 ^ 16)
    (hb : b < 2 ^ 16) : (packInnerTy.meaning look).Valid cfg env (.obj [.nat 2] [.list [.nat a, .nat b]]) := by
  have hl : lengthValue (textLook noNumber noConstants packInner ⟨[.nat 2], []⟩) (.ident "n") = 2 := rfl
  simp [packInnerTy, SourceTy.meaning, SourceFields.meaning, Modifiers.info, FieldInfo.FieldValid,
    FieldInfo.ContentValid, hl, LengthFits, FieldInfo.expectedParams, Val.params]
  intro i y h
  have hy : y ∈ [Val.nat a, .nat b] := List.mem_of_getElem? h
  simp only [List.mem_cons, List.not_mem_nil, or_false] at hy
  rcases hy with rfl | rfl <;> simp [Scalar.InRange, Ty.Valid, Val.params, Ty.default, Scalar.dflt, ha, hb]

theorem pack_valid (cfg : Cfg) : (packOuterTy.meaning (textLook noNumber noConstants packOuter)).Valid cfg ⟨[], []⟩ packVal := by
  have hc : condition (textLook noNumber noConstants packOuter ⟨[], [.nat 2, .list [.obj [.nat 2] [.list [.nat 5, .nat 600]],
      .obj [.nat 2] [.list [.nat 7, .nat 8]]], .item 1, .obj [.nat 2] [.nat 0, .obj [.nat 2] [.list [.nat 1, .nat 2]]]]⟩)
        (.cmp .lt (.ident "a") (.intLit 10) : Expr tenths.F) = true := by rfl
  simp only [packOuterTy, packVal, SourceTy.meaning, SourceFields.meaning, Ty.Valid, Fields.Valid]
  refine ⟨_, _, rfl, _, _, rfl, ?_, _, _, rfl, ?_, _, _, rfl, ?_, _, _, rfl, ?_, _, _, rfl, ?_, rfl⟩
  · refine ⟨?_, rfl⟩
    simp [Ty.Valid, Scalar.InRange]
  · refine ⟨_, rfl, rfl, fun i y h => ?_⟩
    have hy := List.mem_of_getElem? h
    simp only [List.mem_cons, List.not_mem_nil, or_false] at hy
    rcases hy with rfl | rfl <;> exact ⟨packInner_valid cfg _ _ _ _ (by decide) (by decide), rfl⟩
  · refine ⟨?_, rfl⟩
    simp only [packColorTy, SourceTy.meaning, Ty.Valid]
    exact ⟨1, 5, rfl, rfl, by simp [Scalar.Contains], by decide⟩
  · refine ⟨?_, rfl⟩
    simp only [packPickTy, SourceTy.meaning, SourceCases.meaning, Ty.Valid, Cases.Valid]
    refine ⟨_, _, rfl, _, _, rfl, ?_, _, _, rfl, ?_, rfl⟩
    · simp [FieldInfo.default, Modifiers.info, Ty.default, Scalar.dflt]
    · simp only [List.getD_cons_zero]
      rw [if_pos (by simp)]
      exact ⟨packInner_valid cfg _ _ _ _ (by decide) (by decide), rfl⟩
  · simp only [FieldInfo.FieldValid, Modifiers.info, Option.map_some, Option.all_some, List.nil_append, List.cons_append,
      hc, if_true]
    refine ⟨?_, rfl⟩
    simp only [Ty.Valid, Scalar.InRange]
    decide

theorem packInner_fit (b : Bool) (x y : Val) : packInnerTy.Fit .debug b (.obj [.nat 2] [.list [x, y]]) := by
  simp only [packInnerTy, SourceTy.Fit, SourceFields.Fit]
  refine ⟨_, _, rfl, _, _, rfl, ⟨_, rfl⟩, ⟨⟨nofun, fun p e he => ?_, fun _ e he => ?_, nofun⟩, fun _ _ _ => trivial⟩, rfl⟩
  · cases he
    exact ⟨2, by decide, rfl, fun _ _ => trivial⟩
  · simp [Modifiers.with, SourceTy.written] at he

theorem pack_fit : packOuterTy.Fit .debug false packVal := by
  have two : (numTy .uint8).Holds 2 := ⟨_, rfl, by decide⟩
  simp only [packOuterTy, packVal, SourceTy.Fit, SourceFields.Fit]
  refine ⟨_, _, rfl,
    _, _, rfl, trivial, ⟨⟨nofun, nofun, nofun, nofun⟩, fun _ _ _ => trivial⟩,
    _, _, rfl, ⟨_, rfl⟩, ⟨⟨nofun, fun p e he => ?_, nofun, fun _ p e he => ?_⟩, fun _ x hx => ?_⟩,
    _, _, rfl, trivial, ⟨⟨nofun, nofun, nofun, nofun⟩, fun _ x hx => ?_⟩,
    _, _, rfl, trivial, ⟨⟨nofun, nofun, nofun, fun _ p e he => ?_⟩, fun _ x hx => ?_⟩,
    _, _, rfl, ⟨_, rfl⟩, ⟨⟨fun e he => ?_, nofun, fun _ e he => ?_, nofun⟩, fun _ _ _ => trivial⟩, rfl⟩
  · cases he
    exact ⟨2, by decide, rfl, fun _ _ => trivial⟩
  · simp only [Modifiers.with, List.mem_singleton, Prod.mk.injEq] at he
    obtain ⟨rfl, rfl⟩ := he
    exact ⟨.int 2, two, rfl, fun _ _ => trivial⟩
  · obtain ⟨y, h1, xs, h2, h3⟩ := hx
    cases h1
    cases h2
    simp only [List.mem_cons, List.not_mem_nil, or_false] at h3
    rcases h3 with rfl | rfl <;> exact packInner_fit _ _ _
  · obtain ⟨y, h1, h2⟩ := hx
    cases h1
    cases h2
    simp only [packColorTy, SourceTy.Fit]
    exact ⟨1, rfl, by decide⟩
  · simp only [Modifiers.with, List.mem_singleton, Prod.mk.injEq] at he
    obtain ⟨rfl, rfl⟩ := he
    exact ⟨.int 2, two, rfl, fun _ _ => trivial⟩
  · obtain ⟨y, h1, h2⟩ := hx
    cases h1
    cases h2
    simp only [packPickTy, SourceTy.Fit, SourceCases.Fit]
    refine ⟨_, _, rfl, _, _, rfl, trivial, fun _ => ⟨⟨nofun, nofun, nofun, nofun⟩, fun _ _ _ => trivial⟩,
      _, _, rfl, trivial, fun _ => ⟨⟨nofun, nofun, nofun, fun _ p e he => ?_⟩, fun _ x hx => ?_⟩, rfl⟩
    · simp only [Modifiers.with, List.mem_singleton, Prod.mk.injEq] at he
      obtain ⟨rfl, rfl⟩ := he
      exact ⟨.int 2, two, rfl, fun _ _ => trivial⟩
    · obtain ⟨y, h1, h2⟩ := hx
      cases h1
      cases h2
      exact packInner_fit _ _ _
  · cases he
    refine ⟨_, _, rfl, rfl, fun s hs u v h => ?_⟩
    obtain ⟨hu, hv, hc, _⟩ := h
    cases hu
    cases comparable_int hc
    exact ⟨trivial, _, rfl, by decide⟩
  · simp only [Modifiers.with, SourceTy.written, WrittenTy.bit.injEq, reduceCtorEq, or_false] at he
    subst he
    exact ⟨2, by decide, rfl, fun _ _ => trivial⟩

-- The functions that are emitted for the text of `Outer` and of the types that it uses write and restore the object.
example (cfg : Cfg) (build : Mode) (esc : EScope tenths.F) (display : tenths.F → List Char) : ∃ Q c qs,
    visitPackage (floatText tenths noRound display) packText = .ok Q ∧
    CodeOf cfg .debug build noNumber noConstants esc (fileSymbols Q) "Outer" c qs ∧
    ∃ bits, c.write packVal ⟨[]⟩ = .ok ⟨bits⟩ ∧
      c.read (packOuterTy.meaning (textLook noNumber noConstants packOuter)).default ⟨0, bits⟩ = .ok (packVal, ⟨bits.length, []⟩) := by
  obtain ⟨Q, hQ⟩ := pack_visit display
  obtain ⟨c, qs, hc⟩ := C78_every_type cfg .debug build esc hQ pack_names packOuter_declares
  obtain ⟨bits, hw, hr⟩ := C78_round_trip_partial noConstants_good hQ pack_names packOuter_declares hc pack_accepts (pack_supported cfg)
    packVal ⟨trivial, ⟨_, pack_valid cfg⟩, pack_fit⟩ []
  refine ⟨Q, c, qs, hQ, hc, bits, hw, ?_⟩
  have := hr []
  rwa [List.append_nil, List.length_nil, Nat.zero_add] at this

end Zs
