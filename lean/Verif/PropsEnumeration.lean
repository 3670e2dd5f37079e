import Verif.PropsConstant

/-!
# C88: an item of an enumeration is the number that it is declared with
-/

namespace Zs

open Src Ast Spec Emit

variable {fo : FloatOps} {E E' : String → Option Enumeration} {K : Constants fo.F} {round : List Char → fo.F}
variable {display : fo.F → List Char} {float : Val → fo.F} {cfg : Cfg} {md build : Mode} {esc : EScope fo.F}
variable {P P' : Src.Package} {Q : Ast.Package fo.F} {t : SourceTy fo.F Object} {name : String} {ps : List Src.Param}
variable {T : Map (Symbol fo.F)} {c : Codec} {qs : List (Ast.Param fo.F)} {look : Env → World fo.F Object}

/-- **C88** The enumerations that are emitted have the items of the package, in which subtypes are written out, with the
numbers that are written there, or counted on from the item in front. -/
theorem C88_enumerations (hQ : visitPackage (floatText fo round display) P = .ok Q)
    (hn : ((P.directives.filterMap declares).map Prod.fst).Nodup) (hw : WrittenOut P P')
    (hs : EnumsStand P'.directives E) (hT : TableUnder (fileSymbols Q) T) : EnumsSeen md esc T E' ↔ E' = E := by
  obtain ⟨Q', hQ', h⟩ := C86_same_symbols _ hQ hn hw
  obtain rfl := (h T).1 hT
  exact enums_seen hQ' (names_out hn hw) hs

/-- **C88** In the expressions of a structure, `Color.RED` is the number of the item `RED` of the enumeration `Color`, if
no parameter, field or function is called `Color`. -/
theorem C88_item {ds : List Src.Directive} (hn : ((ds.filterMap declares).map Prod.fst).Nodup)
    (hs : ConstsStand round ds K) {e : Src.Enum} (he : e ∈ enumsIn ds) (hi : (e.items.map Src.Item.name).Nodup)
    {s : Src.Struct} (hv : e.name ∈ visible ds s) {i : Nat} {item : Src.Item} (h : e.items[i]? = some item)
    (env : Env) : ∃ items k, ItemsStand e.items items ∧ (enumValues items)[i]? = some k ∧
      means (textLook float K s env) (.dot (.ident e.name) item.name) = some (.enum k) := by
  obtain ⟨x, ⟨t, n, items, -, -, hst, -, rfl⟩, hE⟩ := hs.enums.declared e he
  obtain ⟨k, hk⟩ := itemsStand_get hst h
  refine ⟨items, k, hst, hk, ?_⟩
  have hty : K.ty e.name = none := by
    refine (hs.others _ fun hm => ?_).1
    obtain ⟨c, hc, hce⟩ := List.mem_map.1 hm
    have := directive_unique hn (mem_constsIn.1 hc) (mem_enumsIn.1 he) (n := e.name) (by simp [declares, hce])
      (by simp [declares])
    cases this
  have hmem : memberNamed K.types s e.name = none := member_hidden hv
  have hsym : K.symb e.name = some ⟨.enum e.name ⟨n, widthOf t, false⟩, .typeName⟩ := by
    simp [Constants.symb, hty, hE]
  have hnamed : Enumeration.named ⟨⟨n, widthOf t, false⟩, (e.items.map Src.Item.name).zip (enumValues items)⟩ item.name =
      some k := named_zip hi (by simpa using ⟨item, h, rfl⟩) hk
  simp only [means, textLook, Constants.item, Expr.symbol, textScope, hmem, func_hidden hv, hsym, hE, Option.bind_some, hnamed,
    Option.map_some]

/-- No constants. -/
def onlyEnums (E : String → Option Enumeration) : Constants fo.F :=
  ⟨fun _ => none, fun _ => none, E, fun _ => none, fun _ => none, fun _ _ _ => none⟩

theorem onlyEnums_good : (onlyEnums E : Constants fo.F).Good := ⟨nofun, fun _ _ => rfl, nofun, nofun⟩

/-- **C88 (partial)** The functions that are emitted for a type, in whose expressions there are fields that are
enumerations, and items of enumerations, write every valid object, and the reader restores it.  Missing: as in C86, except
for enumerations in expressions; enumerations whose numbers are no literals.  C87 is about
packages that also have constants. -/
theorem C88_round_trip_partial (hQ : visitPackage (floatText fo round display) P = .ok Q)
    (hn : ((P.directives.filterMap declares).map Prod.fst).Nodup) (hw : WrittenOut P P')
    (hs : EnumsStand P'.directives E) (ht : t.Declares round float (onlyEnums E) P'.directives name ps)
    (hT : TableUnder (fileSymbols Q) T) (hE : EnumsSeen md esc T E')
    (hc : CodeOf cfg md build float (onlyEnums E') esc T name c qs) (hacc : t.Accepts md)
    (hsup : (t.meaning look).Supported cfg) (v : Val) (hv : PackageValue cfg md E ps t look v) (before : List Bool) :
    ∃ bits, c.write v ⟨before⟩ = .ok ⟨before ++ bits⟩ ∧ ∀ after,
      c.read ((t.meaning look).default.withParams v.params) ⟨before.length, bits ++ after⟩ =
        .ok (v, ⟨before.length + bits.length, after⟩) := by
  obtain rfl := (C88_enumerations hQ hn hw hs hT).1 hE
  exact C86_round_trip_partial onlyEnums_good hQ hn hw ht hT hc hacc hsup v hv before

/-- **C88 (partial)** The bits are those of the zserio encoding of the type that the text declares.  Missing: as
above. -/
theorem C88_encoding_partial (hQ : visitPackage (floatText fo round display) P = .ok Q)
    (hn : ((P.directives.filterMap declares).map Prod.fst).Nodup) (hw : WrittenOut P P')
    (hs : EnumsStand P'.directives E) (ht : t.Declares round float (onlyEnums E) P'.directives name ps)
    (hT : TableUnder (fileSymbols Q) T) (hE : EnumsSeen md esc T E')
    (hc : CodeOf cfg md build float (onlyEnums E') esc T name c qs) (hacc : t.Accepts md)
    (hsup : (t.meaning look).Supported cfg) (v : Val) (hv : PackageValue cfg md E ps t look v) (before : List Bool) :
    ∃ bits env last, c.write v ⟨before⟩ = .ok ⟨before ++ bits⟩ ∧
      (t.meaning look).Wire cfg exactPacking none env v (fun _ => none) before.length bits last := by
  obtain rfl := (C88_enumerations hQ hn hw hs hT).1 hE
  exact C86_encoding_partial onlyEnums_good hQ hn hw ht hT hc hacc hsup v hv before

/-- **C88 (partial)** The size function gives the number of bits that the writer appends.  Missing: as above, and what
C25 excludes, because the property is false there. -/
theorem C88_bitsize_partial (hQ : visitPackage (floatText fo round display) P = .ok Q)
    (hn : ((P.directives.filterMap declares).map Prod.fst).Nodup) (hw : WrittenOut P P')
    (hs : EnumsStand P'.directives E) (ht : t.Declares round float (onlyEnums E) P'.directives name ps)
    (hT : TableUnder (fileSymbols Q) T) (hE : EnumsSeen md esc T E')
    (hc : CodeOf cfg md build float (onlyEnums E') esc T name c qs) (hacc : t.Accepts md)
    (hsup : (t.meaning look).Supported cfg) (hz : (t.meaning look).Sized) (v : Val)
    (hv : PackageValue cfg md E ps t look v) (before : List Bool) :
    ∃ bits, c.write v ⟨before⟩ = .ok ⟨before ++ bits⟩ ∧ c.bitsize v before.length = .ok bits.length := by
  obtain rfl := (C88_enumerations hQ hn hw hs hT).1 hE
  exact C86_bitsize_partial onlyEnums_good hQ hn hw ht hT hc hacc hsup hz v hv before

/-! ## An example -/

/-- `Color c;` -/
def pixelC : Src.StructField := textField ⟨.named "Color" [] [], .none⟩ "c"

/-- `uint8 x if c == Color.BLUE;` -/
def pixelX : Src.StructField :=
  { textField ⟨.builtin "uint8", .none⟩ "x" with clause := some (.binary .eq (.id "c") (.dot (.id "Color") "BLUE")) }

/-- `uint8 y[valueof(c)];` -/
def pixelY : Src.StructField :=
  { textField ⟨.builtin "uint8", .none⟩ "y" with
    typeId := { packed := false, implicit_ := false, type := ⟨.builtin "uint8", .none⟩, name := "y",
                array := some (some (.valueof (.id "c"))) } }

/-- `struct Pixel { Color c; uint8 x if c == Color.BLUE; uint8 y[valueof(c)]; };` -/
def pixel : Src.Struct := ⟨"Pixel", [], [], [pixelC, pixelX, pixelY], []⟩

/-- The package. -/
def pixelText : Src.Package := ⟨none, some ["demo"], [], [.struct pixel, .enum packColor]⟩

/-- `RED` is 0 and `BLUE` is 5. -/
def redBlue : String → Option Enumeration := fun n =>
  if n = "Color" then some ⟨⟨.uint8, 0, false⟩, [("RED", 0), ("BLUE", 5)]⟩ else none

theorem pixel_out : WrittenOut pixelText pixelText := by
  refine ⟨pixelText.directives, ?_, rfl⟩
  refine .cons (.struct .nil (.cons ⟨pixelC.typeId.type, ⟨.declared ?_, rfl, nofun⟩, rfl⟩
    (.cons ⟨pixelX.typeId.type, ⟨.builtin, rfl, nofun⟩, rfl⟩
    (.cons ⟨pixelY.typeId.type, ⟨.builtin, rfl, nofun⟩, rfl⟩ .nil))) .nil) (.cons .enum .nil)
  exact .inr (.inr (.inr (.inl ⟨packColor, by simp [pixelText], rfl⟩)))

theorem pixel_visit (display : tenths.F → List Char) :
    ∃ Q, visitPackage (floatText tenths noRound display) pixelText = .ok Q :=
  ⟨_, by with_unfolding_all rfl⟩

theorem pixel_names : ((pixelText.directives.filterMap declares).map Prod.fst).Nodup := by decide

theorem packColor_items : ItemsStand packColor.items [none, some 5] :=
  ⟨trivial, IntText.lit (l := .decimal [5]) (by simp [IntLit.WellFormed]) (by simp [IntLit.IsBinary]), trivial⟩

theorem pixel_enums : EnumsStand pixelText.directives redBlue where
  declared e he := by
    obtain rfl : e = packColor := by simpa [enumsIn, pixelText] using he
    exact ⟨_, ⟨_, _, _, rfl, rfl, packColor_items, by decide, rfl⟩, rfl⟩
  others n hn := by
    have h : n ≠ "Color" := by rintro rfl; exact hn (by decide)
    simp [redBlue, h]

/-- `Color.BLUE` -/
def blue : Expr tenths.F := .dot (.ident "Color") "BLUE"

/-- `Pixel` -/
def pixelTy : SourceTy tenths.F Object :=
  .struct (textScope (F := tenths.F) (onlyEnums redBlue) pixel) (textLook noNumber (onlyEnums redBlue) pixel) []
    (.cons {} packColorTy (.cons { clause := some (.cmp .eq (.ident "c") blue) } (.builtin (.uint 8))
      (.cons { array := some (false, some (.valueof (.ident "c"))) } (.builtin (.uint 8)) .nil)))

theorem pixelColor_declares :
    packColorTy.Declares noRound noNumber (onlyEnums redBlue) pixelText.directives "Color" [] := by
  simp only [packColorTy, SourceTy.Declares, true_and]
  exact ⟨packColor, _, by simp [pixelText], rfl, rfl, rfl, packColor_items, by decide⟩

theorem pixel_declares : pixelTy.Declares noRound noNumber (onlyEnums redBlue) pixelText.directives "Pixel" [] := by
  have hoff : ∀ n, ¬ ∃ g ∈ pixel.fields, OffsetIn n g.offset := by
    simp [pixel, pixelC, pixelX, pixelY, textField, OffsetIn]
  simp only [pixelTy, SourceTy.Declares, SourceFields.Declares]
  refine ⟨pixel, by simp [pixelText], rfl, rfl, ⟨rfl, by simp [pixel], by decide⟩, rfl, rfl, rfl,
    _, _, rfl, ⟨rfl, rfl, rfl, trivial, rfl, .none, ?_⟩, ⟨_, _, _, pixelColor_declares, rfl, rfl, trivial⟩,
    _, _, rfl, ⟨rfl, rfl, rfl, .binary (op := .eq) (.id (by decide)) (.dot (.id (by decide))), rfl, .none, ?_⟩,
      ⟨.scalar rfl, rfl⟩,
    _, _, rfl, ⟨rfl, ⟨rfl, rfl, _, rfl, .valueof (.id (by decide))⟩, rfl, trivial, rfl, .none, ?_⟩,
      ⟨.scalar rfl, rfl⟩, rfl⟩ <;>
  exact ⟨nofun, fun h => (hoff _ h).elim⟩

theorem pixelClause_code : conditionCode .debug (textScope (F := tenths.F) (onlyEnums redBlue) pixel)
    (.cmp .eq (.ident "c") blue) = .bin (.cmp .eq) (.atom (.name "c")) (.atom (.item (.ident "Color") "BLUE")) := rfl

theorem pixelLength_code : code .debug (textScope (F := tenths.F) (onlyEnums redBlue) pixel)
    (.valueof (.ident "c") : Expr tenths.F) = .cast (.atom (.name "c")) "u8" := rfl

theorem pixel_accepts : pixelTy.Accepts .debug := by
  simp only [pixelTy, packColorTy, SourceTy.Accepts, SourceFields.Accepts, SourceTy.written, and_true, true_and]
  refine ⟨textScope_ordinary onlyEnums_good _, ?_, rfl, ?_, ?_⟩ <;> constructor <;>
    simp [Modifiers.with, Written.Mentions, Expr.Separable, Expr.Unit, Expr.level, Expr.isCmp,
      Expr.isIsset, Expr.isValueof, Expr.endsWithCast, or_imp, forall_and]
  · rw [pixelClause_code]
    exact ⟨rfl, .enum "Color", .enum "Color", rfl, rfl, rfl, .inl rfl⟩
  · exact ⟨by simp [blue, Expr.Separable], rfl, rfl⟩
  · rw [lengthCode, pixelLength_code]
    exact ⟨rfl, .int ⟨false, 8⟩, ⟨rfl, .enum "Color", rfl, .inr (.inr ⟨.inr ⟨_, rfl⟩, trivial⟩)⟩, .inr (.inl ⟨trivial, trivial⟩)⟩

theorem pixel_supported (cfg : Cfg) :
    (pixelTy.meaning (textLook noNumber (onlyEnums redBlue) pixel)).Supported cfg := by
  simp [pixelTy, packColorTy, SourceTy.meaning, SourceFields.meaning, Modifiers.info, Ty.Supported, Fields.Supported,
    Scalar.WidthOk, enumValues, enumValuesFrom]

/-- `BLUE`, and five numbers. -/
def pixelVal : Val := .obj [] [.item 1, .nat 7, .list [.nat 1, .nat 2, .nat 3, .nat 4, .nat 9]]

theorem pixelVal_valid (cfg : Cfg) :
    (pixelTy.meaning (textLook noNumber (onlyEnums redBlue) pixel)).Valid cfg ⟨[], []⟩ pixelVal := by
  have hc : condition (textLook noNumber (onlyEnums redBlue) pixel ⟨[], [.item 1]⟩) (.cmp .eq (.ident "c") blue) =
      true := rfl
  simp only [pixelTy, pixelVal, SourceTy.meaning, SourceFields.meaning, Ty.Valid, Fields.Valid]
  refine ⟨_, _, rfl, _, _, rfl, ?_, _, _, rfl, ?_, _, _, rfl, ?_, rfl⟩
  · refine ⟨?_, rfl⟩
    simp only [packColorTy, SourceTy.meaning, Ty.Valid]
    exact ⟨1, 5, rfl, rfl, by simp [Scalar.Contains], by decide⟩
  · simp only [FieldInfo.FieldValid, Modifiers.info, Option.map_some, Option.all_some, List.nil_append, hc, if_true]
    refine ⟨?_, rfl⟩
    simp [Scalar.InRange]
  · refine ⟨_, rfl, rfl, fun i y h => ?_⟩
    have hy := List.mem_of_getElem? h
    simp only [List.mem_cons, List.not_mem_nil, or_false] at hy
    rcases hy with rfl | rfl | rfl | rfl | rfl <;> refine ⟨?_, rfl⟩ <;> simp [Scalar.InRange]

theorem pixelVal_fit : pixelTy.Fit .debug false pixelVal := by
  simp only [pixelTy, pixelVal, SourceTy.Fit, SourceFields.Fit]
  refine ⟨_, _, rfl,
    _, _, rfl, trivial, ⟨⟨nofun, nofun, nofun, nofun⟩, fun _ x hx => ?_⟩,
    _, _, rfl, trivial, ⟨⟨fun e he => ?_, nofun, nofun, nofun⟩, fun _ _ _ => trivial⟩,
    _, _, rfl, ⟨_, rfl⟩, ⟨⟨nofun, fun p e he => ?_, nofun, nofun⟩, fun _ _ _ => trivial⟩, rfl⟩
  · obtain ⟨y, h1, h2⟩ := hx
    cases h1
    cases h2
    simp only [packColorTy, SourceTy.Fit]
    exact ⟨1, rfl, by decide⟩
  · cases he
    exact ⟨.bool true, true, rfl, rfl, fun _ _ => fun _ _ _ => ⟨trivial, fun _ _ => trivial⟩⟩
  · cases he
    refine ⟨5, by decide, rfl, fun s h => ⟨fun n hn => ?_, fun _ _ => trivial⟩⟩
    cases hn
    rw [pixelLength_code] at h
    obtain rfl : .int ⟨false, 8⟩ = s := Option.some.inj h.1.1
    exact ⟨_, rfl, by decide⟩

-- A pixel is written and restored; its second field is there because `c` is `BLUE`, and the array has five elements
-- because this is the number of `BLUE`.
example (cfg : Cfg) (build : Mode) (esc : EScope tenths.F) (display : tenths.F → List Char) : ∃ Q T c qs,
    visitPackage (floatText tenths noRound display) pixelText = .ok Q ∧ TableUnder (fileSymbols Q) T ∧
    (∀ E', EnumsSeen .debug esc T E' ↔ E' = redBlue) ∧
    CodeOf cfg .debug build noNumber (onlyEnums redBlue) esc T "Pixel" c qs ∧
    ∃ bits, c.write pixelVal ⟨[]⟩ = .ok ⟨bits⟩ ∧
      c.read (pixelTy.meaning (textLook noNumber (onlyEnums redBlue) pixel)).default ⟨0, bits⟩ =
        .ok (pixelVal, ⟨bits.length, []⟩) := by
  obtain ⟨Q, hQ⟩ := pixel_visit display
  obtain ⟨T, hT, c, qs, hc⟩ := C86_every_type cfg .debug build esc hQ pixel_names pixel_out pixel_declares
  have hE : ∀ E', EnumsSeen .debug esc T E' ↔ E' = redBlue := fun E' =>
    C88_enumerations hQ pixel_names pixel_out pixel_enums hT
  obtain ⟨bits, hw, hr⟩ := C88_round_trip_partial hQ pixel_names pixel_out pixel_enums pixel_declares
    hT ((hE _).2 rfl) hc pixel_accepts (pixel_supported cfg) pixelVal
    ⟨trivial, ⟨_, pixelVal_valid cfg⟩, pixelVal_fit⟩ []
  refine ⟨Q, T, c, qs, hQ, hT, hE, hc, bits, hw, ?_⟩
  have := hr []
  rwa [List.append_nil, List.length_nil, Nat.zero_add] at this

/-- What expressions use of the package. -/
def pixelConsts : Constants tenths.F := withStructs (onlyEnums redBlue) [pixel]

theorem pixel_consts : ConstsStand noRound pixelText.directives pixelConsts where
  enums := pixel_enums
  masks := no_masks rfl
  objects := withStructs_stand (ds := pixelText.directives) _ (by decide)
  methods := methods_named (ds := pixelText.directives) (by decide)
  declared c hc := by simp [constsIn, pixelText] at hc
  others _ _ := ⟨rfl, rfl⟩

-- The items of `Color` are what they are declared with.
example (env : Env) (i : Nat) (item : Src.Item) (h : packColor.items[i]? = some item) : ∃ items k,
    ItemsStand packColor.items items ∧ (enumValues items)[i]? = some k ∧
      means (textLook noNumber pixelConsts pixel env) (.dot (.ident "Color") item.name) = some (.enum k) :=
  C88_item (by decide) pixel_consts (by simp [enumsIn, pixelText]) (by decide) (by decide) h env

-- `Color.BLUE` is 5.
example (env : Env) : means (textLook noNumber pixelConsts pixel env) blue = some (.enum 5) := rfl

end Zs
