import Verif.PropsObject

/-!
# C92: bitmasks in expressions
-/

namespace Zs

open Src Ast Spec Emit

variable {fo : FloatOps} {B B' : String → Option Enumeration} {K : Constants fo.F} {round : List Char → fo.F}
variable {display : fo.F → List Char} {float : Val → fo.F} {cfg : Cfg} {md build : Mode} {esc : EScope fo.F}
variable {P P' : Src.Package} {Q : Ast.Package fo.F} {T : Map (Symbol fo.F)}

/-- **C92** The bitmasks that are emitted have the values of the package, in which subtypes are written out, with the
numbers that are written there, or the next power of two. -/
theorem C92_bitmasks (hQ : visitPackage (floatText fo round display) P = .ok Q)
    (hn : ((P.directives.filterMap declares).map Prod.fst).Nodup) (hw : WrittenOut P P')
    (hs : MasksStand P'.directives B) (hT : TableUnder (fileSymbols Q) T) : MasksSeen md esc T B' ↔ B' = B := by
  obtain ⟨Q', hQ', h⟩ := C86_same_symbols _ hQ hn hw
  obtain rfl := (h T).1 hT
  exact masks_seen hQ' (names_out hn hw) hs

theorem valuesStand_get : ∀ {vs : List (String × Option Src.Exp)} {ks : List Nat} {next i : Nat} {v : String × Option Src.Exp},
    ValuesStand next vs ks → vs[i]? = some v → ∃ k, ks[i]? = some k
  | [], _, _, _, _, _, h => by simp at h
  | (_, _) :: _, [], _, _, _, hs, _ => hs.elim
  | (_, _) :: _, k :: _, _, 0, _, _, _ => ⟨k, rfl⟩
  | (_, _) :: vs, _ :: ks, _, i + 1, v, hs, h => by
    simp only [List.getElem?_cons_succ] at h ⊢
    exact valuesStand_get hs.2.2 h

theorem mask_alone {ds : List Src.Directive} (hn : ((ds.filterMap declares).map Prod.fst).Nodup)
    (hs : ConstsStand round ds K) {b : Src.Bitmask} (hb : b ∈ masksIn ds) :
    K.ty b.name = none ∧ K.enums b.name = none := by
  constructor
  · refine (hs.others _ fun hm => ?_).1
    obtain ⟨c, hc, hce⟩ := List.mem_map.1 hm
    have := directive_unique hn (mem_constsIn.1 hc) (mem_masksIn.1 hb) (n := b.name) (by simp [declares, hce])
      (by simp [declares])
    cases this
  · refine hs.enums.others _ fun hm => ?_
    obtain ⟨c, hc, hce⟩ := List.mem_map.1 hm
    have := directive_unique hn (mem_enumsIn.1 hc) (mem_masksIn.1 hb) (n := b.name) (by simp [declares, hce])
      (by simp [declares])
    cases this

/-- **C92** In the expressions of a structure, `Flags.A` is the number of the value `A` of the bitmask `Flags`, if neither a
parameter nor a field is called `Flags`. -/
theorem C92_value {ds : List Src.Directive} (hn : ((ds.filterMap declares).map Prod.fst).Nodup)
    (hs : ConstsStand round ds K) {b : Src.Bitmask} (hb : b ∈ masksIn ds) (hi : (b.values.map Prod.fst).Nodup)
    {s : Src.Struct} (hv : b.name ∈ visible ds s) {i : Nat} {v : String × Option Src.Exp} (h : b.values[i]? = some v)
    (env : Env) : ∃ ks, ∃ k : Nat, ValuesStand 1 b.values ks ∧ ks[i]? = some k ∧
      means (textLook float K s env) (.dot (.ident b.name) v.1) = some (.mask k) := by
  obtain ⟨x, ⟨t, n, j, ks, -, -, -, hst, -, rfl⟩, hB⟩ := hs.masks.declared b hb
  obtain ⟨k, hk⟩ := valuesStand_get hst h
  refine ⟨ks, k, hst, hk, ?_⟩
  obtain ⟨hty, hE⟩ := mask_alone hn hs hb
  have hmem : memberNamed K.types s b.name = none := member_hidden hv
  have hsym : K.symb b.name = some ⟨.bitmask b.name ⟨n, widthOf t, false⟩, .typeName⟩ := by
    simp [Constants.symb, hty, hE, hB]
  have hnamed : Enumeration.named ⟨⟨n, widthOf t, false⟩, (b.values.map Prod.fst).zip (ks.map Int.ofNat)⟩ v.1 =
      some (k : Int) := named_zip hi (by simpa using ⟨v.2, h⟩) (by simpa using ⟨k, hk, rfl⟩)
  simp only [means, textLook, Constants.item, Expr.symbol, textScope, hmem, func_hidden hv, hsym, hB, Option.bind_some, hnamed,
    Option.map_some]

/-- **C92** A field whose type is a bitmask is, in expressions, the number that it holds: every number that the field can
hold is one of the Rust type of the bitmask. -/
theorem C92_field {ds : List Src.Directive} (hn : ((ds.filterMap declares).map Prod.fst).Nodup)
    (hs : ConstsStand round ds K) {b : Src.Bitmask} (hb : b ∈ masksIn ds) {base : Scalar}
    (hbase : scalarOf b.type.type = some base) (hw : base.WidthOk) {s : Src.Struct} (hd : Heads K.enums s) {i : Nat}
    {f : Src.StructField} (hf : s.fields[i]? = some f) (hty : f.typeId.type.type = .named b.name [] [])
    (hopt : f.optional = false) (harr : f.typeId.array = none) {env env' : Env} {v : Val} {z : Int}
    (henv : env.fields[i]? = some v) (hv : base.InRange cfg env' v) (hz : v.number = some z) :
    means (textLook float K s env) (.ident f.typeId.name) = some (.mask z) := by
  obtain ⟨x, ⟨t, n, j, ks, ht, hnum, hj, -, -, rfl⟩, hB⟩ := hs.masks.declared b hb
  obtain ⟨-, hE⟩ := mask_alone hn hs hb
  have hzt : typeIn K.types f.typeId.type.type = some (.bitmask b.name ⟨n, widthOf t, false⟩) := by
    rw [hty]
    simp [typeIn, Constants.types, hE, hB]
  have hsh : shapeOf f = .plain := by simp [shapeOf, hopt, harr]
  have hm := find_nodup (T := K.types) (List.nodup_append.1 hd.names).1 hf
  rw [hzt, hsh] at hm
  have hval : env.fields.getD i .none = v := by simp [List.getD_eq_getElem?_getD, henv]
  have hb' : baseTy ⟨n, widthOf t, false⟩ = j := by simp [baseTy, hj]
  have hin : j.Contains z := by
    rw [ht] at hbase
    exact scalar_good hbase hnum hw hv n j rfl hj z hz
  simp only [means, textLook, hm, Option.map_some, shapedDatum, datumOf, hval, hb', hz, Option.getD_some, if_pos hin]

/-! ## Example -/

/-- `bitmask uint8 Flags { A, B, C = 8 };` -/
def optFlags : Src.Bitmask :=
  ⟨⟨.builtin "uint8", .none⟩, "Flags", [("A", none), ("B", none), ("C", some (.lit .decimal "8".toList))]⟩

/-- `Flags f;` -/
def optF : Src.StructField := textField ⟨.named "Flags" [] [], .none⟩ "f"

/-- `uint8 x if isset(f, Flags.B);` -/
def optX : Src.StructField :=
  { textField ⟨.builtin "uint8", .none⟩ "x" with clause := some (.isset (.id "f") (.dot (.id "Flags") "B")) }

/-- `uint8 y[valueof(f)];` -/
def optY : Src.StructField :=
  { textField ⟨.builtin "uint8", .none⟩ "y" with
    typeId := { packed := false, implicit_ := false, type := ⟨.builtin "uint8", .none⟩, name := "y",
                array := some (some (.valueof (.id "f"))) } }

/-- `struct Opt { Flags f; uint8 x if isset(f, Flags.B); uint8 y[valueof(f)]; };` -/
def optStruct : Src.Struct := ⟨"Opt", [], [], [optF, optX, optY], []⟩

/-- The package. -/
def optText : Src.Package := ⟨none, some ["demo"], [], [.struct optStruct, .bitmask optFlags]⟩

/-- `A` is 1, `B` is 2 and `C` is 8. -/
def optMasks : String → Option Enumeration := fun n =>
  if n = "Flags" then some ⟨⟨.uint8, 0, false⟩, [("A", 1), ("B", 2), ("C", 8)]⟩ else none

/-- What expressions use of the package. -/
def optConsts : Constants tenths.F := withStructs { (noConstants : Constants tenths.F) with masks := optMasks } [optStruct]

theorem opt_out : WrittenOut optText optText := by
  refine ⟨optText.directives, ?_, rfl⟩
  refine .cons (.struct .nil (.cons ⟨optF.typeId.type, ⟨.declared ?_, rfl, nofun⟩, rfl⟩
    (.cons ⟨optX.typeId.type, ⟨.builtin, rfl, nofun⟩, rfl⟩
    (.cons ⟨optY.typeId.type, ⟨.builtin, rfl, nofun⟩, rfl⟩ .nil))) .nil) (.cons .bitmask .nil)
  exact .inr (.inr (.inr (.inr ⟨optFlags, by simp [optText], rfl⟩)))

theorem opt_visit (display : tenths.F → List Char) :
    ∃ Q, visitPackage (floatText tenths noRound display) optText = .ok Q :=
  ⟨_, by with_unfolding_all rfl⟩

theorem opt_names : ((optText.directives.filterMap declares).map Prod.fst).Nodup := by decide

theorem optFlags_values : ValuesStand 1 optFlags.values [1, 2, 8] :=
  ⟨rfl, by decide, rfl, by decide, ⟨IntText.lit (l := .decimal [8]) (by simp [IntLit.WellFormed]) (by simp [IntLit.IsBinary]),
    by decide⟩, by decide, trivial⟩

theorem opt_masks : MasksStand optText.directives optMasks where
  declared b hb := by
    obtain rfl : b = optFlags := by simpa [masksIn, optText] using hb
    exact ⟨_, ⟨_, _, ⟨false, 8⟩, _, rfl, rfl, rfl, optFlags_values, by decide, rfl⟩, rfl⟩
  others n hn := by
    have h : n ≠ "Flags" := by rintro rfl; exact hn (by decide)
    simp [optMasks, h]

theorem opt_stand : ConstsStand noRound optText.directives optConsts where
  enums := no_enums rfl
  masks := opt_masks
  objects := withStructs_stand (ds := optText.directives) _ opt_names
  methods := methods_named (ds := optText.directives) (by decide)
  declared c hc := by simp [constsIn, optText] at hc
  others _ _ := ⟨rfl, rfl⟩

theorem opt_fit : ConstsFit .debug noRound optText.directives optConsts := by
  intro c hc
  simp [constsIn, optText] at hc

theorem opt_acyclic : ConstsAcyclic .debug noRound optText.directives optConsts := by
  refine ⟨fun _ => 0, fun c hc => ?_⟩
  simp [constsIn, optText] at hc

/-- `isset(f, Flags.B)` -/
def optIsset : Expr tenths.F := .isset (.ident "f") (.dot (.ident "Flags") "B")

/-- `Flags` -/
def optFlagsTy : SourceTy tenths.F Object := .bitmask (.uint 8) 1

/-- `Opt` -/
def optTy : SourceTy tenths.F Object :=
  .struct (textScope optConsts optStruct) (textLook noNumber optConsts optStruct) []
    (.cons {} optFlagsTy (.cons { clause := some optIsset } (.builtin (.uint 8))
      (.cons { array := some (false, some (.valueof (.ident "f"))) } (.builtin (.uint 8)) .nil)))

theorem optFlags_declares : optFlagsTy.Declares noRound noNumber optConsts optText.directives "Flags" [] := by
  simp only [optFlagsTy, SourceTy.Declares, true_and]
  exact ⟨optFlags, _, 1, _, by simp [optText], rfl, rfl, rfl, optFlags_values, rfl⟩

theorem opt_heads : Heads optConsts.enums optStruct := ⟨rfl, by simp [optStruct], by decide⟩

theorem opt_declares : optTy.Declares noRound noNumber optConsts optText.directives "Opt" [] := by
  have hoff : ∀ n, ¬ ∃ g ∈ optStruct.fields, OffsetIn n g.offset := by
    simp [optStruct, optF, optX, optY, textField, OffsetIn]
  simp only [optTy, SourceTy.Declares, SourceFields.Declares]
  refine ⟨optStruct, by simp [optText], rfl, rfl, opt_heads, rfl, rfl, rfl,
    _, _, rfl, ⟨rfl, rfl, rfl, trivial, rfl, .none, ?_⟩, ⟨_, _, _, optFlags_declares, rfl, rfl, trivial⟩,
    _, _, rfl, ⟨rfl, rfl, rfl, .isset (.id (by decide)) (.dot (.id (by decide))), rfl, .none, ?_⟩, ⟨.scalar rfl, rfl⟩,
    _, _, rfl, ⟨rfl, ⟨rfl, rfl, _, rfl, .valueof (.id (by decide))⟩, rfl, trivial, rfl, .none, ?_⟩,
      ⟨.scalar rfl, rfl⟩, rfl⟩ <;>
  exact ⟨nofun, fun h => (hoff _ h).elim⟩

theorem optIsset_code : conditionCode .debug (textScope optConsts optStruct) optIsset =
    .bin (.cmp .ne) (.bin (.bit .and) (.atom (.name "f")) (.paren (.atom (.item (.ident "Flags") "B")))) (.atom (.int 0)) :=
  rfl

theorem optLength_code : code .debug (textScope optConsts optStruct) (.valueof (.ident "f") : Expr tenths.F) =
    .cast (.call (.field (.atom (.name "f")) "bits")) "u8" := rfl

theorem opt_accepts : optTy.Accepts .debug := by
  simp only [optTy, optFlagsTy, SourceTy.Accepts, SourceFields.Accepts, SourceTy.written, and_true, true_and]
  refine ⟨textScope_ordinary (stand_good opt_stand) _, ?_, rfl, ?_, ?_⟩ <;> constructor <;>
    simp [Modifiers.with, Written.Mentions, Expr.Separable, Expr.Unit, Expr.level, Expr.isCmp,
      Expr.isIsset, Expr.isValueof, Expr.endsWithCast, or_imp, forall_and]
  · rw [optIsset_code]
    exact ⟨rfl, .bitmask "Flags" ⟨false, 8⟩, .int ⟨false, 8⟩, ⟨rfl, rfl, trivial⟩, trivial, rfl, .inr rfl⟩
  · simp [optIsset, Expr.Separable]
  · rw [lengthCode, optLength_code]
    exact ⟨rfl, .int ⟨false, 8⟩, ⟨rfl, .int ⟨false, 8⟩, ⟨.bitmask "Flags" ⟨false, 8⟩, rfl, rfl⟩, .inl rfl⟩,
      .inr (.inl ⟨trivial, trivial⟩)⟩

theorem opt_supported (cfg : Cfg) :
    (optTy.meaning (textLook noNumber optConsts optStruct)).Supported cfg := by
  simp [optTy, optFlagsTy, SourceTy.meaning, SourceFields.meaning, Modifiers.info, Ty.Supported, Fields.Supported,
    Scalar.WidthOk]

/-- `B`, and two numbers. -/
def optVal : Val := .obj [] [.nat 2, .nat 7, .list [.nat 1, .nat 9]]

theorem opt_valid (cfg : Cfg) :
    (optTy.meaning (textLook noNumber optConsts optStruct)).Valid cfg ⟨[], []⟩ optVal := by
  have hc : condition (textLook noNumber optConsts optStruct ⟨[], [.nat 2]⟩) optIsset = true := rfl
  simp only [optTy, optVal, SourceTy.meaning, SourceFields.meaning, Ty.Valid, Fields.Valid]
  refine ⟨_, _, rfl, _, _, rfl, ?_, _, _, rfl, ?_, _, _, rfl, ?_, rfl⟩
  · refine ⟨?_, rfl⟩
    simp [optFlagsTy, SourceTy.meaning, Ty.Valid, Scalar.InRange]
  · simp only [FieldInfo.FieldValid, Modifiers.info, Option.map_some, Option.all_some, List.nil_append, hc, if_true]
    refine ⟨?_, rfl⟩
    simp [Scalar.InRange]
  · refine ⟨_, rfl, rfl, fun i y h => ?_⟩
    have hy := List.mem_of_getElem? h
    simp only [List.mem_cons, List.not_mem_nil, or_false] at hy
    rcases hy with rfl | rfl <;> refine ⟨?_, rfl⟩ <;> simp [Scalar.InRange]

theorem opt_fits : optTy.Fit .debug false optVal := by
  simp only [optTy, optVal, SourceTy.Fit, SourceFields.Fit]
  refine ⟨_, _, rfl,
    _, _, rfl, trivial, ⟨⟨nofun, nofun, nofun, nofun⟩, fun _ x hx => ?_⟩,
    _, _, rfl, trivial, ⟨⟨fun e he => ?_, nofun, nofun, nofun⟩, fun _ _ _ => trivial⟩,
    _, _, rfl, ⟨_, rfl⟩, ⟨⟨nofun, fun p e he => ?_, nofun, nofun⟩, fun _ _ _ => trivial⟩, rfl⟩
  · obtain ⟨y, h1, h2⟩ := hx
    cases h1
    cases h2
    simp [optFlagsTy, SourceTy.Fit, SameType, Scalar.dflt]
  · cases he
    exact ⟨.bool true, true, rfl, rfl, fun _ _ => fun _ _ _ => ⟨trivial, fun _ _ => trivial⟩⟩
  · cases he
    refine ⟨2, by decide, rfl, fun s h => ⟨fun n hn => ?_, fun _ _ => trivial⟩⟩
    cases hn
    rw [optLength_code] at h
    obtain rfl : .int ⟨false, 8⟩ = s := Option.some.inj h.1.1
    exact ⟨_, rfl, by decide⟩

-- Options are written and restored; the second field is there because `B` is set, and the array has two elements because
-- this is the number of `B`.
example (cfg : Cfg) (build : Mode) (esc : EScope tenths.F) (display : tenths.F → List Char) : ∃ Q T c qs,
    visitPackage (floatText tenths noRound display) optText = .ok Q ∧ TableUnder (fileSymbols Q) T ∧
    (∀ B', MasksSeen .debug esc T B' ↔ B' = optMasks) ∧
    (∀ K', ConstsSeen .debug esc T K' ∧ K'.calls = optConsts.calls ↔ K' = optConsts) ∧
    CodeOf cfg .debug build noNumber optConsts esc T "Opt" c qs ∧
    ∃ bits, c.write optVal ⟨[]⟩ = .ok ⟨bits⟩ ∧
      c.read (optTy.meaning (textLook noNumber optConsts optStruct)).default ⟨0, bits⟩ =
        .ok (optVal, ⟨bits.length, []⟩) := by
  obtain ⟨Q, hQ⟩ := opt_visit display
  obtain ⟨T, hT, hK⟩ := C87_every_constant hQ opt_names opt_out opt_stand opt_fit opt_acyclic
  obtain ⟨T', hT', c, qs, hc⟩ := C86_every_type cfg .debug build esc hQ opt_names opt_out opt_declares
  obtain rfl := tableUnder_unique hT hT'
  obtain ⟨bits, hw, hr⟩ := C87_round_trip_partial hQ opt_names opt_out opt_stand opt_fit opt_declares
    hT hK rfl hc opt_accepts (opt_supported cfg) optVal
    ⟨trivial, ⟨_, opt_valid cfg⟩, opt_fits⟩ []
  refine ⟨Q, T, c, qs, hQ, hT, fun B' => C92_bitmasks hQ opt_names opt_out opt_masks hT,
    fun K' => ⟨fun h => C87_constants hQ opt_names opt_out opt_stand opt_fit hT h.1 h.2, fun e => ⟨e ▸ hK, e ▸ rfl⟩⟩, hc, bits, hw, ?_⟩
  have := hr []
  rwa [List.append_nil, List.length_nil, Nat.zero_add] at this

-- The values of `Flags` are what they are declared with.
example (env : Env) (i : Nat) (v : String × Option Src.Exp) (h : optFlags.values[i]? = some v) : ∃ ks, ∃ k : Nat,
    ValuesStand 1 optFlags.values ks ∧ ks[i]? = some k ∧
      means (textLook noNumber optConsts optStruct env) (.dot (.ident "Flags") v.1) = some (.mask k) :=
  C92_value opt_names opt_stand (by simp [masksIn, optText]) (by decide) (by decide) h env

-- `f` is the number that it holds.
example (cfg : Cfg) (n : Nat) (h : n < 256) :
    means (textLook noNumber optConsts optStruct ⟨[], [.nat n]⟩) (.ident "f") = some (.mask n) :=
  C92_field (cfg := cfg) (b := optFlags) (base := .uint 8) (env' := ⟨[], []⟩) opt_names opt_stand
    (by simp [masksIn, optText]) rfl (by simp [Scalar.WidthOk]) opt_heads (i := 0) (f := optF) rfl rfl rfl rfl rfl
    (by simpa [Scalar.InRange] using h) rfl

end Zs
