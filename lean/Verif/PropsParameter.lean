import Verif.PropsEnumeration

/-!
# C89: parameters, arguments and selectors that are booleans, strings or enumerations
-/

namespace Zs

open Src Ast Spec Emit

variable {fo : FloatOps} {K : Constants fo.F} {round : List Char → fo.F} {display : fo.F → List Char}
variable {md build : Mode} {O : Type}

/-- **C89 (partial)** The argument that is emitted for a parameter, whatever its type, has the value of the expression, and
no other outcome, if the operations in it are in range (C70).  Missing: parameters that are floats, bitmasks or compound. -/
theorem C89_argument_partial {sc : TScope} (hord : Ordinary sc) {w : World fo.F O} (hc : Conforms w (rscope sc))
    (e : Expr fo.F) (p : ParamTy) (v : Datum fo.F O) (hp : p.Has v)
    (ht : Typed (rscope sc) (argumentCode md sc p.ty e) p.rust) (hv : means w e = some v)
    (hf : ∀ s, Infers (rscope sc) (code md sc e) p.rust s → Fits md sc w e s) :
    ∀ o, Evals w (rscope sc) build (argumentCode md sc p.ty e) p.rust o ↔ o = .ok v :=
  argument_runs hord hc hp ht hv hf

/-- **C89** What is passed for a parameter that is an enumeration is the item that has the number. -/
theorem C89_item (e : Enumeration) (id : String) (hn : (e.items.map Prod.snd).Nodup) (i : Nat) (a : String) (k : Int)
    (h : e.items[i]? = some (a, k)) :
    (ParamTy.enum id e.base (e.items.map Prod.snd)).val (.enum k : Datum fo.F O) = .item i ∧
      (ParamTy.enum id e.base (e.items.map Prod.snd)).Has (.enum k : Datum fo.F O) := by
  have hk : (e.items.map Prod.snd)[i]? = some k := by simp [h]
  obtain ⟨hlt, hk⟩ := List.getElem?_eq_some_iff.1 hk
  refine ⟨?_, ?_⟩
  · simp only [ParamTy.val, Val.item.injEq]
    subst hk
    exact hn.idxOf_getElem i hlt
  · exact List.mem_of_getElem? (i := i) (by simp [h])

/-- **C89** The arms that are emitted for the cases of a choice have exactly the values of the labels: numbers, `true` and
`false`, and items of the enumeration of the selector, with or without its name in front of them. -/
theorem C89_labels (c : Src.Choice) (d : Ast.Choice fo.F) (hd : visitChoice (floatText fo round display) c = .ok d)
    (hh : Heads K.enums (Choice.shape c)) (q : ParamTy) (sel : List Val → Val)
    (hs : SelectorIs K.enums c.params c.selector q sel) (i : Nat) (case : Src.Cases) (case' : Ast.Case fo.F)
    (hi : c.cases[i]? = some case) (hi' : d.cases[i]? = some case') (hne : case.labels ≠ []) (vs : List Val)
    (hl : LabelsStand K (Choice.shape c) q case.labels vs) :
    (∃ labels, LabelsSeen md K d q case' labels) ∧ ∀ labels, LabelsSeen md K d q case' labels → labels = vs := by
  have hsc := scope_visit (K := K) (visit_choice hd) hh.names
  have hn : (c.params.map Src.Param.name).Nodup := (List.nodup_append.1 (List.nodup_append.1 hh.names).1).1
  have hsel := (selects hd hn hs).1
  have hcs := hd
  simp only [visitChoice, Res.bind_eq_ok, Res.ok.injEq] at hcs
  obtain ⟨m, hm, ps, hps, cs, hcs, us, hus, rfl⟩ := hcs
  obtain ⟨a, ha, hv⟩ := visitList_get hcs hi'
  rw [hi] at ha
  cases ha
  simp only [visitCases, Res.bind_eq_ok, Res.ok.injEq] at hv
  obtain ⟨ls, hls, y, hy, rfl⟩ := hv
  exact ⟨labels_exist (c := ⟨ls, y⟩) hl hne hls hsc hsel, fun labels h => labels_seen hl hne hls hsc hsel h⟩

/-- **C89** The selector that the generator sees is the parameter that the text names. -/
theorem C89_selector (c : Src.Choice) (d : Ast.Choice fo.F) (hd : visitChoice (floatText fo round display) c = .ok d)
    (hn : (c.params.map Src.Param.name).Nodup) (q : ParamTy) (sel : List Val → Val)
    (hs : SelectorIs K.enums c.params c.selector q sel) (q' : ParamTy) (sel' : List Val → Val) :
    SelectorSeen K d q' sel' ↔ q' = q ∧ sel' = sel := by
  refine ⟨fun h => selector_seen hd hn hs h, ?_⟩
  rintro ⟨rfl, rfl⟩
  exact (selects hd hn hs).2

/-! ## An example -/

/-- `choice Pick(Color k) on k { case RED: uint8 x; case Color.BLUE: bool y; };` -/
def argPick : Src.Choice := ⟨"Pick", [], [⟨.named "Color" [] [], "k"⟩], .id "k",
  [⟨[.id "RED"], some ⟨(textField ⟨.builtin "uint8", .none⟩ "x").typeId, none⟩⟩,
   ⟨[.dot (.id "Color") "BLUE"], some ⟨(textField ⟨.builtin "bool", .none⟩ "y").typeId, none⟩⟩], none, []⟩

/-- `uint8 x if b;` -/
def argX : Src.StructField := { textField ⟨.builtin "uint8", .none⟩ "x" with clause := some (.id "b") }

/-- `struct Cond(bool b) { uint8 x if b; };` -/
def argCond : Src.Struct := ⟨"Cond", [], [⟨.builtin "bool", "b"⟩], [argX], []⟩

/-- `struct Outer { Color c; bool f; Pick(c) p; Cond(f) q; };` -/
def argOuter : Src.Struct := ⟨"Outer", [], [],
  [textField ⟨.named "Color" [] [], .none⟩ "c", textField ⟨.builtin "bool", .none⟩ "f",
   textField ⟨.named "Pick" [] [], .args (.expr (.id "c")) []⟩ "p",
   textField ⟨.named "Cond" [] [], .args (.expr (.id "f")) []⟩ "q"], []⟩

/-- The package. -/
def argText : Src.Package := ⟨none, some ["demo"], [], [.struct argOuter, .choice argPick, .struct argCond, .enum packColor]⟩

/-- The parameter `Color k`. -/
def argColor : ParamTy := .enum "Color" ⟨.uint8, 0, false⟩ [0, 5]

/-- `Pick` -/
def argPickTy : SourceTy tenths.F Object :=
  .choice (textScope (F := tenths.F) (onlyEnums redBlue) (Choice.shape argPick))
    (textLook noNumber (onlyEnums redBlue) (Choice.shape argPick)) [.item 0] (fun vs => vs.getD 0 .none)
    (.field [.item 0] {} (.builtin (.uint 8)) (.field [.item 1] {} (.builtin .bool) .nil))

/-- `Cond` -/
def argCondTy : SourceTy tenths.F Object :=
  .struct (textScope (F := tenths.F) (onlyEnums redBlue) argCond) (textLook noNumber (onlyEnums redBlue) argCond) [.bool false]
    (.cons { clause := some (.ident "b") } (.builtin (.uint 8)) .nil)

/-- `Outer` -/
def argOuterTy : SourceTy tenths.F Object :=
  .struct (textScope (F := tenths.F) (onlyEnums redBlue) argOuter) (textLook noNumber (onlyEnums redBlue) argOuter) []
    (.cons {} packColorTy (.cons {} (.builtin .bool) (.cons { args := [(argColor, .ident "c")] } argPickTy
      (.cons { args := [(.bool, .ident "f")] } argCondTy .nil))))

theorem arg_out : WrittenOut argText argText := by
  have hcol : TypeDeclared argText.directives "Color" := .inr (.inr (.inr (.inl ⟨packColor, by simp [argText], rfl⟩)))
  have hpick : TypeDeclared argText.directives "Pick" := .inr (.inl ⟨argPick, by simp [argText], rfl⟩)
  have hcond : TypeDeclared argText.directives "Cond" := .inl ⟨argCond, by simp [argText], rfl⟩
  exact ⟨argText.directives, .cons (.struct .nil (.cons ⟨⟨.named "Color" [] [], .none⟩, ⟨.declared hcol, rfl, nofun⟩, rfl⟩
    (.cons ⟨_, ⟨.builtin, rfl, nofun⟩, rfl⟩ (.cons 
      ⟨⟨.named "Pick" [] [], .args (.expr (.id "c")) []⟩, ⟨.declared hpick, rfl, nofun⟩, rfl⟩
    (.cons ⟨⟨.named "Cond" [] [], .args (.expr (.id "f")) []⟩, ⟨.declared hcond, rfl, nofun⟩, rfl⟩ .nil)))) .nil)
    (.cons (.choice (.cons ⟨_, .declared hcol, rfl⟩ .nil) (.cons ⟨_, .some ⟨_, ⟨.builtin, rfl, nofun⟩, rfl⟩, rfl⟩
      (.cons ⟨_, .some ⟨_, ⟨.builtin, rfl, nofun⟩, rfl⟩, rfl⟩ .nil)) .nil)
    (.cons (.struct (.cons ⟨_, .builtin, rfl⟩ .nil) (.cons ⟨_, ⟨.builtin, rfl, nofun⟩, rfl⟩ .nil) .nil)
    (.cons .enum .nil))), rfl⟩

theorem arg_visit (display : tenths.F → List Char) :
    ∃ Q, visitPackage (floatText tenths noRound display) argText = .ok Q :=
  ⟨_, by with_unfolding_all rfl⟩

theorem arg_names : ((argText.directives.filterMap declares).map Prod.fst).Nodup := by decide

theorem arg_enums : EnumsStand argText.directives redBlue where
  declared e he := by
    obtain rfl : e = packColor := by simpa [enumsIn, argText] using he
    exact ⟨_, ⟨_, _, _, rfl, rfl, packColor_items, by decide, rfl⟩, rfl⟩
  others n hn := by
    have h : n ≠ "Color" := by rintro rfl; exact hn (by decide)
    simp [redBlue, h]

theorem argColor_declares :
    packColorTy.Declares noRound noNumber (onlyEnums redBlue) argText.directives "Color" [] := by
  simp only [packColorTy, SourceTy.Declares, true_and]
  exact ⟨packColor, _, by simp [argText], rfl, rfl, rfl, packColor_items, by decide⟩

theorem argColor_is : ParamIs redBlue (.named "Color" [] []) argColor := ⟨rfl, _, rfl, rfl, rfl, by decide⟩

theorem argPick_declares :
    argPickTy.Declares noRound noNumber (onlyEnums redBlue) argText.directives "Pick" argPick.params := by
  have hoff : ∀ n, ¬ ∃ g ∈ (Choice.shape argPick).fields, OffsetIn n g.offset := by
    simp [argPick, Choice.shape, bare, OffsetIn]
  simp only [argPickTy, SourceTy.Declares, SourceCases.Declares]
  refine ⟨argPick, argColor, by simp [argText], rfl, rfl, ⟨rfl, ?_, by decide⟩,
    rfl, rfl, rfl, rfl, ⟨0, _, rfl, rfl, argColor_is, nofun, rfl⟩,
    _, _, _, rfl, nofun, ⟨⟨.enum 0, .item rfl rfl rfl rfl, by simp [argColor, ParamTy.Has], rfl⟩, trivial⟩, rfl,
    ⟨rfl, rfl, rfl, trivial, rfl, .none, ?_⟩, ⟨.scalar rfl, rfl⟩,
    _, _, _, rfl, nofun, ⟨⟨.enum 5, .dotted rfl rfl rfl rfl, by simp [argColor, ParamTy.Has], rfl⟩, trivial⟩, rfl,
    ⟨rfl, rfl, rfl, trivial, rfl, .none, ?_⟩, ⟨.scalar rfl, rfl⟩, rfl⟩
  · intro p hp
    obtain rfl : p = ⟨.named "Color" [] [], "k"⟩ := by simpa [argPick, Choice.shape] using hp
    exact .inr ⟨_, _, rfl, rfl⟩
  · exact ⟨nofun, fun h => (hoff _ h).elim⟩
  · exact ⟨nofun, fun h => (hoff _ h).elim⟩

theorem argCond_declares :
    argCondTy.Declares noRound noNumber (onlyEnums redBlue) argText.directives "Cond" argCond.params := by
  simp only [argCondTy, SourceTy.Declares, SourceFields.Declares]
  refine ⟨argCond, by simp [argText], rfl, rfl, ⟨rfl, by simp [argCond, scalarOf], by decide⟩, rfl, rfl, rfl,
    _, _, rfl, ⟨rfl, rfl, rfl, .id (by decide), rfl, .none, ?_⟩, ⟨.scalar rfl, rfl⟩, rfl⟩
  simp [argCond, argX, textField, OffsetIn]

theorem argOuter_declares : argOuterTy.Declares noRound noNumber (onlyEnums redBlue) argText.directives "Outer" [] := by
  have hoff : ∀ n, ¬ ∃ g ∈ argOuter.fields, OffsetIn n g.offset := by
    simp [argOuter, textField, OffsetIn]
  simp only [argOuterTy, SourceTy.Declares, SourceFields.Declares]
  refine ⟨argOuter, by simp [argText], rfl, rfl, ⟨rfl, by simp [argOuter], by decide⟩, rfl, rfl, rfl,
    _, _, rfl, ⟨rfl, rfl, rfl, trivial, rfl, .none, ?_⟩, ⟨_, _, _, argColor_declares, rfl, rfl, trivial⟩,
    _, _, rfl, ⟨rfl, rfl, rfl, trivial, rfl, .none, ?_⟩, ⟨.scalar rfl, rfl⟩,
    _, _, rfl, ⟨rfl, rfl, rfl, trivial, rfl, .none, ?_⟩,
      ⟨_, _, _, argPick_declares, rfl, rfl, ⟨argColor_is, .id (by decide), trivial⟩⟩,
    _, _, rfl, ⟨rfl, rfl, rfl, trivial, rfl, .none, ?_⟩,
      ⟨_, _, _, argCond_declares, rfl, rfl, ⟨rfl, .id (by decide), trivial⟩⟩, rfl⟩ <;>
  exact ⟨nofun, fun h => (hoff _ h).elim⟩

theorem arg_accepts : argOuterTy.Accepts .debug := by
  simp only [argOuterTy, argPickTy, argCondTy, packColorTy, SourceTy.Accepts, SourceFields.Accepts,
    SourceCases.Accepts, SourceTy.written, and_true, true_and]
  refine ⟨textScope_ordinary onlyEnums_good _, ?_, rfl, ?_, ?_, ⟨textScope_ordinary onlyEnums_good _, ?_, ?_⟩, ?_, textScope_ordinary onlyEnums_good _, ?_⟩ <;>
    constructor <;>
    simp [Modifiers.with, Written.Mentions, Expr.Separable, Expr.Unit, Expr.level,
      Expr.isIsset, Expr.isValueof, or_imp, forall_and]
  · exact ⟨.enum "Color", rfl, rfl⟩
  · exact ⟨.bool, rfl, rfl⟩
  · exact rfl

theorem arg_supported (cfg : Cfg) :
    (argOuterTy.meaning (textLook noNumber (onlyEnums redBlue) argOuter)).Supported cfg := by
  simp [argOuterTy, argPickTy, argCondTy, packColorTy, SourceTy.meaning, SourceFields.meaning, SourceCases.meaning,
    Modifiers.info, Ty.Supported, Fields.Supported, Cases.Supported, Scalar.WidthOk, enumValues, enumValuesFrom]

/-- `BLUE`; `true`; the second case of the choice; a number. -/
def argVal : Val := .obj [] [.item 1, .bool true, .obj [.item 1] [.nat 0, .bool true], .obj [.bool true] [.nat 9]]

theorem arg_valid (cfg : Cfg) :
    (argOuterTy.meaning (textLook noNumber (onlyEnums redBlue) argOuter)).Valid cfg ⟨[], []⟩ argVal := by
  have hc : condition (textLook noNumber (onlyEnums redBlue) argCond ⟨[.bool true], []⟩) (.ident "b" : Expr tenths.F) =
      true := rfl
  simp only [argOuterTy, argVal, SourceTy.meaning, SourceFields.meaning, Ty.Valid, Fields.Valid]
  refine ⟨_, _, rfl, _, _, rfl, ?_, _, _, rfl, ?_, _, _, rfl, ?_, _, _, rfl, ?_, rfl⟩
  · refine ⟨?_, rfl⟩
    simp only [packColorTy, SourceTy.meaning, Ty.Valid]
    exact ⟨1, 5, rfl, rfl, by simp [Scalar.Contains], by decide⟩
  · refine ⟨?_, rfl⟩
    simp [Ty.Valid, Scalar.InRange]
  · refine ⟨?_, rfl⟩
    simp only [argPickTy, SourceTy.meaning, SourceCases.meaning, Ty.Valid, Cases.Valid]
    refine ⟨_, _, rfl, _, _, rfl, ?_, _, _, rfl, ?_, rfl⟩
    · simp [FieldInfo.default, Modifiers.info, Ty.default, Scalar.dflt]
    · simp only [List.getD_cons_zero]
      rw [if_pos (by simp)]
      refine ⟨?_, rfl⟩
      simp [Ty.Valid, Scalar.InRange]
  · refine ⟨?_, rfl⟩
    simp only [argCondTy, SourceTy.meaning, SourceFields.meaning, Ty.Valid, Fields.Valid]
    refine ⟨_, _, rfl, _, _, rfl, ?_, rfl⟩
    simp only [FieldInfo.FieldValid, Modifiers.info, Option.map_some, Option.all_some, hc, if_true]
    refine ⟨?_, rfl⟩
    simp [Ty.Valid, Scalar.InRange]

theorem arg_fit : argOuterTy.Fit .debug false argVal := by
  simp only [argOuterTy, argVal, SourceTy.Fit, SourceFields.Fit]
  refine ⟨_, _, rfl,
    _, _, rfl, trivial, ⟨⟨nofun, nofun, nofun, nofun⟩, fun _ x hx => ?_⟩,
    _, _, rfl, trivial, ⟨⟨nofun, nofun, nofun, nofun⟩, fun _ _ _ => trivial⟩,
    _, _, rfl, trivial, ⟨⟨nofun, nofun, nofun, fun _ p e he => ?_⟩, fun _ x hx => ?_⟩,
    _, _, rfl, trivial, ⟨⟨nofun, nofun, nofun, fun _ p e he => ?_⟩, fun _ x hx => ?_⟩, rfl⟩
  · obtain ⟨y, h1, h2⟩ := hx
    cases h1
    cases h2
    simp only [packColorTy, SourceTy.Fit]
    exact ⟨1, rfl, by decide⟩
  · simp only [Modifiers.with, List.mem_singleton, Prod.mk.injEq] at he
    obtain ⟨rfl, rfl⟩ := he
    exact ⟨.enum 5, by simp [argColor, ParamTy.Has], rfl, fun _ _ => trivial⟩
  · obtain ⟨y, h1, h2⟩ := hx
    cases h1
    cases h2
    simp only [argPickTy, SourceTy.Fit, SourceCases.Fit]
    exact ⟨_, _, rfl, _, _, rfl, trivial, fun _ => ⟨⟨nofun, nofun, nofun, nofun⟩, fun _ _ _ => trivial⟩,
      _, _, rfl, trivial, fun _ => ⟨⟨nofun, nofun, nofun, nofun⟩, fun _ _ _ => trivial⟩, rfl⟩
  · simp only [Modifiers.with, List.mem_singleton, Prod.mk.injEq] at he
    obtain ⟨rfl, rfl⟩ := he
    exact ⟨.bool true, trivial, rfl, fun _ _ => trivial⟩
  · obtain ⟨y, h1, h2⟩ := hx
    cases h1
    cases h2
    simp only [argCondTy, SourceTy.Fit, SourceFields.Fit]
    refine ⟨_, _, rfl, _, _, rfl, trivial, ⟨⟨fun e he => ?_, nofun, nofun, nofun⟩, fun _ _ _ => trivial⟩, rfl⟩
    cases he
    exact ⟨.bool true, true, rfl, rfl, fun _ _ => trivial⟩

-- The object is written and restored: the arguments are an item and a boolean, the case is chosen by an item.
example (cfg : Cfg) (build : Mode) (esc : EScope tenths.F) (display : tenths.F → List Char) : ∃ Q T c qs,
    visitPackage (floatText tenths noRound display) argText = .ok Q ∧ TableUnder (fileSymbols Q) T ∧
    CodeOf cfg .debug build noNumber (onlyEnums redBlue) esc T "Outer" c qs ∧
    ∃ bits, c.write argVal ⟨[]⟩ = .ok ⟨bits⟩ ∧
      c.read (argOuterTy.meaning (textLook noNumber (onlyEnums redBlue) argOuter)).default ⟨0, bits⟩ =
        .ok (argVal, ⟨bits.length, []⟩) := by
  obtain ⟨Q, hQ⟩ := arg_visit display
  obtain ⟨T, hT, c, qs, hc⟩ := C86_every_type cfg .debug build esc hQ arg_names arg_out argOuter_declares
  obtain ⟨bits, hw, hr⟩ := C88_round_trip_partial hQ arg_names arg_out arg_enums argOuter_declares
    hT ((C88_enumerations hQ arg_names arg_out arg_enums hT).2 rfl) hc arg_accepts (arg_supported cfg) argVal
    ⟨trivial, ⟨_, arg_valid cfg⟩, arg_fit⟩ []
  refine ⟨Q, T, c, qs, hQ, hT, hc, bits, hw, ?_⟩
  have := hr []
  rwa [List.append_nil, List.length_nil, Nat.zero_add] at this

-- `C89_labels`: the label `RED` of `Pick`.
example (display : tenths.F → List Char) (d : Ast.Choice tenths.F)
    (hd : visitChoice (floatText tenths noRound display) argPick = .ok d) (case : Ast.Case tenths.F) (hc : d.cases[0]? = some case) :
    ∀ labels, LabelsSeen .debug (onlyEnums redBlue) d argColor case labels → labels = [.item 0] := by
  refine (C89_labels (K := onlyEnums redBlue) argPick d hd ⟨rfl, ?_, by decide⟩ argColor (fun vs => vs.getD 0 .none)
    ⟨0, _, rfl, rfl, argColor_is, nofun, rfl⟩ 0 _ case rfl hc nofun [.item 0]
    (show (∃ x, _ ∧ _ ∧ _) ∧ _ from
      ⟨⟨.enum 0, .item rfl rfl rfl rfl, by simp [argColor, ParamTy.Has], rfl⟩, trivial⟩)).2
  intro p hp
  obtain rfl : p = ⟨.named "Color" [] [], "k"⟩ := by simpa [argPick, Choice.shape] using hp
  exact .inr ⟨_, _, rfl, rfl⟩

/-! ## How many arguments -/

theorem args_count {K : Constants fo.F} {sc : TScope} {look : Env → World fo.F Object} :
    ∀ {ps : List (Ast.Param fo.F)} {ns : List (Ast.Node fo.F)} {as : List Emit.Arg},
    ArgsSeen md K sc build look ps ns as → as.length = ns.length ∧ ns.length ≤ ps.length
  | _, [], as, h => by
    obtain rfl : as = [] := by simpa [ArgsSeen] using h
    simp
  | [], _ :: _, as, h => by simp [ArgsSeen] at h
  | p :: ps, n :: ns, as, h => by
    obtain ⟨e, q, a, as', rfl, -, -, -, -, h⟩ := h
    have := args_count h
    simp only [List.length_cons]
    omega

/-- **C89** Code is generated for a field with arguments only if the type has at least as many parameters, and each argument
is passed; with more arguments the generator panics. -/
theorem C89_count {cfg : Cfg} {float : Val → fo.F} {esc : EScope fo.F} {T : Map (Symbol fo.F)} {d : Ast.Struct fo.F}
    {f : Ast.Field fo.F} {g : Emit.Field} (h : FieldCode cfg md build float K esc T d f g) {name : String}
    {args : List (Ast.Node fo.F)} (hf : f.type = .mk false [] name 0 [] args none) :
    ∃ c ps, CodeOf cfg md build float K esc T name c ps ∧ g.ty = .compound c ps.length ∧ g.args.length = args.length ∧
      args.length ≤ ps.length := by
  cases h with
  | builtin _ ht _ =>
    rw [hf] at ht
    obtain ⟨h, -⟩ := ht
    cases h
  | named _ hf' hc hg ha =>
    rw [hf] at hf'
    cases hf'
    exact ⟨_, _, hc, hg, args_count ha⟩

theorem fieldCode_at {cfg : Cfg} {float : Val → fo.F} {esc : EScope fo.F} {T : Map (Symbol fo.F)} {d : Ast.Struct fo.F} :
    ∀ {fs : List (Ast.Field fo.F)} {gs : List Emit.Field}, FieldsCode cfg md build float K esc T d fs gs →
    ∀ {i : Nat} {f : Ast.Field fo.F}, fs[i]? = some f → ∃ g, FieldCode cfg md build float K esc T d f g
  | [], _, _, _, _, h => by simp at h
  | _ :: _, _, h, i, f, hf => by
    cases h with
    | cons h1 h2 =>
      cases i with
      | zero =>
        cases hf
        exact ⟨_, h1⟩
      | succ i => exact fieldCode_at h2 (i := i) (by simpa using hf)

-- There is code for a structure with arguments, and so for its fields.
example (cfg : Cfg) (build : Mode) (esc : EScope tenths.F) (display : tenths.F → List Char) : ∃ T d f g name n args,
    FieldCode cfg .debug build noNumber (onlyEnums redBlue) esc T d f g ∧ f.type = .mk false [] name 0 [] (n :: args) none := by
  obtain ⟨Q, hQ⟩ := arg_visit display
  obtain ⟨c, qs, hc⟩ := C78_every_type cfg .debug build esc hQ arg_names argOuter_declares
  obtain ⟨y, hy, hv⟩ := symbol_found hQ arg_names (d := .struct argOuter) (by simp [argText]) (n := "Outer") rfl
  cases hv with
  | struct hd =>
    obtain ⟨d', hd'⟩ : ∃ d', visitStruct (floatText tenths noRound display) argOuter = .ok d' := ⟨_, hd⟩
    have h2 : ∃ f, d'.fields[2]? = some f ∧ ∃ n, f.type = .mk false [] "Pick" 0 [] [n] none := by
      have h0 : ∃ d'', visitStruct (floatText tenths noRound display) argOuter = .ok d'' ∧
          ∃ f, d''.fields[2]? = some f ∧ ∃ n, f.type = .mk false [] "Pick" 0 [] [n] none :=
        ⟨_, by with_unfolding_all rfl, _, rfl, _, rfl⟩
      obtain ⟨d'', h1, h⟩ := h0
      cases h1.symm.trans hd'
      exact h
    cases hd.symm.trans hd'
    obtain ⟨f, hf, n, ht⟩ := h2
    cases hc with
    | struct h1 _ h3 =>
      cases hy.symm.trans h1
      obtain ⟨g, hg⟩ := fieldCode_at h3 hf
      exact ⟨_, _, f, g, _, n, [], hg, ht⟩
    | union h1 => cases hy.symm.trans h1
    | choice h1 => cases hy.symm.trans h1
    | enum h1 => cases hy.symm.trans h1
    | bitmask h1 => cases hy.symm.trans h1

-- An enumeration has no parameters: there is no code for a field with an argument for it.
example {cfg : Cfg} {float : Val → fo.F} {esc : EScope fo.F} {T : Map (Symbol fo.F)} {d : Ast.Struct fo.F} {e : Ast.Enum fo.F}
    (hT : T "Color" = some (.enum e)) (f : Ast.Field fo.F) (n : Ast.Node fo.F) (hf : f.type = .mk false [] "Color" 0 [] [n] none) :
    ¬∃ g, FieldCode cfg md build float K esc T d f g := by
  rintro ⟨g, h⟩
  obtain ⟨c, ps, hc, -, -, hl⟩ := C89_count h hf
  cases hc <;> simp_all

/-! ## Violations -/

/-- **C89** The code violates this for the parameters that are strings: `Inner("no")` is emitted as `s: "no"`, which is
no `String`. -/
theorem C89_string_violated (sc : TScope) (s : String) :
    ¬Typed (rscope sc) (argumentCode md sc .string (.strLit s : Expr fo.F)) .string := by
  intro h
  cases h

end Zs
