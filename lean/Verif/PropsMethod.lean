import Verif.PropsFunction

/-!
# C94: functions of other objects in expressions
-/

namespace Zs

open Src Ast Spec Emit

variable {fo : FloatOps} {K K' : Constants fo.F} {round : List Char → fo.F} {display : fo.F → List Char}
variable {float : Val → fo.F} {cfg : Cfg} {md build : Mode} {esc : EScope fo.F}
variable {P P' : Src.Package} {Q : Ast.Package fo.F} {T : Map (Symbol fo.F)}

/-- **C94** If the value of an expression is an object of the structure `h`, then calls of the functions of the object are
what they are in the expressions of `h`. -/
theorem C94_path {ds : List Src.Directive} (hs : ConstsStand round ds K) {s h : Src.Struct} (hh : .struct h ∈ ds)
    (hd : Heads K.enums h) {f : Src.Func} (hf : f ∈ h.functions) (env : Env) (e : Expr fo.F) {ps vs : List Val}
    (he : means (textLook float K s env) e = some (.object ⟨h.name, .obj ps vs⟩)) :
    means (textLook float K s env) (.call (.dot e f.name)) =
      means (textLook float K h ⟨ps, vs⟩) (.call (.ident f.name)) := by
  have hfn := func_found hd.names hf
  have hmn := func_no_member K.types hd.names hfn
  have hpart : K.part h.name f.name =
      some ⟨f.name, (typeIn K.types f.type).map (⟨.function ·, .plain⟩), fun _ => .none⟩ := by
    rw [Constants.part, hs.objects.declared h hh, Option.bind_some, partsOf, List.find?_append]
    have h1 : (membersOf K.types h).find? (fun m => m.name = f.name) = none := hmn
    rw [h1, Option.none_or]
    show (methodsOf K.types h).find? _ = _
    unfold methodsOf
    rw [List.find?_map]
    have h2 : h.functions.find? ((fun m : Member => decide (m.name = f.name)) ∘ fun f : Src.Func =>
        (⟨f.name, (typeIn K.types f.type).map (⟨.function ·, .plain⟩), fun _ => .none⟩ : Member)) = some f := hfn
    rw [h2]
    rfl
  simp only [means, he]
  show K.method ⟨h.name, .obj ps vs⟩ f.name = _
  simp only [Constants.method, hpart, textLook, hmn, hfn, Option.bind_some, Object.env]
  cases typeIn K.types f.type <;> rfl

/-- **C94** The same for a field: in the expressions of a structure, `header.size()` is what `size()` is in the expressions of
the object `header`. -/
theorem C94_field {ds : List Src.Directive} (hn : ((ds.filterMap declares).map Prod.fst).Nodup)
    (hs : ConstsStand round ds K) {s h : Src.Struct} (hh : .struct h ∈ ds) (hd : Heads K.enums s) (hd' : Heads K.enums h)
    {i : Nat} {g : Src.StructField} (hg : s.fields[i]? = some g) (hty : g.typeId.type.type = .named h.name [] [])
    (hopt : g.optional = false) (harr : g.typeId.array = none) {f : Src.Func} (hf : f ∈ h.functions) (env : Env)
    {ps vs : List Val} (henv : env.fields[i]? = some (.obj ps vs)) :
    means (textLook float K s env) (.call (.dot (.ident g.typeId.name) f.name)) =
      means (textLook float K h ⟨ps, vs⟩) (.call (.ident f.name)) :=
  C94_path hs hh hd' hf env _ (C91_object hn hs hh hd hg hty hopt harr env henv)

/-- **C94** The same for an element of an array: `parts[k].size()`. -/
theorem C94_element {ds : List Src.Directive} (hn : ((ds.filterMap declares).map Prod.fst).Nodup)
    (hs : ConstsStand round ds K) {s h : Src.Struct} (hh : .struct h ∈ ds) (hd : Heads K.enums s) (hd' : Heads K.enums h)
    {i : Nat} {g : Src.StructField} (hg : s.fields[i]? = some g) (hty : g.typeId.type.type = .named h.name [] [])
    (hopt : g.optional = false) (harr : g.typeId.array ≠ none) {f : Src.Func} (hf : f ∈ h.functions) (env : Env)
    {xs : List Val} (henv : env.fields[i]? = some (.list xs)) (e : Expr fo.F) (k : Nat)
    (he : means (textLook float K s env) e = some (.int k)) {ps vs : List Val} (hk : xs[k]? = some (.obj ps vs)) :
    means (textLook float K s env) (.call (.dot (.elem (.ident g.typeId.name) e) f.name)) =
      means (textLook float K h ⟨ps, vs⟩) (.call (.ident f.name)) :=
  C94_path hs hh hd' hf env _ (by rw [C91_element hn hs hh hd hg hty hopt harr env henv e k he, hk]; rfl)

/-- **C94 (partial)** A call of a function of a valid object is the value of the expression of the function for that object.
Missing: values out of the range of the return type, results that are too large in between (C70), floats, functions of unions
and choices. -/
theorem C94_call_partial (hQ : visitPackage (floatText fo round display) P = .ok Q)
    (hn : ((P.directives.filterMap declares).map Prod.fst).Nodup) (hw : WrittenOut P P')
    (hst : ConstsStand round P'.directives K) (hT : TableUnder (fileSymbols Q) T) (hcs : CallsSeen md build float T K)
    {s h : Src.Struct} (hh : .struct h ∈ P'.directives) (hd : Heads K.enums h) {f : Src.Func} (hf : f ∈ h.functions)
    {known : List String} {x : Expr fo.F} (hx : Stands round known f.body x)
    {z : ZTy} (hz : typeIn K.types f.type = some z) {R : RTy} (hR : valueTy z = some R)
    {t : SourceTy fo.F Object} {look : Env → World fo.F Object} (ht : t.Declares round float K P'.directives h.name h.params)
    (hsup : (t.meaning look).Supported cfg) {env' : Env} {ps vs : List Val}
    (hval : (t.meaning look).Valid cfg env' (.obj ps vs)) (hps : ParamsValid cfg K.enums h.params ps)
    {v u : Datum fo.F Object} (hv : means (textLook float K h ⟨ps, vs⟩) x = some v) (hu : ReturnsAs z v u)
    (hty : Typed (rscope (textScope K h)) (functionCode md (textScope K h) z x) R)
    (hfit : ∀ t, Infers (rscope (textScope K h)) (code md (textScope K h) x) R t →
      Fits md (textScope K h) (textLook float K h ⟨ps, vs⟩) x t)
    (env : Env) (e : Expr fo.F) (he : means (textLook float K s env) e = some (.object ⟨h.name, .obj ps vs⟩)) :
    means (textLook float K s env) (.call (.dot e f.name)) = some u := by
  have htake : vs.take vs.length = vs := List.take_length
  rw [C94_path hst hh hd hf env e he]
  have := C93_valid_partial (stand_good hst) hQ hn hw hT hcs hh hd hf hx hz hR ht hsup hval hps vs.length
    (v := v) (u := u) (by rw [htake]; exact hv) hu hty (by rw [htake]; exact hfit)
  rwa [htake] at this

/-! ## An example -/

/-- `Part part;` -/
def parcelB : Src.StructField := textField ⟨.named "Part" [] [], .none⟩ "part"

/-- `uint8 data[size()];` -/
def parcelD : Src.StructField := bufD

/-- `function uint8 size() { return part.size(); }` -/
def parcelSize : Src.Func := ⟨.builtin "uint8", "size", .call (.dot (.id "part") "size")⟩

/-- `struct Part { uint8 n; function uint8 size() { return n * 2; } };` -/
def parcelPart : Src.Struct := ⟨"Part", [], [], [bufN], [bufSize]⟩

/-- `struct Parcel { Part part; uint8 data[size()]; function uint8 size() { return part.size(); } };` -/
def parcel : Src.Struct := ⟨"Parcel", [], [], [parcelB, parcelD], [parcelSize]⟩

/-- The package. -/
def parcelText : Src.Package := ⟨none, some ["demo"], [], [.struct parcel, .struct parcelPart]⟩

/-- What expressions use of the package, except for functions. -/
def parcelNames : Constants tenths.F := withStructs noConstants [parcel, parcelPart]

theorem parcel_out : WrittenOut parcelText parcelText := by
  refine ⟨parcelText.directives, ?_, rfl⟩
  refine .cons (.struct .nil (.cons ⟨parcelB.typeId.type, ⟨.declared ?_, rfl, nofun⟩, rfl⟩
    (.cons ⟨parcelD.typeId.type, ⟨.builtin, rfl, nofun⟩, rfl⟩ .nil)) (.cons ⟨_, .builtin, rfl⟩ .nil))
    (.cons (.struct .nil (.cons ⟨bufN.typeId.type, ⟨.builtin, rfl, nofun⟩, rfl⟩ .nil) (.cons ⟨_, .builtin, rfl⟩ .nil)) .nil)
  exact .inl ⟨parcelPart, by simp [parcelText], rfl⟩

theorem parcel_visit (display : tenths.F → List Char) :
    ∃ Q, visitPackage (floatText tenths noRound display) parcelText = .ok Q :=
  ⟨_, by with_unfolding_all rfl⟩

theorem parcel_names : ((parcelText.directives.filterMap declares).map Prod.fst).Nodup := by decide

theorem parcel_stand : ConstsStand noRound parcelText.directives parcelNames where
  enums := no_enums rfl
  masks := no_masks rfl
  objects := withStructs_stand (ds := parcelText.directives) _ parcel_names
  methods := methods_named (ds := parcelText.directives) (by decide)
  declared c hc := by simp [constsIn, parcelText] at hc
  others _ _ := ⟨rfl, rfl⟩

theorem parcel_fit : ConstsFit .debug noRound parcelText.directives parcelNames := by
  intro c hc
  simp [constsIn, parcelText] at hc

theorem parcel_acyclic : ConstsAcyclic .debug noRound parcelText.directives parcelNames := by
  refine ⟨fun _ => 0, fun c hc => ?_⟩
  simp [constsIn, parcelText] at hc

/-- `part.size()` -/
def parcelExpr : Expr tenths.F := .call (.dot (.ident "part") "size")

/-- The same with functions. -/
def parcelConsts (calls : String → String → Env → Option (Datum tenths.F Object)) : Constants tenths.F :=
  { parcelNames with calls := calls }

/-- `Part` -/
def parcelPartTy (calls : String → String → Env → Option (Datum tenths.F Object)) : SourceTy tenths.F Object :=
  .struct (textScope (parcelConsts calls) parcelPart) (textLook noNumber (parcelConsts calls) parcelPart) []
    (.cons {} (.builtin (.uint 8)) .nil)

/-- `Parcel` -/
def parcelTy (calls : String → String → Env → Option (Datum tenths.F Object)) : SourceTy tenths.F Object :=
  .struct (textScope (parcelConsts calls) parcel) (textLook noNumber (parcelConsts calls) parcel) []
    (.cons {} (parcelPartTy calls)
      (.cons { array := some (false, some (.call (.ident "size"))) } (.builtin (.uint 8)) .nil))

/-- Two, and twice as many numbers. -/
def parcelVal : Val := .obj [] [.obj [] [.nat 2], .list [.nat 1, .nat 2, .nat 9, .nat 7]]

section
variable {calls : String → String → Env → Option (Datum tenths.F Object)}

theorem parcel_stand' : ConstsStand noRound parcelText.directives (parcelConsts calls) := stand_calls calls parcel_stand

theorem parcel_good : (parcelConsts calls).Good := stand_good parcel_stand'

theorem parcel_heads : Heads (parcelConsts calls).enums parcel := ⟨rfl, by simp [parcel], by decide⟩

theorem parcelPart_heads : Heads (parcelConsts calls).enums parcelPart := ⟨rfl, by simp [parcelPart], by decide⟩

theorem parcelExpr_stands : Stands noRound ["part"] parcelSize.body parcelExpr := .method (.id (by decide))

theorem parcelExpr_code : functionCode .debug (textScope (parcelConsts calls) parcel) (.num .uint8) parcelExpr =
    .cast (.paren (.call (.field (.atom (.name "part")) "size"))) "u8" := rfl

theorem parcelPartExpr_code : functionCode .debug (textScope (parcelConsts calls) parcelPart) (.num .uint8) bufExpr =
    .cast (.paren (.bin (.arith .mul) (.atom (.name "n")) (.atom (.int 2)))) "u8" := rfl

theorem parcelExpr_typed : Typed (rscope (textScope (parcelConsts calls) parcel))
    (functionCode .debug (textScope (parcelConsts calls) parcel) (.num .uint8) parcelExpr) (.int ⟨false, 8⟩) := by
  rw [parcelExpr_code]
  exact ⟨rfl, .int ⟨false, 8⟩, ⟨.object "Part", rfl, rfl⟩, .inr (.inl ⟨trivial, trivial⟩)⟩

theorem parcelPartExpr_typed : Typed (rscope (textScope (parcelConsts calls) parcelPart))
    (functionCode .debug (textScope (parcelConsts calls) parcelPart) (.num .uint8) bufExpr) (.int ⟨false, 8⟩) := by
  rw [parcelPartExpr_code]
  exact ⟨rfl, .int ⟨false, 8⟩, ⟨rfl, trivial, trivial⟩, .inr (.inl ⟨trivial, trivial⟩)⟩

theorem parcelPartExpr_fits (t : RTy)
    (h : Infers (rscope (textScope (parcelConsts calls) parcelPart)) (code .debug (textScope (parcelConsts calls) parcelPart) bufExpr)
      (.int ⟨false, 8⟩) t) :
    Fits .debug (textScope (parcelConsts calls) parcelPart) (textLook noNumber (parcelConsts calls) parcelPart ⟨[], [.nat 2]⟩) bufExpr t := by
  obtain ⟨h1, -⟩ := h.1
  obtain rfl : (.int ⟨false, 8⟩ : RTy) = t := Option.some.inj h1
  refine ⟨trivial, ⟨_, rfl, by decide⟩, fun n hn => ?_, nofun⟩
  obtain rfl : (4 : Int) = n := by
    have : (some (.int 4) : Option (Datum tenths.F Object)) = some (.int n) := hn
    cases this
    rfl
  exact ⟨_, rfl, by decide⟩

theorem parcel_ends (display : tenths.F → List Char) {Q : Ast.Package tenths.F}
    (hQ : visitPackage (floatText tenths noRound display) parcelText = .ok Q) (T : Map (Symbol tenths.F))
    (hT : TableUnder (fileSymbols Q) T) : CallsEnd .debug T (parcelConsts calls) := by
  obtain ⟨Q', hQ', h⟩ := C86_same_symbols _ hQ parcel_names parcel_out
  obtain rfl := (h T).1 hT
  refine ⟨⟨fun n => if n = "Parcel" then 1 else 0, depth_visit hQ' fun D s hD hs x hx t sh hsy => ?_⟩, fun _ _ => 0,
    fun n y d f e z hy hd hf he hz m hm hmem => ?_⟩
  · simp only [parcelText, List.mem_cons, List.not_mem_nil, or_false] at hD
    rcases hD with rfl | rfl <;> cases hs
    · simp [membersOf, parcel, parcelB, parcelD, bufD, textField, typeIn, exprTypeOf] at hx
      rcases hx with rfl | rfl <;> simp at hsy
      obtain ⟨z, hz, rfl, -⟩ := hsy
      obtain rfl : t = "Part" := by
        have : (some (.compound "Part") : Option ZTy) = some (.compound t) := hz
        cases this
        rfl
      decide
    · simp [membersOf, parcelPart, bufN, textField, typeIn, exprTypeOf] at hx
      subst hx
      simp at hsy
  obtain ⟨D, hD, -, hv⟩ := symbol_visited (components hQ') hy
  simp only [parcelText, List.mem_cons, List.not_mem_nil, or_false] at hD
  rcases hD with rfl | rfl
  · obtain ⟨d', hd', hv⟩ := visited_body hv rfl
    obtain rfl : d' = d := Option.some.inj (hd'.symm.trans hd)
    have hsc := scope_visit (K := parcelConsts calls) hv (by decide)
    simp only [visitStruct, Res.bind_eq_ok, Res.ok.injEq] at hv
    obtain ⟨qs, -, fs, -, us, hus, rfl⟩ := hv
    simp only [parcel, visitList, Res.bind_eq_ok, Res.ok.injEq] at hus
    obtain ⟨g, hg, _, rfl, rfl⟩ := hus
    simp only [List.mem_singleton] at hf
    subst hf
    obtain ⟨h1, h2, h3⟩ := visitFunc_parts hg
    have he' := expr_visit parcelExpr_stands _ h3
    obtain rfl : parcelExpr = e := Option.some.inj (he'.symm.trans he)
    rw [names_types, zty_visit h2] at hz
    obtain rfl : ZTy.num .uint8 = z := Option.some.inj hz
    rw [hsc, parcelExpr_code] at hm
    simp only [RExpr.names, List.mem_singleton] at hm
    subst hm
    simp only [List.map_cons, List.map_nil, List.mem_singleton, h1] at hmem
    simp [parcelSize] at hmem
  · obtain ⟨d', hd', hv⟩ := visited_body hv rfl
    obtain rfl : d' = d := Option.some.inj (hd'.symm.trans hd)
    have hsc := scope_visit (K := parcelConsts calls) hv (by decide)
    simp only [visitStruct, Res.bind_eq_ok, Res.ok.injEq] at hv
    obtain ⟨qs, -, fs, -, us, hus, rfl⟩ := hv
    simp only [parcelPart, visitList, Res.bind_eq_ok, Res.ok.injEq] at hus
    obtain ⟨g, hg, _, rfl, rfl⟩ := hus
    simp only [List.mem_singleton] at hf
    subst hf
    obtain ⟨h1, h2, h3⟩ := visitFunc_parts hg
    have he' := expr_visit bufExpr_stands _ h3
    obtain rfl : bufExpr = e := Option.some.inj (he'.symm.trans he)
    rw [names_types, zty_visit h2] at hz
    obtain rfl : ZTy.num .uint8 = z := Option.some.inj hz
    rw [hsc, parcelPartExpr_code] at hm
    simp only [RExpr.names, List.append_nil, List.mem_singleton] at hm
    subst hm
    simp only [List.map_cons, List.map_nil, List.mem_singleton, h1] at hmem
    simp [bufSize] at hmem

theorem parcelPart_declares : (parcelPartTy calls).Declares noRound noNumber (parcelConsts calls) parcelText.directives "Part" [] := by
  have hoff : ∀ n, ¬ ∃ g ∈ parcelPart.fields, OffsetIn n g.offset := by
    simp [parcelPart, bufN, textField, OffsetIn]
  simp only [parcelPartTy, SourceTy.Declares, SourceFields.Declares]
  refine ⟨parcelPart, by simp [parcelText], rfl, rfl, parcelPart_heads, rfl, rfl, rfl,
    _, _, rfl, ⟨rfl, rfl, rfl, trivial, rfl, .none, ?_⟩, ⟨.scalar rfl, rfl⟩, rfl⟩
  exact ⟨nofun, fun h => (hoff _ h).elim⟩

theorem parcel_declares : (parcelTy calls).Declares noRound noNumber (parcelConsts calls) parcelText.directives "Parcel" [] := by
  have hoff : ∀ n, ¬ ∃ g ∈ parcel.fields, OffsetIn n g.offset := by
    simp [parcel, parcelB, parcelD, bufD, textField, OffsetIn]
  simp only [parcelTy, SourceTy.Declares, SourceFields.Declares]
  refine ⟨parcel, by simp [parcelText], rfl, rfl, parcel_heads, rfl, rfl, rfl,
    _, _, rfl, ⟨rfl, rfl, rfl, trivial, rfl, .none, ?_⟩, ⟨_, _, _, parcelPart_declares, rfl, rfl, trivial⟩,
    _, _, rfl, ⟨rfl, ⟨rfl, rfl, _, rfl, .call (by decide)⟩, rfl, trivial, rfl, .none, ?_⟩, ⟨.scalar rfl, rfl⟩, rfl⟩ <;>
  exact ⟨nofun, fun h => (hoff _ h).elim⟩

theorem parcel_accepts : (parcelTy calls).Accepts .debug := by
  simp only [parcelTy, parcelPartTy, SourceTy.Accepts, SourceFields.Accepts, SourceTy.written, and_true, true_and]
  refine ⟨textScope_ordinary parcel_good _, ?_, ⟨textScope_ordinary parcel_good _, ?_⟩, ?_⟩ <;> constructor <;>
    simp [Modifiers.with, Written.Mentions, Expr.Unit, Expr.level, Expr.isCmp,
      Expr.isIsset, Expr.isValueof, Expr.endsWithCast, or_imp, forall_and]
  · exact ⟨rfl, .int ⟨false, 8⟩, rfl, .inr (.inl ⟨trivial, trivial⟩)⟩
  · simp [Expr.Separable]

theorem parcelPart_supported (cfg : Cfg) (look : Env → World tenths.F Object) : ((parcelPartTy calls).meaning look).Supported cfg := by
  simp [parcelPartTy, SourceTy.meaning, SourceFields.meaning, Modifiers.info, Ty.Supported, Fields.Supported, Scalar.WidthOk]

theorem parcel_supported (cfg : Cfg) (look : Env → World tenths.F Object) : ((parcelTy calls).meaning look).Supported cfg := by
  simp [parcelTy, parcelPartTy, SourceTy.meaning, SourceFields.meaning, Modifiers.info, Ty.Supported, Fields.Supported,
    Scalar.WidthOk]

theorem parcelPart_valid (cfg : Cfg) (look : Env → World tenths.F Object) (env : Env) :
    ((parcelPartTy calls).meaning look).Valid cfg env (.obj [] [.nat 2]) := by
  simp only [parcelPartTy, SourceTy.meaning, SourceFields.meaning, Ty.Valid, Fields.Valid]
  refine ⟨_, _, rfl, _, _, rfl, ⟨?_, rfl⟩, rfl⟩
  simp [Scalar.InRange]

/-- `part.size()` is 4 if `part.n` is 2. -/
theorem parcelPart_call (display : tenths.F → List Char) {Q : Ast.Package tenths.F} {build : Mode} {T : Map (Symbol tenths.F)}
    (hQ : visitPackage (floatText tenths noRound display) parcelText = .ok Q) (hT : TableUnder (fileSymbols Q) T)
    (hk : CallsSeen .debug build noNumber T (parcelConsts calls)) (cfg : Cfg) :
    means (textLook noNumber (parcelConsts calls) parcel ⟨[], [.obj [] [.nat 2]]⟩) parcelExpr = some (.int 4) :=
  C94_call_partial (cfg := cfg) (f := bufSize) (R := .int ⟨false, 8⟩) (h := parcelPart) hQ parcel_names parcel_out parcel_stand' hT hk
    (by simp [parcelText]) parcelPart_heads (by simp [parcelPart]) bufExpr_stands rfl rfl parcelPart_declares
    (parcelPart_supported cfg (textLook noNumber (parcelConsts calls) parcelPart)) (parcelPart_valid cfg _ ⟨[], []⟩) trivial
    (v := .int 4) rfl (.int ⟨_, rfl, by decide⟩) parcelPartExpr_typed parcelPartExpr_fits _ _ rfl

theorem parcel_shaped : FieldsShaped parcel.fields [.obj [] [.nat 2]] := by
  intro j f v z hf hv ⟨_, _, hz⟩
  match j with
  | 0 =>
    cases hf
    cases hv
    intro x hx n i hn hi k hk
    obtain rfl : (.obj [] [.nat 2] : Val) = x := hx
    cases hk
  | j + 1 => cases hv

/-- `size()` is 4. -/
theorem parcel_call (display : tenths.F → List Char) {Q : Ast.Package tenths.F} {build : Mode} {T : Map (Symbol tenths.F)}
    (hQ : visitPackage (floatText tenths noRound display) parcelText = .ok Q) (hT : TableUnder (fileSymbols Q) T)
    (hk : CallsSeen .debug build noNumber T (parcelConsts calls)) (cfg : Cfg) :
    means (textLook noNumber (parcelConsts calls) parcel ⟨[], [.obj [] [.nat 2]]⟩) (.call (.ident "size")) = some (.int 4) :=
  C93_call_partial (cfg := cfg) (ps := []) (f := parcelSize) (R := .int ⟨false, 8⟩) parcel_good hQ parcel_names parcel_out hT hk
    (D := .struct parcel) (by simp [parcelText]) rfl parcel_heads (by simp [parcel]) parcelExpr_stands rfl rfl trivial parcel_shaped
    (v := .int 4) (parcelPart_call display hQ hT hk cfg) (.int ⟨_, rfl, by decide⟩) parcelExpr_typed
    (fun _ _ _ _ => trivial)

theorem parcel_valid (display : tenths.F → List Char) {Q : Ast.Package tenths.F} {build : Mode} {T : Map (Symbol tenths.F)}
    (hQ : visitPackage (floatText tenths noRound display) parcelText = .ok Q) (hT : TableUnder (fileSymbols Q) T)
    (hk : CallsSeen .debug build noNumber T (parcelConsts calls)) (cfg : Cfg) (look : Env → World tenths.F Object) :
    ((parcelTy calls).meaning look).Valid cfg ⟨[], []⟩ parcelVal := by
  have hc : lengthValue (textLook noNumber (parcelConsts calls) parcel ⟨[], [.obj [] [.nat 2]]⟩) (.call (.ident "size")) = 4 := by
    rw [lengthValue, parcel_call display hQ hT hk cfg]
    rfl
  simp only [parcelTy, parcelVal, SourceTy.meaning, SourceFields.meaning, Ty.Valid, Fields.Valid]
  refine ⟨_, _, rfl, _, _, rfl, ⟨?_, rfl⟩, _, _, rfl, ?_, rfl⟩
  · exact parcelPart_valid cfg _ _
  · refine ⟨_, rfl, hc, fun i y h => ?_⟩
    have hy := List.mem_of_getElem? h
    simp only [List.mem_cons, List.not_mem_nil, or_false] at hy
    rcases hy with rfl | rfl | rfl | rfl <;> refine ⟨?_, rfl⟩ <;> simp [Scalar.InRange]

theorem parcelVal_fit (display : tenths.F → List Char) {Q : Ast.Package tenths.F} {build : Mode} {T : Map (Symbol tenths.F)}
    (hQ : visitPackage (floatText tenths noRound display) parcelText = .ok Q) (hT : TableUnder (fileSymbols Q) T)
    (hk : CallsSeen .debug build noNumber T (parcelConsts calls)) (cfg : Cfg) : (parcelTy calls).Fit .debug false parcelVal := by
  simp only [parcelTy, parcelVal, SourceTy.Fit, SourceFields.Fit]
  refine ⟨_, _, rfl,
    _, _, rfl, trivial, ⟨⟨nofun, nofun, nofun, nofun⟩, fun _ x hx => ?_⟩,
    _, _, rfl, ⟨_, rfl⟩, ⟨⟨nofun, fun p e he => ?_, nofun, nofun⟩, fun _ _ _ => trivial⟩, rfl⟩
  · obtain ⟨y, h1, h2⟩ := hx
    cases h1
    cases h2
    simp only [parcelPartTy, SourceTy.Fit, SourceFields.Fit]
    exact ⟨_, _, rfl, _, _, rfl, trivial, ⟨⟨nofun, nofun, nofun, nofun⟩, fun _ _ _ => trivial⟩, rfl⟩
  · cases he
    exact ⟨4, by decide, parcel_call display hQ hT hk cfg, fun _ _ => trivial⟩

end

-- A parcel is written and restored; the array has four elements because the function of the part says so.
example (cfg : Cfg) (build : Mode) (esc : EScope tenths.F) (display : tenths.F → List Char) : ∃ Q T calls c qs,
    visitPackage (floatText tenths noRound display) parcelText = .ok Q ∧ TableUnder (fileSymbols Q) T ∧
    (∀ K', ConstsSeen .debug esc T K' ∧ CallsSeen .debug build noNumber T K' ↔ K' = parcelConsts calls) ∧
    CodeOf cfg .debug build noNumber (parcelConsts calls) esc T "Parcel" c qs ∧
    ∃ bits, c.write parcelVal ⟨[]⟩ = .ok ⟨bits⟩ ∧
      c.read ((parcelTy calls).meaning (textLook noNumber (parcelConsts calls) parcel)).default ⟨0, bits⟩ =
        .ok (parcelVal, ⟨bits.length, []⟩) := by
  obtain ⟨Q, hQ⟩ := parcel_visit display
  obtain ⟨T, calls, hT, hK⟩ := C93_names (esc := esc) (build := build) (float := noNumber) hQ parcel_names parcel_out parcel_stand
    parcel_fit parcel_acyclic fun T hT => parcel_ends (calls := parcelNames.calls) display hQ T hT
  obtain ⟨T', hT', c, qs, hc⟩ := C86_every_type cfg .debug build esc hQ parcel_names parcel_out (parcel_declares (calls := calls))
  obtain rfl := tableUnder_unique hT hT'
  obtain ⟨hk1, hk2⟩ := (hK _).2 rfl
  obtain ⟨bits, hw, hr⟩ := C93_round_trip_partial (K := parcelConsts calls) hQ parcel_names parcel_out parcel_stand' parcel_fit hT
    (parcel_ends display hQ T hT) hk2 parcel_declares hk1 hk2 hc parcel_accepts (parcel_supported cfg _) parcelVal
    ⟨trivial, ⟨_, parcel_valid display hQ hT hk2 cfg (textLook noNumber (parcelConsts calls) parcel)⟩,
      parcelVal_fit display hQ hT hk2 cfg⟩ []
  refine ⟨Q, T, calls, c, qs, hQ, hT, hK, hc, bits, hw, ?_⟩
  have := hr []
  rwa [List.append_nil, List.length_nil, Nat.zero_add] at this

-- The hypotheses of C94_field.
example (calls : String → String → Env → Option (Datum tenths.F Object)) (ps vs : List Val) :
    means (textLook noNumber (parcelConsts calls) parcel ⟨[], [.obj ps vs]⟩) parcelExpr =
      means (textLook noNumber (parcelConsts calls) parcelPart ⟨ps, vs⟩) (.call (.ident "size")) :=
  C94_field (h := parcelPart) (f := bufSize) (g := parcelB) parcel_names parcel_stand' (by simp [parcelText]) parcel_heads parcelPart_heads (i := 0)
    rfl rfl rfl rfl (by simp [parcelPart]) _ rfl

/-- `Part parts[];` -/
def crateB : Src.StructField :=
  { textField ⟨.named "Part" [] [], .none⟩ "parts" with
    typeId := { packed := false, implicit_ := false, type := ⟨.named "Part" [] [], .none⟩, name := "parts",
                array := some none } }

/-- `struct Crate { Part parts[]; };` -/
def crateS : Src.Struct := ⟨"Crate", [], [], [crateB], []⟩

-- The hypotheses of C94_element, in the expressions of `Crate`: `parts[1].size()` is that of the second part.
example (calls : String → String → Env → Option (Datum tenths.F Object)) (v : Val) (ps vs : List Val) :
    means (textLook noNumber (parcelConsts calls) crateS ⟨[], [.list [v, .obj ps vs]]⟩)
        (.call (.dot (.elem (.ident "parts") (.intLit 1)) "size")) =
      means (textLook noNumber (parcelConsts calls) parcelPart ⟨ps, vs⟩) (.call (.ident "size")) :=
  C94_element (s := crateS) (h := parcelPart) (f := bufSize) (g := crateB) parcel_names parcel_stand'
    (by simp [parcelText]) ⟨rfl, by simp [crateS], by decide⟩ parcelPart_heads (i := 0) rfl rfl rfl nofun
    (by simp [parcelPart]) ⟨[], [.list [v, .obj ps vs]]⟩ (xs := [v, .obj ps vs]) rfl (.intLit 1) 1 rfl rfl

end Zs
