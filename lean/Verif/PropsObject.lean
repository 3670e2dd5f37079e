import Verif.PropsEnumeration

/-!
# C91: members of objects in expressions
-/

namespace Zs

open Src Ast Spec Emit

variable {fo : FloatOps} {K K' : Constants fo.F} {round : List Char → fo.F} {display : fo.F → List Char}
variable {float : Val → fo.F} {cfg : Cfg} {md build : Mode} {esc : EScope fo.F}
variable {P P' : Src.Package} {Q : Ast.Package fo.F} {T : Map (Symbol fo.F)}

/-! ## What expressions know of structures -/

/-- **C91** The parameters and fields that the generator finds for the structures are those that the package, in which
subtypes are written out, declares. -/
theorem C91_objects (hQ : visitPackage (floatText fo round display) P = .ok Q)
    (hn : ((P.directives.filterMap declares).map Prod.fst).Nodup) (hw : WrittenOut P P')
    (hT : TableUnder (fileSymbols Q) T) : ObjectsSeen T K ↔ ObjectsStand P'.directives K := by
  obtain ⟨Q', hQ', h⟩ := C86_same_symbols _ hQ hn hw
  obtain rfl := (h T).1 hT
  exact objects_seen hQ' (names_out hn hw)

/-- **C91** There is exactly one thing that the generator can find, in every package. -/
theorem C91_every_package (hQ : visitPackage (floatText fo round display) P = .ok Q)
    (hn : ((P.directives.filterMap declares).map Prod.fst).Nodup) (hw : WrittenOut P P')
    (hT : TableUnder (fileSymbols Q) T) :
    ∃ objects, ∀ objects', ObjectsSeen T { K with objects := objects' } ↔ objects' = objects := by
  refine ⟨(withStructs K (structsIn P'.directives)).objects, fun objects' => ?_⟩
  rw [C91_objects hQ hn hw hT]
  have hs := withStructs_stand (fo := fo) K (names_out hn hw)
  constructor
  · exact fun h => (types_unique (K := withStructs K (structsIn P'.directives))
      (K' := { K with objects := objects' }) rfl rfl hs h).2
  · rintro rfl
    exact hs

/-! ## Values -/

theorem find_nodup {s : Src.Struct} {T : String → Option ZTy}
    (hn : (s.params.map Src.Param.name ++ s.fields.map fun f => f.typeId.name).Nodup) {i : Nat} {f : Src.StructField}
    (hf : s.fields[i]? = some f) : memberNamed T s f.typeId.name =
      some ⟨f.typeId.name, (typeIn T f.typeId.type.type).map (⟨·, shapeOf f⟩), fun env => env.fields.getD i .none⟩ := by
  have hnames : (membersOf T s).map Member.name = s.params.map Src.Param.name ++ s.fields.map fun f => f.typeId.name := by
    simp only [membersOf, List.map_append, List.map_map]
    congr 1
    · conv => rhs; rw [← List.zipIdx_map_fst 0 s.params, List.map_map]
      rfl
    · conv => rhs; rw [← List.zipIdx_map_fst 0 s.fields, List.map_map]
      rfl
  have key : ∀ (ms : List Member) (m : Member), (ms.map Member.name).Nodup → m ∈ ms →
      ms.find? (fun x => x.name = m.name) = some m := by
    intro ms m
    induction ms with
    | nil => exact fun _ h => by cases h
    | cons x ms ih =>
      intro hn hm
      simp only [List.map_cons, List.nodup_cons] at hn
      rcases List.mem_cons.1 hm with rfl | hm
      · simp
      · have : x.name ≠ m.name := fun h => hn.1 (h ▸ List.mem_map_of_mem hm)
        rw [List.find?_cons_of_neg (by simpa using this)]
        exact ih hn.2 hm
  refine key (membersOf T s) ⟨f.typeId.name, _, _⟩ (hnames ▸ hn) ?_
  simp only [membersOf, List.mem_append, List.mem_map]
  exact .inr ⟨(f, i), List.mk_mem_zipIdx_iff_getElem?.2 hf, rfl⟩

theorem good_fits {y : Symb} {v : Val} (h : ShapeGood y v) : shapeFits y v = true := by
  have key : ∀ x, Inner y.shape v x → fitsRust y.ty x = true := by
    intro x hx
    have := h x hx
    unfold fitsRust
    split
    · rename_i n hn
      split
      · rename_i i z hi hz
        exact decide_eq_true (this n i hn hi z hz)
      · rfl
    · rfl
  obtain ⟨t, sh⟩ := y
  cases sh with
  | optional =>
    cases v with
    | some x => exact key x rfl
    | _ => rfl
  | array =>
    cases v with
    | list xs => exact List.all_eq_true.2 fun x hx => key x ⟨xs, rfl, hx⟩
    | _ => rfl
  | optionalArray =>
    cases v with
    | some x =>
      cases x with
      | list xs => exact List.all_eq_true.2 fun x hx => key x ⟨xs, rfl, hx⟩
      | _ => rfl
    | _ => rfl
  | _ => exact key v rfl

/-- The values of a valid object are in the ranges of their Rust types. -/
theorem valid_shaped {t : SourceTy fo.F Object} {ds : List Src.Directive} {look : Env → World fo.F Object} {h : Src.Struct}
    (hn : ((ds.filterMap declares).map Prod.fst).Nodup) (hh : .struct h ∈ ds)
    (ht : t.Declares round float K ds h.name h.params) (hsup : (t.meaning look).Supported cfg) {env : Env}
    {ps vs : List Val} (hv : (t.meaning look).Valid cfg env (.obj ps vs)) : FieldsShaped h.fields vs := by
  have other : ∀ d : Src.Directive, d ∈ ds → (declares d).map Prod.fst = some h.name → d = .struct h := fun d hd he =>
    directive_unique hn hd hh he (by simp [declares])
  cases t with
  | builtin | bit | int => simp only [SourceTy.Declares] at ht
  | enum =>
    simp only [SourceTy.Declares] at ht
    obtain ⟨-, e, -, he, hne, -⟩ := ht
    cases other _ he (by simp [declares, hne])
  | bitmask =>
    simp only [SourceTy.Declares] at ht
    obtain ⟨-, e, -, -, -, he, hne, -⟩ := ht
    cases other _ he (by simp [declares, hne])
  | union =>
    simp only [SourceTy.Declares] at ht
    obtain ⟨e, he, hne, -⟩ := ht
    cases other _ he (by simp [declares, hne])
  | choice =>
    simp only [SourceTy.Declares] at ht
    obtain ⟨e, -, he, hne, -⟩ := ht
    cases other _ he (by simp [declares, hne])
  | struct sc look' dflts fields =>
    simp only [SourceTy.Declares] at ht
    obtain ⟨s, hs, hne, -, -, rfl, rfl, rfl, hd⟩ := ht
    cases other _ hs (by simp [declares, hne])
    simp only [SourceTy.meaning, Ty.Valid] at hv
    obtain ⟨ps', vs', he, hv⟩ := hv
    cases he
    refine fields_shaped hd (supported_sound ?_ hv)
    simp only [SourceTy.meaning, Ty.Supported] at hsup
    exact .inl (by simpa only [Ty.Supported] using hsup)

theorem no_item (hK : K.Good) {s : Src.Struct} {env : Env} {e : Expr fo.F} {o : Object}
    (he : means (textLook float K s env) e = some (.object o)) (n : String) :
    (textLook float K s env).item e n = none := by
  have key : ∀ z, e.symbol (textScope K s) ≠ some ⟨z, .typeName⟩ := by
    intro z hsym
    cases e with
    | ident a =>
      simp only [Expr.symbol, textScope] at hsym
      simp only [means, textLook] at he
      cases hm : memberNamed K.types s a with
      | some m =>
        rw [hm] at hsym
        have := (members_simple (List.mem_of_find?_eq_some hm) hsym).2
        simp at this
      | none =>
        simp only [hm] at hsym he
        cases hu : funcNamed s a with
        | some f =>
          rw [hu] at he
          cases he
        | none =>
        simp only [hu] at hsym he
        unfold Constants.symb at hsym
        cases ht : K.ty a with
        | some t =>
          rw [ht] at hsym
          simp at hsym
        | none =>
          rw [hK.none a ht] at he
          cases he
    | dot e' a =>
      simp only [Expr.symbol, Option.bind_eq_some_iff] at hsym
      obtain ⟨y, -, hsym⟩ := hsym
      split at hsym
      · obtain ⟨m, hm, hsym⟩ := Option.bind_eq_some_iff.1 hsym
        rcases part_simple hK hm hsym with ⟨-, this⟩ | ⟨⟨_, this⟩, -⟩
        · simp at this
        · cases this
      · cases hsym
    | _ => cases hsym
  show K.item (textScope K s) e n = none
  unfold Constants.item
  split
  · rename_i id b h
    exact absurd h (key _)
  · rename_i id b h
    exact absurd h (key _)
  · rfl

/-- **C91** If the value of an expression is an object of the structure `h`, then the members of the object are what their
names are in the expressions of `h`. -/
theorem C91_path {ds : List Src.Directive} (hn : ((ds.filterMap declares).map Prod.fst).Nodup)
    (hs : ConstsStand round ds K) {s h : Src.Struct} (hh : .struct h ∈ ds) {g : Src.StructField} (hg : g ∈ h.fields)
    {t : SourceTy fo.F Object} {look : Env → World fo.F Object} (ht : t.Declares round float K ds h.name h.params)
    (hsup : (t.meaning look).Supported cfg) {env' : Env} {ps vs : List Val}
    (hv : (t.meaning look).Valid cfg env' (.obj ps vs)) (hps : ParamsValid cfg K.enums h.params ps) (env : Env)
    (e : Expr fo.F) (he : means (textLook float K s env) e = some (.object ⟨h.name, .obj ps vs⟩)) :
    means (textLook float K s env) (.dot e g.typeId.name) =
      means (textLook float K h ⟨ps, vs⟩) (.ident g.typeId.name) := by
  have hO := hs.objects.declared h hh
  have hgm : ∃ m, memberNamed K.types h g.typeId.name = some m := by
    cases hf : memberNamed K.types h g.typeId.name with
    | some m => exact ⟨m, rfl⟩
    | none =>
      obtain ⟨j, hj⟩ := List.getElem?_of_mem hg
      exact absurd (decide_eq_true rfl) (List.find?_eq_none.1 hf
        ⟨g.typeId.name, (typeIn K.types g.typeId.type.type).map (⟨·, shapeOf g⟩), fun env => env.fields.getD j .none⟩ (by
          simp only [membersOf, List.mem_append, List.mem_map]
          exact .inr ⟨(g, j), List.mk_mem_zipIdx_iff_getElem?.2 hj, rfl⟩))
  obtain ⟨m, hgm⟩ := hgm
  have hpart : K.part h.name g.typeId.name = some m := by
    rw [Constants.part, hO, Option.bind_some, partsOf, List.find?_append]
    exact Option.or_eq_some_iff.2 (.inl hgm)
  simp only [means, no_item (stand_good hs) he, he]
  show K.member float ⟨h.name, .obj ps vs⟩ g.typeId.name = _
  simp only [Constants.member, hpart, textLook, hgm, Option.bind_some, Object.env]
  cases hy : m.symb with
  | none => rfl
  | some y =>
    obtain ⟨h1, -, h3⟩ := good_members (fun j p v z h1 h2 ⟨_, _, hz⟩ => params_good hps j p v z h1 h2 hz)
      (valid_shaped hn hh ht hsup hv) (List.mem_of_find?_eq_some hgm) hy
    obtain ⟨ty, sh⟩ := y
    cases ty <;> first | exact h1.elim | simp [good_fits h3]

theorem type_of_struct {ds : List Src.Directive} (hn : ((ds.filterMap declares).map Prod.fst).Nodup)
    (hs : ConstsStand round ds K) {h : Src.Struct} (hh : .struct h ∈ ds) :
    typeIn K.types (.named h.name [] []) = some (.compound h.name) := by
  have hE : K.enums h.name = none := by
    refine hs.enums.others _ fun hm => ?_
    obtain ⟨e, he, hne⟩ := List.mem_map.1 hm
    have := directive_unique hn (mem_enumsIn.1 he) hh (n := h.name) (by simp [declares, hne]) (by simp [declares])
    cases this
  have hB : K.masks h.name = none := by
    refine hs.masks.others _ fun hm => ?_
    obtain ⟨e, he, hne⟩ := List.mem_map.1 hm
    have := directive_unique hn (mem_masksIn.1 he) hh (n := h.name) (by simp [declares, hne]) (by simp [declares])
    cases this
  have hO := hs.objects.declared h hh
  simp [typeIn, Constants.types, hE, hB, hO]

/-- **C91** A field whose type is a structure is an object for expressions. -/
theorem C91_object {ds : List Src.Directive} (hn : ((ds.filterMap declares).map Prod.fst).Nodup)
    (hs : ConstsStand round ds K) {s h : Src.Struct} (hh : .struct h ∈ ds) (hd : Heads K.enums s) {i : Nat}
    {f : Src.StructField} (hf : s.fields[i]? = some f) (hty : f.typeId.type.type = .named h.name [] [])
    (hopt : f.optional = false) (harr : f.typeId.array = none) {v : Val} (env : Env)
    (henv : env.fields[i]? = some v) :
    means (textLook float K s env) (.ident f.typeId.name) = some (.object ⟨h.name, v⟩) := by
  have hz := hty ▸ type_of_struct hn hs hh
  have hsh : shapeOf f = .plain := by simp [shapeOf, hopt, harr]
  have hm := find_nodup (T := K.types) (List.nodup_append.1 hd.names).1 hf
  rw [hz, hsh] at hm
  have hval : env.fields.getD i .none = v := by simp [List.getD_eq_getElem?_getD, henv]
  simp only [means, textLook, hm, Option.map_some, shapedDatum, datumOf, hval]

/-- **C91** In the expressions of a structure, `header.len` is what `len` is in the expressions of the object `header`. -/
theorem C91_member {ds : List Src.Directive} (hn : ((ds.filterMap declares).map Prod.fst).Nodup)
    (hs : ConstsStand round ds K) {s h : Src.Struct} (hh : .struct h ∈ ds) (hd : Heads K.enums s) {i : Nat}
    {f : Src.StructField} (hf : s.fields[i]? = some f) (hty : f.typeId.type.type = .named h.name [] [])
    (hopt : f.optional = false) (harr : f.typeId.array = none) {g : Src.StructField} (hg : g ∈ h.fields)
    {t : SourceTy fo.F Object} {look : Env → World fo.F Object} (ht : t.Declares round float K ds h.name h.params)
    (hsup : (t.meaning look).Supported cfg) {env' : Env} {ps vs : List Val}
    (hv : (t.meaning look).Valid cfg env' (.obj ps vs)) (hps : ParamsValid cfg K.enums h.params ps) (env : Env)
    (henv : env.fields[i]? = some (.obj ps vs)) :
    means (textLook float K s env) (.dot (.ident f.typeId.name) g.typeId.name) =
      means (textLook float K h ⟨ps, vs⟩) (.ident g.typeId.name) :=
  C91_path hn hs hh hg ht hsup hv hps env _ (C91_object hn hs hh hd hf hty hopt harr env henv)

/-- **C91** The element of an array of structures is the object with that index, and there is none if the array is too short. -/
theorem C91_element {ds : List Src.Directive} (hn : ((ds.filterMap declares).map Prod.fst).Nodup)
    (hs : ConstsStand round ds K) {s h : Src.Struct} (hh : .struct h ∈ ds) (hd : Heads K.enums s) {i : Nat}
    {f : Src.StructField} (hf : s.fields[i]? = some f) (hty : f.typeId.type.type = .named h.name [] [])
    (hopt : f.optional = false) (harr : f.typeId.array ≠ none) {xs : List Val} (env : Env)
    (henv : env.fields[i]? = some (.list xs)) (e : Expr fo.F) (k : Nat)
    (he : means (textLook float K s env) e = some (.int k)) :
    means (textLook float K s env) (.elem (.ident f.typeId.name) e) = (xs[k]?).map fun v => .object ⟨h.name, v⟩ := by
  have hz := hty ▸ type_of_struct hn hs hh
  have hsh : shapeOf f = .array := by
    cases ha : f.typeId.array with
    | none => exact (harr ha).elim
    | some a => simp [shapeOf, hopt, ha]
  have hm := find_nodup (T := K.types) (List.nodup_append.1 hd.names).1 hf
  rw [hz, hsh] at hm
  have hval : env.fields.getD i .none = .list xs := by simp [List.getD_eq_getElem?_getD, henv]
  have h1 : means (textLook float K s env) (.ident f.typeId.name) = some (.list (xs.map fun v => .object ⟨h.name, v⟩)) := by
    have hd : (datumOf float K.enums (.compound h.name) : Val → Datum fo.F Object) = fun v => .object ⟨h.name, v⟩ :=
      funext fun v => by simp only [datumOf]
    simp only [means, textLook, hm, Option.map_some, shapedDatum, listDatum, hval, hd]
  have hk : ¬ (k : Int) < 0 := by omega
  simp only [means] at h1 ⊢
  simp [h1, he, hk]

/-! ## An example -/

/-- `struct Header { uint8 len; uint8 kind; };` -/
def headStruct : Src.Struct :=
  ⟨"Header", [], [], [textField ⟨.builtin "uint8", .none⟩ "len", textField ⟨.builtin "uint8", .none⟩ "kind"], []⟩

/-- `Header header;` -/
def messageH : Src.StructField := textField ⟨.named "Header" [] [], .none⟩ "header"

/-- `uint8 data[header.len];` -/
def messageD : Src.StructField :=
  { textField ⟨.builtin "uint8", .none⟩ "data" with
    typeId := { packed := false, implicit_ := false, type := ⟨.builtin "uint8", .none⟩, name := "data",
                array := some (some (.dot (.id "header") "len")) } }

/-- `uint8 extra if header.kind == 4;` -/
def messageE : Src.StructField :=
  { textField ⟨.builtin "uint8", .none⟩ "extra" with
    clause := some (.binary .eq (.dot (.id "header") "kind") (.lit .decimal "4".toList)) }

/-- `struct Message { Header header; uint8 data[header.len]; uint8 extra if header.kind == 4; };` -/
def message : Src.Struct := ⟨"Message", [], [], [messageH, messageD, messageE], []⟩

/-- The package. -/
def messageText : Src.Package := ⟨none, some ["demo"], [], [.struct message, .struct headStruct]⟩

/-- What expressions use of the package. -/
def messageConsts : Constants tenths.F := withStructs noConstants [message, headStruct]

theorem message_out : WrittenOut messageText messageText := by
  refine ⟨messageText.directives, ?_, rfl⟩
  refine .cons (.struct .nil (.cons ⟨messageH.typeId.type, ⟨.declared ?_, rfl, nofun⟩, rfl⟩
    (.cons ⟨messageD.typeId.type, ⟨.builtin, rfl, nofun⟩, rfl⟩
    (.cons ⟨messageE.typeId.type, ⟨.builtin, rfl, nofun⟩, rfl⟩ .nil))) .nil) (.cons (.struct .nil
    (.cons ⟨⟨.builtin "uint8", .none⟩, ⟨.builtin, rfl, nofun⟩, rfl⟩ (.cons ⟨⟨.builtin "uint8", .none⟩, ⟨.builtin, rfl, nofun⟩, rfl⟩ .nil))
    .nil) .nil)
  exact .inl ⟨headStruct, by simp [messageText], rfl⟩

theorem message_visit (display : tenths.F → List Char) :
    ∃ Q, visitPackage (floatText tenths noRound display) messageText = .ok Q :=
  ⟨_, by with_unfolding_all rfl⟩

theorem message_names : ((messageText.directives.filterMap declares).map Prod.fst).Nodup := by decide

theorem message_stand : ConstsStand noRound messageText.directives messageConsts where
  enums := no_enums rfl
  masks := no_masks rfl
  objects := withStructs_stand (ds := messageText.directives) _ message_names
  methods := methods_named (ds := messageText.directives) (by decide)
  declared c hc := by simp [constsIn, messageText] at hc
  others _ _ := ⟨rfl, rfl⟩

theorem message_fit : ConstsFit .debug noRound messageText.directives messageConsts := by
  intro c hc
  simp [constsIn, messageText] at hc

theorem message_acyclic : ConstsAcyclic .debug noRound messageText.directives messageConsts := by
  refine ⟨fun _ => 0, fun c hc => ?_⟩
  simp [constsIn, messageText] at hc

/-- `header.len` -/
def headLen : Expr tenths.F := .dot (.ident "header") "len"

/-- `header.kind == 4` -/
def headKind : Expr tenths.F := .cmp .eq (.dot (.ident "header") "kind") (.intLit 4)

/-- `Header` -/
def headTy : SourceTy tenths.F Object :=
  .struct (textScope messageConsts headStruct) (textLook noNumber messageConsts headStruct) []
    (.cons {} (.builtin (.uint 8)) (.cons {} (.builtin (.uint 8)) .nil))

/-- `Message` -/
def messageTy : SourceTy tenths.F Object :=
  .struct (textScope messageConsts message) (textLook noNumber messageConsts message) []
    (.cons {} headTy (.cons { array := some (false, some headLen) } (.builtin (.uint 8))
      (.cons { clause := some headKind } (.builtin (.uint 8)) .nil)))

theorem head_declares : headTy.Declares noRound noNumber messageConsts messageText.directives "Header" [] := by
  have hoff : ∀ n, ¬ ∃ g ∈ headStruct.fields, OffsetIn n g.offset := by
    simp [headStruct, textField, OffsetIn]
  simp only [headTy, SourceTy.Declares, SourceFields.Declares]
  refine ⟨headStruct, by simp [messageText], rfl, rfl, ⟨rfl, by simp [headStruct], by decide⟩, rfl, rfl, rfl,
    _, _, rfl, ⟨rfl, rfl, rfl, trivial, rfl, .none, ?_⟩, ⟨.scalar rfl, rfl⟩,
    _, _, rfl, ⟨rfl, rfl, rfl, trivial, rfl, .none, ?_⟩, ⟨.scalar rfl, rfl⟩, rfl⟩ <;>
  exact ⟨nofun, fun h => (hoff _ h).elim⟩

theorem message_heads : Heads messageConsts.enums message := ⟨rfl, by simp [message], by decide⟩

theorem message_declares : messageTy.Declares noRound noNumber messageConsts messageText.directives "Message" [] := by
  have hoff : ∀ n, ¬ ∃ g ∈ message.fields, OffsetIn n g.offset := by
    simp [message, messageH, messageD, messageE, textField, OffsetIn]
  simp only [messageTy, SourceTy.Declares, SourceFields.Declares]
  refine ⟨message, by simp [messageText], rfl, rfl, message_heads, rfl, rfl, rfl,
    _, _, rfl, ⟨rfl, rfl, rfl, trivial, rfl, .none, ?_⟩, ⟨_, _, _, head_declares, rfl, rfl, trivial⟩,
    _, _, rfl, ⟨rfl, ⟨rfl, rfl, _, rfl, .dot (.id (by decide))⟩, rfl, trivial, rfl, .none, ?_⟩, ⟨.scalar rfl, rfl⟩,
    _, _, rfl, ⟨rfl, rfl, rfl, .binary (op := .eq) (.dot (.id (by decide))) (four_stands _), rfl, .none, ?_⟩,
      ⟨.scalar rfl, rfl⟩, rfl⟩ <;>
  exact ⟨nofun, fun h => (hoff _ h).elim⟩

theorem headLen_code : code .debug (textScope messageConsts message) headLen = .field (.atom (.name "header")) "len" := rfl

theorem headKind_code : conditionCode .debug (textScope messageConsts message) headKind =
    .bin (.cmp .eq) (.field (.atom (.name "header")) "kind") (.atom (.int 4)) := rfl

theorem message_accepts : messageTy.Accepts .debug := by
  have hK := stand_good message_stand
  simp only [messageTy, headTy, SourceTy.Accepts, SourceFields.Accepts, SourceTy.written, and_true, true_and]
  refine ⟨textScope_ordinary hK _, ?_, ⟨textScope_ordinary hK _, ?_, ?_⟩, ?_, ?_⟩ <;> constructor <;>
    simp [Modifiers.with, Written.Mentions, Expr.Unit, Expr.level, Expr.isCmp,
      Expr.isIsset, Expr.isValueof, Expr.endsWithCast, or_imp, forall_and]
  · rw [lengthCode, headLen_code]
    exact ⟨rfl, .int ⟨false, 8⟩, ⟨"Header", rfl, rfl⟩, .inr (.inl ⟨trivial, trivial⟩)⟩
  · simp [headLen, Expr.Separable]
  · rw [headKind_code]
    exact ⟨rfl, .int ⟨false, 8⟩, .int ⟨false, 8⟩, ⟨"Header", rfl, rfl⟩, trivial, rfl⟩
  · exact ⟨by simp [Expr.Separable], by simp [Expr.Separable], rfl, rfl, rfl, rfl, nofun⟩

theorem message_supported (cfg : Cfg) :
    (messageTy.meaning (textLook noNumber messageConsts message)).Supported cfg := by
  simp [messageTy, headTy, SourceTy.meaning, SourceFields.meaning, Modifiers.info, Ty.Supported, Fields.Supported,
    Scalar.WidthOk]

/-- Three numbers, and one because the kind is 4. -/
def messageVal : Val := .obj [] [.obj [] [.nat 3, .nat 4], .list [.nat 1, .nat 2, .nat 9], .nat 7]

theorem message_valid (cfg : Cfg) :
    (messageTy.meaning (textLook noNumber messageConsts message)).Valid cfg ⟨[], []⟩ messageVal := by
  have hc : condition (textLook noNumber messageConsts message ⟨[], [.obj [] [.nat 3, .nat 4],
      .list [.nat 1, .nat 2, .nat 9]]⟩) headKind = true := rfl
  simp only [messageTy, messageVal, SourceTy.meaning, SourceFields.meaning, Ty.Valid, Fields.Valid]
  refine ⟨_, _, rfl, _, _, rfl, ?_, _, _, rfl, ?_, _, _, rfl, ?_, rfl⟩
  · refine ⟨?_, rfl⟩
    simp only [headTy, SourceTy.meaning, SourceFields.meaning, Ty.Valid, Fields.Valid]
    refine ⟨_, _, rfl, _, _, rfl, ⟨?_, rfl⟩, _, _, rfl, ⟨?_, rfl⟩, rfl⟩ <;> simp [Scalar.InRange]
  · refine ⟨_, rfl, rfl, fun i y h => ?_⟩
    have hy := List.mem_of_getElem? h
    simp only [List.mem_cons, List.not_mem_nil, or_false] at hy
    rcases hy with rfl | rfl | rfl <;> refine ⟨?_, rfl⟩ <;> simp [Scalar.InRange]
  · simp only [FieldInfo.FieldValid, Modifiers.info, Option.map_some, Option.all_some, List.nil_append, List.cons_append, hc, if_true]
    refine ⟨?_, rfl⟩
    simp [Scalar.InRange]

theorem messageVal_fit : messageTy.Fit .debug false messageVal := by
  simp only [messageTy, messageVal, SourceTy.Fit, SourceFields.Fit]
  refine ⟨_, _, rfl,
    _, _, rfl, trivial, ⟨⟨nofun, nofun, nofun, nofun⟩, fun _ x hx => ?_⟩,
    _, _, rfl, ⟨_, rfl⟩, ⟨⟨nofun, fun p e he => ?_, nofun, nofun⟩, fun _ _ _ => trivial⟩,
    _, _, rfl, trivial, ⟨⟨fun e he => ?_, nofun, nofun, nofun⟩, fun _ _ _ => trivial⟩, rfl⟩
  · obtain ⟨y, h1, h2⟩ := hx
    cases h1
    cases h2
    simp only [headTy, SourceTy.Fit, SourceFields.Fit]
    refine ⟨_, _, rfl, _, _, rfl, trivial, ⟨⟨nofun, nofun, nofun, nofun⟩, fun _ _ _ => trivial⟩,
      _, _, rfl, trivial, ⟨⟨nofun, nofun, nofun, nofun⟩, fun _ _ _ => trivial⟩, rfl⟩
  · cases he
    exact ⟨3, by decide, rfl, fun _ _ => fun _ _ => trivial⟩
  · cases he
    refine ⟨.bool true, true, rfl, rfl, fun _ _ => fun s u h => ⟨fun _ _ => trivial, ?_⟩⟩
    obtain ⟨⟨id, h1, h2⟩, h3, h4, -⟩ := h
    cases h1
    cases h2
    cases u with
    | int i =>
      obtain rfl : (⟨false, 8⟩ : IntTy) = i := h4
      exact ⟨_, rfl, by decide⟩
    | _ => cases h4.1

-- A message is written and restored; the array has three elements and there is a third field because of the header.
example (cfg : Cfg) (build : Mode) (esc : EScope tenths.F) (display : tenths.F → List Char) : ∃ Q T c qs,
    visitPackage (floatText tenths noRound display) messageText = .ok Q ∧ TableUnder (fileSymbols Q) T ∧
    (∀ K', ConstsSeen .debug esc T K' ∧ K'.calls = messageConsts.calls ↔ K' = messageConsts) ∧
    CodeOf cfg .debug build noNumber messageConsts esc T "Message" c qs ∧
    ∃ bits, c.write messageVal ⟨[]⟩ = .ok ⟨bits⟩ ∧
      c.read (messageTy.meaning (textLook noNumber messageConsts message)).default ⟨0, bits⟩ =
        .ok (messageVal, ⟨bits.length, []⟩) := by
  obtain ⟨Q, hQ⟩ := message_visit display
  obtain ⟨T, hT, hK⟩ := C87_every_constant hQ message_names message_out message_stand message_fit message_acyclic
  obtain ⟨T', hT', c, qs, hc⟩ := C86_every_type cfg .debug build esc hQ message_names message_out message_declares
  obtain rfl := tableUnder_unique hT hT'
  obtain ⟨bits, hw, hr⟩ := C87_round_trip_partial hQ message_names message_out message_stand message_fit message_declares
    hT hK rfl hc message_accepts (message_supported cfg) messageVal
    ⟨trivial, ⟨_, message_valid cfg⟩, messageVal_fit⟩ []
  refine ⟨Q, T, c, qs, hQ, hT, fun K' => ⟨fun h => C87_constants hQ message_names message_out message_stand message_fit hT h.1 h.2,
    fun e => ⟨e ▸ hK, e ▸ rfl⟩⟩, hc, bits, hw, ?_⟩
  have := hr []
  rwa [List.append_nil, List.length_nil, Nat.zero_add] at this

-- `header.len` is 3.
example : means (textLook noNumber messageConsts message ⟨[], [.obj [] [.nat 3, .nat 4]]⟩) headLen = some (.int 3) := rfl

-- The hypotheses of C91_member.
example (cfg : Cfg) (g : Src.StructField) (hg : g ∈ headStruct.fields) (env' : Env) (ps vs : List Val)
    (hv : (headTy.meaning (textLook noNumber messageConsts message)).Valid cfg env' (.obj ps vs))
    (hps : ParamsValid cfg messageConsts.enums headStruct.params ps) :
    means (textLook noNumber messageConsts message ⟨[], [.obj ps vs]⟩) (.dot (.ident "header") g.typeId.name) =
      means (textLook noNumber messageConsts headStruct ⟨ps, vs⟩) (.ident g.typeId.name) :=
  C91_member (h := headStruct) message_names message_stand (by simp [messageText]) message_heads (i := 0) (f := messageH) rfl rfl rfl rfl
    hg head_declares (by simp [headTy, SourceTy.meaning, SourceFields.meaning, Modifiers.info, Ty.Supported,
      Fields.Supported, Scalar.WidthOk]) hv hps _ rfl

/-- `Header items[];` -/
def bundleI : Src.StructField :=
  { textField ⟨.named "Header" [] [], .none⟩ "items" with
    typeId := { packed := false, implicit_ := false, type := ⟨.named "Header" [] [], .none⟩, name := "items",
                array := some none } }

/-- `struct Bundle { Header items[]; };` -/
def bundle : Src.Struct := ⟨"Bundle", [], [], [bundleI], []⟩

-- The hypotheses of C91_element, in the expressions of `Bundle`: `items[1]` is the second element.
example (v w : Val) :
    means (textLook noNumber messageConsts bundle ⟨[], [.list [v, w]]⟩) (.elem (.ident "items") (.intLit 1)) =
      some (.object ⟨"Header", w⟩) :=
  C91_element (h := headStruct) (s := bundle) message_names message_stand (by simp [messageText])
    ⟨rfl, by simp [bundle], by decide⟩ (i := 0) (f := bundleI) rfl rfl rfl nofun (xs := [v, w]) ⟨[], [.list [v, w]]⟩ rfl
    (.intLit 1) 1 rfl

end Zs
