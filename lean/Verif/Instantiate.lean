import Verif.Symbols
import Verif.Template
import Verif.Scope

/-!
# Model of the stages between parsing and evaluation

`compiler/template_instantiation.rs`, `compiler/resolve_types.rs` and their use in `model.rs`, on the data
structures of `Visitor.lean` and for several packages.  (`Template.lean` is a smaller model of the first, with
one package.)  File names are relative to `crates/zserio-rs-build/src/internal/`.

`Rc<RefCell<..>>` is dropped; what the sharing of expressions means is the subject of `Shared.lean`.  A result
`none` means that a search or the recursion has not ended within the fuel.
-/

namespace Zs

open Ast

variable {F : Type}

/-- A package name as it is written: the parts with dots between them. -/
def dotted (parts : List String) : String := ".".intercalate parts

/-- One after the other; the first panic ends everything. -/
def runList {α β : Type} (f : α → Run β) : List α → Run (List β)
  | [] => some (.ok [])
  | a :: as =>
    Run.bind (f a) fun b =>
    Run.bind (runList f as) fun bs =>
    some (.ok (b :: bs))

/-- `if let Some(..) = ..`. -/
def runOption {α β : Type} (f : α → Run β) : Option α → Run (Option β)
  | none => some (.ok none)
  | some a => Run.bind (f a) fun b => some (.ok (some b))

/-! ## The scope -/

/-- `compiler/symbol_scope.rs` lines 77-88 and 163-195: the scope of a package.  The names inside of types are
left out: names of types are looked up with `ignore_symbol_local_scopes`. -/
def packageScope (p : Package F) : PackageScope (Symbol F) where
  locals := fun _ => none
  file := fileSymbols p
  imports := p.imports.map fun i => { package := dotted i.dir, symbol := i.symbol }

/-- Lines 77-88: `ModelScope::build_scope`, for the packages of the model in some order. -/
def buildScope (ps : List (Package F)) : ModelScope (Symbol F) where
  packages := fun q => (ps.find? fun p => dotted p.name == q).map packageScope

/-- `package_scope.file_symbols.insert(..)` for one package: `ast/zstruct.rs` lines 63-67,
`ast/zchoice.rs` lines 187-191, `ast/zunion.rs` lines 77-81. -/
def ModelScope.addSymbol (m : ModelScope (Symbol F)) (package name : String) (s : Symbol F) :
    ModelScope (Symbol F) where
  packages := fun q =>
    if q = package then
      (m.packages q).map fun p => { p with file := fun n => if n = name then some s else p.file n }
    else m.packages q

/-! ## Templates -/

namespace Ast.TypeRef

def builtin : Ast.TypeRef F → Bool
  | mk b _ _ _ _ _ _ => b

def package : Ast.TypeRef F → List String
  | mk _ p _ _ _ _ _ => p

def name : Ast.TypeRef F → String
  | mk _ _ n _ _ _ _ => n

def targs : Ast.TypeRef F → List (Ast.TypeRef F)
  | mk _ _ _ _ ts _ _ => ts

def args : Ast.TypeRef F → List (Node F)
  | mk _ _ _ _ _ as _ => as

def withPackage : Ast.TypeRef F → List String → Ast.TypeRef F
  | mk b _ n w ts as l, p => mk b p n w ts as l

def withTargs : Ast.TypeRef F → List (Ast.TypeRef F) → Ast.TypeRef F
  | mk b p n w _ as l, ts => mk b p n w ts as l

def withArgs : Ast.TypeRef F → List (Node F) → Ast.TypeRef F
  | mk b p n w ts _ l, as => mk b p n w ts as l

end Ast.TypeRef

/-- What the instantiation changes: the package that is processed (`pkg`: its name, `structs`, `zchoices` and
`zunions`) and the scope, whose stack has this package on top (`model.rs` lines 136-140). -/
structure InstState (F : Type) where
  package : String
  structs : Map (Struct F)
  choices : Map (Choice F)
  unions : Map (Ast.Union F)
  scope : ModelScope (Symbol F)

/-- `compiler/template_instantiation.rs` lines 184-191. -/
def InstState.addStruct (st : InstState F) (d : Struct F) : InstState F :=
  { st with structs := st.structs.insert d.name d,
            scope := st.scope.addSymbol st.package d.name (.struct d) }

/-- Lines 322-329. -/
def InstState.addChoice (st : InstState F) (d : Choice F) : InstState F :=
  { st with choices := st.choices.insert d.name d,
            scope := st.scope.addSymbol st.package d.name (.choice d) }

/-- Lines 434-439. -/
def InstState.addUnion (st : InstState F) (d : Ast.Union F) : InstState F :=
  { st with unions := st.unions.insert d.name d,
            scope := st.scope.addSymbol st.package d.name (.union d) }

/-- Lines 75-81: `generate_instantiated_name`. -/
def refInstanceName (t : Ast.TypeRef F) : String :=
  t.targs.foldl (fun acc a => acc ++ a.name) t.name

/-- A state that goes through the elements of a list. -/
def threadList {σ α β : Type} (f : σ → α → Run (σ × β)) : σ → List α → Run (σ × List β)
  | st, [] => some (.ok (st, []))
  | st, a :: as =>
    Run.bind (f st a) fun r =>
    Run.bind (threadList f r.1 as) fun rs =>
    some (.ok (rs.1, r.2 :: rs.2))

/-- A state that goes through an optional element. -/
def threadOption {σ α β : Type} (f : σ → α → Run (σ × β)) : σ → Option α → Run (σ × Option β)
  | st, none => some (.ok (st, none))
  | st, some a => Run.bind (f st a) fun r => some (.ok (r.1, some r.2))

/-- The types for the template parameters: a `HashMap<String, TypeReference>` (lines 112-122); of two
parameters with the same name the later one counts. -/
def templateMap (params : List String) (types : List (Ast.TypeRef F)) : Map (Ast.TypeRef F) :=
  (params.zip types).foldl (fun m p => m.insert p.1 p.2) Map.empty

/-- Lines 443-483: `instantiate_field`; `inst` is `instantiate_type`. -/
def instantiateField (inst : InstState F → Ast.TypeRef F → Run (InstState F × Ast.TypeRef F))
    (types : Map (Ast.TypeRef F)) (st : InstState F) (f : Field F) : Run (InstState F × Field F) :=
  if f.type.targs.isEmpty then
    match types f.type.name with
    | some t => some (.ok (st, { f with type := t.withArgs f.type.args }))
    | none => some (.ok (st, f))
  else
    let targs := f.type.targs.map fun a => (types a.name).getD a
    Run.bind (inst st (f.type.withTargs targs)) fun r => some (.ok (r.1, { f with type := r.2 }))

/-- Lines 247-263 and 265-281: a case of a choice. -/
def instantiateCase (inst : InstState F → Ast.TypeRef F → Run (InstState F × Ast.TypeRef F))
    (types : Map (Ast.TypeRef F)) (st : InstState F) (c : Case F) : Run (InstState F × Case F) :=
  Run.bind (threadOption (instantiateField inst types) st c.field) fun r =>
  some (.ok (r.1, { c with field := r.2 }))

/-- Lines 145-163 (structures), 395-413 (unions): by the name of the parameter's type. -/
def instantiateParam (types : Map (Ast.TypeRef F)) (p : Param F) : Param F :=
  match types p.type.name with
  | some t => { p with type := t }
  | none => p

/-- Lines 284-302 (choices): by the name of the parameter. -/
def instantiateChoiceParam (types : Map (Ast.TypeRef F)) (p : Param F) : Param F :=
  match types p.name with
  | some t => { p with type := t }
  | none => p

/-- Lines 165-182, 304-321, 415-432: a function. -/
def instantiateFunc (types : Map (Ast.TypeRef F)) (f : Func F) : Func F :=
  match types f.returnType.name with
  | some t => { f with returnType := t }
  | none => f

/-- Lines 21-73: `instantiate_type` with `instantiate_struct` (lines 83-193), `instantiate_choice` (lines
195-331) and `instantiate_union` (lines 333-441).  The package of the new reference is one string. -/
def instantiateRef : Nat → InstState F → Ast.TypeRef F → String → Run (InstState F × Ast.TypeRef F)
  | 0, _, _, _ => none
  | fuel + 1, st, t, given =>
    if t.targs.isEmpty then some (.ok (st, t))
    else
      let name := if given = "" then refInstanceName t else given
      let ref : Ast.TypeRef F := .mk false [st.package] name 0 [] t.args none
      let inst := fun s a => instantiateRef fuel s a ""
      Run.bind (st.scope.resolve fuel st.package none t.name true) fun found =>
      match found.1 with
      | .struct d =>
        if d.templates.isEmpty || d.templates.length != t.targs.length then some .panic
        else if (st.structs name).isSome then some (.ok (st, ref))
        else
          Run.bind (threadList inst st t.targs) fun targs =>
          let types := templateMap d.templates targs.2
          Run.bind (threadList (instantiateField inst types) targs.1 d.fields) fun fields =>
          some (.ok (fields.1.addStruct
            { name := name, templates := [], params := d.params.map (instantiateParam types),
              fields := fields.2, functions := d.functions.map (instantiateFunc types) }, ref))
      | .choice d =>
        if d.templates.isEmpty || d.templates.length != t.targs.length then some .panic
        else if (st.choices name).isSome then some (.ok (st, ref))
        else
          Run.bind (threadList inst st t.targs) fun targs =>
          let types := templateMap d.templates targs.2
          Run.bind (threadList (instantiateCase inst types) targs.1 d.cases) fun cases =>
          Run.bind (threadOption (instantiateCase inst types) cases.1 d.default_) fun default_ =>
          some (.ok (default_.1.addChoice
            { name := name, templates := [], params := d.params.map (instantiateChoiceParam types),
              selector := d.selector, cases := cases.2, default_ := default_.2,
              functions := d.functions.map (instantiateFunc types) }, ref))
      | .union d =>
        if d.templates.isEmpty || d.templates.length != t.targs.length then some .panic
        else if (st.unions name).isSome then some (.ok (st, ref))
        else
          Run.bind (threadList inst st t.targs) fun targs =>
          let types := templateMap d.templates targs.2
          Run.bind (threadList (instantiateField inst types) targs.1 d.fields) fun fields =>
          some (.ok (fields.1.addUnion
            { name := name, templates := [], params := d.params.map (instantiateParam types),
              fields := fields.2, functions := d.functions.map (instantiateFunc types) }, ref))
      | _ => some .panic

/-- Lines 493-508: `instantiate_struct_fields`; only the types of fields. -/
def instantiateStructFields (fuel : Nat) (st : InstState F) (d : Struct F) : Run (InstState F × Struct F) :=
  if d.templates.isEmpty then
    Run.bind (threadList (fun s (f : Field F) =>
      Run.bind (instantiateRef fuel s f.type "") fun r => some (.ok (r.1, { f with type := r.2 })))
      st d.fields) fun r =>
    some (.ok (r.1, { d with fields := r.2 }))
  else some (.ok (st, d))

/-- Lines 519-543: `instantiate_choice_fields`. -/
def instantiateChoiceFields (fuel : Nat) (st : InstState F) (d : Choice F) : Run (InstState F × Choice F) :=
  let case := fun s (c : Case F) =>
    Run.bind (threadOption (fun s (f : Field F) =>
      Run.bind (instantiateRef fuel s f.type "") fun r => some (.ok (r.1, { f with type := r.2 })))
      s c.field) fun r =>
    some (.ok (r.1, { c with field := r.2 }))
  if d.templates.isEmpty then
    Run.bind (threadList case st d.cases) fun r =>
    Run.bind (threadOption case r.1 d.default_) fun r' =>
    some (.ok (r'.1, { d with cases := r.2, default_ := r'.2 }))
  else some (.ok (st, d))

/-- Lines 553-564: `instantiate_union_fields`. -/
def instantiateUnionFields (fuel : Nat) (st : InstState F) (d : Ast.Union F) : Run (InstState F × Ast.Union F) :=
  if d.templates.isEmpty then
    Run.bind (threadList (fun s (f : Field F) =>
      Run.bind (instantiateRef fuel s f.type "") fun r => some (.ok (r.1, { f with type := r.2 })))
      st d.fields) fun r =>
    some (.ok (r.1, { d with fields := r.2 }))
  else some (.ok (st, d))

/-! ## Resolution of types -/

/-- `compiler/resolve_types.rs` lines 82-90: `resolve_type_reference`, with the package and the name of the
declaration on top of the stack.  The package that is found is one string. -/
def resolveRef {σ : Type} (m : ModelScope σ) (fuel : Nat) (package owner : String) (t : Ast.TypeRef F) :
    Run (Ast.TypeRef F) :=
  if t.builtin then some (.ok t)
  else Run.bind (m.resolve fuel package (some owner) t.name true) fun found =>
    some (.ok (if t.package.isEmpty then t.withPackage [found.2] else t))

section Resolve

variable {σ : Type} (m : ModelScope σ) (fuel : Nat) (package owner : String)

/-- A field: line 17, 36, 41 or 60. -/
def resolveField (f : Field F) : Run (Field F) :=
  Run.bind (resolveRef m fuel package owner f.type) fun t => some (.ok { f with type := t })

/-- A parameter: line 20, 45 or 63. -/
def resolveParam (p : Param F) : Run (Param F) :=
  Run.bind (resolveRef m fuel package owner p.type) fun t => some (.ok { p with type := t })

/-- A function: line 23, 48 or 66. -/
def resolveFunc (f : Func F) : Run (Func F) :=
  Run.bind (resolveRef m fuel package owner f.returnType) fun t => some (.ok { f with returnType := t })

/-- A case: lines 34-38 or 39-43. -/
def resolveCase (c : Case F) : Run (Case F) :=
  Run.bind (runOption (resolveField m fuel package owner) c.field) fun f => some (.ok { c with field := f })

/-- Lines 11-25: `resolve_struct_types`. -/
def resolveStruct (d : Struct F) : Run (Struct F) :=
  if d.templates.isEmpty then
    Run.bind (runList (resolveField m fuel package d.name) d.fields) fun fields =>
    Run.bind (runList (resolveParam m fuel package d.name) d.params) fun params =>
    Run.bind (runList (resolveFunc m fuel package d.name) d.functions) fun functions =>
    some (.ok { d with fields := fields, params := params, functions := functions })
  else some (.ok d)

/-- Lines 29-50: `resolve_choice_types`. -/
def resolveChoice (d : Choice F) : Run (Choice F) :=
  if d.templates.isEmpty then
    Run.bind (runList (resolveCase m fuel package d.name) d.cases) fun cases =>
    Run.bind (runOption (resolveCase m fuel package d.name) d.default_) fun default_ =>
    Run.bind (runList (resolveParam m fuel package d.name) d.params) fun params =>
    Run.bind (runList (resolveFunc m fuel package d.name) d.functions) fun functions =>
    some (.ok { d with cases := cases, default_ := default_, params := params, functions := functions })
  else some (.ok d)

/-- Lines 54-68: `resolve_union_types`. -/
def resolveUnion (d : Ast.Union F) : Run (Ast.Union F) :=
  if d.templates.isEmpty then
    Run.bind (runList (resolveField m fuel package d.name) d.fields) fun fields =>
    Run.bind (runList (resolveParam m fuel package d.name) d.params) fun params =>
    Run.bind (runList (resolveFunc m fuel package d.name) d.functions) fun functions =>
    some (.ok { d with fields := fields, params := params, functions := functions })
  else some (.ok d)

/-- Lines 72-74: `resolve_subtype`. -/
def resolveAlias (d : Alias F) : Run (Alias F) :=
  Run.bind (resolveRef m fuel package d.name d.type) fun t => some (.ok { d with type := t })

/-- Lines 78-80: `resolve_constant`. -/
def resolveConst (d : Const F) : Run (Const F) :=
  Run.bind (resolveRef m fuel package d.name d.type) fun t => some (.ok { d with type := t })

/-- `f` is applied to every entry of a map, and succeeds. -/
def MapsTo {α β : Type} (f : α → Run β) (a : Map α) (b : Map β) : Prop :=
  ∀ n, match a n with
    | none => b n = none
    | some x => ∃ y, f x = some (.ok y) ∧ b n = some y

/-- `model.rs` lines 78-131: `resolve_types` for one package, if nothing panics; a relation, because the loops
go through hash maps.  Enumerations, bitmasks and `instantiate` declarations are left as they are. -/
structure ResolvesTypes (p p' : Package F) : Prop where
  structs : MapsTo (resolveStruct m fuel (dotted p.name)) p.structs p'.structs
  choices : MapsTo (resolveChoice m fuel (dotted p.name)) p.choices p'.choices
  unions : MapsTo (resolveUnion m fuel (dotted p.name)) p.unions p'.unions
  subtypes : runList (resolveAlias m fuel (dotted p.name)) p.subtypes = some (.ok p'.subtypes)
  consts : runList (resolveConst m fuel (dotted p.name)) p.consts = some (.ok p'.consts)
  rest : p'.name = p.name ∧ p'.imports = p.imports ∧ p'.enums = p.enums ∧ p'.bitmasks = p.bitmasks ∧
    p'.instantiated = p.instantiated

end Resolve

/-- `compiler/symbol_scope.rs` lines 98-103 and 197-206: `get_symbol`, which is used for the types of fields,
constants, enumerations and bitmasks when code is generated (`compiler/fundamental_type.rs` line 38). -/
def getSymbol {σ : Type} (m : ModelScope σ) (t : Ast.TypeRef F) : Res σ :=
  match m.packages (dotted t.package) with
  | some p => match p.file t.name with
    | some s => .ok s
    | none => .panic
  | none => .panic

end Zs
