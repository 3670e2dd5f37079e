import Verif.TextSpec
import Verif.LinkSpec

/-!
# Specification: what the text of a package means

From the parse tree of a package to its types (`SourceTy`, `LinkSpec.lean`): a field may have one of the builtin types
or a type that is declared in the package, with arguments for its parameters.  Nothing here is code of the repository.

Only types without templates, whose parameters have builtin types or enumerations as types; a choice
has no default, and its selector is a parameter of an integer type, `bool` or an enumeration.  A type that contains itself has no `SourceTy`.
-/

namespace Zs.Spec

open Src

variable {F : Type}

/-! ## Numbers -/

/-- An integer literal, perhaps with a minus sign in front of it. -/
inductive IntText : Exp → Int → Prop
  | lit {l : IntLit} : l.WellFormed → ¬ l.IsBinary → IntText (.lit l.kind l.text) l.value
  | neg {l : IntLit} : l.WellFormed → ¬ l.IsBinary → IntText (.unary .minus (.lit l.kind l.text)) (-l.value)

/-- The number of an item of an enumeration, if there is one. -/
def ItemsStand : List Src.Item → List (Option Int) → Prop
  | [], [] => True
  | i :: is, k :: ks => (match i.value, k with
      | none, none => True
      | some e, some k => IntText e k
      | _, _ => False) ∧ ItemsStand is ks
  | _, _ => False

/-- The numbers of the values of a bitmask; `next` is the one of a value for which none is written.  Numbers that are
written do not go back, and the last one leaves room for the next. -/
def ValuesStand : Nat → List (String × Option Exp) → List Nat → Prop
  | _, [], [] => True
  | next, (_, e) :: is, k :: ks => (match e with
      | none => k = next
      | some e => IntText e k ∧ (k = 0 ∨ next ≤ k)) ∧ k < 2 ^ 63 ∧
      ValuesStand (if k = 0 then 1 else 2 * k) is ks
  | _, _, _ => False

/-! ## Fields and arguments -/

/-- A field of a union or choice is a field without modifiers. -/
def bare (f : ChoiceField) : StructField where
  align := none
  offset := none
  extended := false
  optional := false
  typeId := f.typeId
  initializer := none
  clause := none
  constraint := none

/-- The names in a union. -/
def Union.shape (u : Union) : Struct := ⟨u.name, u.templates, u.params, u.fields.map bare, u.functions⟩

/-- The names in a choice. -/
def Choice.shape (c : Choice) : Struct :=
  ⟨c.name, c.templates, c.params, (c.cases.filterMap Src.Cases.field).map bare, c.functions⟩

/-- What is written around the type of a field of the structure `s`, except for arguments. -/
structure ModsStand (round : List Char → F) (s : Struct) (known : List String) (f : StructField) (m : Modifiers F) :
    Prop where
  extended : f.extended = false
  array : ArrayStands round known f.typeId m.array
  optional : m.optional = f.optional
  clause : MayStand round known f.clause m.clause
  alignment : m.alignment = alignSays f.align
  offset : OffsetStands s f.offset m.offset
  isOffsetField : m.isOffsetField = true ↔ ∃ g ∈ s.fields, OffsetIn f.typeId.name g.offset

/-- The type that is written for a parameter: an integer type, `bool`, `string` or an enumeration (`E`) whose items
have different numbers. -/
def ParamIs (E : String → Option Enumeration) (t : Src.Ty) : ParamTy → Prop
  | .num n => exprTypeOf t = some (.num n) ∧ n.rustInt.isSome = true
  | .bool => exprTypeOf t = some .bool
  | .string => exprTypeOf t = some .string
  | .enum id base numbers => t = .named id [] [] ∧ ∃ e, E id = some e ∧ base = e.base ∧
      numbers = e.items.map Prod.snd ∧ numbers.Nodup

/-- Arguments for parameters. -/
def ArgsStand (round : List Char → F) (E : String → Option Enumeration) (known : List String) :
    List Param → List Arg → List (ParamTy × Expr F) → Prop
  | [], [], [] => True
  | p :: ps, .expr e :: as, (q, x) :: xs => ParamIs E p.type q ∧ Stands round known e x ∧
      ArgsStand round E known ps as xs
  | _, _, _ => False

/-- The arguments behind a type. -/
def argList : Args → Option (List Arg)
  | .none => some []
  | .args a as => some (a :: as)
  | .length _ => none

/-- The type of a field: a builtin type, or the name of a type with the parameters `ps` (`Decl`). -/
def TypeIs (round : List Char → F) (E : String → Option Enumeration) (known : List String) (i : Inst)
    (args : List (ParamTy × Expr F)) (Decl : String → List Param → Prop) : SourceTy F Object → Prop
  | .builtin s => TypeStands round known i (.plain (.scalar s)) ∧ args = []
  | .bit e => TypeStands round known i (.bit e) ∧ args = []
  | .int e => TypeStands round known i (.int e) ∧ args = []
  | _ => ∃ name ps as, Decl name ps ∧ i.type = .named name [] [] ∧ argList i.args = some as ∧
      ArgsStand round E known ps as args

/-! ## Declarations -/

/-- A structure, or the names in a union or choice: no templates, parameters of builtin types or enumerations, and no name
twice. -/
structure Heads (E : String → Option Enumeration) (s : Struct) : Prop where
  templates : s.templates = []
  params : ∀ p ∈ s.params, (∃ t, scalarOf p.type = some t) ∨ ∃ id e, p.type = .named id [] [] ∧ E id = some e
  names : (s.params.map Param.name ++ (s.fields.map fun f => f.typeId.name) ++ s.functions.map Func.name).Nodup

/-- The default of a parameter: for enumerations, the first item. -/
def paramDefault (p : Param) : Val :=
  match scalarOf p.type with
  | some t => t.dflt
  | none => .item 0

/-- The selector is one of the parameters, which has the type `q`, not a string. -/
def SelectorIs (E : String → Option Enumeration) (ps : List Param) (e : Exp) (q : ParamTy) (sel : List Val → Val) :
    Prop :=
  ∃ i p, ps[i]? = some p ∧ e = .id p.name ∧ ParamIs E p.type q ∧ q ≠ .string ∧ sel = fun vs => vs.getD i .none

/-- The value of a label in the choice with the names of `s`, whose selector has the type `q`: a number, `true`,
`false`, or an item of the enumeration `q`, perhaps with the name of the enumeration in front of it. -/
inductive LabelIs (K : Constants F) (s : Struct) (q : ParamTy) : Exp → Datum F Object → Prop
  | int {e k} : IntText e k → LabelIs K s q e (.int k)
  | true_ : LabelIs K s q (.lit .bool "true".toList) (.bool true)
  | false_ : LabelIs K s q (.lit .bool "false".toList) (.bool false)
  | item {id base ks e a k} : q = .enum id base ks → (textScope K s).ident id = some ⟨.enum id base, .typeName⟩ →
      K.enums id = some e → e.named a = some k → LabelIs K s q (.id a) (.enum k)
  | dotted {id base ks e a k} : q = .enum id base ks → (textScope K s).ident id = some ⟨.enum id base, .typeName⟩ →
      K.enums id = some e → e.named a = some k → LabelIs K s q (.dot (.id id) a) (.enum k)

/-- The labels are values of the type of the selector. -/
def LabelsStand (K : Constants F) (s : Struct) (q : ParamTy) : List Exp → List Val → Prop
  | [], [] => True
  | e :: es, v :: vs => (∃ x, LabelIs K s q e x ∧ q.Has x ∧ v = q.val x) ∧ LabelsStand K s q es vs
  | _, _ => False

/-- The declared constants. -/
def constsIn (ds : List Directive) : List Const :=
  ds.filterMap fun
    | .const c => some c
    | _ => none

/-- The declared enumerations. -/
def enumsIn (ds : List Directive) : List Enum :=
  ds.filterMap fun
    | .enum e => some e
    | _ => none

/-- The declared bitmasks. -/
def masksIn (ds : List Directive) : List Bitmask :=
  ds.filterMap fun
    | .bitmask b => some b
    | _ => none

/-- The names of constants, enumerations and bitmasks that are not hidden by parameters, fields and functions. -/
def visible (ds : List Directive) (s : Struct) : List String :=
  ((constsIn ds).map Const.name ++ (enumsIn ds).map Enum.name ++ (masksIn ds).map Bitmask.name).filter fun n =>
    n ∉ s.params.map Param.name ++ (s.fields.map fun f => f.typeId.name) ++ s.functions.map Func.name

/-- The names in an expression. -/
def expNames : Exp → List String
  | .id n => [n]
  | .lit _ _ | .index => []
  | .paren e | .call e | .dot e _ | .lengthof e | .valueof e | .numbits e | .unary _ e => expNames e
  | .elem a b | .isset a b | .binary _ a b => expNames a ++ expNames b
  | .ternary c a b => expNames c ++ expNames a ++ expNames b

/-- The names with the functions whose expressions use only these names and functions that use only these names, `k` times
over. -/
def withCalls (s : Struct) (known : List String) : Nat → List String
  | 0 => known
  | k + 1 => withCalls s known k ++
      (s.functions.filter fun f => (expNames f.body).all fun n => (withCalls s known k).contains n).map Func.name

/-- The names that expressions may use: `known`, and functions that need no other names. -/
def usable (s : Struct) (known : List String) : List String := withCalls s known s.functions.length

mutual
/-- The type is declared in the package, under the name and with the parameters; `K` are its constants. -/
def SourceTy.Declares (round : List Char → F) (float : Val → F) (K : Constants F) (ds : List Directive) :
    SourceTy F Object → String → List Param → Prop
  | .builtin _, _, _ | .bit _, _, _ | .int _, _, _ => False
  | .enum base items, name, ps => ps = [] ∧ ∃ e t, .enum e ∈ ds ∧ e.name = name ∧
      e.type = ⟨t, .none⟩ ∧ scalarOf t = some base ∧ ItemsStand e.items items ∧
      ∀ k ∈ enumValues items, -2 ^ 31 ≤ k ∧ k < 2 ^ 31 - 1
  | .bitmask base first, name, ps => ps = [] ∧ ∃ b t, ∃ k : Nat, ∃ ks, .bitmask b ∈ ds ∧ b.name = name ∧
      b.type = ⟨t, .none⟩ ∧ scalarOf t = some base ∧ ValuesStand 1 b.values (k :: ks) ∧ first = k
  | .struct sc look dflts fields, name, ps => ∃ s, .struct s ∈ ds ∧ s.name = name ∧ s.params = ps ∧ Heads K.enums s ∧
      sc = textScope K s ∧ look = textLook float K s ∧ dflts = s.params.map paramDefault ∧
      fields.Declares round float K ds s true (visible ds s ++ s.params.map Param.name) s.fields
  | .union sc look dflts members, name, ps => ∃ u, .union u ∈ ds ∧ u.name = name ∧ u.params = ps ∧
      Heads K.enums (Union.shape u) ∧ sc = textScope K (Union.shape u) ∧ look = textLook float K (Union.shape u) ∧
      dflts = u.params.map paramDefault ∧
      members.Declares round float K ds (Union.shape u) false (visible ds (Union.shape u) ++ u.params.map Param.name) (u.fields.map bare)
  | .choice sc look dflts sel cases, name, ps => ∃ c n, .choice c ∈ ds ∧ c.name = name ∧ c.params = ps ∧
      Heads K.enums (Choice.shape c) ∧ sc = textScope K (Choice.shape c) ∧ look = textLook float K (Choice.shape c) ∧
      dflts = c.params.map paramDefault ∧ c.default_ = none ∧ SelectorIs K.enums c.params c.selector n sel ∧
      cases.Declares round float K ds (Choice.shape c) n (visible ds (Choice.shape c) ++ c.params.map Param.name) c.cases
/-- The fields of the structure `s`.  Expressions use constants, parameters and, if `grow`, fields in front of them. -/
def SourceFields.Declares (round : List Char → F) (float : Val → F) (K : Constants F) (ds : List Directive)
    (s : Struct) (grow : Bool) : SourceFields F Object → List String → List StructField → Prop
  | .nil, _, fs => fs = []
  | .cons m ty rest, known, fs => ∃ f fs', fs = f :: fs' ∧ ModsStand round s (usable s known) f m ∧
      TypeIs round K.enums (usable s known) f.typeId.type m.args (ty.Declares round float K ds) ty ∧
      rest.Declares round float K ds s grow (if grow then known ++ [f.typeId.name] else known) fs'
/-- The cases of a choice whose selector has the type `n`; expressions use constants and parameters. -/
def SourceCases.Declares (round : List Char → F) (float : Val → F) (K : Constants F) (ds : List Directive)
    (s : Struct) (n : ParamTy) : SourceCases F Object → List String → List Src.Cases → Prop
  | .nil, _, cs => cs = []
  | .field labels m ty rest, known, cs => ∃ c f cs', cs = c :: cs' ∧ c.labels ≠ [] ∧ LabelsStand K s n c.labels labels ∧
      c.field = some f ∧ ModsStand round s (usable s known) (bare f) m ∧
      TypeIs round K.enums (usable s known) f.typeId.type m.args (ty.Declares round float K ds) ty ∧
      rest.Declares round float K ds s n known cs'
  | .empty labels rest, known, cs => ∃ c cs', cs = c :: cs' ∧ c.labels ≠ [] ∧ LabelsStand K s n c.labels labels ∧
      c.field = none ∧ rest.Declares round float K ds s n known cs'
end

/-! ## Values

`SourceTy.InRange` (`LinkSpec.lean`) also says what expressions see of an object, which the text of a package
determines. -/

variable {fo : FloatOps} {O : Type}

/-- The expressions of the field fit, and so does what is in it (`Q`), if the field is there. -/
def Modifiers.Fit (md : Mode) (sc : TScope) (look : Env → World fo.F O) (m : Modifiers fo.F)
    (ty : SourceTy fo.F O) (Q : Val → Prop) (env : Env) (v : Val) : Prop :=
  (m.with (ty.written look)).Fitting md sc look env ∧ (m.Present look env → ∀ x, m.Contains v x → Q x)

mutual
/-- The value has the Rust type of the type.  The expressions of the type and of all types it uses have values, and
the Rust types in which they are computed are large enough.  `packed`: as for `SourceTy.InRange`. -/
def SourceTy.Fit (md : Mode) (packed : Bool) : SourceTy fo.F O → Val → Prop
  | .builtin _, _ | .bit _, _ | .int _, _ => True
  | .enum _ items, v => ∃ i, v = .item i ∧ i < (enumValues items).length
  | .bitmask base _, v => SameType base.dflt v
  | .struct sc look _ fields, v => ∃ ps vs, v = .obj ps vs ∧ fields.Fit md packed sc look ps [] vs
  | .choice sc look _ selector cases, v => ∃ ps vs, v = .obj ps vs ∧
      cases.Fit md packed sc look ps (selector ps) false vs
  | .union sc look _ members, v => ∃ ps k vs, v = .union ps k vs ∧
      members.MemberFit md packed sc look ps (some k) vs
/-- The fields of a structure; `done` are those in front. -/
def SourceFields.Fit (md : Mode) (packed : Bool) (sc : TScope) (look : Env → World fo.F O)
    (ps : List Val) : SourceFields fo.F O → List Val → List Val → Prop
  | .nil, _, vs => vs = []
  | .cons mods ty rest, done, vs => ∃ v vs', vs = v :: vs' ∧ mods.HasType ty v ∧
      mods.Fit md sc look ty (ty.Fit md (mods.isPacked packed)) ⟨ps, done⟩ v ∧
      rest.Fit md packed sc look ps (done ++ [v]) vs'
/-- The members of a union; the `k`-th is selected. -/
def SourceFields.MemberFit (md : Mode) (packed : Bool) (sc : TScope) (look : Env → World fo.F O)
    (ps : List Val) : SourceFields fo.F O → Option Nat → List Val → Prop
  | .nil, _, vs => vs = []
  | .cons mods ty rest, k, vs => ∃ v vs', vs = v :: vs' ∧ mods.HasType ty v ∧
      (k = some 0 → mods.Fit md sc look ty (ty.Fit md (mods.isPacked packed)) ⟨ps, []⟩ v) ∧
      rest.MemberFit md packed sc look ps (match k with
        | some (k + 1) => some k
        | _ => none) vs'
/-- The cases of a choice with the selector `sel`; `taken`: a case in front was selected. -/
def SourceCases.Fit (md : Mode) (packed : Bool) (sc : TScope) (look : Env → World fo.F O)
    (ps : List Val) (sel : Val) : SourceCases fo.F O → Bool → List Val → Prop
  | .nil, _, vs => vs = []
  | .field labels mods ty rest, taken, vs => ∃ v vs', vs = v :: vs' ∧ mods.HasType ty v ∧
      (packed = true ∨ (taken = false ∧ sel ∈ labels) →
        mods.Fit md sc look ty (ty.Fit md (mods.isPacked packed)) ⟨ps, []⟩ v) ∧
      rest.Fit md packed sc look ps sel (taken || decide (sel ∈ labels)) vs'
  | .empty labels rest, taken, vs =>
      rest.Fit md packed sc look ps sel (taken || decide (sel ∈ labels)) vs
end

end Zs.Spec
