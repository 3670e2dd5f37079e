import Verif.CompileSpec
import Verif.TextSpec
import Verif.LinkSpec
import Verif.LabelSpec
import Verif.Items

/-!
# The functions that the generator emits for the types of a package

`CompileSpec.lean` is about one structure with builtin types; here are all types of a package, found by their names in
the symbol table that the visitor fills.  The emitted functions call each other.  File names are relative to
`crates/zserio-rs-build/src/internal/`.

Simplified, for the whole file: one package without imports, no templates, no subtypes; functions return numbers,
booleans and strings (`Function.lean`); parameters have builtin types or enumerations as types; the selector of a choice has an integer type, `bool` or an enumeration.
-/

namespace Zs

open Ast Emit Spec

variable {fo : FloatOps}

/-! ## Names -/

/-- `generator/zstruct.rs` lines 51-75, `generator/expression.rs` lines 305-340: parameters and fields become members
of the Rust type, which expressions use as `self.name`.  The fields behind the one that is written or read have no
values yet. -/
def Ast.Struct.members {F : Type} (K : Constants F) (d : Ast.Struct F) : List Member :=
  d.params.zipIdx.map (fun p =>
    ⟨p.1.name, (Ast.Symbol.param p.1).symb K.names.types, fun env => env.params.getD p.2 .none⟩) ++
  d.fields.zipIdx.map (fun f =>
    ⟨f.1.name, (Ast.Symbol.field f.1).symb K.names.types, fun env => env.fields.getD f.2 .none⟩)

/-- `generator/zstruct.rs` lines 105-114: functions become methods of the Rust type. -/
def Ast.Struct.methods {F : Type} (K : Constants F) (d : Ast.Struct F) : List Member :=
  d.functions.map fun f => ⟨f.name, (Ast.Symbol.func f).symb K.names.types, fun _ => .none⟩

/-- As `Ast.Struct.members`: what expressions see of an object.  `float`: the number of a bit pattern; `K`: the constants of the
package, which are Rust constants, and its enumerations, whose items are Rust paths (`generator/expression.rs` lines
207-215). -/
def Ast.Struct.look {F : Type} (float : Val → F) (K : Constants F) (d : Ast.Struct F) (env : Env) : World F Object where
  name n := match (d.members K).find? fun m => m.name = n with
    | some m => m.symb.map fun y => shapedDatum float K.enums y (m.value env)
    | none => match d.functions.find? fun f => f.name = n with
      | some _ => none
      | none => K.value n
  func n := (d.functions.find? fun f => f.name = n).bind fun f => (f.returnType.zty K.names.types).bind fun t =>
    (K.calls d.name n env).filter (returns t)
  member := K.member float
  method := K.method
  item := K.item (d.scope K.names)
  index := none
  isA o id := o.type = id

/-- `ast/zunion.rs` lines 52-71: the names of a union are those of a structure. -/
def Ast.Union.asStruct {F : Type} (u : Ast.Union F) : Ast.Struct F :=
  ⟨u.name, u.templates, u.params, u.fields, u.functions⟩

/-- `ast/zchoice.rs` lines 155-182: the names of a choice are those of a structure; there is no default. -/
def Ast.Choice.asStruct {F : Type} (c : Ast.Choice F) : Ast.Struct F :=
  ⟨c.name, c.templates, c.params, c.cases.filterMap Ast.Case.field, c.functions⟩

/-! ## Fields -/

/-- `ast/field.rs` lines 28-66: the generator looks at `g` when it emits code for the field `f` of the structure `d`,
apart from its type. -/
structure Spec.SeenMods (md : Mode) (build : Mode) (look : Env → World fo.F Object) (K : Constants fo.F)
    (d : Ast.Struct fo.F) (f : Ast.Field fo.F) (g : Emit.Field) : Prop where
  optional : g.optional = f.optional
  alignment : g.alignment = f.alignment
  offset : g.offset = Ast.offsetKind f.offset
  isOffsetField : g.isOffsetField = d.marks f
  clause : ∃ x, exprOption f.clause = some x ∧ RunsClause md (d.scope K.names) build look x g.clause
  array : ArraySeen md (d.scope K.names) build look f.array g.array

/-- `generator/zstruct.rs` lines 51-72, `zunion.rs` lines 95-116, `zchoice.rs` lines 65-83: the members for parameters,
with the `Default` of their Rust types; that of an enumeration is its first item (`generator/zenum.rs` lines 55-58). -/
def Spec.ParamsSeen {F : Type} (K : Constants F) : List (Ast.Param F) → List Val → Prop
  | [], [] => True
  | p :: ps, v :: vs => ((∃ name bits n, p.type = .mk true [] name bits [] [] none ∧ BName.ofString name = some n ∧
      v = (RefTy.builtin n bits none).rust.default) ∨
      (∃ name e, p.type = .mk false [] name 0 [] [] none ∧ K.enums name = some e ∧ v = .item 0)) ∧ ParamsSeen K ps vs
  | _, _ => False

/-- The type of a parameter in expressions; that of an enumeration is known with its items. -/
def Spec.ParamSeen {F : Type} (K : Constants F) (t : Ast.TypeRef F) (q : ParamTy) : Prop :=
  t.zty K.names.types = some q.ty ∧
    ∀ id base ks, q = .enum id base ks → ∃ e, K.enums id = some e ∧ ks = e.items.map Prod.snd

/-- `generator/decode.rs` lines 228-265, `generator/encode.rs` lines 227-266: the arguments of a type, each cast to the
type of its parameter.  Simplified: nothing is said about the value of an argument with `@index`. -/
def Spec.ArgsSeen (md : Mode) (K : Constants fo.F) (sc : TScope) (build : Mode)
    (look : Env → World fo.F Object) :
    List (Ast.Param fo.F) → List (Ast.Node fo.F) → List Emit.Arg → Prop
  | _, [], as => as = []
  | [], _ :: _, _ => False
  | p :: ps, n :: ns, as => ∃ e q a as', as = a :: as' ∧ n.expr = some e ∧ ParamSeen K p.type q ∧
      a.usesIndex = n.hasIndex ∧
      (n.hasIndex = false → ∃ r, (∀ env i, a.eval env i = (r env).bind fun v => .ok (q.val v)) ∧
        Runs look (rscope sc) build (argumentCode md sc q.ty e) (· = q.rust) id r) ∧
      ArgsSeen md K sc build look ps ns as'

/-! ## Choices -/

/-- The name of a type. -/
def Ast.TypeRef.typeName {F : Type} : Ast.TypeRef F → String
  | .mk _ _ name _ _ _ _ => name

/-- `generator/zchoice.rs` lines 142-145: `match self.name`, where `name` is the text of the selector; there must be a
member of that name.  Simplified: it is a parameter, since fields of a choice are not there when it is evaluated. -/
def Spec.SelectorSeen {F : Type} (K : Constants F) (d : Ast.Choice F) (q : ParamTy) (sel : List Val → Val) : Prop :=
  ∃ e x i p, d.selector.expr = some e ∧ selectorText e = some x ∧ d.params[i]? = some p ∧ p.name = x ∧
    ParamSeen K p.type q ∧ sel = fun vs => vs.getD i .none

/-- The value of an alternative of a pattern. -/
def Spec.altDatum {F : Type} (K : Constants F) (sc : TScope) : Alt F → Option (Datum F Object)
  | .int n => some (.int n)
  | .bool b => some (.bool b)
  | .item e a => K.item sc e a
  | .const x => K.value x
  | _ => none

/-- `ast/zchoice.rs` lines 33-151, `generator/zchoice.rs` lines 146-159: the labels of a case are written as a pattern,
which has these values as alternatives. -/
def Spec.LabelsSeen (md : Mode) (K : Constants fo.F) (d : Ast.Choice fo.F) (q : ParamTy) (c : Ast.Case fo.F)
    (labels : List Val) : Prop :=
  ∃ (e : Expr fo.F) (xs : List (Expr fo.F)) (ts : List (Zs.Tok fo.F)) (as : List (Alt fo.F))
    (vs : List (Datum fo.F Object)), d.selector.expr = some e ∧
    c.conditions.map Ast.Node.expr = xs.map some ∧
    armText md (d.asStruct.scope K.names) (fun x => (d.params.find? fun p => p.name = x).map fun p => p.type.typeName) e xs =
      .ok ts ∧
    alternatives (d.asStruct.scope K.names) 0 true ts = some as ∧
    as.map (altDatum K (d.asStruct.scope K.names)) = vs.map some ∧ labels = vs.map q.val

/-! ## Types -/

mutual
/-- `generator/zstruct.rs`, `zunion.rs`, `zchoice.rs`, `zenum.rs`, `zbitmask.rs`, `compiler/symbol_scope.rs` lines
105-122: `c` are the functions that are emitted for the type that the package has under the name in the symbol table
`T`, and `ps` are its parameters.  `esc`: what expressions in the values of items see. -/
inductive Spec.CodeOf (cfg : Cfg) (md build : Mode) (float : Val → fo.F) (K : Constants fo.F) (esc : EScope fo.F)
    (T : Ast.Map (Ast.Symbol fo.F)) : String → Codec → List (Ast.Param fo.F) → Prop
  | struct {name : String} {d : Ast.Struct fo.F} {dflts : List Val} {gs : List Emit.Field} :
      T name = some (.struct d) → ParamsSeen K d.params dflts →
      FieldsCode cfg md build float K esc T d d.fields gs →
      CodeOf cfg md build float K esc T name (linked cfg (structBodies gs) asObj (.obj dflts (gs.map Field.dflt))) d.params
  | union {name : String} {d : Ast.Union fo.F} {dflts : List Val} {gs : List Emit.Field} :
      T name = some (.union d) → ParamsSeen K d.params dflts →
      FieldsCode cfg md build float K esc T d.asStruct d.fields gs →
      CodeOf cfg md build float K esc T name (linked cfg (unionBodies gs) asUnion (.union dflts 0 (gs.map Field.dflt)))
        d.params
  | choice {name : String} {d : Ast.Choice fo.F} {dflts : List Val} {t : ParamTy} {sel : List Val → Val}
      {cs : List Emit.Case} :
      T name = some (.choice d) → ParamsSeen K d.params dflts → SelectorSeen K d t sel →
      CasesCode cfg md build float K esc T d t d.cases cs →
      CodeOf cfg md build float K esc T name
        (linked cfg (choiceBodies sel cs) asObj (.obj dflts ((choiceFields cs).map Field.dflt))) d.params
  | enum {name : String} {d : Ast.Enum fo.F} {tn : String} {bits : Nat} {n : BName} {base : Scalar}
      {xs : List (Option (Expr fo.F))} {vs : List Int} :
      T name = some (.enum d) → d.type = .mk true [] tn bits [] [] none → BName.ofString tn = some n →
      IsScalar NoObject n bits none base → d.items.map (fun i => exprOption i.value) = xs.map some →
      enumItemValues md esc 0 xs = .ok vs →
      CodeOf cfg md build float K esc T name
        (linked cfg (enumBodies ((RefTy.builtin n bits none).inScope outside) (enumNumber base (vs.map some))
          (enumItem (vs.map some))) asNumber (.item 0)) []
  | bitmask {name : String} {d : Ast.Bitmask fo.F} {tn : String} {bits : Nat} {n : BName} {base : Scalar}
      {xs : List (Option (Expr fo.F))} {v : Nat} {vs : List Nat} :
      T name = some (.bitmask d) → d.type = .mk true [] tn bits [] [] none → BName.ofString tn = some n →
      IsScalar NoObject n bits none base → d.values.map (fun i => exprOption i.value) = xs.map some →
      bitmaskItemValues md esc 1 xs = .ok (v :: vs) →
      CodeOf cfg md build float K esc T name
        (linked cfg (bitmaskBodies ((RefTy.builtin n bits none).inScope outside)) asNumber (base.ofInt v)) []
/-- The fields of the structure `d`. -/
inductive Spec.FieldsCode (cfg : Cfg) (md build : Mode) (float : Val → fo.F) (K : Constants fo.F) (esc : EScope fo.F)
    (T : Ast.Map (Ast.Symbol fo.F)) : Ast.Struct fo.F → List (Ast.Field fo.F) → List Emit.Field → Prop
  | nil {d : Ast.Struct fo.F} : FieldsCode cfg md build float K esc T d [] []
  | cons {d : Ast.Struct fo.F} {f : Ast.Field fo.F} {fs : List (Ast.Field fo.F)} {g : Emit.Field}
      {gs : List Emit.Field} : FieldCode cfg md build float K esc T d f g →
      FieldsCode cfg md build float K esc T d fs gs → FieldsCode cfg md build float K esc T d (f :: fs) (g :: gs)
/-- A field of the structure `d`. -/
inductive Spec.FieldCode (cfg : Cfg) (md build : Mode) (float : Val → fo.F) (K : Constants fo.F) (esc : EScope fo.F)
    (T : Ast.Map (Ast.Symbol fo.F)) : Ast.Struct fo.F → Ast.Field fo.F → Emit.Field → Prop
  | builtin {d : Ast.Struct fo.F} {f : Ast.Field fo.F} {g : Emit.Field} :
      SeenMods md build (d.look float K) K d f g → TypeSeen md (d.scope K.names) build (d.look float K) f.type g.ty → g.args = [] →
      FieldCode cfg md build float K esc T d f g
  | named {d : Ast.Struct fo.F} {f : Ast.Field fo.F} {g : Emit.Field} {name : String} {args : List (Ast.Node fo.F)}
      {c : Codec} {ps : List (Ast.Param fo.F)} :
      SeenMods md build (d.look float K) K d f g → f.type = .mk false [] name 0 [] args none →
      CodeOf cfg md build float K esc T name c ps → g.ty = .compound c ps.length →
      ArgsSeen md K (d.scope K.names) build (d.look float K) ps args g.args →
      FieldCode cfg md build float K esc T d f g
/-- The cases of the choice `d`, whose selector has the type `t`. -/
inductive Spec.CasesCode (cfg : Cfg) (md build : Mode) (float : Val → fo.F) (K : Constants fo.F) (esc : EScope fo.F)
    (T : Ast.Map (Ast.Symbol fo.F)) : Ast.Choice fo.F → ParamTy → List (Ast.Case fo.F) → List Emit.Case → Prop
  | nil {d : Ast.Choice fo.F} {t : ParamTy} : CasesCode cfg md build float K esc T d t [] []
  | field {d : Ast.Choice fo.F} {t : ParamTy} {c : Ast.Case fo.F} {cs : List (Ast.Case fo.F)} {labels : List Val}
      {f : Ast.Field fo.F} {g : Emit.Field} {es : List Emit.Case} :
      LabelsSeen md K d t c labels → c.field = some f → FieldCode cfg md build float K esc T d.asStruct f g →
      CasesCode cfg md build float K esc T d t cs es →
      CasesCode cfg md build float K esc T d t (c :: cs) (⟨labels, some g⟩ :: es)
  | empty {d : Ast.Choice fo.F} {t : ParamTy} {c : Ast.Case fo.F} {cs : List (Ast.Case fo.F)} {labels : List Val}
      {es : List Emit.Case} :
      LabelsSeen md K d t c labels → c.field = none → CasesCode cfg md build float K esc T d t cs es →
      CasesCode cfg md build float K esc T d t (c :: cs) (⟨labels, none⟩ :: es)
end

end Zs
