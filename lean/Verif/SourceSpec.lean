import Verif.EmitSpec
import Verif.ExprValueSpec
import Verif.ExprTextLemmas

/-!
# Specification: fields with the expressions of the schema text

`EmitSpec.lean` takes the expressions of a field as functions.  Here they are expressions of the schema:
`Written` is a field as it is written, `Written.info` and `Written.type` are what it means, and
`EmittedFor` says that the generator emits the Rust code of the expressions.
-/

namespace Zs.Spec

open Emit

variable {fo : FloatOps} {O : Type}

/-- The type of a field: `bit<e>`, `int<e>` or a type without an expression. -/
inductive WrittenTy (F : Type) where
  | plain (t : Ty)
  | bit (e : Expr F)
  | int (e : Expr F)

/-- The type of a parameter: an integer type, `bool`, `string`, or an enumeration with the numbers of its items. -/
inductive ParamTy where
  | num (n : NumName)
  | bool
  | string
  | enum (id : String) (base : NumRef) (numbers : List Int)

/-- The type in expressions. -/
def ParamTy.ty : ParamTy → ZTy
  | .num n => .num n
  | .bool => .bool
  | .string => .string
  | .enum id base _ => .enum id base

/-- The Rust type. -/
def ParamTy.rust : ParamTy → RTy
  | .num n => numTy n
  | .bool => .bool
  | .string => .string
  | .enum id _ _ => .enum id

/-- What is written around the type of a field: its condition, the length of the array and the arguments of
its type. -/
structure Modifiers (F : Type) where
  optional : Bool := false
  clause : Option (Expr F) := none
  alignment : Nat := 0
  offset : Offset := .none
  array : Option (Bool × Option (Expr F)) := none
  args : List (ParamTy × Expr F) := []
  isOffsetField : Bool := false

/-- A field as it is written in a schema. -/
structure Written (F : Type) extends Modifiers F where
  ty : WrittenTy F

/-! ## What it means -/

/-- The condition is true. -/
def condition (w : World fo.F O) (e : Expr fo.F) : Bool :=
  match (means w e).bind truth with
  | some b => b
  | none => false

/-- The value of a length. -/
def lengthValue (w : World fo.F O) (e : Expr fo.F) : Nat :=
  match means w e with
  | some (.int n) => n.toNat
  | _ => 0

/-- A number as a value of an integer type. -/
def numberVal (p : NumName) (n : Int) : Val :=
  match p.rustInt with
  | some t => if t.signed then .int n else .nat n.toNat
  | none => .none

/-- The value of an expression as one of the type of a parameter; an item of an enumeration is the one with the
number. -/
def ParamTy.val {F : Type} : ParamTy → Datum F O → Val
  | .num p, .int n => numberVal p n
  | .bool, .bool b => .bool b
  | .string, .str s => .str s
  | .enum _ _ numbers, .enum n => .item (numbers.idxOf n)
  | _, _ => .none

/-- The value is one of the type. -/
def ParamTy.Has {F : Type} : ParamTy → Datum F O → Prop
  | .num p, .int n => (numTy p).Holds n
  | .bool, .bool _ | .string, .str _ => True
  | .enum _ _ numbers, .enum n => n ∈ numbers
  | _, _ => False

/-- The value of an argument. -/
def argumentValue (w : World fo.F O) (p : ParamTy) (e : Expr fo.F) : Val :=
  match means w e with
  | some v => p.val v
  | none => .none

/-- The modifiers of a field; `look` tells what the expressions see of an object. -/
def Modifiers.info (look : Env → World fo.F O) (f : Modifiers fo.F) : FieldInfo where
  optional := f.optional
  clause := f.clause.map fun e env => condition (look env) e
  alignment := f.alignment
  offset := f.offset
  array := f.array.map fun a => ⟨a.1, a.2.map fun e env => lengthValue (look env) e⟩
  args := f.args.map fun a env _ => argumentValue (look env) a.1 a.2
  isOffsetField := f.isOffsetField

/-- The type of the field. -/
def Written.type (look : Env → World fo.F O) (f : Written fo.F) : Ty :=
  match f.ty with
  | .plain t => t
  | .bit e => .scalar (.bitsDyn fun env => lengthValue (look env) e)
  | .int e => .scalar (.intsDyn fun env => lengthValue (look env) e)

/-- The fields of a structure or union. -/
def meaning (look : Env → World fo.F O) : List (Written fo.F) → Fields
  | [] => .nil
  | f :: fs => .cons (f.info look) (f.type look) (meaning look fs)

/-- The cases of a choice. -/
def caseMeaning (look : Env → World fo.F O) : List (List Val × Option (Written fo.F)) → Cases
  | [] => .nil
  | (labels, some f) :: cs => .field labels (f.info look) (f.type look) (caseMeaning look cs)
  | (labels, none) :: cs => .empty labels (caseMeaning look cs)

/-! ## The expressions are in range -/

/-- The field is there. -/
def Modifiers.Present (look : Env → World fo.F O) (f : Modifiers fo.F) (env : Env) : Prop :=
  ∀ e, f.clause = some e → condition (look env) e = true

/-- The expressions of the field that are evaluated have a value, and the Rust types in which the generated
code computes them are large enough (`Fits`).  Widths and arguments of an absent field are not evaluated,
unless it is an array, of which the width is. -/
structure Written.Fitting (md : Mode) (sc : TScope) (look : Env → World fo.F O) (f : Written fo.F)
    (env : Env) : Prop where
  clause : ∀ e, f.clause = some e → ∃ v b, means (look env) e = some v ∧ truth v = some b ∧
    ∀ s, Typed (rscope sc) (code md sc e) s → Fits md sc (look env) e s
  length : ∀ p e, f.array = some (p, some e) → ∃ n : Nat, n < 2 ^ 64 ∧
    means (look env) e = some (.int n) ∧
    ∀ s, Infers (rscope sc) (code md sc e) .usize s → Fits md sc (look env) e s
  width : (f.array = none → f.Present look env) → ∀ e, f.ty = .bit e ∨ f.ty = .int e →
    ∃ n : Nat, n < 256 ∧ means (look env) e = some (.int n) ∧
      ∀ s, Infers (rscope sc) (code md sc e) (.int ⟨false, 8⟩) s → Fits md sc (look env) e s
  args : f.Present look env → ∀ p e, (p, e) ∈ f.args → ∃ v, p.Has v ∧ means (look env) e = some v ∧
    ∀ s, Infers (rscope sc) (code md sc e) p.rust s → Fits md sc (look env) e s

/-- The same, and the object that the expressions see has the declared types. -/
structure Written.InRange (md : Mode) (sc : TScope) (look : Env → World fo.F O) (f : Written fo.F)
    (env : Env) : Prop where
  conforms : Conforms (look env) (rscope sc)
  fitting : f.Fitting md sc look env

/-! ## What is emitted -/

/-- The expressions of a field. -/
def Written.Mentions (f : Written fo.F) (e : Expr fo.F) : Prop :=
  f.clause = some e ∨ (∃ p, f.array = some (p, some e)) ∨ (f.ty = .bit e ∨ f.ty = .int e) ∨ ∃ p, (p, e) ∈ f.args

/-- Rust accepts the expressions of the field where they are emitted (C59), and groups their texts as they are meant
(C47, C90): no expression of those that C47 excludes, and arguments, which are emitted without parentheses, are one
unit. -/
structure Written.Accepts (md : Mode) (sc : TScope) (f : Written fo.F) : Prop where
  clause : ∀ e, f.clause = some e → Typed (rscope sc) (conditionCode md sc e) .bool
  length : ∀ p e, f.array = some (p, some e) → Typed (rscope sc) (lengthCode md sc e) .usize
  width : ∀ e, f.ty = .bit e ∨ f.ty = .int e → Typed (rscope sc) (bitsCode md sc e) (.int ⟨false, 8⟩)
  args : ∀ p e, (p, e) ∈ f.args → Typed (rscope sc) (argumentCode md sc p.ty e) p.rust
  separable : ∀ e, f.Mentions e → e.Separable (textInfo md sc)
  units : ∀ p e, (p, e) ∈ f.args → e.Unit

/-- Rust evaluates `x`, of one of the types `T`, with the results `r`: wherever there is only one outcome,
`r` has it. -/
def Runs {α : Type} (look : Env → World fo.F O) (Γ : RScope fo.F) (build : Mode) (x : RExpr fo.F)
    (T : RTy → Prop) (datum : α → Datum fo.F O) (r : Env → Res α) : Prop :=
  ∀ env (a : Res α),
    (∀ o, (∃ t, T t ∧ Evals (look env) Γ build x t o) ↔ o = a.bind fun v => .ok (datum v)) → r env = a

/-- The width is cast to `u8`: its type is known and not `uint8`. -/
def widthCast (md : Mode) (sc : TScope) (e : Expr fo.F) : Bool :=
  match e.nativeOf md sc with
  | some r => decide (r.name ≠ .uint8)
  | none => false

/-- The width of `bit<e>` and `int<e>`: the model of emitted code has the cast apart from the expression. -/
def RunsWidth (md : Mode) (sc : TScope) (build : Mode) (look : Env → World fo.F O) (e : Expr fo.F)
    (l : LenExpr) : Prop :=
  l.cast = widthCast md sc e ∧
  Runs look (rscope sc) build (code md sc e)
    (fun t => if l.cast = true then Infers (rscope sc) (code md sc e) (.int ⟨false, 8⟩) t ∧ t.CanCast (.int ⟨false, 8⟩)
      else t = .int ⟨false, 8⟩)
    (fun n : Nat => .int n) l.eval

/-- The condition of the field is emitted. -/
def RunsClause (md : Mode) (sc : TScope) (build : Mode) (look : Env → World fo.F O) :
    Option (Expr fo.F) → Option (Env → Res Bool) → Prop
  | none, none => True
  | some e, some c => Runs look (rscope sc) build (conditionCode md sc e) (· = .bool) .bool c
  | _, _ => False

/-- The length of the array is emitted. -/
def RunsArray (md : Mode) (sc : TScope) (build : Mode) (look : Env → World fo.F O) :
    Option (Bool × Option (Expr fo.F)) → Option ArrayField → Prop
  | none, none => True
  | some (p, none), some a => a.isPacked = p ∧ a.length = none
  | some (p, some e), some a => a.isPacked = p ∧ ∃ l, a.length = some l ∧
      Runs look (rscope sc) build (lengthCode md sc e) (· = .usize) (fun n : Nat => .int n) l
  | _, _ => False

/-- The arguments are emitted; they do not use `@index`. -/
def RunsArgs (md : Mode) (sc : TScope) (build : Mode) (look : Env → World fo.F O) :
    List (ParamTy × Expr fo.F) → List Arg → Prop
  | [], [] => True
  | (p, e) :: es, a :: as => a.usesIndex = false ∧
      (∃ r, (∀ env i, a.eval env i = (r env).bind fun v => .ok (p.val v)) ∧
        Runs look (rscope sc) build (argumentCode md sc p.ty e) (· = p.rust) id r) ∧
      RunsArgs md sc build look es as
  | _, _ => False

/-- The type of the field is emitted. -/
def RunsType (cfg : Cfg) (md : Mode) (sc : TScope) (build : Mode) (look : Env → World fo.F O) :
    WrittenTy fo.F → RefTy → Prop
  | .plain t, ref => IsType cfg (fun _ => True) ref (t.ops cfg)
  | .bit e, ref => ∃ l, ref = .builtin .bit 0 (some l) ∧ RunsWidth md sc build look e l
  | .int e, ref => ∃ l, ref = .builtin .int 0 (some l) ∧ RunsWidth md sc build look e l

/-- The generator looks at the field `g` whose expressions are run as the code that is emitted for those of
a field of the schema with the modifiers `f`.  `md`: the mode in which the generator was built; `build`: the
mode in which the generated code is. -/
structure EmittedMods (md : Mode) (sc : TScope) (build : Mode) (look : Env → World fo.F O)
    (f : Modifiers fo.F) (g : Field) : Prop where
  optional : g.optional = f.optional
  clause : RunsClause md sc build look f.clause g.clause
  alignment : g.alignment = f.alignment
  offset : g.offset = f.offset
  array : RunsArray md sc build look f.array g.array
  args : RunsArgs md sc build look f.args g.args
  isOffsetField : g.isOffsetField = f.isOffsetField
  arity : g.args ≠ [] → ∃ c, g.ty = .compound c g.args.length ∧ c.dflt.params.length = g.args.length

/-- The same for a field with its type. -/
structure EmittedFor (cfg : Cfg) (md : Mode) (sc : TScope) (build : Mode) (look : Env → World fo.F O)
    (f : Written fo.F) (g : Field) : Prop extends EmittedMods md sc build look f.toModifiers g where
  ty : RunsType cfg md sc build look f.ty g.ty

/-- The fields of a structure or union. -/
def EmittedAll (cfg : Cfg) (md : Mode) (sc : TScope) (build : Mode) (look : Env → World fo.F O) :
    List (Written fo.F) → List Field → Prop
  | [], [] => True
  | f :: fs, g :: gs => EmittedFor cfg md sc build look f g ∧ EmittedAll cfg md sc build look fs gs
  | _, _ => False

/-- The cases of a choice. -/
def EmittedCases (cfg : Cfg) (md : Mode) (sc : TScope) (build : Mode) (look : Env → World fo.F O) :
    List (List Val × Option (Written fo.F)) → List Case → Prop
  | [], [] => True
  | (labels, f) :: fs, c :: cs => c.labels = labels ∧
      (match f, c.field with
        | none, none => True
        | some f, some g => EmittedFor cfg md sc build look f g
        | _, _ => False) ∧ EmittedCases cfg md sc build look fs cs
  | _, _ => False

/-- The objects for which the expressions of the `i`-th field are in range. -/
def RangeOf (md : Mode) (sc : TScope) (look : Env → World fo.F O) (fs : List (Written fo.F)) (i : Nat)
    (env : Env) : Prop := ∀ f, fs[i]? = some f → f.InRange md sc look env

/-- A type as it is written.  Simplified: the selector of a choice is a function of the parameters. -/
inductive WrittenType (F : Type) where
  | struct (params : List Val) (fields : List (Written F))
  | choice (params : List Val) (selector : List Val → Val) (cases : List (List Val × Option (Written F)))
  | union (params : List Val) (members : List (Written F))

namespace WrittenType

/-- The fields. -/
def fields : WrittenType fo.F → List (Written fo.F)
  | .struct _ fs => fs
  | .choice _ _ cs => cs.filterMap Prod.snd
  | .union _ fs => fs

/-- What it means. -/
def meaning (look : Env → World fo.F O) : WrittenType fo.F → Ty
  | .struct ps fs => .struct ps (Spec.meaning look fs)
  | .choice ps sel cs => .choice ps sel (caseMeaning look cs)
  | .union ps fs => .union ps (Spec.meaning look fs)

/-- The bodies that are emitted. -/
def Bodies (cfg : Cfg) (md : Mode) (sc : TScope) (build : Mode) (look : Env → World fo.F O) :
    WrittenType fo.F → Emit.Bodies → Prop
  | .struct _ fs, b => ∃ gs, EmittedAll cfg md sc build look fs gs ∧ b = structBodies gs
  | .choice _ sel cs, b => ∃ ds, EmittedCases cfg md sc build look cs ds ∧ b = choiceBodies sel ds
  | .union _ fs, b => ∃ gs, EmittedAll cfg md sc build look fs gs ∧ b = unionBodies gs

end WrittenType

/-- The builtin types of the field exist, and arguments are passed to types with as many parameters. -/
def Written.Emittable (f : Written fo.F) : Prop :=
  (∀ t, f.ty = .plain t → t.Emittable) ∧
  (f.args ≠ [] → ∃ t, f.ty = .plain t ∧ paramCount t = some f.args.length)

end Zs.Spec
