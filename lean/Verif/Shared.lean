import Verif.ExprType

/-!
# Model of expressions shared by the instances of a template

The fields and functions of an instance of a template are clones of those of the template, and a clone
of an `Rc<RefCell<Expression>>` is the same expression.  `Expression::evaluate` writes its results into
the expression.  File names are relative to `crates/zserio-rs-build/src/internal/`.
-/

namespace Zs

variable {fo : FloatOps}

/-- An expression shared by instances (`ast/field.rs` lines 46-61, `compiler/template_instantiation.rs`
lines 449, 174, 180: `field.clone()`, `function.result.clone()`): the number of the instance in whose scope it has been
evaluated.  `none`: not evaluated yet (`EvaluationState::NotEvaluated`). -/
abbrev Evaluated := Option Nat

/-- `ast/expression.rs` lines 73-124: `evaluate` in the scope of the instance `i`.  An expression that
has been evaluated already is left as it is (lines 75-77); otherwise its types are found in the scope of
the instance.  Simplified: what is written into the expression (`result_type`, `native_type`, `symbol`)
follows from the instance in whose scope it is evaluated, so that instance is remembered instead. -/
def evaluateIn (md : Mode) (scopes : Nat → TScope) (e : Expr fo.F) (i : Nat) : Evaluated → Res Evaluated
  | some j => .ok (some j)
  | none => do
    let _ ← e.evaluate md (scopes i).erase
    let _ ← e.native md (scopes i)
    .ok (some i)

/-- `model.rs` lines 212-280: `evaluate_package` evaluates the instances one after the other, in the
order in which the hash maps yield them. -/
def evaluateInstances (md : Mode) (scopes : Nat → TScope) (e : Expr fo.F) :
    List Nat → Evaluated → Res Evaluated
  | [], c => .ok c
  | i :: order, c => do
    let c ← evaluateIn md scopes e i c
    evaluateInstances md scopes e order c

/-- `generator/expression.rs` lines 28-449: the text of the shared expression, the same wherever it is
emitted, since all it depends on is written in the expression. -/
def sharedText (md : Mode) (scopes : Nat → TScope) (e : Expr fo.F) (c : Evaluated) :
    Option (List (Tok fo.F)) :=
  c.bind fun j => e.text md (scopes j).erase (textInfo md (scopes j))

/-- `generator/index_offsets.rs` lines 5-20: the name in the expression of an offset, `name` or
`name[@index]`.  Simplified: `none` for other expressions (members of other structures). -/
def offsetName {F : Type} : Expr F → Option String
  | .ident name => some name
  | .elem (.ident name) _ => some name
  | _ => none

/-- `ast/field.rs` lines 77-89: the offset of a field of the instance `i`: after its evaluation, the
field that its symbol refers to is marked.  The symbol is a field of the instance in whose scope the
expression has been evaluated.  `fields` are the names that stand for fields in the instances. -/
def evaluateOffset (md : Mode) (scopes : Nat → TScope) (fields : List String) (e : Expr fo.F) (i : Nat)
    (st : Evaluated × List (Nat × String)) : Res (Evaluated × List (Nat × String)) := do
  let c ← evaluateIn md scopes e i st.1
  match c, offsetName e with
  | some j, some name =>
    if name ∈ fields then .ok (c, (j, name) :: st.2) else .panic   -- line 87
  | _, _ => .panic

/-- `model.rs` lines 212-280: the offset of a field, in all instances of the template.  The result lists
the fields with `is_offset_field`. -/
def evaluateOffsets (md : Mode) (scopes : Nat → TScope) (fields : List String) (e : Expr fo.F) :
    List Nat → Evaluated × List (Nat × String) → Res (Evaluated × List (Nat × String))
  | [], st => .ok st
  | i :: order, st => do
    let st ← evaluateOffset md scopes fields e i st
    evaluateOffsets md scopes fields e order st

end Zs
