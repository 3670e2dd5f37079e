import Verif.Modules

/-!
# Model of the passing of type arguments

`generator/pass_parameters.rs`, `generator/decode.rs` lines 184-423 and `generator/encode.rs` lines 186-267: how
a field of a parameterised type gives its arguments to the parameters.  File names are relative to
`crates/zserio-rs-build/src/internal/`.

`α` stands for the generated expressions (C47, C58 and C59 are about them).  The Rust type of a parameterised
type has one member per parameter and the members of its data (`generator/zstruct.rs` lines 51-72, `zunion.rs`
lines 95-116, `zchoice.rs` lines 65-83).
-/

namespace Zs

/-- An argument of a type: the generated expression with `.clone()` and the cast to the type of the parameter
(`decode.rs` lines 238-257), and whether it contains `@index`. -/
structure TypeArg (α : Type) where
  text : α
  usesIndex : Bool

/-- `Type { name: expr, .. ..Default::default() }`; `rest` says whether the last part is there. -/
structure StructLit (α : Type) where
  entries : List (String × α)
  rest : Bool

variable {α : Type}

/-- `generator/types.rs` lines 26-28: `convert_field_name`.  `snake` stands for
`to_snake_case_with_nums_as_word` of the crate `stringcase`. -/
def memberName (snake : String → String) (name : String) : String := snake (removeReserved name)

/-- One pass over the arguments with their positions, which selects some of them: `decode.rs` lines 228-265
(all arguments), 328-366 (those without `@index`), 374-411 (those with it), `encode.rs` lines 227-266 (all).
`type_parameters[param_index]` panics if there is no such parameter; this happens behind the `continue`. -/
def passArgs (snake : String → String) (select : TypeArg α → Bool) :
    List String → List (TypeArg α) → Res (List (String × α))
  | _, [] => .ok []
  | params, a :: as =>
    if select a then
      match params with
      | [] => .panic
      | p :: ps => do
        let es ← passArgs snake select ps as
        .ok ((memberName snake p, a.text) :: es)
    else passArgs snake select params.tail as

/-- What is emitted to make the object that is read next. -/
inductive Made (α : Type) where
  /-- `Default::default()`: `decode.rs` lines 193-199; for arrays `object_array_trait.rs` does the same. -/
  | default
  /-- a literal, and the assignments `zs_item.name = expr;` behind it -/
  | literal (l : StructLit α) (sets : List (String × α))

/-- `decode.rs` lines 193-271: the initial value of a field that is not an array.  `count` is
`number_of_data_fields` (`pass_parameters.rs` lines 43-54): the number of fields or cases; `number_of_fields`
(lines 23-41) adds the parameters. -/
def makeValue (snake : String → String) (params : List String) (count : Nat) (args : List (TypeArg α)) :
    Res (Made α) :=
  if args.isEmpty then .ok .default
  else do
    let es ← passArgs snake (fun _ => true) params args
    .ok (.literal ⟨es, decide (0 < count + params.length)⟩ [])

/-- `decode.rs` lines 203-214 and 311-412: the initial value of an element of an array. -/
def makeItem (snake : String → String) (params : List String) (count : Nat) (args : List (TypeArg α)) :
    Res (Made α) :=
  if args.isEmpty then .ok .default
  else do
    let delay := args.any TypeArg.usesIndex
    let es ← passArgs snake (fun a => !a.usesIndex) params args
    let sets ← if delay then passArgs snake TypeArg.usesIndex params args else .ok []
    .ok (.literal ⟨es, decide (0 < count) || delay⟩ sets)

/-- `encode.rs` lines 186-266: the members that are compared with expressions before a field or an element is
written. -/
def checkedArgs (snake : String → String) (params : List String) (args : List (TypeArg α)) :
    Res (List (String × α)) :=
  if args.isEmpty then .ok [] else passArgs snake (fun _ => true) params args

end Zs
