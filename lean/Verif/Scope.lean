import Verif.Base

/-!
# Model of the name resolution of the schema compiler

`compiler/symbol_scope.rs` (lookup of names) and `compiler/fundamental_type.rs` (following subtypes).
File names are relative to `crates/zserio-rs-build/src/internal/`.

Loops that the code runs without bound are modelled with fuel: the result `none` means that the loop has
not ended after that many rounds.
-/

namespace Zs

/-- `ast/package.rs` lines 11-18: `ZImport`, with the package directory already joined by dots. -/
structure Import where
  package : String
  symbol : Option String := none

/-- `compiler/symbol_scope.rs` lines 45-57: `PackageScope`.  `σ` stands for the symbols; the hash maps
are lookup functions. -/
structure PackageScope (σ : Type) where
  locals : String → Option (String → Option σ)
  file : String → Option σ
  imports : List Import

/-- `compiler/symbol_scope.rs` lines 65-75: `ModelScope`, without the stack (the top of the stack is
passed as an argument). -/
structure ModelScope (σ : Type) where
  packages : String → Option (PackageScope σ)

variable {σ : Type}

/-- Lines 209-241: `PackageScope::resolve_symbol`.  `current` is the `symbol_name` of the
`ScopeLocation`. -/
def PackageScope.resolve (p : PackageScope σ) (name : String) (ignoreLocals : Bool)
    (current : Option String) : Option σ :=
  let inLocals : Option σ :=
    if ignoreLocals then none
    else match current with
      | none => none
      | some c => match p.locals c with
        | none => none
        | some scope => scope name
  match inLocals with
  | some s => some s
  | none => p.file name

/-- What one pass over a list of imports ends with. -/
inductive LayerResult (σ : Type) where
  | found (s : σ) (package : String)
  | panic
  | next (imports : List Import)

/-- Lines 129-153: one round of the `while` loop: the imports of one layer in order; `acc` is
`new_imports_to_process`. -/
def ModelScope.searchLayer (m : ModelScope σ) (name : String) (ignoreLocals : Bool) :
    List Import → List Import → LayerResult σ
  | [], acc => .next acc
  | i :: rest, acc =>
    match m.packages i.package with
    | none => .panic
    | some p =>
      match p.resolve name ignoreLocals none with
      | some s => .found s i.package
      | none => m.searchLayer name ignoreLocals rest (acc ++ p.imports)

/-- Lines 126-160: the `while` loop.  `none`: still running after `fuel` rounds. -/
def ModelScope.searchImports (m : ModelScope σ) (name : String) (ignoreLocals : Bool) :
    Nat → List Import → Option (Res (σ × String))
  | 0, _ => none
  | _ + 1, [] => some .panic
  | fuel + 1, imports =>
    match m.searchLayer name ignoreLocals imports [] with
    | .found s package => some (.ok (s, package))
    | .panic => some .panic
    | .next imports => m.searchImports name ignoreLocals fuel imports

/-- Lines 106-160: `ModelScope::resolve_symbol` called with `ScopeLocation { package, symbol_name:
current, .. }` on top of the stack.  The result is the symbol with the package it was found in. -/
def ModelScope.resolve (m : ModelScope σ) (fuel : Nat) (package : String) (current : Option String)
    (name : String) (ignoreLocals : Bool) : Option (Res (σ × String)) :=
  match m.packages package with
  | none => some .panic
  | some p =>
    match p.resolve name ignoreLocals current with
    | some s => some (.ok (s, package))
    | none => m.searchImports name ignoreLocals fuel p.imports

/-! ## Subtypes -/

/-- `ast/type_reference.rs` lines 8-17: `TypeReference`.  `α` stands for the expressions of type
arguments and lengths.  Template arguments are the subject of `Template.lean` and are left out. -/
structure TypeRef (α : Type) where
  builtin : Bool
  package : String
  name : String
  bits : Nat := 0
  args : List α := []
  length : Option α := none

/-- A symbol of a package, as far as `get_fundamental_type` distinguishes them
(`compiler/symbol_scope.rs` lines 24-36): a type or constant, a subtype, or something else. -/
inductive Decl (α : Type) where
  | definition
  | subtype (type : TypeRef α)
  | other

/-- `compiler/fundamental_type.rs` lines 18-90: `get_fundamental_type` with `get_symbol_type`; the second
result is `is_marshaler`.  `decls` is `ModelScope::get_symbol` (`compiler/symbol_scope.rs` lines 98-103
and 197-206), which panics if there is no such symbol.  The symbol of a definition carries the name it is
stored under. -/
def fundamentalType {α : Type} (decls : String → String → Option (Decl α)) :
    Nat → TypeRef α → Option (Res (TypeRef α × Bool))
  | 0, _ => none
  | fuel + 1, t =>
    if t.builtin then some (.ok (t, false))
    else match decls t.package t.name with
      | none => some .panic
      | some .other => some .panic
      | some .definition =>
        some (.ok ({ builtin := false, package := t.package, name := t.name, args := t.args }, true))
      | some (.subtype s) => fundamentalType decls fuel { s with args := t.args }

end Zs
