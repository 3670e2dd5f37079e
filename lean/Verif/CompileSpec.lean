import Verif.Compile
import Verif.SourceSpec
import Verif.TextSpec

/-!
# What the generator emits for the representation of a structure

`EmittedFor` (`SourceSpec.lean`) relates a field of a schema to what is emitted for it; here the field is the one
that the visitor has filled, with the symbol table of its structure.  File names are relative to
`crates/zserio-rs-build/src/internal/`.
-/

namespace Zs.Spec

open Emit

variable {fo : FloatOps} {O : Type}

/-- What the generator finds for the constants, enumerations, bitmasks and structures of a package. -/
def Constants.names {F : Type} (K : Constants F) : Ast.Names where
  consts := K.ty
  enums n := (K.enums n).map Enumeration.base
  masks n := (K.masks n).map Enumeration.base
  hasItem := K.hasItem
  objects n := (K.objects n).isSome
  member id n := (K.part id n).bind Member.symb

/-- The expression of a node that may be missing; nothing is emitted if the node is not one. -/
def exprOption {F : Type} : Option (Ast.Node F) → Option (Option (Expr F))
  | none => some none
  | some n => n.expr.map some

/-- `generator/array.rs` lines 14-50, `generator/types.rs` lines 106-136: the type of the field is emitted. -/
def TypeSeen (md : Mode) (sc : TScope) (build : Mode) (look : Env → World fo.F O) :
    Ast.TypeRef fo.F → RefTy → Prop
  | .mk builtin _ name bits _ _ length, ref => builtin = true ∧ ∃ n, BName.ofString name = some n ∧
      match length with
      | none => ref = .builtin n bits none
      | some l => ∃ e w, l.expr = some e ∧ RunsWidth md sc build look e w ∧ ref = .builtin n bits (some w)

/-- `ast/field.rs` lines 10-66: the array of the field is emitted; whether it is `implicit` does not matter. -/
def ArraySeen (md : Mode) (sc : TScope) (build : Mode) (look : Env → World fo.F O) :
    Option (Ast.Array fo.F) → Option ArrayField → Prop
  | none, g => g = none
  | some a, g => ∃ x, exprOption a.length = some x ∧ RunsArray md sc build look (some (a.packed, x)) g

/-- `ast/field.rs` lines 28-66: the generator looks at `g` when it emits code for the field `f` of the structure `d`.
Initializer and constraint do not matter.  `N`: constants and enumerations of the package.  Simplified: no arguments of types. -/
structure SeenAs (md : Mode) (build : Mode) (look : Env → World fo.F O) (N : Ast.Names)
    (d : Ast.Struct fo.F) (f : Ast.Field fo.F) (g : Emit.Field) : Prop where
  optional : g.optional = f.optional
  alignment : g.alignment = f.alignment
  offset : g.offset = Ast.offsetKind f.offset
  isOffsetField : g.isOffsetField = d.marks f
  clause : ∃ x, exprOption f.clause = some x ∧ RunsClause md (d.scope N) build look x g.clause
  array : ArraySeen md (d.scope N) build look f.array g.array
  ty : TypeSeen md (d.scope N) build look f.type g.ty
  args : g.args = []

/-- All fields of the structure. -/
def SeenAll (md : Mode) (build : Mode) (look : Env → World fo.F O) (N : Ast.Names)
    (d : Ast.Struct fo.F) :
    List (Ast.Field fo.F) → List Emit.Field → Prop
  | [], [] => True
  | f :: fs, g :: gs => SeenAs md build look N d f g ∧ SeenAll md build look N d fs gs
  | _, _ => False

end Zs.Spec
