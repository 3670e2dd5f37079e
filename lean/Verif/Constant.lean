import Verif.PackageCode

/-!
# The constants that the generator emits for a package

File names are relative to `crates/zserio-rs-build/src/internal/`.

Simplified, for the whole file: one package without imports; names in the expressions of constants are names of
constants, enumerations and bitmasks.
-/

namespace Zs

open Ast Emit Spec

variable {fo : FloatOps}

/-- `ast/expression.rs` lines 625-655: the type of a constant in expressions, for the names of constants. -/
def Ast.constType {F : Type} (types : String → Option ZTy) (T : Ast.Map (Ast.Symbol F)) (n : String) : Option ZTy :=
  match T n with
  | some (.const d) => d.type.zty types
  | _ => none

/-- `compiler/symbol_scope.rs` lines 209-241: outside of types, names are looked up in the package.  Simplified: no
members of objects, because there are no objects. -/
def Ast.constScope (N : Ast.Names) : TScope where
  ident := N.symb
  member _ _ := none
  hasItem := N.hasItem
  index := false

/-- `generator/zconst.rs` lines 31-45: the type behind `pub const N: `, which is `&str` for strings; there are none of enumerations and bitmasks
(lines 29-33: `assert!`). -/
def Ast.constRust : ZTy → Option RTy
  | .string => some .str
  | .enum _ _ | .bitmask _ _ => none
  | t => valueTy t

/-- The names in a Rust expression. -/
def RExpr.names {F : Type} : RExpr F → List String
  | .atom (.name n) => [n]
  | .atom _ => []
  | .paren e | .call e | .apply _ e | .field e _ | .cast e _ | .neg e | .not e => e.names
  | .elem a b | .bin _ a b | .concat a b => a.names ++ b.names
  | .ite c a b => c.names ++ a.names ++ b.names

/-- What expressions see outside of objects: Rust constants, items of enumerations and values of bitmasks. -/
def Spec.constWorld {F : Type} (K : Constants F) : World F Object where
  name := K.value
  func _ := none
  member _ _ := none
  method _ _ := none
  item := K.item (Ast.constScope K.names)
  index := none
  isA o id := o.type = id

/-- `ast/zenum.rs` lines 24-32, `generator/zenum.rs` lines 41-60, `ast/expression.rs` lines 302-319: what is generated for
an enumeration, as far as it matters to expressions.  Simplified: the type of the numbers is builtin (C86 is about
subtypes). -/
def Spec.EnumSeen (md : Mode) (esc : EScope fo.F) (d : Ast.Enum fo.F) (e : Enumeration) : Prop :=
  ∃ tn bits n xs vs, d.type = .mk true [] tn bits [] [] none ∧ (BName.ofString tn).bind BName.zty = some (.num n) ∧
    d.items.map (fun i => exprOption i.value) = xs.map some ∧ enumItemValues md esc 0 xs = .ok vs ∧
    e = ⟨⟨n, bits, false⟩, (d.items.map Ast.Item.name).zip vs⟩

/-- The same for all enumerations in the symbol table. -/
structure Spec.EnumsSeen (md : Mode) (esc : EScope fo.F) (T : Ast.Map (Ast.Symbol fo.F))
    (E : String → Option Enumeration) : Prop where
  declared : ∀ n d, T n = some (.enum d) → ∃ e, E n = some e ∧ EnumSeen md esc d e
  others : ∀ n, (∀ d, T n ≠ some (.enum d)) → E n = none

/-- `ast/zbitmask.rs` lines 38-66, `generator/zbitmask.rs` lines 22-52, `ast/expression.rs` lines 212-233: the same for a
bitmask.  The numbers are emitted as literals, which the Rust compiler refuses if they are not in the range of the type (the
lint `overflowing_literals`). -/
def Spec.MaskSeen (md : Mode) (esc : EScope fo.F) (d : Ast.Bitmask fo.F) (b : Enumeration) : Prop :=
  ∃ tn bits n i xs vs, d.type = .mk true [] tn bits [] [] none ∧ (BName.ofString tn).bind BName.zty = some (.num n) ∧
    n.rustInt = some i ∧ d.values.map (fun v => exprOption v.value) = xs.map some ∧
    bitmaskItemValues md esc 1 xs = .ok vs ∧ (∀ v ∈ vs, i.Contains v) ∧
    b = ⟨⟨n, bits, false⟩, (d.values.map Ast.Item.name).zip (vs.map Int.ofNat)⟩

/-- The same for all bitmasks in the symbol table. -/
structure Spec.MasksSeen (md : Mode) (esc : EScope fo.F) (T : Ast.Map (Ast.Symbol fo.F))
    (B : String → Option Enumeration) : Prop where
  declared : ∀ n d, T n = some (.bitmask d) → ∃ b, B n = some b ∧ MaskSeen md esc d b
  others : ∀ n, (∀ d, T n ≠ some (.bitmask d)) → B n = none

/-- `ast/expression.rs` lines 235-281, `generator/expression.rs` lines 225-235: the members and methods of the structures in the
symbol table.  Simplified: expressions do not use the members of choices and unions, and not the names that the lookup finds in
the package because they are no members (C81_no_member_violated). -/
def Spec.ObjectsSeen (T : Ast.Map (Ast.Symbol fo.F)) (K : Constants fo.F) : Prop :=
  ∀ n, K.objects n = match T n with
    | some (.struct d) => some (d.members K ++ d.methods K)
    | _ => none

/-- `generator/zconst.rs` lines 14-60: `pub const N: T = e;` for every constant in the symbol table; `K` are the values
that the Rust compiler computes for them.  It refuses types that do not fit, results that are out of range (Rust
reference, "Constant evaluation": as in debug builds), and constants that depend on themselves.  With the
enumerations, the bitmasks and the structures. -/
structure Spec.ConstsSeen (md : Mode) (esc : EScope fo.F) (T : Ast.Map (Ast.Symbol fo.F)) (K : Constants fo.F) :
    Prop where
  enums : EnumsSeen md esc T K.enums
  masks : MasksSeen md esc T K.masks
  objects : ObjectsSeen T K
  ty : ∀ n, K.ty n = constType K.names.types T n
  value : ∀ n d t, T n = some (.const d) → d.type.zty K.names.types = some t → ∃ e R v, d.value.expr = some e ∧
    constRust t = some R ∧ Typed (rscope (constScope K.names)) (code md (constScope K.names) e) R ∧
    Evals (constWorld K) (rscope (constScope K.names)) .debug (code md (constScope K.names) e) R (.ok v) ∧ K.value n = some v
  others : ∀ n, K.ty n = none → K.value n = none
  acyclic : ∃ rank : String → Nat, ∀ n d e, T n = some (.const d) → d.value.expr = some e →
    ∀ m ∈ (code md (constScope K.names) e).names, K.ty m ≠ none → rank m < rank n

end Zs
