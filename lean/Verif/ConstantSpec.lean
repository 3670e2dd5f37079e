import Verif.PackageSpec
import Verif.Constant

/-!
# Specification: what the constants of a package mean

Nothing here is code of the repository, except for the code of an expression in `ConstsFit`.
-/

namespace Zs.Spec

open Src

variable {fo : FloatOps}

/-- The names of the constants, enumerations and bitmasks. -/
def globals (ds : List Directive) : List String := (constsIn ds).map Const.name ++ (enumsIn ds).map Enum.name ++
  (masksIn ds).map Bitmask.name

/-- The width that is written for a type. -/
def widthOf : Src.Ty → Nat
  | .fixedBits _ bits => bits
  | _ => 0

/-- The enumeration has the items that are declared; numbers are counted on from those that are written. -/
def EnumStands (e : Src.Enum) (x : Enumeration) : Prop :=
  ∃ t n items, e.type = ⟨t, .none⟩ ∧ exprTypeOf t = some (.num n) ∧ ItemsStand e.items items ∧
    (∀ k ∈ enumValues items, -2 ^ 31 ≤ k ∧ k < 2 ^ 31 - 1) ∧
    x = ⟨⟨n, widthOf t, false⟩, (e.items.map Item.name).zip (enumValues items)⟩

/-- The enumerations of the package. -/
structure EnumsStand (ds : List Directive) (E : String → Option Enumeration) : Prop where
  declared : ∀ e ∈ enumsIn ds, ∃ x, EnumStands e x ∧ E e.name = some x
  others : ∀ n, n ∉ (enumsIn ds).map Enum.name → E n = none

/-- The bitmask has the values that are declared; those without a number are the next power of two.  All are in the range of
the Rust type. -/
def MaskStands (b : Src.Bitmask) (x : Enumeration) : Prop :=
  ∃ t n i ks, b.type = ⟨t, .none⟩ ∧ exprTypeOf t = some (.num n) ∧ n.rustInt = some i ∧ ValuesStand 1 b.values ks ∧
    (∀ k ∈ ks, i.Contains k) ∧ x = ⟨⟨n, widthOf t, false⟩, (b.values.map Prod.fst).zip (ks.map Int.ofNat)⟩

/-- The bitmasks of the package. -/
structure MasksStand (ds : List Directive) (B : String → Option Enumeration) : Prop where
  declared : ∀ b ∈ masksIn ds, ∃ x, MaskStands b x ∧ B b.name = some x
  others : ∀ n, n ∉ (masksIn ds).map Bitmask.name → B n = none

/-- The structures of the package, with their parameters, fields and functions. -/
structure ObjectsStand (ds : List Directive) (K : Constants fo.F) : Prop where
  declared : ∀ s, .struct s ∈ ds → K.objects s.name = some (partsOf K.types s)
  others : ∀ n, (∀ s, .struct s ∈ ds → s.name ≠ n) → K.objects n = none

/-- The constants of the package have the types that are declared for them, and the values of their expressions, in which
other constants, items of enumerations and values of bitmasks may be used; the
enumerations have the items that are declared for them, the bitmasks the values, the structures the
parameters, fields and functions; no function of a structure is called like a method that generated code uses. -/
structure ConstsStand (round : List Char → fo.F) (ds : List Directive) (K : Constants fo.F) : Prop where
  enums : EnumsStand ds K.enums
  masks : MasksStand ds K.masks
  objects : ObjectsStand ds K
  methods : ∀ s, .struct s ∈ ds → ∀ f ∈ s.functions, f.name ∉ ["len", "bits", "clone"]
  declared : ∀ c ∈ constsIn ds, ∃ t z x v, c.type = ⟨t, .none⟩ ∧ exprTypeOf t = some z ∧
    Stands round (globals ds) c.value x ∧ means (constWorld K) x = some v ∧ ConstHas z v ∧
    K.ty c.name = some z ∧ K.value c.name = some v
  others : ∀ n, n ∉ (constsIn ds).map Const.name → K.ty n = none ∧ K.value n = none

/-- The Rust compiler accepts the types in the expressions (C58, C59), and no type is too small (C70). -/
def ConstsFit (md : Mode) (round : List Char → fo.F) (ds : List Directive) (K : Constants fo.F) : Prop :=
  ∀ c ∈ constsIn ds, ∀ z x R, K.ty c.name = some z → Stands round (globals ds) c.value x →
    Ast.constRust z = some R → Typed (rscope (Ast.constScope K.names)) (code md (Ast.constScope K.names) x) R ∧
      Fits md (Ast.constScope K.names) (constWorld K) x R

/-- No constant depends on itself. -/
def ConstsAcyclic (md : Mode) (round : List Char → fo.F) (ds : List Directive) (K : Constants fo.F) : Prop :=
  ∃ rank : String → Nat, ∀ c ∈ constsIn ds, ∀ x, Stands round (globals ds) c.value x →
    ∀ m ∈ (code md (Ast.constScope K.names) x).names, K.ty m ≠ none → rank m < rank c.name

end Zs.Spec
