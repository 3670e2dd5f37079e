import Verif.PackageSpec
import Verif.ResolveSpec

/-!
# Specification: a package without its subtypes

A subtype is another name for a type.  Nothing here is code of the repository.
-/

namespace Zs.Spec

open Src

/-- A structure, choice, union, enumeration or bitmask of this name is declared. -/
def TypeDeclared (ds : List Directive) (n : String) : Prop :=
  (∃ d, .struct d ∈ ds ∧ d.name = n) ∨ (∃ d, .choice d ∈ ds ∧ d.name = n) ∨ (∃ d, .union d ∈ ds ∧ d.name = n) ∨
    (∃ d, .enum d ∈ ds ∧ d.name = n) ∨ ∃ d, .bitmask d ∈ ds ∧ d.name = n

/-- The second type is the first one without subtypes. -/
inductive AliasFor (ds : List Directive) : Src.Ty → Src.Ty → Prop
  | builtin {n : String} : AliasFor ds (.builtin n) (.builtin n)
  | bits {s : Bool} {n : Nat} : AliasFor ds (.fixedBits s n) (.fixedBits s n)
  | declared {n : String} : TypeDeclared ds n → AliasFor ds (.named n [] []) (.named n [] [])
  | subtype {a : Src.Alias} {t : Src.Ty} : .subtype a ∈ ds → AliasFor ds a.type t → AliasFor ds (.named a.name [] []) t

/-- Arguments stay; only a builtin type may have a length behind it. -/
def InstOut (ds : List Directive) (i i' : Inst) : Prop :=
  AliasFor ds i.type i'.type ∧ i'.args = i.args ∧ ∀ e, i.args = .length e → ∃ n, i.type = .builtin n

/-- The type of a field of a structure. -/
def FieldOut (ds : List Directive) (f f' : StructField) : Prop :=
  ∃ i, InstOut ds f.typeId.type i ∧ f' = { f with typeId := { f.typeId with type := i } }

/-- The type of a field of a choice or union. -/
def MemberOut (ds : List Directive) (f f' : ChoiceField) : Prop :=
  ∃ i, InstOut ds f.typeId.type i ∧ f' = { f with typeId := { f.typeId with type := i } }

/-- The type of the field of a case. -/
def CasesOut (ds : List Directive) (c c' : Src.Cases) : Prop :=
  ∃ f, Opt2 (MemberOut ds) c.field f ∧ c' = { c with field := f }

/-- The type of a parameter. -/
def ParamOut (ds : List Directive) (p p' : Param) : Prop :=
  ∃ t, AliasFor ds p.type t ∧ p' = { p with type := t }

/-- The type of a function. -/
def FuncOut (ds : List Directive) (f f' : Func) : Prop :=
  ∃ t, AliasFor ds f.type t ∧ f' = { f with type := t }

/-- A declaration without subtypes.  Enumerations and bitmasks keep their types. -/
inductive DirectiveOut (ds : List Directive) : Directive → Directive → Prop
  | struct {d : Struct} {ps fs gs} : All2 (ParamOut ds) d.params ps → All2 (FieldOut ds) d.fields fs →
      All2 (FuncOut ds) d.functions gs →
      DirectiveOut ds (.struct d) (.struct { d with params := ps, fields := fs, functions := gs })
  | choice {d : Choice} {ps cs gs} : All2 (ParamOut ds) d.params ps → All2 (CasesOut ds) d.cases cs →
      All2 (FuncOut ds) d.functions gs →
      DirectiveOut ds (.choice d) (.choice { d with params := ps, cases := cs, functions := gs })
  | union {d : Union} {ps fs gs} : All2 (ParamOut ds) d.params ps → All2 (MemberOut ds) d.fields fs →
      All2 (FuncOut ds) d.functions gs →
      DirectiveOut ds (.union d) (.union { d with params := ps, fields := fs, functions := gs })
  | enum {d : Enum} : DirectiveOut ds (.enum d) (.enum d)
  | bitmask {d : Bitmask} : DirectiveOut ds (.bitmask d) (.bitmask d)
  | const {d : Const} {i} : InstOut ds d.type i → DirectiveOut ds (.const d) (.const { d with type := i })
  | subtype {d : Src.Alias} : DirectiveOut ds (.subtype d) (.subtype d)
  | instantiate {d : Src.Alias} : DirectiveOut ds (.instantiate d) (.instantiate d)
  | other {d : Other} : DirectiveOut ds (.other d) (.other d)

/-- `P'` is the package `P`, in which every subtype is replaced by the type that it stands for. -/
def WrittenOut (P P' : Package) : Prop :=
  ∃ ds, All2 (DirectiveOut P.directives) P.directives ds ∧ P' = { P with directives := ds }

end Zs.Spec
