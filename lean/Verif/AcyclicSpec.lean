import Verif.ConstantSpec
import Verif.PropsFunction

/-!
# What constants, functions and types depend on, by the text of a package
-/

namespace Zs.Spec

open Src

/-- The names that an expression uses, without those behind a dot. -/
def usedNames : Exp → List String
  | .id name => [name]
  | .paren e | .call e | .dot e _ | .lengthof e | .valueof e | .numbits e | .unary _ e => usedNames e
  | .elem a b | .isset a b | .binary _ a b => usedNames a ++ usedNames b
  | .ternary c a b => usedNames c ++ usedNames a ++ usedNames b
  | .lit _ _ | .index => []

/-- The same, but only the names that are not in front of a dot. -/
def plainNames : Exp → List String
  | .id name => [name]
  | .paren e | .call e | .lengthof e | .valueof e | .numbits e | .unary _ e => plainNames e
  | .elem a b | .isset a b | .binary _ a b => plainNames a ++ plainNames b
  | .ternary c a b => plainNames c ++ plainNames a ++ plainNames b
  | .dot _ _ | .lit _ _ | .index => []

/-- The value of the constant `b` uses the constant `a`. -/
def ConstUses (ds : List Directive) (a b : String) : Prop :=
  ∃ c ∈ constsIn ds, ∃ c' ∈ constsIn ds, c'.name = a ∧ c.name = b ∧ a ∈ usedNames c.value

/-- The same, but not in front of a dot. -/
def ConstMentions (ds : List Directive) (a b : String) : Prop :=
  ∃ c ∈ constsIn ds, ∃ c' ∈ constsIn ds, c'.name = a ∧ c.name = b ∧ a ∈ plainNames c.value

/-- In the type `a.1` the function `b.2` uses the function `a.2`. -/
def FuncUses (ds : List Directive) (a b : String × String) : Prop :=
  ∃ D ∈ ds, ∃ s, bodyOf D = some s ∧ s.name = a.1 ∧ s.name = b.1 ∧ ∃ f ∈ s.functions, ∃ g ∈ s.functions,
    g.name = a.2 ∧ f.name = b.2 ∧ a.2 ∈ usedNames f.body

/-- The type `b` has a parameter or a field of the type `a`, which is a structure. -/
def TypeUses (ds : List Directive) (a b : String) : Prop :=
  ∃ D ∈ ds, ∃ s, bodyOf D = some s ∧ s.name = b ∧ (∃ h, .struct h ∈ ds ∧ h.name = a) ∧
    ∃ first rest args, (first :: rest).getLast (by simp) = a ∧
      ((∃ p ∈ s.params, p.type = .named first rest args) ∨ ∃ f ∈ s.fields, f.typeId.type.type = .named first rest args)

/-- Nothing depends on itself, neither directly nor through others. -/
def NoCycle {α : Type} (uses : α → α → Prop) : Prop := ∀ a, ¬ Relation.TransGen uses a a

end Zs.Spec
