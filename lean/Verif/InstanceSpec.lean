import Verif.ResolveSpec

/-!
# What an instance of a template is

The specification of C45 on the data structures of the visitor.
-/

namespace Zs.Spec

open Ast

variable {F : Type}

/-- The name `n` is the template parameter for which the argument `a` is given. -/
def Given (params : List String) (args : List (Ast.TypeRef F)) (n : String) (a : Ast.TypeRef F) : Prop :=
  ∃ i : Nat, params[i]? = some n ∧ args[i]? = some a

/-- `t'` is the name `t` with its template parameters replaced: a parameter becomes its argument, any other name
stays. -/
def NameReplaced (params : List String) (args : List (Ast.TypeRef F)) (t t' : Ast.TypeRef F) : Prop :=
  (∀ a, Given params args t.name a → t' = a) ∧ (t.name ∉ params → t' = t)

/-- The name of an instance: that of the template, followed by those of its arguments. -/
def joinedName (t : Ast.TypeRef F) : List (Ast.TypeRef F) → String
  | args => t.name ++ String.join (args.map (·.name))

/-- `t'` is the type `t` of a field with its template parameters replaced: as names are, keeping the arguments in
parentheses; an instance `G<T, ..>` of a template becomes the one for the replaced arguments, in the package that
is being processed. -/
def TypeReplaced (package : String) (params : List String) (args : List (Ast.TypeRef F)) (t t' : Ast.TypeRef F) :
    Prop :=
  if t.targs = [] then
    (∀ a, Given params args t.name a → t' = a.withArgs t.args) ∧ (t.name ∉ params → t' = t)
  else ∃ targs, All2 (NameReplaced params args) t.targs targs ∧
    t' = .mk false [package] (joinedName t targs) 0 [] t.args none

/-- `t'` is the template argument `t` after its own instantiation. -/
def ArgumentMade (package : String) (t t' : Ast.TypeRef F) : Prop :=
  if t.targs = [] then t' = t else t' = .mk false [package] (joinedName t t.targs) 0 [] t.args none

end Zs.Spec
