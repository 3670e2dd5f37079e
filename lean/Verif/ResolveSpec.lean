import Verif.Instantiate
import Verif.ScopeLemmas

/-!
# What a type name denotes

The specification of C65, in terms of packages, their declarations and their imports.
-/

namespace Zs.Spec

open Ast

variable {σ F : Type}

/-- The package `q` declares `name`, as the symbol `s`. -/
def DeclaresAs (m : ModelScope σ) (q name : String) (s : σ) : Prop :=
  ∃ p, m.packages q = some p ∧ p.file name = some s

/-- The package `q` declares `name`. -/
def Declares (m : ModelScope σ) (q name : String) : Prop := ∃ s, DeclaresAs m q name s

/-- The simple name `name`, written in `package`, denotes the declaration in `q`: that is `package` itself if it
declares the name; otherwise the first package that does, going through the imports, then their imports and so
on, in the order of the import declarations (`ModelScope.layer`, `ModelScope.NotIn`). -/
inductive NameDenotes (m : ModelScope σ) (package name : String) : String → Prop
  | own (h : Declares m package name) : NameDenotes m package name package
  | imported {p : PackageScope σ} {n : Nat} {before after : List Import} {i : Import}
      (hp : m.packages package = some p) (hno : p.file name = none)
      (hearlier : ∀ k, k < n → m.NotIn name (m.layer p.imports k))
      (hlayer : m.layer p.imports n = before ++ i :: after)
      (hbefore : m.NotIn name before) (h : Declares m i.package name) :
      NameDenotes m package name i.package

/-- The declaration that a reference written in `package` is to: of a builtin type none; of a simple name what it
denotes; of a qualified name `a.b.T` the declaration of `T` in `a.b`. -/
def RefersTo (m : ModelScope σ) (package : String) (t : Ast.TypeRef F) (q : String) : Prop :=
  t.builtin = false ∧
  if t.package = [] then NameDenotes m package t.name q
  else q = dotted t.package ∧ Declares m q t.name

/-- `t'` is `t`, written in `package`, with its declaration filled in: nothing but the package is new. -/
def Bound (m : ModelScope σ) (package : String) (t t' : Ast.TypeRef F) : Prop :=
  if t.builtin then t' = t
  else ∃ q, RefersTo m package t q ∧ t' = t.withPackage (if t.package = [] then [q] else t.package)

/-- Two lists of the same length, related element by element. -/
inductive All2 {α β : Type} (R : α → β → Prop) : List α → List β → Prop
  | nil : All2 R [] []
  | cons {a : α} {b : β} {as : List α} {bs : List β} (h : R a b) (hs : All2 R as bs) : All2 R (a :: as) (b :: bs)

/-- Both missing, or both there and related. -/
inductive Opt2 {α β : Type} (R : α → β → Prop) : Option α → Option β → Prop
  | none : Opt2 R none none
  | some {a : α} {b : β} (h : R a b) : Opt2 R (some a) (some b)

/-- Only the type of a field is new. -/
def FieldTo (R : Ast.TypeRef F → Ast.TypeRef F → Prop) (f f' : Field F) : Prop :=
  ∃ t, R f.type t ∧ f' = { f with type := t }

/-- Only the type of a parameter is new. -/
def ParamTo (R : Ast.TypeRef F → Ast.TypeRef F → Prop) (p p' : Param F) : Prop :=
  ∃ t, R p.type t ∧ p' = { p with type := t }

/-- Only the type of a function is new. -/
def FuncTo (R : Ast.TypeRef F → Ast.TypeRef F → Prop) (f f' : Func F) : Prop :=
  ∃ t, R f.returnType t ∧ f' = { f with returnType := t }

/-- Only the type of the field of a case is new. -/
def CaseTo (R : Ast.TypeRef F → Ast.TypeRef F → Prop) (c c' : Case F) : Prop :=
  ∃ f, Opt2 (FieldTo R) c.field f ∧ c' = { c with field := f }

/-- Only the types in a structure are new: those of all fields, parameters and functions. -/
def StructTo (R : Ast.TypeRef F → Ast.TypeRef F → Prop) (d d' : Struct F) : Prop :=
  ∃ fields params functions, All2 (FieldTo R) d.fields fields ∧ All2 (ParamTo R) d.params params ∧
    All2 (FuncTo R) d.functions functions ∧
    d' = { d with fields := fields, params := params, functions := functions }

/-- Only the types in a choice are new. -/
def ChoiceTo (R : Ast.TypeRef F → Ast.TypeRef F → Prop) (d d' : Choice F) : Prop :=
  ∃ cases default_ params functions, All2 (CaseTo R) d.cases cases ∧ Opt2 (CaseTo R) d.default_ default_ ∧
    All2 (ParamTo R) d.params params ∧ All2 (FuncTo R) d.functions functions ∧
    d' = { d with cases := cases, default_ := default_, params := params, functions := functions }

/-- Only the types in a union are new. -/
def UnionTo (R : Ast.TypeRef F → Ast.TypeRef F → Prop) (d d' : Ast.Union F) : Prop :=
  ∃ fields params functions, All2 (FieldTo R) d.fields fields ∧ All2 (ParamTo R) d.params params ∧
    All2 (FuncTo R) d.functions functions ∧
    d' = { d with fields := fields, params := params, functions := functions }

/-- Only the type of a subtype is new. -/
def AliasTo (R : Ast.TypeRef F → Ast.TypeRef F → Prop) (d d' : Alias F) : Prop :=
  ∃ t, R d.type t ∧ d' = { d with type := t }

/-- Only the type of a constant is new. -/
def ConstTo (R : Ast.TypeRef F → Ast.TypeRef F → Prop) (d d' : Const F) : Prop :=
  ∃ t, R d.type t ∧ d' = { d with type := t }

/-- All references in a structure. -/
def structRefs (d : Struct F) : List (Ast.TypeRef F) :=
  d.fields.map (·.type) ++ d.params.map (·.type) ++ d.functions.map (·.returnType)

/-- All references in a choice. -/
def choiceRefs (d : Choice F) : List (Ast.TypeRef F) :=
  (d.cases ++ d.default_.toList).flatMap (fun c => c.field.toList.map (·.type)) ++ d.params.map (·.type) ++
    d.functions.map (·.returnType)

/-- All references in a union. -/
def unionRefs (d : Ast.Union F) : List (Ast.TypeRef F) :=
  d.fields.map (·.type) ++ d.params.map (·.type) ++ d.functions.map (·.returnType)

/-- Builtin or a simple name: the references that are looked up as the language says. -/
def Simple (t : Ast.TypeRef F) : Prop := t.builtin = true ∨ t.package = []

end Zs.Spec
