import Verif.Recursive
import Verif.SchemaSpec

/-!
# Specification of declarations that refer to each other

What Rust and zserio say about types that contain themselves, and what the objects of such types are.
-/

namespace Zs

namespace Spec

/-- The type that is stored inside of a member: a `Vec` keeps its elements elsewhere, an `Option` does not. -/
def storedInside : MemberTy → Option DTy
  | .plain t => some t
  | .vec _ => none
  | .option t => storedInside t

/-- Rust accepts a type only if its size can be computed: the size of a structure is computed from the sizes of the
types that are stored inside of its members (error E0072 otherwise). -/
inductive HasSize (d : Decls) : DTy → Prop
  | ref {i : Nat} : HasSize d (d i) → HasSize d (.ref i)
  | type {t : DTy} : (∀ i, t ≠ .ref i) → (∀ m ∈ t.members, ∀ u, storedInside m = some u → HasSize d u) → HasSize d t

mutual
/-- The declarations that the fields of a type refer to, if `counts` holds for the field. -/
def refs (counts : FieldInfo → Bool) : DTy → List Nat
  | .ref i => [i]
  | .struct _ fields => fieldRefs counts fields
  | .choice _ _ cases => caseRefs counts cases
  | .union _ members => fieldRefs counts members
  | _ => []
def fieldRefs (counts : FieldInfo → Bool) : DFields → List Nat
  | .nil => []
  | .cons info ty rest => (if counts info then refs counts ty else []) ++ fieldRefs counts rest
def caseRefs (counts : FieldInfo → Bool) : DCases → List Nat
  | .nil => []
  | .field _ info ty rest => (if counts info then refs counts ty else []) ++ caseRefs counts rest
  | .empty _ rest => caseRefs counts rest
end

/-- A field of the declaration `i` that is no array refers to the declaration `j`. -/
def Holds (d : Decls) (i j : Nat) : Prop := j ∈ refs (fun info => info.array.isNone) (d i)

/-- A field of the declaration `i` that is no array and not optional refers to the declaration `j`. -/
def Needs (d : Decls) (i j : Nat) : Prop :=
  j ∈ refs (fun info => info.array.isNone && !info.optional && info.clause.isNone) (d i)

/-- The type is a reference. -/
def isReference : DTy → Bool
  | .ref _ => true
  | _ => false

mutual
/-- Every reference is the type of the elements of an array. -/
def InArrays : DTy → Prop
  | .ref _ => False
  | .struct _ fields => FieldsInArrays fields
  | .choice _ _ cases => CasesInArrays cases
  | .union _ members => FieldsInArrays members
  | _ => True
def FieldsInArrays : DFields → Prop
  | .nil => True
  | .cons info ty rest => ((info.array.isSome = true ∧ isReference ty = true) ∨ InArrays ty) ∧ FieldsInArrays rest
def CasesInArrays : DCases → Prop
  | .nil => True
  | .field _ info ty rest => ((info.array.isSome = true ∧ isReference ty = true) ∨ InArrays ty) ∧ CasesInArrays rest
  | .empty _ rest => CasesInArrays rest
end

mutual
/-- Every reference is the type of the elements of an array whose length is stored in front of it. -/
def LengthsStored : DTy → Prop
  | .ref _ => False
  | .struct _ fields => FieldsLengthsStored fields
  | .choice _ _ cases => CasesLengthsStored cases
  | .union _ members => FieldsLengthsStored members
  | _ => True
def FieldsLengthsStored : DFields → Prop
  | .nil => True
  | .cons info ty rest => ((isReference ty = true ∧ ∃ a, info.array = some a ∧ a.length = none) ∨ LengthsStored ty) ∧
      FieldsLengthsStored rest
def CasesLengthsStored : DCases → Prop
  | .nil => True
  | .field _ info ty rest =>
      ((isReference ty = true ∧ ∃ a, info.array = some a ∧ a.length = none) ∨ LengthsStored ty) ∧
      CasesLengthsStored rest
  | .empty _ rest => CasesLengthsStored rest
end

/-- A type without values. -/
def noValues : Ty := .enum (.uint 8) []

/-- A type that cannot be packed. -/
def notPackable : Ty := .union [] .nil

mutual
/-- The default of a type, if `dflt` gives those of the declarations. -/
def defaultIn (dflt : Nat → Val) : DTy → Val
  | .ref i => dflt i
  | .scalar s => s.dflt
  | .enum _ _ => .item 0
  | .bitmask base first => base.ofInt first
  | .struct params fields => .obj params (defaultsIn dflt fields)
  | .choice params _ cases => .obj params (caseDefaultsIn dflt cases)
  | .union params members => .union params 0 (defaultsIn dflt members)
def defaultsIn (dflt : Nat → Val) : DFields → List Val
  | .nil => []
  | .cons info ty rest => info.default (defaultIn dflt ty) :: defaultsIn dflt rest
def caseDefaultsIn (dflt : Nat → Val) : DCases → List Val
  | .nil => []
  | .field _ info ty rest => info.default (defaultIn dflt ty) :: caseDefaultsIn dflt rest
  | .empty _ rest => caseDefaultsIn dflt rest
end

mutual
/-- `v` is a valid value of the type, as in `Zs.Ty.Valid`, if `valid` tells which values of the declarations are. -/
def ValidIn (cfg : Cfg) (valid : Nat → Env → Val → Prop) (dflt : Nat → Val) : DTy → Env → Val → Prop
  | .ref i, env, v => valid i env v
  | .scalar s, env, v => s.InRange cfg env v
  | .enum base items, _, v => ∃ i x, v = .item i ∧ (enumValues items)[i]? = some x ∧ base.Contains x ∧ x < 2 ^ 63
  | .bitmask base _, _, v => base.InRange cfg ⟨[], []⟩ v
  | .struct _ fields, _, v => ∃ ps vs, v = .obj ps vs ∧ FieldsValidIn cfg valid dflt fields ps [] vs
  | .choice _ sel cases, _, v => ∃ ps vs, v = .obj ps vs ∧ CasesValidIn cfg valid dflt cases ps (sel ps) false vs
  | .union _ members, _, v => ∃ ps sel vs, v = .union ps sel vs ∧ sel < 2 ^ 31 ∧
      MemberValidIn cfg valid dflt members ps sel vs
def FieldsValidIn (cfg : Cfg) (valid : Nat → Env → Val → Prop) (dflt : Nat → Val) :
    DFields → List Val → List Val → List Val → Prop
  | .nil, _, _, vs => vs = []
  | .cons info ty rest, ps, done, vs => ∃ v vs', vs = v :: vs' ∧
      info.FieldValid (ValidIn cfg valid dflt ty) (defaultIn dflt ty) ⟨ps, done⟩ v ∧
      FieldsValidIn cfg valid dflt rest ps (done ++ [v]) vs'
def MemberValidIn (cfg : Cfg) (valid : Nat → Env → Val → Prop) (dflt : Nat → Val) :
    DFields → List Val → Nat → List Val → Prop
  | .nil, _, _, _ => False
  | .cons info ty rest, ps, sel, vs => ∃ v vs', vs = v :: vs' ∧
      match sel with
      | 0 => info.FieldValid (ValidIn cfg valid dflt ty) (defaultIn dflt ty) ⟨ps, []⟩ v ∧ vs' = defaultsIn dflt rest
      | sel + 1 => v = info.default (defaultIn dflt ty) ∧ MemberValidIn cfg valid dflt rest ps sel vs'
def CasesValidIn (cfg : Cfg) (valid : Nat → Env → Val → Prop) (dflt : Nat → Val) :
    DCases → List Val → Val → Bool → List Val → Prop
  | .nil, _, _, _, vs => vs = []
  | .field labels info ty rest, ps, sel, taken, vs => ∃ v vs', vs = v :: vs' ∧
      (if taken = false ∧ sel ∈ labels then
        info.FieldValid (ValidIn cfg valid dflt ty) (defaultIn dflt ty) ⟨ps, []⟩ v
      else v = info.default (defaultIn dflt ty)) ∧
      CasesValidIn cfg valid dflt rest ps sel (taken || decide (sel ∈ labels)) vs'
  | .empty labels rest, ps, sel, taken, vs =>
      CasesValidIn cfg valid dflt rest ps sel (taken || decide (sel ∈ labels)) vs
end

/-- The default of a declaration, down to the depth `n` (a default contains no elements of arrays, so that this is the
default if references are elements of arrays). -/
def defaultAt (d : Decls) : Nat → Nat → Val
  | 0, _ => .item 0
  | n + 1, i => defaultIn (defaultAt d n) (d i)

/-- `v` is an object of the declaration `i`, with at most `n` objects inside of each other. -/
def ObjectAt (cfg : Cfg) (d : Decls) : Nat → Nat → Env → Val → Prop
  | 0, _, _, _ => False
  | n + 1, i, env, v => ValidIn cfg (ObjectAt cfg d n) (defaultAt d n) (d i) env v

/-- `v` is an object of the declaration `i`. -/
def IsObject (cfg : Cfg) (d : Decls) (i : Nat) (env : Env) (v : Val) : Prop := ∃ n, ObjectAt cfg d n i env v

/-- The declarations are supported (in the sense of C24), and refer to each other only as elements of arrays.
`packs` tells which declarations are used in packed arrays. -/
structure SupportedDecls (cfg : Cfg) (packs : Nat → Bool) (d : Decls) : Prop where
  inArrays : ∀ i, InArrays (d i)
  supported : ∀ i, ((d i).close fun j => if packs j then noValues else notPackable).Supported cfg
  packable : ∀ i, packs i = true →
    ((d i).close fun j => if packs j then noValues else notPackable).Packable cfg false

/-- What deeper calls do is arbitrary, as long as it comes from supported types. -/
def SupportedBelow (cfg : Cfg) (packs : Nat → Bool) (below : Nat → Ty) : Prop :=
  ∀ j, (below j).Supported cfg ∧ (packs j = true → (below j).Packable cfg false)

/-- Only generated types are declared: structures, choices, unions, enumerations and bitmasks. -/
def isDeclaration : DTy → Bool
  | .ref _ => false
  | .scalar _ => false
  | _ => true

/-- `n` active calls suffice to read the declaration `i` from `r`: what deeper calls do makes no difference. -/
def CallsSuffice (cfg : Cfg) (d : Decls) (n i : Nat) (r : Reader) : Prop :=
  ∀ below below' env old, ((unfoldDecl d below n i).ops cfg).read env old r =
    ((unfoldDecl d below' n i).ops cfg).read env old r

end Spec

end Zs
