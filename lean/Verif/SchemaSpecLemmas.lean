import Verif.SchemaSpec

/-!
# Unfolding the specification of valid values on given constructors
-/

namespace Zs

open Spec

@[simp] theorem Ty.valid_struct {cfg : Cfg} {ps0 : List Val} {fs : Fields} {env : Env} {ps vs : List Val} :
    (Ty.struct ps0 fs).Valid cfg env (.obj ps vs) ↔ fs.Valid cfg ps [] vs := by
  simp only [Ty.Valid]
  exact ⟨fun ⟨_, _, e, h⟩ => by cases e; exact h, fun h => ⟨_, _, rfl, h⟩⟩

@[simp] theorem Ty.valid_choice {cfg : Cfg} {ps0 : List Val} {sel : List Val → Val} {cs : Cases} {env : Env}
    {ps vs : List Val} :
    (Ty.choice ps0 sel cs).Valid cfg env (.obj ps vs) ↔ cs.Valid cfg ps (sel ps) false vs := by
  simp only [Ty.Valid]
  exact ⟨fun ⟨_, _, e, h⟩ => by cases e; exact h, fun h => ⟨_, _, rfl, h⟩⟩

@[simp] theorem Ty.valid_union {cfg : Cfg} {ps0 : List Val} {fs : Fields} {env : Env} {ps vs : List Val} {sel : Nat} :
    (Ty.union ps0 fs).Valid cfg env (.union ps sel vs) ↔ sel < 2 ^ 31 ∧ fs.ValidMember cfg ps sel vs := by
  simp only [Ty.Valid]
  exact ⟨fun ⟨_, _, _, e, h⟩ => by cases e; exact h, fun h => ⟨_, _, _, rfl, h⟩⟩

@[simp] theorem Ty.valid_enum {cfg : Cfg} {base : Scalar} {items : List (Option Int)} {env : Env} {i : Nat} :
    (Ty.enum base items).Valid cfg env (.item i) ↔ ∃ x, (enumValues items)[i]? = some x ∧
      base.Contains x ∧ x < 2 ^ 63 := by
  simp only [Ty.Valid]
  exact ⟨fun ⟨_, _, e, h⟩ => by cases e; exact ⟨_, h⟩, fun ⟨_, h⟩ => ⟨_, _, rfl, h⟩⟩

@[simp] theorem Fields.valid_cons {cfg : Cfg} {info : FieldInfo} {ty : Ty} {rest : Fields} {ps done : List Val}
    {v : Val} {vs : List Val} : (Fields.cons info ty rest).Valid cfg ps done (v :: vs) ↔
      info.FieldValid (ty.Valid cfg) ty.default ⟨ps, done⟩ v ∧ rest.Valid cfg ps (done ++ [v]) vs := by
  simp only [Fields.Valid]
  exact ⟨fun ⟨_, _, e, h⟩ => by cases e; exact h, fun h => ⟨_, _, rfl, h⟩⟩

@[simp] theorem Fields.validMember_zero {cfg : Cfg} {info : FieldInfo} {ty : Ty} {rest : Fields} {ps : List Val}
    {v : Val} {vs : List Val} : (Fields.cons info ty rest).ValidMember cfg ps 0 (v :: vs) ↔
      info.FieldValid (ty.Valid cfg) ty.default ⟨ps, []⟩ v ∧ vs = rest.defaults := by
  simp only [Fields.ValidMember]
  exact ⟨fun ⟨_, _, e, h⟩ => by cases e; exact h, fun h => ⟨_, _, rfl, h⟩⟩

@[simp] theorem Fields.validMember_succ {cfg : Cfg} {info : FieldInfo} {ty : Ty} {rest : Fields} {ps : List Val}
    {k : Nat} {v : Val} {vs : List Val} : (Fields.cons info ty rest).ValidMember cfg ps (k + 1) (v :: vs) ↔
      v = info.default ty.default ∧ rest.ValidMember cfg ps k vs := by
  simp only [Fields.ValidMember]
  exact ⟨fun ⟨_, _, e, h⟩ => by cases e; exact h, fun h => ⟨_, _, rfl, h⟩⟩

@[simp] theorem Cases.valid_field {cfg : Cfg} {labels : List Val} {info : FieldInfo} {ty : Ty} {rest : Cases}
    {ps : List Val} {sel : Val} {taken : Bool} {v : Val} {vs : List Val} :
    (Cases.field labels info ty rest).Valid cfg ps sel taken (v :: vs) ↔
      (if taken = false ∧ sel ∈ labels then
        info.FieldValid (ty.Valid cfg) ty.default ⟨ps, []⟩ v
      else v = info.default ty.default) ∧
      rest.Valid cfg ps sel (taken || decide (sel ∈ labels)) vs := by
  simp only [Cases.Valid]
  exact ⟨fun ⟨_, _, e, h⟩ => by cases e; exact h, fun h => ⟨_, _, rfl, h⟩⟩

theorem FieldInfo.contentValid_list {o : Bool} {c : Option (Env → Bool)} {al : Nat} {off : Offset}
    {a : ArrayInfo} {args : List (Env → Nat → Val)} {iof : Bool}
    {valid : Env → Val → Prop} {d : Val} {env : Env} {xs : List Val} :
    FieldInfo.ContentValid ⟨o, c, al, off, some a, args, iof⟩ valid d env (.list xs) ↔
      LengthFits (a.length.map (fun e => e env)) xs.length ∧
      ∀ i y, xs[i]? = some y → valid env y ∧
        y.params = FieldInfo.expectedParams ⟨o, c, al, off, some a, args, iof⟩ d env i := by
  simp only [FieldInfo.ContentValid]
  exact ⟨fun ⟨_, e, h⟩ => by cases e; exact h, fun h => ⟨_, rfl, h⟩⟩

@[simp] theorem Ty.valid_scalar {cfg : Cfg} {s : Scalar} {env : Env} {v : Val} :
    (Ty.scalar s).Valid cfg env v ↔ s.InRange cfg env v := by simp only [Ty.Valid]

@[simp] theorem Ty.valid_bitmask {cfg : Cfg} {s : Scalar} {first : Int} {env : Env} {v : Val} :
    (Ty.bitmask s first).Valid cfg env v ↔ s.InRange cfg ⟨[], []⟩ v := by simp only [Ty.Valid]

@[simp] theorem Fields.valid_nil {cfg : Cfg} {ps done vs : List Val} :
    Fields.nil.Valid cfg ps done vs ↔ vs = [] := by simp only [Fields.Valid]

@[simp] theorem Cases.valid_nil {cfg : Cfg} {ps : List Val} {sel : Val} {taken : Bool} {vs : List Val} :
    Cases.nil.Valid cfg ps sel taken vs ↔ vs = [] := by simp only [Cases.Valid]

@[simp] theorem Cases.valid_empty {cfg : Cfg} {labels : List Val} {rest : Cases} {ps : List Val} {sel : Val}
    {taken : Bool} {vs : List Val} : (Cases.empty labels rest).Valid cfg ps sel taken vs ↔
      rest.Valid cfg ps sel (taken || decide (sel ∈ labels)) vs := by simp only [Cases.Valid]

theorem FieldInfo.contentValid_single {info : FieldInfo} (ha : info.array = none)
    {valid : Env → Val → Prop} {d : Val} {env : Env} {x : Val} :
    info.ContentValid valid d env x ↔ valid env x ∧ x.params = info.expectedParams d env 0 := by
  simp only [FieldInfo.ContentValid, ha]

theorem forall_get_cons {P : Nat → Val → Prop} {x : Val} {xs : List Val} :
    (∀ i y, (x :: xs)[i]? = some y → P i y) ↔ P 0 x ∧ ∀ i y, xs[i]? = some y → P (i + 1) y := by
  constructor
  · intro h
    exact ⟨h 0 x rfl, fun i y hy => h (i + 1) y hy⟩
  · rintro ⟨h0, h⟩ i y hy
    cases i with
    | zero => cases hy; exact h0
    | succ i => exact h i y hy

theorem forall_get_nil {P : Nat → Val → Prop} :
    (∀ i y, ([] : List Val)[i]? = some y → P i y) ↔ True := by simp

end Zs
