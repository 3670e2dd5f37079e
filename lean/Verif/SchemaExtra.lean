import Verif.SchemaCodec

/-!
# Lemmas for the properties of optional fields, choices and used objects
-/

namespace Zs

open Spec

/-! ## Optional and conditional fields -/

/-- The field without `optional`, condition and alignment (offsets of single elements stay). -/
def FieldInfo.mandatory (info : FieldInfo) : FieldInfo :=
  { info with optional := false, clause := none, alignment := 0, offset := if info.offset = .indexed then .indexed else .none }

theorem FieldOps.mandatory_indexed (info : FieldInfo) (t : TypeOps) :
    FieldOps.indexed ⟨info.mandatory, t⟩ = FieldOps.indexed ⟨info, t⟩ := by
  unfold FieldOps.indexed FieldInfo.mandatory
  cases info.offset <;> rfl

theorem FieldOps.mandatory_checkArgsAll (info : FieldInfo) (t : TypeOps) (env : Env) (i : Nat)
    (xs : List Val) : FieldOps.checkArgsAll ⟨info.mandatory, t⟩ env i xs =
      FieldOps.checkArgsAll ⟨info, t⟩ env i xs := by
  induction xs generalizing i with
  | nil => rfl
  | cons x xs ih => simp only [FieldOps.checkArgsAll, ih]; rfl

theorem FieldOps.mandatory_encode (info : FieldInfo) (t : TypeOps) (packed : Bool) (i : Nat)
    (env : Env) (x : Val) (n : Node) (w : Writer) :
    FieldOps.encode ⟨info.mandatory, t⟩ packed i env x n w =
      FieldOps.encodeContent ⟨info, t⟩ packed i env x n w := by
  have h1 : FieldOps.encode ⟨info.mandatory, t⟩ packed i env x n w =
      FieldOps.encodeContent ⟨info.mandatory, t⟩ packed i env x n w := by
    cases ho : info.offset <;>
      simp [FieldOps.encode, FieldOps.present, FieldInfo.mandatory, FieldOps.alignWriter,
        FieldOps.encodeOptional, ho]
  rw [h1]
  unfold FieldOps.encodeContent
  simp only [FieldOps.mandatory_indexed, FieldOps.mandatory_checkArgsAll]
  rfl

theorem FieldOps.mandatory_bitsize (info : FieldInfo) (t : TypeOps) (packed : Bool) (i : Nat)
    (env : Env) (x : Val) (n : Node) (pos : Nat) :
    FieldOps.bitsize ⟨info.mandatory, t⟩ packed i env x n pos =
      FieldOps.bitsizeContent ⟨info, t⟩ packed i env x n pos := by
  have h1 : FieldOps.bitsize ⟨info.mandatory, t⟩ packed i env x n pos =
      FieldOps.bitsizeContent ⟨info.mandatory, t⟩ packed i env x n pos := by
    cases ho : info.offset <;>
      simp [FieldOps.bitsize, FieldOps.present, FieldInfo.mandatory, FieldOps.alignBitsize,
        FieldOps.bitsizeOptional, ho]
  rw [h1]
  unfold FieldOps.bitsizeContent
  rw [FieldOps.mandatory_indexed]
  rfl

theorem FieldOps.mandatory_readParamAll (cfg : Cfg) (info : FieldInfo) (t : TypeOps)
    (a : ArrayDef Val) (env : Env) (k i : Nat) (n : Node) (d : Vec Val) (r : Reader) :
    FieldOps.readParamAll cfg ⟨info.mandatory, t⟩ a env k i n d r =
      FieldOps.readParamAll cfg ⟨info, t⟩ a env k i n d r := by
  induction k generalizing i n d r with
  | zero => rfl
  | succ k ih =>
    simp only [FieldOps.readParamAll, ih, FieldOps.mandatory_indexed]
    rfl

theorem FieldOps.mandatory_decode (cfg : Cfg) (info : FieldInfo) (t : TypeOps) (packed : Bool)
    (i : Nat) (env : Env) (x : Val) (n : Node) (r : Reader) :
    FieldOps.decode cfg ⟨info.mandatory, t⟩ packed i env x n r =
      FieldOps.decodeContent cfg ⟨info, t⟩ packed i env x n r := by
  have h1 : FieldOps.decode cfg ⟨info.mandatory, t⟩ packed i env x n r =
      FieldOps.decodeContent cfg ⟨info.mandatory, t⟩ packed i env x n r := by
    cases ho : info.offset <;>
      simp [FieldOps.decode, FieldOps.present, FieldInfo.mandatory, FieldOps.alignReader,
        FieldOps.decodeOptional, ho]
  rw [h1]
  unfold FieldOps.decodeContent
  simp only [FieldOps.decodeArray_eq, FieldOps.mandatory_readParamAll]
  rfl
/-! ## The case a choice takes -/

/-- The cases of a choice in order: labels, and field if there is one. -/
def Cases.list : Cases → List (List Val × Option (FieldInfo × Ty))
  | .nil => []
  | .field labels info ty rest => (labels, some (info, ty)) :: rest.list
  | .empty labels rest => (labels, none) :: rest.list

theorem selectCase_none {cfg : Cfg} {sel : Val} : ∀ {cases : Cases},
    (∀ c ∈ cases.list, sel ∉ c.1) → ∀ k, selectCase sel k (cases.ops cfg) = none
  | .nil, _, k => by simp [Cases.ops, selectCase]
  | .field labels info ty rest, h, k => by
    simp only [Cases.list, List.mem_cons, forall_eq_or_imp] at h
    simp only [Cases.ops, selectCase, if_neg h.1]
    exact selectCase_none h.2 _
  | .empty labels rest, h, k => by
    simp only [Cases.list, List.mem_cons, forall_eq_or_imp] at h
    simp only [Cases.ops, selectCase, if_neg h.1]
    exact selectCase_none h.2 _

theorem selectCase_first {cfg : Cfg} {sel : Val} {labels : List Val}
    {field : Option (FieldInfo × Ty)} {post : List (List Val × Option (FieldInfo × Ty))} :
    ∀ {cases : Cases} {pre : List (List Val × Option (FieldInfo × Ty))},
    cases.list = pre ++ (labels, field) :: post → (∀ c ∈ pre, sel ∉ c.1) → sel ∈ labels →
    ∀ k, selectCase sel k (cases.ops cfg) =
      field.map (fun f => (k + (pre.filterMap Prod.snd).length, ⟨f.1, f.2.ops cfg⟩))
  | .nil, pre, he, _, _, k => by simp [Cases.list] at he
  | .field ls info ty rest, [], he, _, hs, k => by
    simp only [Cases.list, List.nil_append, List.cons.injEq, Prod.mk.injEq] at he
    obtain ⟨⟨rfl, rfl⟩, _⟩ := he
    simp [Cases.ops, selectCase, hs]
  | .empty ls rest, [], he, _, hs, k => by
    simp only [Cases.list, List.nil_append, List.cons.injEq, Prod.mk.injEq] at he
    obtain ⟨⟨rfl, rfl⟩, _⟩ := he
    simp [Cases.ops, selectCase, hs]
  | .field ls info ty rest, p :: pre, he, hp, hs, k => by
    simp only [Cases.list, List.cons_append, List.cons.injEq] at he
    obtain ⟨rfl, he⟩ := he
    simp only [List.mem_cons, forall_eq_or_imp] at hp
    simp only [Cases.ops, selectCase, if_neg hp.1, Option.isSome_some, if_true,
      selectCase_first he hp.2 hs (k + 1), List.filterMap_cons, List.length_cons]
    cases field <;> simp
    omega
  | .empty ls rest, p :: pre, he, hp, hs, k => by
    simp only [Cases.list, List.cons_append, List.cons.injEq] at he
    obtain ⟨rfl, he⟩ := he
    simp only [List.mem_cons, forall_eq_or_imp] at hp
    simp only [Cases.ops, selectCase, if_neg hp.1, Option.isSome_none, Bool.false_eq_true, if_false,
      selectCase_first he hp.2 hs k, List.filterMap_cons]

/-! ## Reading into used objects -/

theorem readParamAll_capacity (cfg : Cfg) (f : FieldOps) (a : ArrayDef Val) (env : Env) (k i : Nat)
    (n : Node) (xs : List Val) (c c' : Nat) (r : Reader) {β : Type} (g : List Val → Reader → Res β) :
    (f.readParamAll cfg a env k i n ⟨xs, c⟩ r >>= fun q => g q.1.items q.2) =
    (f.readParamAll cfg a env k i n ⟨xs, c'⟩ r >>= fun q => g q.1.items q.2) := by
  induction k generalizing i n xs c c' r with
  | zero => rfl
  | succ k ih =>
    simp only [FieldOps.readParamAll, bind_assoc]
    congr 1; funext p
    have hp : ∀ c, Vec.push cfg.minCap ⟨xs, c⟩ p.1.1 =
        ⟨xs ++ [p.1.1], (Vec.push cfg.minCap ⟨xs, c⟩ p.1.1).capacity⟩ := by
      intro c
      simp only [Vec.push, Vec.reserve]
      split <;> rfl
    rw [hp c, hp c']
    exact ih ..

theorem decodeArray_capacity (cfg : Cfg) (f : FieldOps) (a : ArrayDef Val) (env : Env)
    (d d' : Vec Val) (r : Reader) : f.decodeArray cfg a env d r = f.decodeArray cfg a env d' r := by
  simp only [FieldOps.decodeArray_eq]
  congr 1; funext p
  have hp : ∀ d : Vec Val, ArrayDef.prepare cfg.minCap cfg.chunk d p.1 =
      ⟨[], (ArrayDef.prepare cfg.minCap cfg.chunk d p.1).capacity⟩ := by
    intro d
    have hi : (ArrayDef.prepare cfg.minCap cfg.chunk d p.1).items = [] := by
      unfold ArrayDef.prepare Vec.reserve Vec.clear
      split <;> rfl
    exact congrArg (fun l => Vec.mk l (ArrayDef.prepare cfg.minCap cfg.chunk d p.1).capacity) hi
  rw [hp d, hp d']
  exact readParamAll_capacity cfg f a env _ _ _ _ _ _ _ (fun xs r => .ok (Val.list xs, r))

/-- Old content has the Rust type of the field: arrays are vectors. -/
def FieldInfo.Shaped (info : FieldInfo) (old : Val) : Prop :=
  info.array.isSome = true → ∃ xs, old = .list xs

theorem decode_used (cfg : Cfg) (f : FieldOps) (ho : f.info.optional = false)
    (hc : f.info.clause = none) {old old' : Val} (hs : f.info.Shaped old) (hs' : f.info.Shaped old')
    (packed : Bool) (i : Nat) (env : Env) (n : Node) (r : Reader) :
    f.decode cfg packed i env old n r = f.decode cfg packed i env old' n r := by
  simp only [FieldOps.decode, FieldOps.present, hc, if_true, FieldOps.decodeOptional, ho,
    Bool.false_eq_true, if_false]
  congr 1; funext r
  unfold FieldOps.decodeContent
  cases ha : f.info.array with
  | none => rfl
  | some a =>
    obtain ⟨xs, rfl⟩ := hs (by simp [ha])
    obtain ⟨xs', rfl⟩ := hs' (by simp [ha])
    simp only
    rw [decodeArray_capacity cfg f _ env ⟨xs, xs.length⟩ ⟨xs', xs'.length⟩]

/-- Old fields of a structure have the right Rust types. -/
def Fields.Shaped : Fields → List Val → Prop
  | .nil, vs => vs = []
  | .cons info _ rest, vs => ∃ v vs', vs = v :: vs' ∧ info.Shaped v ∧ rest.Shaped vs'

/-- Every field is always present: neither optional nor conditional. -/
def Fields.AlwaysPresent : Fields → Prop
  | .nil => True
  | .cons info _ rest => info.optional = false ∧ info.clause = none ∧ rest.AlwaysPresent

theorem decodeFields_used (cfg : Cfg) (packed : Bool) (ps : List Val) : ∀ (fs : Fields),
    fs.AlwaysPresent → ∀ (vs vs' : List Val), fs.Shaped vs → fs.Shaped vs' →
    ∀ (i : Nat) (done : List Val) (n : Node) (r : Reader),
    decodeFields cfg packed ps (fs.ops cfg) i done vs n r =
      decodeFields cfg packed ps (fs.ops cfg) i done vs' n r
  | .nil, _, vs, vs', h, h', i, done, n, r => by
    simp only [Fields.Shaped] at h h'
    rw [h, h']
  | .cons info ty rest, ha, vs, vs', h, h', i, done, n, r => by
    simp only [Fields.AlwaysPresent] at ha
    simp only [Fields.Shaped] at h h'
    obtain ⟨v, vs, rfl, h1, h2⟩ := h
    obtain ⟨v', vs', rfl, h1', h2'⟩ := h'
    simp only [Fields.ops, decodeFields]
    rw [decode_used cfg ⟨info, ty.ops cfg⟩ ha.1 ha.2.1 h1 h1']
    congr 1; funext p
    exact decodeFields_used cfg packed ps rest ha.2.2 vs vs' h2 h2' _ _ _ _

end Zs
