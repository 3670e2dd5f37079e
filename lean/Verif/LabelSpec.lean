import Verif.Labels

/-!
# What labels mean, in the schema and as patterns of Rust

Specification for C63; nothing here models code of the repository.
-/

namespace Zs.Spec

open Zs

variable {fo : FloatOps}

/-! ## Selectors -/

/-- Types of selectors.  Strings and floats are left out. -/
inductive SelTy where
  | int (t : IntTy)
  | bool
  | enum (id : String)
  | bitmask (id : String)

/-- Values of selectors. -/
inductive SelVal where
  | int (n : Int)
  | bool (b : Bool)
  | item (id name : String)
  | mask (id : String) (bits : Nat)
  deriving DecidableEq

/-- The values of a type. -/
def SelVal.HasTy : SelVal → SelTy → Prop
  | .int n, .int t => t.Contains n
  | .bool _, .bool => True
  | .item id _, .enum id' => id = id'
  | .mask id _, .bitmask id' => id = id'
  | _, _ => False

/-- The values of the items of bitmasks and of constants. -/
structure LabelEnv where
  bits : String → String → Nat
  const : String → Option SelVal

/-- The item `a` of the type that the name `t` stands for. -/
def itemVal (env : LabelEnv) (sc : TScope) (t a : String) : Option SelVal :=
  match sc.ident t with
  | some ⟨.enum id _, .typeName⟩ => if sc.hasItem id a then some (.item id a) else none
  | some ⟨.bitmask id _, .typeName⟩ => if sc.hasItem id a then some (.mask id (env.bits id a)) else none
  | _ => none

/-! ## The schema -/

/-- What an operator makes of two bitmasks or integers. -/
def bitVal : BitOp → SelVal → SelVal → Option SelVal
  | .or, .int x, .int y => some (.int (bitwise (· ||| ·) x y))
  | .and, .int x, .int y => some (.int (bitwise (· &&& ·) x y))
  | .xor, .int x, .int y => some (.int (bitwise (· ^^^ ·) x y))
  | .or, .mask i x, .mask j y => if i = j then some (.mask i (x ||| y)) else none
  | .and, .mask i x, .mask j y => if i = j then some (.mask i (x &&& y)) else none
  | .xor, .mask i x, .mask j y => if i = j then some (.mask i (x ^^^ y)) else none
  | _, _, _ => none

/-- The value of a label of a choice whose selector has the type named `t`: a name is an item of that type,
if it has such an item, and a constant otherwise.  (zserio language overview, "Choice type": the type
prefix of an item may be left out.) -/
def labelVal {F : Type} (env : LabelEnv) (sc : TScope) (t : String) : Expr F → Option SelVal
  | .intLit n => some (.int n)
  | .boolLit b => some (.bool b)
  | .paren e => labelVal env sc t e
  | .plus e => match labelVal env sc t e with
    | some (.int n) => some (.int n)
    | _ => none
  | .neg e => match labelVal env sc t e with
    | some (.int n) => some (.int (-n))
    | _ => none
  | .arith op a b => match labelVal env sc t a, labelVal env sc t b with
    | some (.int x), some (.int y) => some (.int (op.exact x y))
    | _, _ => none
  | .bit op a b => match labelVal env sc t a, labelVal env sc t b with
    | some x, some y => bitVal op x y
    | _, _ => none
  | .dot (.ident u) a => itemVal env sc u a
  | .ident a => match itemVal env sc t a with
    | some v => some v
    | none => env.const a
  | _ => none

/-- The case that a value of the selector chooses: the first with a label of that value. -/
def chosen {F : Type} (env : LabelEnv) (sc : TScope) (t : String) (cases : List (List (Expr F)))
    (v : SelVal) : Option Nat :=
  cases.findIdx? fun labels => labels.any fun e => decide (labelVal env sc t e = some v)

/-! ## Rust -/

/-- Alternatives of a pattern: a literal, a path of an item or constant, a name (which matches
everything), or a literal of a string or float (which has none of the types above). -/
inductive Alt (F : Type) where
  | int (n : Int)
  | bool (b : Bool)
  | item (type : Expr F) (name : String)
  | const (name : String)
  | any
  | foreign

/-- The alternatives of a pattern, for the tokens that occur in labels: literals, `-` before a number,
paths, parentheses and `|` (Rust reference, "Patterns").  `depth` counts the open parentheses; the flag
says that an alternative must follow.  Only constants among the names are written as paths
(`generator/expression.rs` lines 305-340), the others as `self.name`, which is no pattern; types are no
patterns either. -/
def alternatives {F : Type} (sc : TScope) : Nat → Bool → List (Tok F) → Option (List (Alt F))
  | d, true, .lpar :: ts => alternatives sc (d + 1) true ts
  | d, true, .op (.arith .sub) :: .atom (.int n) :: ts =>
    (alternatives sc d false ts).map (.int (-n) :: ·)
  | d, true, .op (.arith .sub) :: .atom (.float _) :: ts =>
    (alternatives sc d false ts).map (.foreign :: ·)
  | d, true, .atom (.int n) :: ts => (alternatives sc d false ts).map (.int n :: ·)
  | d, true, .atom (.bool b) :: ts => (alternatives sc d false ts).map (.bool b :: ·)
  | d, true, .atom (.str _) :: ts => (alternatives sc d false ts).map (.foreign :: ·)
  | d, true, .atom (.float _) :: ts => (alternatives sc d false ts).map (.foreign :: ·)
  | d, true, .atom (.item e a) :: ts => (alternatives sc d false ts).map (.item e a :: ·)
  | d, true, .atom .index :: ts => (alternatives sc d false ts).map (.any :: ·)
  | d, true, .atom (.name x) :: ts => match sc.ident x with
    | some ⟨_, .const⟩ => (alternatives sc d false ts).map (.const x :: ·)
    | _ => none
  | d, false, .op (.bit .or) :: ts => alternatives sc d true ts
  | d + 1, false, .rpar :: ts => alternatives sc d false ts
  | 0, false, [] => some []
  | _, _, _ => none

/-- The text `ts` is a pattern with the alternatives `as`. -/
def IsPattern {F : Type} (sc : TScope) (ts : List (Tok F)) (as : List (Alt F)) : Prop :=
  alternatives sc 0 true ts = some as

/-- The value of an alternative. -/
def Alt.val {F : Type} (env : LabelEnv) (sc : TScope) : Alt F → Option SelVal
  | .int n => some (.int n)
  | .bool b => some (.bool b)
  | .item (.ident t) a => itemVal env sc t a
  | .const x => env.const x
  | _ => none

/-- The alternative matches the value. -/
def Alt.Matches {F : Type} (env : LabelEnv) (sc : TScope) (v : SelVal) (a : Alt F) : Prop :=
  match a with
  | .any => True
  | a => a.val env sc = some v

instance {F : Type} (env : LabelEnv) (sc : TScope) (v : SelVal) (a : Alt F) :
    Decidable (a.Matches env sc v) := by
  unfold Alt.Matches
  split <;> infer_instance

/-- The alternative has the type `ty`; an integer literal that the type does not contain is an error. -/
def Alt.Fits {F : Type} (env : LabelEnv) (sc : TScope) (ty : SelTy) (a : Alt F) : Prop :=
  match a with
  | .any => True
  | a => ∃ v, a.val env sc = some v ∧ v.HasTy ty

/-- The arm of a `match` that a value takes: the first that matches.  `none`: the arm `_`. -/
def taken {F : Type} (env : LabelEnv) (sc : TScope) (arms : List (List (Alt F))) (v : SelVal) :
    Option Nat :=
  arms.findIdx? fun as => as.any fun a => decide (a.Matches env sc v)

/-! ## Labels -/

/-- The label is written as a pattern: literals (with `-` before numbers), items and constants, in
parentheses and separated by `|`. -/
def Patterned (md : Mode) (sc : TScope) : Expr fo.F → Prop
  | .intLit _ | .boolLit _ | .strLit _ | .floatLit _ | .index => True
  | .neg (.intLit _) | .neg (.floatLit _) => True
  | .paren e => Patterned md sc e
  | .bit .or a b => Patterned md sc a ∧ Patterned md sc b
  | .dot e _ => ∃ k, e.evaluate md sc.erase = .ok (.enum, k) ∨ e.evaluate md sc.erase = .ok (.bitmask, k)
  | .ident x => ∃ t, sc.ident x = some ⟨t, .const⟩
  | _ => False

/-- A label of the plain kind: an integer or boolean literal, a negated integer literal, an item with its
type before it, a constant in parentheses, or one of these in parentheses.  (`t`: the name of the type of
the selector.) -/
def Inner {F : Type} (env : LabelEnv) (sc : TScope) (t : String) : Expr F → Prop
  | .intLit _ | .boolLit _ => True
  | .neg (.intLit n) => 0 ≤ n
  | .paren (.ident c) => (∃ ty, sc.ident c = some ⟨ty, .const⟩) ∧ itemVal env sc t c = none
  | .paren e => Inner env sc t e
  | .dot (.ident u) a => (itemVal env sc u a).isSome
  | _ => False

/-- A label of the plain kind, or an item of the selector's type without the type before it. -/
def Plain {F : Type} (env : LabelEnv) (sc : TScope) (t : String) : Expr F → Prop
  | .ident a => (itemVal env sc t a).isSome
  | e => Inner env sc t e

end Zs.Spec
