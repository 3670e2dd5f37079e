import Verif.ExprType

/-!
# Specification: the types of Rust expressions

The part of Rust's type system that generated expressions need (Rust reference: "Literal expressions",
"Operator expressions", "Type cast expressions", "Method-call expressions"), and a condition on schema
expressions.  Nothing here is code of the repository.

Left out: whether literals are in range (C52), ownership (C56).  Assumed of the crate `bitmask-enum`: a
bitmask has `&`, `|`, `^`, `!` with itself, `bits()`, and `==`, `!=` with itself and with its underlying
integer type.
-/

namespace Zs.Spec

/-- Rust types of generated expressions. -/
inductive RTy where
  | int (t : IntTy)
  | usize
  | float (width : Nat)
  | bool
  | string
  | str
  | enum (id : String)
  | bitmask (id : String) (base : IntTy)
  | object (id : String)
  | option (t : RTy)
  | vec (t : RTy)
  deriving DecidableEq

namespace RTy

/-- Integer types; an integer literal can have any of them. -/
def Integer : RTy → Prop
  | .int _ | .usize => True
  | _ => False

/-- Types with `+ - * / %`. -/
def Number : RTy → Prop
  | .int _ | .usize | .float _ => True
  | _ => False

/-- Types with a sign. -/
def Negatable : RTy → Prop
  | .int t => t.signed = true
  | .float _ => True
  | _ => False

/-- Types with `& | ^ !`. -/
def Bits : RTy → Prop
  | .int _ | .usize | .bool | .bitmask .. => True
  | _ => False

/-- Types that `format!("{}")` prints. -/
def Display : RTy → Prop
  | .int _ | .usize | .float _ | .bool | .string | .str => True
  | _ => False

/-- The comparison `op` of the two types exists: numbers, booleans and strings are ordered; generated
types derive `PartialEq` only. -/
def Comparable (op : CmpOp) : RTy → RTy → Prop
  | .int t, .int u => t = u
  | .usize, .usize | .bool, .bool | .string, .string | .str, .str => True
  | .string, .str | .str, .string => op = .eq ∨ op = .ne
  | .float w, .float v => w = v
  | .bitmask _ base, .int t => base = t ∧ (op = .eq ∨ op = .ne)
  | s, t => s = t ∧ (op = .eq ∨ op = .ne)

/-- Types that can be cast to numbers. -/
def Castable : RTy → Prop
  | .int _ | .usize | .float _ | .bool | .enum _ => True
  | _ => False

/-- `e as T`: numbers to numbers, booleans and enums to integers, anything to its own type. -/
def CanCast : RTy → RTy → Prop
  | s, t => s = t ∨ (s.Number ∧ t.Number) ∨ ((s = .bool ∨ ∃ id, s = .enum id) ∧ t.Integer)

end RTy

/-- The types that are named in casts. -/
def primType : String → Option RTy
  | "i8" => some (.int ⟨true, 8⟩)
  | "i16" => some (.int ⟨true, 16⟩)
  | "i32" => some (.int ⟨true, 32⟩)
  | "i64" => some (.int ⟨true, 64⟩)
  | "u8" => some (.int ⟨false, 8⟩)
  | "u16" => some (.int ⟨false, 16⟩)
  | "u32" => some (.int ⟨false, 32⟩)
  | "u64" => some (.int ⟨false, 64⟩)
  | "f32" => some (.float 32)
  | "f64" => some (.float 64)
  | "usize" => some .usize
  | "bool" => some .bool
  | "String" => some .string
  | _ => none

/-- The Rust type of the values of a numeric zserio type (`Mixing.lean`, `generator/types.rs`). -/
def numTy (n : NumName) : RTy :=
  match n.rustInt with
  | some t => .int t
  | none => .float (n.rustFloat.getD 0)

/-- The Rust type of the underlying integers of a bitmask. -/
def baseTy (r : NumRef) : IntTy := (r.name.rustInt).getD .i32

/-- The Rust type of a field of the type `t`; a function is not a field. -/
def valueTy : ZTy → Option RTy
  | .num n => some (numTy n)
  | .bool => some .bool
  | .string => some .string
  | .enum id _ => some (.enum id)
  | .bitmask id base => some (.bitmask id (baseTy base))
  | .compound id => some (.object id)
  | .function _ => none

/-- The Rust type of what a name refers to: optional fields are `Option`s, arrays are `Vec`s, string
constants are `&str`; types are no values. -/
def symbTy (s : Symb) : Option RTy :=
  match s.shape with
  | .plain => valueTy s.ty
  | .optional => (valueTy s.ty).map .option
  | .array => (valueTy s.ty).map .vec
  | .optionalArray => (valueTy s.ty).map fun t => .option (.vec t)
  | .const => match s.ty with
    | .string => some .str
    | t => valueTy t
  | .typeName => none

/-- The result of a function. -/
def funcTy (s : Symb) : Option RTy := s.ty.result.bind valueTy

/-- What the generated code declares: names, functions of `self`, members and functions of objects, items
of enums and bitmasks, the loop variable. -/
structure RScope (F : Type) where
  name : String → Option RTy
  func : String → Option RTy
  member : String → String → Option RTy
  method : String → String → Option RTy
  item : Expr F → String → Option RTy
  index : Option RTy

/-- The declarations for a symbol table. -/
def rscope {F : Type} (sc : TScope) : RScope F where
  name := fun n => (sc.ident n).bind symbTy
  func := fun n => (sc.ident n).bind funcTy
  member := fun id n => (sc.member id n).bind symbTy
  method := fun id n => (sc.member id n).bind funcTy
  item := fun e n => match e.symbol sc with
    | some ⟨.enum id _, .typeName⟩ => if sc.hasItem id n then some (.enum id) else none
    | some ⟨.bitmask id base, .typeName⟩ =>
      if sc.hasItem id n then some (.bitmask id (baseTy base)) else none
    | _ => none
  index := if sc.index then some .usize else none

/-- The result of the method `m` of a value of the type `t`; everything that occurs can be cloned. -/
def methodTy {F : Type} (Γ : RScope F) (t : RTy) (m : String) : Option RTy :=
  if m = "clone" then some t else
  match t with
  | .object id => Γ.method id m
  | .vec _ | .string | .str => if m = "len" then some .usize else none
  | .bitmask _ base => if m = "bits" then some (.int base) else none
  | _ => none

variable {fo : FloatOps}

/-- The Rust expression can have the type `t`. -/
def Typed (Γ : RScope fo.F) : RExpr fo.F → RTy → Prop
  | .atom (.int _), t => t.Integer
  | .atom (.bool _), t => t = .bool
  | .atom (.str _), t => t = .str
  | .atom (.float f), t => match fo.printsInteger f with
    | some _ => t.Integer
    | none => ∃ w, t = .float w
  | .atom (.name n), t => Γ.name n = some t
  | .atom (.item e n), t => Γ.item e n = some t
  | .atom .index, t => Γ.index = some t
  | .paren e, t => Typed Γ e t
  | .call (.atom (.name n)), t => Γ.func n = some t
  | .call (.field e m), t => ∃ s, Typed Γ e s ∧ methodTy Γ s m = some t
  | .call _, _ => False
  | .apply path e, t => path = "zserio::numbits" ∧ t = .int ⟨false, 8⟩ ∧ ∃ s, Typed Γ e s ∧ s.Integer
  | .field e n, t => ∃ id, Typed Γ e (.object id) ∧ Γ.member id n = some t
  | .elem e i, t => Typed Γ e (.vec t) ∧ Typed Γ i .usize
  | .cast e ty, t => primType ty = some t ∧ ∃ s, Typed Γ e s ∧ s.CanCast t
  | .neg e, t => Typed Γ e t ∧ t.Negatable
  | .not e, t => Typed Γ e t ∧ t.Bits
  | .bin (.arith _) a b, t => Typed Γ a t ∧ Typed Γ b t ∧ t.Number
  | .bin (.bit op) a b, t =>
    if op = .shl ∨ op = .shr then Typed Γ a t ∧ t.Integer ∧ ∃ s, Typed Γ b s ∧ s.Integer
    else Typed Γ a t ∧ Typed Γ b t ∧ t.Bits
  | .bin (.cmp op) a b, t =>
    t = .bool ∧ ∃ s1 s2, Typed Γ a s1 ∧ Typed Γ b s2 ∧ s1.Comparable op s2
  | .bin (.logic _) a b, t => t = .bool ∧ Typed Γ a .bool ∧ Typed Γ b .bool
  | .ite c a b, t => Typed Γ c .bool ∧ Typed Γ a t ∧ Typed Γ b t
  | .concat a b, t => t = .string ∧ (∃ s, Typed Γ a s ∧ s.Display) ∧ ∃ s, Typed Γ b s ∧ s.Display

/-! ## Schema expressions -/

/-- What is known about the Rust type of an expression: literals leave it open. -/
inductive STy where
  | anyInt
  | anySigned
  | anyFloat
  | is (t : RTy)
  | bad

namespace STy

/-- The type is possible. -/
def Allows : STy → RTy → Prop
  | .anyInt, t => t.Integer
  | .anySigned, t => ∃ i, t = .int i ∧ i.signed = true
  | .anyFloat, t => ∃ w, t = .float w
  | .is s, t => s = t
  | .bad, _ => False

/-- There is a type of the kind `p` for the expression. -/
def Can (s : STy) (p : RTy → Prop) : Prop := ∃ t, s.Allows t ∧ p t

/-- There is a common type of the kind `p`. -/
def Meets (p : RTy → Prop) (s u : STy) : Prop := ∃ t, s.Allows t ∧ u.Allows t ∧ p t

/-- The more definite of the two. -/
def join : STy → STy → STy
  | .is t, _ => .is t
  | .bad, _ => .bad
  | _, .is t => .is t
  | _, .bad => .bad
  | .anyInt, s => s
  | s, .anyInt => s
  | s, _ => s

/-- With a minus sign. -/
def negate : STy → STy
  | .anyInt => .anySigned
  | s => s

/-- From a type that may not exist. -/
def ofOption : Option RTy → STy
  | some t => .is t
  | none => .bad

end STy

/-- Nothing is asked of the type. -/
def anyType : RTy → Prop := fun _ => True

/-- The Rust type of the code for a schema expression, provided that there is one. -/
def sort (md : Mode) (sc : TScope) : Expr fo.F → STy
  | .intLit _ => .anyInt
  | .boolLit _ => .is .bool
  | .strLit _ => .is .str
  | .floatLit f => if (fo.printsInteger f).isSome then .anyInt else .anyFloat
  | .paren e => sort md sc e
  | .ident n => .ofOption ((sc.ident n).bind symbTy)
  | .call (.ident n) => .ofOption ((sc.ident n).bind funcTy)
  | .call (.dot e n) => match e.evaluate md sc.erase, sort md sc e with
    | .ok (.compound, _), .is (.object id) => .ofOption ((sc.member id n).bind funcTy)
    | _, _ => .bad
  | .call _ => .bad
  | .elem e _ => match sort md sc e with
    | .is (.vec t) => .is t
    | _ => .bad
  | .dot e n => match e.evaluate md sc.erase with
    | .ok (.compound, _) => match sort md sc e with
      | .is (.object id) => .ofOption ((sc.member id n).bind symbTy)
      | _ => .bad
    | _ => .ofOption ((rscope sc).item e n)
  | .isset _ _ | .cmp .. | .logic .. => .is .bool
  | .valueof e => match (Expr.valueof e).nativeOf md sc with
    | some r => .is (numTy r.name)
    | none => .bad
  | .lengthof _ | .numbits _ => .is (.int ⟨false, 32⟩)
  | .plus e | .not e | .compl e => sort md sc e
  | .neg e => (sort md sc e).negate
  | .arith op a b => match (Expr.arith op a b).evaluate md sc.erase with
    | .ok (.str _, _) => .is .string
    | _ => match (Expr.arith op a b).nativeOf md sc with
      | some r => .is (numTy r.name)
      | none => (sort md sc a).join (sort md sc b)
  | .bit op a b => match op with
    | .shl | .shr => sort md sc a
    | _ => (sort md sc a).join (sort md sc b)
  | .tern _ a b => (sort md sc a).join (sort md sc b)
  | .index => if sc.index then .is .usize else .bad

/-- The Rust types in a schema expression fit together.  The cases that say something: an operand of an
arithmetic operation has to be a number, and one whose type the compiler does not know (a literal, a
result of `& | ^ << >>` or `?:`) has to be possible in the type of the result, whereas others are cast;
the operands of comparisons, of `& | ^` and the branches of `?:` have to have the same type in the first
place. -/
def Coherent (md : Mode) (sc : TScope) : Expr fo.F → Prop
  | .intLit _ | .boolLit _ | .strLit _ | .floatLit _ => True
  | .paren e | .plus e => Coherent md sc e
  | .ident n => (sort md sc (.ident n : Expr fo.F)).Can anyType
  | .call (.ident n) => (sort md sc (.call (.ident n) : Expr fo.F)).Can anyType
  | .call (.dot e n) => Coherent md sc e ∧ (sort md sc (.call (.dot e n))).Can anyType
  | .call _ => False
  | .elem e i => Coherent md sc e ∧ Coherent md sc i ∧ (sort md sc (.elem e i)).Can anyType ∧
      (sort md sc i).Allows .usize
  | .dot e n => (sort md sc (.dot e n)).Can anyType ∧
      ((∃ r, e.evaluate md sc.erase = .ok (.compound, r)) → Coherent md sc e)
  | .isset e x => Coherent md sc e ∧ Coherent md sc x ∧
      STy.Meets (fun t => t.Bits ∧ t ≠ .bool) (sort md sc e) (sort md sc x)
  | .valueof e => Coherent md sc e ∧ (sort md sc (.valueof e)).Can anyType ∧
      (sort md sc e).Can (fun t => if e.isBitmaskField md sc = true then ∃ id b, t = .bitmask id b
        else ∃ u, (sort md sc (.valueof e)).Allows u ∧ t.CanCast u)
  | .lengthof e => Coherent md sc e ∧ (sort md sc e).Can (fun t => (∃ u, t = .vec u) ∨ t = .string ∨
      t = .str)
  | .numbits e => Coherent md sc e ∧ (sort md sc e).Can RTy.Integer
  | .neg e => Coherent md sc e ∧ (sort md sc e).Can RTy.Negatable
  | .not e | .compl e => Coherent md sc e ∧ (sort md sc e).Can RTy.Bits
  | .cmp op a b => Coherent md sc a ∧ Coherent md sc b ∧
      ∃ s t, (sort md sc a).Allows s ∧ (sort md sc b).Allows t ∧ s.Comparable op t
  | .arith op a b => Coherent md sc a ∧ Coherent md sc b ∧
    match (Expr.arith op a b).evaluate md sc.erase with
    | .ok (.str _, _) => (sort md sc a).Can RTy.Display ∧ (sort md sc b).Can RTy.Display
    | _ => (sort md sc a).Can RTy.Number ∧ (sort md sc b).Can RTy.Number ∧
      match (Expr.arith op a b).nativeOf md sc with
      | some r => (a.nativeOf md sc = none → (sort md sc a).Allows (numTy r.name)) ∧
          (b.nativeOf md sc = none → (sort md sc b).Allows (numTy r.name))
      | none => STy.Meets RTy.Number (sort md sc a) (sort md sc b)
  | .bit op a b => Coherent md sc a ∧ Coherent md sc b ∧
    match op with
    | .shl | .shr => (sort md sc a).Can RTy.Integer ∧ (sort md sc b).Can RTy.Integer
    | _ => STy.Meets RTy.Bits (sort md sc a) (sort md sc b)
  | .logic _ a b => Coherent md sc a ∧ Coherent md sc b ∧ (sort md sc a).Allows .bool ∧
      (sort md sc b).Allows .bool
  | .tern c a b => Coherent md sc c ∧ Coherent md sc a ∧ Coherent md sc b ∧
      (sort md sc c).Allows .bool ∧ STy.Meets anyType (sort md sc a) (sort md sc b)
  | .index => sc.index = true

/-- No function of a schema type is called like one of the methods that generated code uses. -/
def Ordinary (sc : TScope) : Prop :=
  ∀ id n s r, sc.member id n = some s → s.ty = .function r → n ≠ "len" ∧ n ≠ "bits" ∧ n ≠ "clone"

end Zs.Spec
