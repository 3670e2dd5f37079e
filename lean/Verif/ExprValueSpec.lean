import Verif.ExprTypeSpec

/-!
# Specification: the values of schema expressions and of Rust expressions

What a schema expression means (over the integers, without ranges), what the Rust expression emitted for
it computes (Rust reference: "Operator expressions", "Type cast expressions", "Overflow"), and when no
type is too small.  Nothing here is code of the repository.

Simplified: the operations on floats are left open (they may have any result); `usize` has 64 bits; the
literal `-128` is read as the negation of `128`, which does not fit into `i8` (Rust accepts it);
a generated function that panics has no value, and nothing is said about calls of it.
-/

namespace Zs.Spec

variable {fo : FloatOps}

/-- Values at run time.  Items of enums and bitmasks are their numbers; `O` are the objects. -/
inductive Datum (F O : Type) where
  | int (v : Int)
  | bool (b : Bool)
  | str (s : String)
  | float (f : F)
  | enum (v : Int)
  | mask (v : Int)
  | object (o : O)
  | list (l : List (Datum F O))
  | opt (o : Option (Datum F O))

/-- What the object that is read or written, its parameters and the constants look like. -/
structure World (F O : Type) where
  name : String → Option (Datum F O)
  func : String → Option (Datum F O)
  member : O → String → Option (Datum F O)
  method : O → String → Option (Datum F O)
  item : Expr F → String → Option (Datum F O)
  index : Option (Datum F O)
  isA : O → String → Prop

variable {O : Type}

/-- The integer type with its range; all have between 8 and 64 bits. -/
def RTy.ints : RTy → Option IntTy
  | .int t => if 8 ≤ t.width ∧ t.width ≤ 64 then some t else none
  | .usize => some ⟨false, 64⟩
  | _ => none

/-- The integer is a value of the type. -/
def RTy.Holds (t : RTy) (v : Int) : Prop := ∃ i, t.ints = some i ∧ i.Contains v

/-- The value has the type. -/
def HasTy (w : World fo.F O) : RTy → Datum fo.F O → Prop
  | .int t, .int v => (RTy.int t).Holds v
  | .usize, .int v => RTy.usize.Holds v
  | .float _, .float _ | .bool, .bool _ | .string, .str _ | .str, .str _ | .enum _, .enum _ => True
  | .bitmask _ base, .mask v => (RTy.int base).Holds v
  | .object id, .object o => w.isA o id
  | .vec t, .list l => ∀ x ∈ l, HasTy w t x
  | .option t, .opt o => ∀ x, o = some x → HasTy w t x
  | _, _ => False

/-- There is a value of the type, or neither type nor value. -/
def Provided (w : World fo.F O) : Option RTy → Option (Datum fo.F O) → Prop
  | some t, v => ∃ x, v = some x ∧ HasTy w t x
  | none, v => v = none

/-- A value that is returned has the type. -/
def Returned (w : World fo.F O) (t : Option RTy) (v : Option (Datum fo.F O)) : Prop :=
  ∀ x, v = some x → ∃ T, t = some T ∧ HasTy w T x

/-- The values have the declared types; functions need not return. -/
structure Conforms (w : World fo.F O) (Γ : RScope fo.F) : Prop where
  name : ∀ n, Provided w (Γ.name n) (w.name n)
  func : ∀ n, Returned w (Γ.func n) (w.func n)
  member : ∀ o id n, w.isA o id → Provided w (Γ.member id n) (w.member o n)
  method : ∀ o id n, w.isA o id → Returned w (Γ.method id n) (w.method o n)
  item : ∀ e n, Provided w (Γ.item e n) (w.item e n)
  index : Provided w Γ.index w.index

/-! ## What schema expressions mean -/

/-- Comparisons of integers. -/
def CmpOp.Says : CmpOp → Int → Int → Prop
  | .eq, x, y => x = y
  | .ne, x, y => x ≠ y
  | .lt, x, y => x < y
  | .le, x, y => x ≤ y
  | .gt, x, y => y < x
  | .ge, x, y => y ≤ x

instance (op : CmpOp) (x y : Int) : Decidable (CmpOp.Says op x y) := by
  cases op <;> simp only [CmpOp.Says] <;> infer_instance

/-- `==` and `!=` of anything. -/
def CmpOp.equality (op : CmpOp) (same : Bool) : Option Bool :=
  match op with
  | .eq => some same
  | .ne => some !same
  | _ => none

/-- The operation of the integers; division rounds towards zero and has no result for zero. -/
def ArithOp.result : ArithOp → Int → Int → Option Int
  | .add, x, y => some (x + y)
  | .sub, x, y => some (x - y)
  | .mul, x, y => some (x * y)
  | .div, x, y => if y = 0 then none else some (x.tdiv y)
  | .mod, x, y => if y = 0 then none else some (x.tmod y)

/-- The operation on the bits of integers (two's complement; 128 bits, more than any type has); shifts
multiply by and divide by powers of two, rounding down. -/
def BitOp.result : BitOp → Int → Int → Option Int
  | .and, x, y => some (BitVec.ofInt 128 x &&& BitVec.ofInt 128 y).toInt
  | .or, x, y => some (BitVec.ofInt 128 x ||| BitVec.ofInt 128 y).toInt
  | .xor, x, y => some (BitVec.ofInt 128 x ^^^ BitVec.ofInt 128 y).toInt
  | .shl, x, y => if y < 0 then none else some (x * 2 ^ y.toNat)
  | .shr, x, y => if y < 0 then none else some (x / 2 ^ y.toNat)

/-- The number of bits with which `v` values can be numbered: one for one value. -/
def bitsFor (v : Nat) : Nat := if v ≤ 1 then v else Nat.log2 (v - 1) + 1

/-- The position of the bit that is set, if it is only one. -/
def singleBit (v : Int) : Option Nat := (List.range 64).find? fun k => v = 2 ^ k

/-- The value that a schema expression stands for; `none`: nothing is said.  These are: what is
undefined (division by zero, elements that do not exist), operations on floats, `+e` and `~e`, for which
no Rust code exists (C35), and `isset` for more than one bit. -/
def means (w : World fo.F O) : Expr fo.F → Option (Datum fo.F O)
  | .intLit n => some (.int n)
  | .boolLit b => some (.bool b)
  | .strLit s => some (.str s)
  | .floatLit f => some (.float f)
  | .paren e => means w e
  | .ident n => w.name n
  | .call (.ident n) => w.func n
  | .call (.dot e n) => match means w e with
    | some (.object o) => w.method o n
    | _ => none
  | .call _ => none
  | .elem e i => match means w e, means w i with
    | some (.list l), some (.int k) => if k < 0 then none else l[k.toNat]?
    | _, _ => none
  | .dot e n => match w.item e n with
    | some v => some v
    | none => match means w e with
      | some (.object o) => w.member o n
      | _ => none
  | .isset e x => match means w e, means w x with
    | some (.mask a), some (.mask b) => (singleBit b).map fun k => .bool (a / 2 ^ k % 2 = 1)
    | _, _ => none
  | .lengthof e => match means w e with
    | some (.list l) => some (.int l.length)
    | _ => none
  | .valueof e => match means w e with
    | some (.enum v) | some (.mask v) => some (.int v)
    | _ => none
  | .numbits e => match means w e with
    | some (.int v) => if v < 0 then none else some (.int (bitsFor v.toNat))
    | _ => none
  | .plus _ | .compl _ => none
  | .neg e => match means w e with
    | some (.int v) => some (.int (-v))
    | _ => none
  | .not e => match means w e with
    | some (.bool b) => some (.bool !b)
    | _ => none
  | .cmp op a b => match means w a, means w b with
    | some (.int x), some (.int y) => some (.bool (CmpOp.Says op x y))
    | some (.bool x), some (.bool y) => (CmpOp.equality op (x == y)).map .bool
    | some (.str x), some (.str y) => (CmpOp.equality op (x == y)).map .bool
    | some (.enum x), some (.enum y) | some (.mask x), some (.mask y) | some (.mask x), some (.int y) =>
      (CmpOp.equality op (x == y)).map .bool
    | _, _ => none
  | .arith op a b => match means w a, means w b with
    | some (.int x), some (.int y) => (ArithOp.result op x y).map .int
    | some (.str x), some (.str y) => if op = .add then some (.str (x ++ y)) else none
    | _, _ => none
  | .bit op a b => match means w a, means w b with
    | some (.int x), some (.int y) => (BitOp.result op x y).map .int
    | some (.mask x), some (.mask y) =>
      if op = .shl ∨ op = .shr then none else (BitOp.result op x y).map .mask
    | _, _ => none
  | .logic op a b => match means w a with
    | some (.bool x) => if x = (op == .and) then
        match means w b with
        | some (.bool y) => some (.bool y)
        | _ => none
      else some (.bool x)
    | _ => none
  | .tern c a b => match means w c with
    | some (.bool true) => means w a
    | some (.bool false) => means w b
    | _ => none
  | .index => w.index

/-- What a condition means: a boolean itself, of numbers and bitmasks that they are not 0. -/
def truth {F O : Type} : Datum F O → Option Bool
  | .bool b => some b
  | .int n | .mask n => some (n ≠ 0)
  | _ => none

/-! ## What Rust computes -/

/-- `p` first; if it has a value, `k` with the value. -/
def Then (p : Res (Datum fo.F O) → Prop) (k : Datum fo.F O → Res (Datum fo.F O) → Prop)
    (o : Res (Datum fo.F O)) : Prop :=
  ∃ r, p r ∧ match r with
    | .ok x => k x o
    | .err e => o = .err e
    | .panic => o = .panic

/-- The type that Rust infers for an expression whose context does not determine it: any that is
possible, but `i32` if that is; before `as T` it may also be `T`. -/
def Infers (Γ : RScope fo.F) (x : RExpr fo.F) (target s : RTy) : Prop :=
  Typed Γ x s ∧ (Typed Γ x (.int ⟨true, 32⟩) → s = .int ⟨true, 32⟩ ∨ s = target)

/-- The types that Rust infers for the operands of a comparison. -/
def InfersBoth (Γ : RScope fo.F) (op : CmpOp) (a b : RExpr fo.F) (s t : RTy) : Prop :=
  Typed Γ a s ∧ Typed Γ b t ∧ s.Comparable op t ∧
    (Typed Γ a (.int ⟨true, 32⟩) → Typed Γ b (.int ⟨true, 32⟩) →
      s = .int ⟨true, 32⟩ ∧ t = .int ⟨true, 32⟩)

/-- A result `v` of an operation in the type `i`: one out of range panics in debug builds and wraps
around in release builds. -/
def inType (m : Mode) (i : IntTy) (v : Int) : Res (Datum fo.F O) :=
  if i.Contains v then .ok (.int v)
  else match m with
    | .debug => .panic
    | .release => .ok (.int (i.wrap v))

/-- `x as t`. -/
def CastsTo (t : RTy) (x : Datum fo.F O) (o : Res (Datum fo.F O)) : Prop :=
  match x, t.ints with
  | .int v, some i | .enum v, some i => o = .ok (.int (i.wrap v))
  | .bool b, some i => o = .ok (.int (i.wrap (if b then 1 else 0)))
  | .float _, some i => ∃ v, i.Contains v ∧ o = .ok (.int v)
  | .int _, none => (∃ f, o = .ok (.float f)) ∧ ∃ n, t = .float n
  | .float _, none => (∃ f, o = .ok (.float f)) ∧ ∃ n, t = .float n
  | x, none => o = .ok x
  | _, _ => False

/-- `-x`. -/
def NegatesTo (m : Mode) (t : RTy) (x : Datum fo.F O) (o : Res (Datum fo.F O)) : Prop :=
  match x with
  | .int v => ∃ i, t.ints = some i ∧ o = inType m i (-v)
  | .float _ => ∃ f, o = .ok (.float f)
  | _ => False

/-- `!x`. -/
def NotsTo (t : RTy) (x : Datum fo.F O) (o : Res (Datum fo.F O)) : Prop :=
  match x with
  | .bool b => o = .ok (.bool !b)
  | .int v => ∃ i, t.ints = some i ∧ o = .ok (.int (i.wrap (-v - 1)))
  | .mask _ => ∃ v, o = .ok (.mask v)
  | _ => False

/-- `x + y`, `x - y`, ... -/
def ArithTo (m : Mode) (op : ArithOp) (t : RTy) (x y : Datum fo.F O) (o : Res (Datum fo.F O)) : Prop :=
  match x, y with
  | .int x, .int y => ∃ i, t.ints = some i ∧
      if (op = .div ∨ op = .mod) ∧ (y = 0 ∨ (x = i.min ∧ y = -1 ∧ i.signed = true)) then o = .panic
      else ∃ v, ArithOp.result op x y = some v ∧ o = inType m i v
  | .float _, .float _ => ∃ f, o = .ok (.float f)
  | _, _ => False

/-- `x << y`, `x >> y`: the amount has to be less than the number of bits; bits shifted out are lost. -/
def ShiftsTo (m : Mode) (op : BitOp) (t : RTy) (x y : Datum fo.F O) (o : Res (Datum fo.F O)) : Prop :=
  match x, y with
  | .int x, .int y => ∃ i, t.ints = some i ∧
      if 0 ≤ y ∧ y < i.width then ∃ v, BitOp.result op x y = some v ∧ o = .ok (.int (i.wrap v))
      else match m with
        | .debug => o = .panic
        | .release => ∃ v, BitOp.result op x (y % i.width) = some v ∧ o = .ok (.int (i.wrap v))
  | _, _ => False

/-- `x & y`, `x | y`, `x ^ y`. -/
def BitsTo (op : BitOp) (x y : Datum fo.F O) (o : Res (Datum fo.F O)) : Prop :=
  match x, y with
  | .int x, .int y => ∃ v, BitOp.result op x y = some v ∧ o = .ok (.int v)
  | .mask x, .mask y => ∃ v, BitOp.result op x y = some v ∧ o = .ok (.mask v)
  | .bool _, .bool _ => ∃ b, o = .ok (.bool b)
  | _, _ => False

/-- `x == y`, `x < y`, ...: of objects, lists and floats it may be anything. -/
def ComparesTo (op : CmpOp) (x y : Datum fo.F O) (o : Res (Datum fo.F O)) : Prop :=
  match x, y with
  | .int x, .int y => o = .ok (.bool (CmpOp.Says op x y))
  | .bool x, .bool y => ∃ b, o = .ok (.bool b) ∧ ∀ c, CmpOp.equality op (x == y) = some c → b = c
  | .str x, .str y => ∃ b, o = .ok (.bool b) ∧ ∀ c, CmpOp.equality op (x == y) = some c → b = c
  | .enum x, .enum y | .mask x, .mask y | .mask x, .int y =>
    ∃ b, CmpOp.equality op (x == y) = some b ∧ o = .ok (.bool b)
  | _, _ => ∃ b, o = .ok (.bool b)

/-- `x.m()`. -/
def MethodTo (w : World fo.F O) (m : String) (x : Datum fo.F O) (o : Res (Datum fo.F O)) : Prop :=
  if m = "clone" then o = .ok x else
  match x with
  | .object ob => ∃ v, w.method ob m = some v ∧ o = .ok v
  | .list l => m = "len" ∧ o = .ok (.int l.length)
  | .str s => m = "len" ∧ o = .ok (.int s.utf8ByteSize)
  | .mask v => m = "bits" ∧ o = .ok (.int v)
  | _ => False

/-- The Rust expression as one of the type `t`, compiled in the mode `m`, has the outcome. -/
def Evals (w : World fo.F O) (Γ : RScope fo.F) (m : Mode) :
    RExpr fo.F → RTy → Res (Datum fo.F O) → Prop
  | .atom (.int n), t, o => t.Holds n ∧ o = .ok (.int n)
  | .atom (.bool b), _, o => o = .ok (.bool b)
  | .atom (.str s), _, o => o = .ok (.str s)
  | .atom (.float f), t, o => match fo.printsInteger f with
    | some n => t.Holds n ∧ o = .ok (.int n)
    | none => o = .ok (.float f)
  | .atom (.name n), _, o => ∃ v, w.name n = some v ∧ o = .ok v
  | .atom (.item e n), _, o => ∃ v, w.item e n = some v ∧ o = .ok v
  | .atom .index, _, o => ∃ v, w.index = some v ∧ o = .ok v
  | .paren e, t, o => Evals w Γ m e t o
  | .call (.atom (.name n)), _, o => ∃ v, w.func n = some v ∧ o = .ok v
  | .call (.field e f), t, o => ∃ s, Infers Γ e t s ∧ methodTy Γ s f = some t ∧
      Then (Evals w Γ m e s) (MethodTo w f) o
  | .call _, _, _ => False
  | .apply _ e, _, o => ∃ s, Infers Γ e (.int ⟨true, 32⟩) s ∧ s.Integer ∧
      Then (Evals w Γ m e s) (fun x o => ∃ v, x = .int v ∧
        o = (Zs.numbits v).bind fun n => .ok (.int n)) o
  | .field e n, _, o => ∃ id, Typed Γ e (.object id) ∧ Then (Evals w Γ m e (.object id))
      (fun x o => ∃ ob v, x = .object ob ∧ w.member ob n = some v ∧ o = .ok v) o
  | .elem e i, t, o => Then (Evals w Γ m e (.vec t)) (fun x => Then (Evals w Γ m i .usize)
      fun y o => ∃ l k, x = .list l ∧ y = .int k ∧ o = match l[k.toNat]? with
        | some v => .ok v
        | none => .panic) o
  | .cast e ty, t, o => primType ty = some t ∧
      ∃ s, Infers Γ e t s ∧ s.CanCast t ∧ Then (Evals w Γ m e s) (CastsTo t) o
  | .neg e, t, o => Then (Evals w Γ m e t) (NegatesTo m t) o
  | .not e, t, o => Then (Evals w Γ m e t) (NotsTo t) o
  | .bin (.arith op) a b, t, o =>
    Then (Evals w Γ m a t) (fun x => Then (Evals w Γ m b t) (ArithTo m op t x)) o
  | .bin (.bit op) a b, t, o =>
    if op = .shl ∨ op = .shr then ∃ s, Infers Γ b (.int ⟨true, 32⟩) s ∧
      Then (Evals w Γ m a t) (fun x => Then (Evals w Γ m b s) (ShiftsTo m op t x)) o
    else Then (Evals w Γ m a t) (fun x => Then (Evals w Γ m b t) (BitsTo op x)) o
  | .bin (.cmp op) a b, _, o => ∃ s u, InfersBoth Γ op a b s u ∧
      Then (Evals w Γ m a s) (fun x => Then (Evals w Γ m b u) (ComparesTo op x)) o
  | .bin (.logic op) a b, _, o => Then (Evals w Γ m a .bool) (fun x o => ∃ c, x = .bool c ∧
      if c = (op == .and) then Evals w Γ m b .bool o else o = .ok (.bool c)) o
  | .ite c a b, t, o => Then (Evals w Γ m c .bool) (fun x o => ∃ d, x = .bool d ∧
      if d = true then Evals w Γ m a t o else Evals w Γ m b t o) o
  | .concat a b, _, o => ∃ s u, Infers Γ a .str s ∧ Infers Γ b .str u ∧
      Then (Evals w Γ m a s) (fun x => Then (Evals w Γ m b u) fun y o =>
        match x, y with
        | .str x, .str y => o = .ok (.str (x ++ y))
        | _, _ => ∃ z, o = .ok (.str z)) o

/-! ## When no type is too small -/

/-- If the expression has an integer value, it is one of the type. -/
def Within (t : RTy) (v : Option (Datum fo.F O)) : Prop := ∀ n, v = some (.int n) → t.Holds n

/-- Literals, operands and results are in the range of the Rust types in which the operations are done.
`t`: the type of the whole expression.  What is not evaluated need not fit. -/
def Fits (md : Mode) (sc : TScope) (w : World fo.F O) : Expr fo.F → RTy → Prop
  | .intLit n, t => t.Holds n
  | .floatLit _, t => ∃ n, t = .float n
  | .paren e, t | .not e, t => Fits md sc w e t
  | .call (.dot e _), _ | .dot e _, _ => ∀ s, Typed (rscope sc) (code md sc e) s → Fits md sc w e s
  | .valueof e, t => Within t (means w (.valueof e)) ∧
      ∀ s, Typed (rscope sc) (code md sc e) s → Fits md sc w e s
  | .lengthof e, t => Within t (means w (.lengthof e)) ∧
      ∀ s, Typed (rscope sc) (code md sc e) s → Fits md sc w e s
  | .elem e i, t => Fits md sc w e (.vec t) ∧ Fits md sc w i .usize
  | .isset e x, _ => ∀ s, Typed (rscope sc) (code md sc e) s → Typed (rscope sc) (code md sc x) s →
      Fits md sc w e s ∧ Fits md sc w x s
  | .numbits e, _ => ∀ s, Infers (rscope sc) (code md sc e) (.int ⟨true, 32⟩) s → Fits md sc w e s
  | .neg e, t => Fits md sc w e t ∧ Within t (means w (.neg e))
  | .cmp op a b, _ => ∀ s u, InfersBoth (rscope sc) op (code md sc a) (code md sc b) s u →
      Fits md sc w a s ∧ Fits md sc w b u
  | .arith op a b, t =>
    match (Expr.arith op a b).evaluate md sc.erase with
    | .ok (.str _, _) =>
      (∀ s, Infers (rscope sc) (code md sc a) .str s → Fits md sc w a s) ∧
      ∀ s, Infers (rscope sc) (code md sc b) .str s → Fits md sc w b s
    | _ =>
      (match (textInfo md sc).castLeft (.arith op a b) with
        | none => Fits md sc w a t
        | some _ => Within t (means w a) ∧
            ∀ s, Infers (rscope sc) (code md sc a) t s → Fits md sc w a s) ∧
      (match (textInfo md sc).castRight (.arith op a b) with
        | none => Fits md sc w b t
        | some _ => Within t (means w b) ∧
            ∀ s, Infers (rscope sc) (code md sc b) t s → Fits md sc w b s) ∧
      Within t (means w (.arith op a b)) ∧ (op = .mod → Within t (means w (.arith .div a b)))
  | .bit op a b, t =>
    if op = .shl ∨ op = .shr then
      Fits md sc w a t ∧ Within t (means w (.bit op a b)) ∧
      (∀ s, Infers (rscope sc) (code md sc b) (.int ⟨true, 32⟩) s → Fits md sc w b s) ∧
      ∀ n i, means w b = some (.int n) → t.ints = some i → n < i.width
    else Fits md sc w a t ∧ Fits md sc w b t
  | .logic op a b, _ => Fits md sc w a .bool ∧
      (means w a = some (.bool (op == .and)) → Fits md sc w b .bool)
  | .tern c a b, t => Fits md sc w c .bool ∧ (means w c = some (.bool true) → Fits md sc w a t) ∧
      (means w c = some (.bool false) → Fits md sc w b t)
  | _, _ => True

end Zs.Spec
