import Verif.Runtime

/-!
# Model of the expressions of the schema compiler

`crates/zserio-rs-build/src/internal/ast/expression.rs` evaluates every expression of a schema while
compiling and tells whether its value is known (`fully_resolved`);
`crates/zserio-rs-build/src/internal/generator/expression.rs` emits Rust text for it.  The model gives
the evaluation and the meaning of the emitted text.  File names below are relative to
`crates/zserio-rs-build/src/internal/`.

Simplifications, for the whole file:
* native types (`native_type`) are not tracked here; they are the subject of `Mixing.lean`;
* what an identifier, a member, a function and so on *is* comes from an abstract scope;
* the `evaluation_state` (cycle detection) is left out: expressions are finite trees;
* how the emitted text is grouped by the Rust parser is left out here: the text
  is taken to be grouped as the expression is.
-/

namespace Zs

/-- What is assumed of 64-bit floating point numbers: operations and how Rust prints them.
`printsInteger f = some i` when `format!("{}", f)` is the text of the integer `i` (Rust prints `2.0` as
`2`). -/
structure FloatOps where
  F : Type
  add : F → F → F
  sub : F → F → F
  mul : F → F → F
  div : F → F → F
  neg : F → F
  eq : F → F → Bool
  lt : F → F → Bool
  le : F → F → Bool
  ofInt : Int → F
  zero : F
  one : F
  printsInteger : F → Option Int

/-- `EQ | GE | GT | LE | LT | NE`. -/
inductive CmpOp where
  | eq | ge | gt | le | lt | ne
  deriving DecidableEq, Repr

/-- `PLUS | MINUS | MULTIPLY | DIVIDE | MODULO`. -/
inductive ArithOp where
  | add | sub | mul | div | mod
  deriving DecidableEq, Repr

/-- `AND | OR | XOR | LSHIFT | RSHIFT`. -/
inductive BitOp where
  | and | or | xor | shl | shr
  deriving DecidableEq, Repr

/-- `LOGICAL_AND | LOGICAL_OR`. -/
inductive LogicOp where
  | and | or
  deriving DecidableEq, Repr

/-- `ast/expression.rs` lines 47-71 (`Expression`) as the tree the parser builds
(`parser/ZserioParser.g4` lines 349-373, `visitor.rs` lines 790-1440).  Parentheses of the schema are
kept (`LPAREN`). -/
inductive Expr (F : Type) where
  | intLit (n : Int)
  | boolLit (b : Bool)
  | strLit (s : String)
  | floatLit (f : F)
  | paren (e : Expr F)
  | call (e : Expr F)
  | elem (e i : Expr F)
  | dot (e : Expr F) (name : String)
  | isset (e x : Expr F)
  | lengthof (e : Expr F)
  | valueof (e : Expr F)
  | numbits (e : Expr F)
  | plus (e : Expr F)
  | neg (e : Expr F)
  | not (e : Expr F)
  | compl (e : Expr F)
  | cmp (op : CmpOp) (a b : Expr F)
  | arith (op : ArithOp) (a b : Expr F)
  | bit (op : BitOp) (a b : Expr F)
  | logic (op : LogicOp) (a b : Expr F)
  | tern (c a b : Expr F)
  | index
  | ident (name : String)

/-- `ast/expression.rs` lines 27-39: `ExpressionType`, type and value of an expression. -/
inductive CVal (F : Type) where
  | int (v : Int)
  | float (f : F)
  | str (s : String)
  | bool (b : Bool)
  | bitmask
  | enum
  | compound
  | function
  | other

/-- What a name can stand for, as far as expressions are concerned (`ast/expression.rs` lines
625-655). -/
inductive SymTy where
  | string | bool | float | integer | bitmask | enum | compound | function

/-- `ast/expression.rs` lines 625-699: the dummy value for the type of a name. -/
def SymTy.dummy (fo : FloatOps) : SymTy → CVal fo.F
  | .string => .str ""
  | .bool => .bool false
  | .float => .float fo.zero
  | .integer => .int 0
  | .bitmask => .bitmask
  | .enum => .enum
  | .compound => .compound
  | .function => .function

/-- What the evaluation asks the symbol table for: the type of a name, of a member of a compound, of the
result of a function, and whether an enum or bitmask has an item.  `none` means that the lookup
panics. -/
structure EScope (F : Type) where
  ident : String → Option SymTy
  member : Expr F → String → Option SymTy
  result : Expr F → Option SymTy
  hasItem : Expr F → String → Bool

/-- An integer type of Rust. -/
structure IntTy where
  signed : Bool
  width : Nat
  deriving DecidableEq, Repr

namespace IntTy

/-- `i32`. -/
def i32 : IntTy := ⟨true, 32⟩

/-- Smallest and largest value. -/
def min (t : IntTy) : Int := if t.signed then -2 ^ (t.width - 1) else 0
def max (t : IntTy) : Int := if t.signed then 2 ^ (t.width - 1) - 1 else 2 ^ t.width - 1

/-- The value belongs to the type. -/
def Contains (t : IntTy) (v : Int) : Prop := t.min ≤ v ∧ v ≤ t.max

instance (t : IntTy) (v : Int) : Decidable (t.Contains v) := inferInstanceAs (Decidable (_ ∧ _))

/-- Reduction modulo 2^width into the range of the type. -/
def wrap (t : IntTy) (v : Int) : Int := (v - t.min) % 2 ^ t.width + t.min

end IntTy

/-- `&`, `|`, `^` of Rust on any of its integer types: computed on the 128-bit extension (two's
complement), which contains all of them. -/
def bitwise (op : BitVec 128 → BitVec 128 → BitVec 128) (a b : Int) : Int :=
  (op (BitVec.ofInt 128 a) (BitVec.ofInt 128 b)).toInt

/-- `==`, `>=`, ... on integers. -/
def CmpOp.onInt (op : CmpOp) (a b : Int) : Bool :=
  match op with
  | .eq => a == b
  | .ge => decide (a ≥ b)
  | .gt => decide (a > b)
  | .le => decide (a ≤ b)
  | .lt => decide (a < b)
  | .ne => a != b

/-- `==`, `>=`, ... on floats. -/
def CmpOp.onFloat (fo : FloatOps) (op : CmpOp) (a b : fo.F) : Bool :=
  match op with
  | .eq => fo.eq a b
  | .ge => fo.le b a
  | .gt => fo.lt b a
  | .le => fo.le a b
  | .lt => fo.lt a b
  | .ne => !fo.eq a b

/-- An arithmetic operation without regard to ranges; `/` and `%` round towards zero. -/
def ArithOp.exact (op : ArithOp) (a b : Int) : Int :=
  match op with
  | .add => a + b
  | .sub => a - b
  | .mul => a * b
  | .div => a.tdiv b
  | .mod => a.tmod b

/-- Division by zero and `MIN / -1` panic in every build. -/
def ArithOp.undefined (op : ArithOp) (ty : IntTy) (a b : Int) : Bool :=
  match op with
  | .div | .mod => b == 0 || (a == ty.min && b == -1 && ty.signed)
  | _ => false

/-- Rust arithmetic on `i32` in the compiler: overflow panics in debug builds and wraps around in release
builds (`ast/expression.rs` lines 465-472). -/
def ArithOp.compile (op : ArithOp) (md : Mode) (a b : Int) : Res Int :=
  if op.undefined .i32 a b then .panic
  else if IntTy.i32.Contains (op.exact a b) then .ok (op.exact a b)
  else match md with
    | .debug => .panic
    | .release => .ok (IntTy.i32.wrap (op.exact a b))

/-- Arithmetic on floats (`ast/expression.rs` lines 429-444); `%` panics. -/
def ArithOp.onFloat (fo : FloatOps) (op : ArithOp) (a b : fo.F) : Option fo.F :=
  match op with
  | .add => some (fo.add a b)
  | .sub => some (fo.sub a b)
  | .mul => some (fo.mul a b)
  | .div => some (fo.div a b)
  | .mod => none

/-- Bit operations on `i32` in the compiler (`ast/expression.rs` lines 543-550): a shift by 32 or more
(or a negative amount) panics in debug builds and uses the amount modulo 32 in release builds. -/
def BitOp.compile (op : BitOp) (md : Mode) (a b : Int) : Res Int :=
  match op with
  | .and => .ok (bitwise (· &&& ·) a b)
  | .or => .ok (bitwise (· ||| ·) a b)
  | .xor => .ok (bitwise (· ^^^ ·) a b)
  | .shl =>
    if 0 ≤ b ∧ b < 32 then .ok (IntTy.i32.wrap (a * 2 ^ b.toNat))
    else match md with
      | .debug => .panic
      | .release => .ok (IntTy.i32.wrap (a * 2 ^ (b % 32).toNat))
  | .shr =>
    if 0 ≤ b ∧ b < 32 then .ok (a / 2 ^ b.toNat)
    else match md with
      | .debug => .panic
      | .release => .ok (a / 2 ^ (b % 32).toNat)

variable {fo : FloatOps}

/-- `ast/expression.rs` lines 338-360: unary `+` and `-`. -/
def evalNeg (md : Mode) : CVal fo.F → Res (CVal fo.F)
  | .int v => if v = IntTy.i32.min then
      match md with
      | .debug => .panic
      | .release => .ok (.int v)
    else .ok (.int (-v))
  | .float f => .ok (.float (fo.neg f))
  | _ => .panic

/-- `ast/expression.rs` lines 362-427: comparisons.  The second result is whether the value may be taken
for resolved; operands that are not resolved count as 1. -/
def evalCmp (op : CmpOp) (a b : CVal fo.F) (ra rb : Bool) : Res (CVal fo.F × Bool) :=
  match a, b with
  | .int x, .int y =>
    .ok (.bool (op.onInt (if ra then x else 1) (if rb then y else 1)), true)
  | .bitmask, .int y =>
    .ok (.bool (op.onInt 1 (if rb then y else 1)), true)
  | .float x, .float y => .ok (.bool (op.onFloat fo x y), true)
  | .str x, .str y => match op with
    | .eq => .ok (.bool (x == y), true)
    | .ne => .ok (.bool (x != y), true)
    | _ => .panic
  | _, _ => match op with
    | .eq | .ne => .ok (.bool false, false)
    | _ => .panic

/-- `ast/expression.rs` lines 429-507: arithmetic with two operands; operands that are not resolved
count as 1. -/
def evalArith (md : Mode) (op : ArithOp) (a b : CVal fo.F) (ra rb : Bool) : Res (CVal fo.F) :=
  let onFloats (x y : fo.F) : Res (CVal fo.F) :=
    match op.onFloat fo (if ra then x else fo.one) (if rb then y else fo.one) with
    | some z => .ok (.float z)
    | none => .panic
  match a, b with
  | .int x, .int y => do
    let z ← op.compile md (if ra then x else 1) (if rb then y else 1)
    pure (.int z)
  | .float x, .float y => onFloats x y
  | .int x, .float y => onFloats (fo.ofInt x) y
  | .float x, .int y => onFloats x (fo.ofInt y)
  | .str x, .str y => match op with
    | .add => .ok (.str (x ++ y))
    | _ => .panic
  | _, _ => .panic

/-- `ast/expression.rs` lines 539-566: bit operations; the second result is whether the value may be
taken for resolved. -/
def evalBit (md : Mode) (op : BitOp) (a b : CVal fo.F) : Res (CVal fo.F × Bool) :=
  match a, b with
  | .int x, .int y => do
    let z ← op.compile md x y
    pure (.int z, true)
  | .bitmask, .int _ | .int _, .bitmask | .bitmask, .bitmask => .ok (.int 0, false)
  | _, _ => .panic

/-- `ast/expression.rs` lines 568-584. -/
def evalLogic (op : LogicOp) (a b : CVal fo.F) : Res (CVal fo.F) :=
  match a, b with
  | .bool x, .bool y => .ok (.bool (match op with
    | .and => x && y
    | .or => x || y))
  | _, _ => .panic

/-- A lookup in the symbol table; the result is never resolved. -/
def lookup (s : Option SymTy) : Res (CVal fo.F × Bool) :=
  match s with
  | some t => .ok (t.dummy fo, false)
  | none => .panic

/-- `ast/expression.rs` lines 73-124: `evaluate`, with the functions it calls (lines 126-622): the
`result_type` and `fully_resolved`.  Literals: `visitor.rs` lines 932-1001. -/
def Expr.evaluate (md : Mode) (sc : EScope fo.F) : Expr fo.F → Res (CVal fo.F × Bool)
  | .intLit n => .ok (.int n, true)
  | .boolLit b => .ok (.bool b, true)
  | .strLit s => .ok (.str s, true)
  | .floatLit f => .ok (.float f, true)
  | .paren e => e.evaluate md sc
  | .call e => do                                               -- lines 137-155
    let (c, r) ← e.evaluate md sc
    match c with
    | .function => do
      let (c, _) ← lookup (sc.result e)
      pure (c, r)
    | _ => .panic
  | .elem e i => do                                             -- lines 157-168
    let (c, r) ← e.evaluate md sc
    let (_, ri) ← i.evaluate md sc
    match c with
    | .compound | .int _ => pure (.other, r && ri)
    | _ => .panic
  | .dot e name => do                                           -- lines 170-281
    let (c, r) ← e.evaluate md sc
    match c with
    | .enum => if sc.hasItem e name then pure (.int 0, r) else .panic
    | .bitmask => if sc.hasItem e name then pure (.int 0, false) else .panic
    | .compound => do
      let (c, _) ← lookup (sc.member e name)
      pure (c, r)
    | _ => .panic
  | .isset e x => do                                            -- lines 289-301
    let (c, r) ← e.evaluate md sc
    let (cx, rx) ← x.evaluate md sc
    match c, cx with
    | .bitmask, .int _ => pure (.bool false, r && rx)
    | _, _ => .panic
  | .lengthof e => do                                           -- lines 283-287
    let _ ← e.evaluate md sc
    pure (.int 0, false)
  | .valueof e => do                                            -- lines 303-320
    let (c, _) ← e.evaluate md sc
    match c with
    | .bitmask | .enum => pure (.int 0, false)
    | _ => .panic
  | .numbits e => do                                            -- lines 321-336
    let (c, r) ← e.evaluate md sc
    match c with
    | .int v => do
      let n ← Zs.numbits v
      pure (.int (n : Int), r)
    | _ => .panic
  | .plus e => do
    let (c, r) ← e.evaluate md sc
    match c with
    | .int _ | .float _ => pure (c, r)
    | _ => .panic
  | .neg e => do
    let (c, r) ← e.evaluate md sc
    let c ← evalNeg md c
    pure (c, r)
  | .not e => do                                                -- lines 509-522
    let (c, r) ← e.evaluate md sc
    match c with
    | .bool b => pure (.bool !b, r)
    | _ => .panic
  | .compl e => do                                              -- lines 524-537
    let (c, r) ← e.evaluate md sc
    match c with
    | .int v => pure (.int (-v - 1), r)
    | _ => .panic
  | .cmp op a b => do
    let (ca, ra) ← a.evaluate md sc
    let (cb, rb) ← b.evaluate md sc
    let (c, known) ← evalCmp op ca cb ra rb
    pure (c, ra && rb && known)
  | .arith op a b => do
    let (ca, ra) ← a.evaluate md sc
    let (cb, rb) ← b.evaluate md sc
    let c ← evalArith md op ca cb ra rb
    pure (c, ra && rb)
  | .bit op a b => do
    let (ca, ra) ← a.evaluate md sc
    let (cb, rb) ← b.evaluate md sc
    let (c, known) ← evalBit md op ca cb
    pure (c, ra && rb && known)
  | .logic op a b => do
    let (ca, ra) ← a.evaluate md sc
    let (cb, rb) ← b.evaluate md sc
    let c ← evalLogic op ca cb
    pure (c, ra && rb)
  | .tern c a b => do                                           -- lines 586-603
    let (cc, _) ← c.evaluate md sc
    let (ca, ra) ← a.evaluate md sc
    let (cb, rb) ← b.evaluate md sc
    match cc with
    | .bool true => pure (ca, ra)
    | .bool false => pure (cb, rb)
    | _ => .panic
  | .index => .ok (.int 0, false)                               -- lines 605-608
  | .ident name => lookup (sc.ident name)                       -- lines 610-622

/-! ## What the generated code computes -/

/-- Values at run time. -/
inductive RVal (F : Type) where
  | int (v : Int)
  | float (f : F)
  | str (s : String)
  | bool (b : Bool)
  | other (n : Nat)

/-- An integer literal in a place where the type `ty` is expected: a literal out of range does not
compile. -/
def runInt (ty : IntTy) (v : Int) : Option (RVal fo.F) :=
  if ty.Contains v then some (.int v) else none

/-- Rust arithmetic in the type `ty`; overflow in a constant expression does not compile. -/
def runArith (ty : IntTy) (op : ArithOp) : RVal fo.F → RVal fo.F → Option (RVal fo.F)
  | .int x, .int y => if op.undefined ty x y then none else runInt ty (op.exact x y)
  | .float x, .float y => (op.onFloat fo x y).map .float
  | .str x, .str y => match op with
    | .add => some (.str (x ++ y))
    | _ => none
  | _, _ => none

/-- Rust bit operations in the type `ty`. -/
def runBit (ty : IntTy) (op : BitOp) : RVal fo.F → RVal fo.F → Option (RVal fo.F)
  | .int x, .int y => match op with
    | .and => some (.int (bitwise (· &&& ·) x y))
    | .or => some (.int (bitwise (· ||| ·) x y))
    | .xor => some (.int (bitwise (· ^^^ ·) x y))
    | .shl => if 0 ≤ y ∧ y < ty.width then some (.int (ty.wrap (x * 2 ^ y.toNat))) else none
    | .shr => if 0 ≤ y ∧ y < ty.width then some (.int (x / 2 ^ y.toNat)) else none
  | _, _ => none

/-- Rust comparisons of two numbers or two strings (anything else is given by the environment). -/
def runCmp (op : CmpOp) : RVal fo.F → RVal fo.F → Option (RVal fo.F)
  | .int x, .int y => some (.bool (op.onInt x y))
  | .float x, .float y => some (.bool (op.onFloat fo x y))
  | .str x, .str y => match op with
    | .eq => some (.bool (x == y))
    | .ne => some (.bool (x != y))
    | _ => none
  | .bool x, .bool y => match op with
    | .eq => some (.bool (x == y))
    | .ne => some (.bool (x != y))
    | _ => none
  | _, _ => none

/-- The meaning of the text emitted by `generator/expression.rs` lines 28-69 in a place where integers
have the Rust type `ty`; `none` when the text does not compile or the computation panics.  `env` gives
the values of everything that refers to an object (fields, parameters, constants, members, elements,
function results, lengths, `@index`).  `ctx` gives the type that Rust infers where the context leaves it
open: for the operands of a comparison, the argument of `numbits` and the amount of a shift (`i32` for
literals, otherwise the type of the objects that occur). -/
def Expr.run (ctx : Expr fo.F → IntTy) (env : Expr fo.F → Option (RVal fo.F)) (ty : IntTy) :
    Expr fo.F → Option (RVal fo.F)
  | .intLit n => runInt ty n                                    -- lines 433-468
  | .boolLit b => some (.bool b)
  | .strLit s => some (.str s)
  | .floatLit f => match fo.printsInteger f with                -- line 450: `format!("{}", f)`
    | some i => runInt ty i
    | none => some (.float f)
  | .paren e => e.run ctx env ty
  | .numbits e => do                                            -- lines 283-292
    let v ← e.run ctx env (ctx e)
    match v with
    | .int v => match Zs.numbits v with
      | .ok n => some (.int (n : Int))
      | _ => none
    | _ => none
  | .plus _ => none                                             -- line 79: Rust has no unary `+`
  | .neg e => do                                                -- line 80
    let v ← e.run ctx env ty
    match v with
    | .int v => if ty.signed then runInt ty (-v) else none
    | .float f => some (.float (fo.neg f))
    | _ => none
  | .not e => do                                                -- lines 353-362
    let v ← e.run ctx env ty
    match v with
    | .bool b => some (.bool !b)
    | _ => none
  | .compl _ => none                                            -- lines 364-373: Rust has no `~`
  | .cmp op a b => do
    let x ← a.run ctx env (ctx a)
    let y ← b.run ctx env (ctx a)
    runCmp op x y
  | .arith op a b => do
    let x ← a.run ctx env ty
    let y ← b.run ctx env ty
    runArith ty op x y
  | .bit op a b => do
    let x ← a.run ctx env ty
    let y ← b.run ctx env (match op with
      | .shl | .shr => ctx b
      | _ => ty)
    runBit ty op x y
  | .logic op a b => do
    let x ← a.run ctx env ty
    match op, x with
    | .and, .bool false => some (.bool false)
    | .and, .bool true => b.run ctx env ty
    | .or, .bool true => some (.bool true)
    | .or, .bool false => b.run ctx env ty
    | _, _ => none
  | .tern c a b => do                                           -- lines 335-351
    let x ← c.run ctx env ty
    match x with
    | .bool true => a.run ctx env ty
    | .bool false => b.run ctx env ty
    | _ => none
  | e => env e

end Zs
