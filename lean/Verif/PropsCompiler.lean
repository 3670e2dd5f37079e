import Verif.ExprLemmas
import Verif.Mixing
import Verif.ScopeLemmas
import Verif.TemplateLemmas
import Verif.ItemLemmas

/-!
# Properties of the schema compiler (C35 - C39, C44 - C46)

The statements are in English in `properties.jsonl`; each theorem below repeats what it says.
-/

namespace Zs

/-! ## C35: constant expressions -/

section Expressions

variable {fo : FloatOps}

/-- A toy instance of `FloatOps`, for examples: numbers with one decimal digit. -/
def tenths : FloatOps where
  F := Int
  add := (· + ·)
  sub := (· - ·)
  mul := fun a b => a * b / 10
  div := fun a b => a * 10 / b
  neg := (- ·)
  eq := fun a b => decide (a = b)
  lt := fun a b => decide (a < b)
  le := fun a b => decide (a ≤ b)
  ofInt := (10 * ·)
  zero := 0
  one := 10
  printsInteger := fun a => if a % 10 = 0 then some (a / 10) else none

/-- A scope without any names. -/
def noNames (F : Type) : EScope F := ⟨fun _ => none, fun _ _ => none, fun _ => none, fun _ _ => false⟩

/-- C35 (partial): if the compiler, built with overflow checks, reports an expression as fully resolved,
and the generated code yields a value for it, in whatever integer type and for whatever values of the
fields, parameters and constants that it can refer to, then that value is the one the compiler computed.
Missing: conditions of `?:` that are not resolved, `<<` (with `wide = false`), float literals that print
without a decimal point, compilers built without overflow checks.  With `wide = true` the expression may
contain `<<` that stays in `i32`, but the types must be signed and of 32 or more bits.  See the
violations below. -/
theorem C35_resolved_expressions_partial (sc : EScope fo.F) (wide : Bool) (e : Expr fo.F) (c : CVal fo.F)
    (hf : e.Faithful .debug sc wide) (h : e.evaluate .debug sc = .ok (c, true))
    (ctx : Expr fo.F → IntTy) (hctx : wide = true → ∀ x, (ctx x).HoldsI32)
    (env : Expr fo.F → Option (RVal fo.F)) (ty : IntTy) (hty : wide = true → ty.HoldsI32)
    (computed value : RVal fo.F) (hc : c.value? = some computed)
    (hr : e.run ctx env ty = some value) : value = computed := by
  rcases resolved_agrees sc wide ctx hctx env e c hf h with ho | ⟨v, hv, hrun⟩
  · rw [ho] at hc; cases hc
  · rw [hc] at hv; cases hv
    exact hrun ty value hty hr

-- `(7 - 2) * 3 > 10 ? numbits(100) : 0` is 7, also where a `u8` is wanted.
example : ∃ e : Expr tenths.F, e.Faithful .debug (noNames _) false ∧
    e.evaluate .debug (noNames _) = .ok (.int 7, true) ∧
    e.run (fun _ => .i32) (fun _ => none) ⟨false, 8⟩ = some (.int 7) := by
  refine ⟨.tern (.cmp .gt (.arith .mul (.paren (.arith .sub (.intLit 7) (.intLit 2))) (.intLit 3))
    (.intLit 10)) (.numbits (.intLit 100)) (.intLit 0), ?_, by rfl, by rfl⟩
  exact ⟨⟨⟨⟨trivial, trivial⟩, trivial⟩, trivial⟩, trivial, trivial, _, rfl⟩

/-- What `x op y` is for numbers of 32 bits: `/` rounds towards zero, and nothing is divided by zero.  There is no
remainder where there is no quotient. -/
def Spec.intResult (op : ArithOp) (x y : Int) : Option Int :=
  match op with
  | .add => some (x + y)
  | .sub => some (x - y)
  | .mul => some (x * y)
  | .div => if y = 0 then none else some (x.tdiv y)
  | .mod => if y = 0 ∨ x = -2 ^ 31 ∧ y = -1 then none else some (x - y * x.tdiv y)

/-- What `x op y` is for floating-point numbers; there is no `%`. -/
def Spec.floatResult (fo : FloatOps) (op : ArithOp) (x y : fo.F) : Option fo.F :=
  match op with
  | .add => some (fo.add x y)
  | .sub => some (fo.sub x y)
  | .mul => some (fo.mul x y)
  | .div => some (fo.div x y)
  | .mod => none

/-- C35: the value of an arithmetic operation on values that are known is the sum, difference, product, quotient
or remainder, wherever the compiler computes one. -/
theorem C35_operations (md : Mode) (sc : EScope fo.F) (op : ArithOp) (a b : Expr fo.F) :
    (∀ x y, a.evaluate .debug sc = .ok (.int x, true) → b.evaluate .debug sc = .ok (.int y, true) →
      (Expr.arith op a b).evaluate .debug sc =
        match Spec.intResult op x y with
        | some z => if -2 ^ 31 ≤ z ∧ z < 2 ^ 31 then .ok (.int z, true) else .panic
        | none => .panic) ∧
    (∀ x y, a.evaluate md sc = .ok (.float x, true) → b.evaluate md sc = .ok (.float y, true) →
      (Expr.arith op a b).evaluate md sc =
        match Spec.floatResult fo op x y with
        | some z => .ok (.float z, true)
        | none => .panic) ∧
    (∀ x y, a.evaluate md sc = .ok (.int x, true) → b.evaluate md sc = .ok (.float y, true) →
      (Expr.arith op a b).evaluate md sc =
        match Spec.floatResult fo op (fo.ofInt x) y with
        | some z => .ok (.float z, true)
        | none => .panic) ∧
    (∀ x y, a.evaluate md sc = .ok (.float x, true) → b.evaluate md sc = .ok (.int y, true) →
      (Expr.arith op a b).evaluate md sc =
        match Spec.floatResult fo op x (fo.ofInt y) with
        | some z => .ok (.float z, true)
        | none => .panic) := by
  refine ⟨fun x y ha hb => ?_, fun x y ha hb => ?_, fun x y ha hb => ?_, fun x y ha hb => ?_⟩
  · have hmod : x.tmod y = x - y * x.tdiv y := by
      have := Int.mul_tdiv_add_tmod x y
      omega
    simp only [Expr.evaluate, ha, hb, Res.ok_bind, evalArith, if_true, ArithOp.compile, Bool.and_self]
    have hi : ∀ z, IntTy.i32.Contains z ↔ -2 ^ 31 ≤ z ∧ z < 2 ^ 31 := by
      intro z
      simp only [IntTy.Contains, IntTy.min, IntTy.max, IntTy.i32]
      simp
      omega
    cases op <;> simp only [ArithOp.undefined, ArithOp.exact, Spec.intResult, hi, hmod, Bool.false_eq_true, if_false]
    case add => split <;> rfl
    case sub => split <;> rfl
    case mul => split <;> rfl
    case div =>
      by_cases hy : y = 0
      · simp [hy]
      · by_cases hx : x = -2 ^ 31 ∧ y = -1
        · obtain ⟨rfl, rfl⟩ := hx
          rfl
        · have : ((y == 0 || x == IntTy.i32.min && y == -1 && IntTy.i32.signed) : Bool) = false := by
            simp [hy, IntTy.i32, IntTy.min]
            intro h1 h2
            exact hx ⟨h1, h2⟩
          rw [this, if_neg hy]
          simp only [Bool.false_eq_true, if_false]
          split <;> rfl
    case mod =>
      by_cases hy : y = 0
      · simp [hy]
      · by_cases hx : x = -2 ^ 31 ∧ y = -1
        · obtain ⟨rfl, rfl⟩ := hx
          rfl
        · have : ((y == 0 || x == IntTy.i32.min && y == -1 && IntTy.i32.signed) : Bool) = false := by
            simp [hy, IntTy.i32, IntTy.min]
            intro h1 h2
            exact hx ⟨h1, h2⟩
          have hn : ¬(y = 0 ∨ x = -2 ^ 31 ∧ y = -1) := by rintro (h | h) <;> contradiction
          rw [this, if_neg hn]
          simp only [Bool.false_eq_true, if_false]
          split <;> rfl
  all_goals
    simp only [Expr.evaluate, ha, hb, Res.ok_bind, evalArith, if_true, Bool.and_self]
    cases op <;> rfl

-- `-7 / 2` and `2.5 - 0.5`
example : (Expr.arith .div (.intLit (-7)) (.intLit 2) : Expr tenths.F).evaluate .debug (noNames _) =
      .ok (.int (-3), true) ∧
    (Expr.arith .sub (.floatLit (25 : Int)) (.floatLit (5 : Int)) : Expr tenths.F).evaluate .debug (noNames _) =
      .ok (.float (20 : Int), true) := ⟨by rfl, by rfl⟩

/-- C35 (partial): where integers are `i32`, the generated code for an expression of literals does yield
the computed value.  (Literals: integers that the parser accepts, booleans and strings; operators: those
that Rust has.) -/
theorem C35_literal_expressions_partial (sc : EScope fo.F) (e : Expr fo.F) (c : CVal fo.F)
    (hl : e.Literal) (hf : e.Faithful .debug sc true) (h : e.evaluate .debug sc = .ok (c, true))
    (env : Expr fo.F → Option (RVal fo.F)) :
    ∃ computed, c.value? = some computed ∧ e.run (fun _ => .i32) env .i32 = some computed :=
  (literal_runs sc env e c true hl hf h).2 rfl

-- `-(1 << 4) % 7 == -2 && "a" + "b" != "ab"`
example : ∃ e : Expr tenths.F, e.Literal ∧ e.Faithful .debug (noNames _) true ∧
    e.evaluate .debug (noNames _) = .ok (.bool false, true) := by
  refine ⟨.logic .and (.cmp .eq (.arith .mod (.neg (.paren (.bit .shl (.intLit 1) (.intLit 4))))
    (.intLit 7)) (.neg (.intLit 2)))
    (.cmp .ne (.arith .add (.strLit "a") (.strLit "b")) (.strLit "ab")), ?_, ?_, by rfl⟩
  · simp [Expr.Literal]
  · refine ⟨⟨⟨⟨trivial, trivial, fun _ => ⟨rfl, ?_⟩⟩, trivial⟩, trivial⟩, ⟨trivial, trivial⟩, trivial⟩
    intro x y ra rb hx hy
    simp only [Expr.evaluate] at hx hy
    cases hx; cases hy; decide

/-- C35 (partial): the value that the compiler computes for `~e` has, in every width, exactly the bits that the
value of `e` lacks.  Missing: the generated code, which contains `~` and does not compile. -/
theorem C35_complement_partial (md : Mode) (sc : EScope fo.F) (e : Expr fo.F) (v : Int) (r : Bool)
    (h : e.evaluate md sc = .ok (.int v, r)) :
    ∃ w, (Expr.compl e).evaluate md sc = .ok (.int w, r) ∧
      ∀ n i, i < n → (BitVec.ofInt n w).getLsbD i = !(BitVec.ofInt n v).getLsbD i := by
  refine ⟨-v - 1, by simp [Expr.evaluate, h], ?_⟩
  intro n i hi
  have hw : BitVec.ofInt n (-v - 1) = ~~~ BitVec.ofInt n v := by
    have h1 : (1#n : BitVec n) = BitVec.ofInt n 1 := by simp
    rw [BitVec.not_eq_neg_add, ← BitVec.ofInt_neg, h1, Int.sub_eq_add_neg, BitVec.ofInt_add, BitVec.ofInt_neg (n := 1),
      ← BitVec.sub_eq_add_neg]
  simp [hw, hi]

-- `~(4 + 1)` is -6.
example : (Expr.compl (.paren (.arith .add (.intLit 4) (.intLit 1))) : Expr tenths.F).evaluate .debug (noNames _) =
    .ok (.int (-6), true) := by rfl

/-- C35 is violated by `?:` with a condition that the compiler does not know: the branch chosen by the
dummy value of the condition is reported as the resolved value. -/
theorem C35_ternary_violated (sc : EScope fo.F) (h : sc.ident "flag" = some .bool)
    (ctx : Expr fo.F → IntTy) :
    let e : Expr fo.F := .tern (.ident "flag") (.intLit 1) (.intLit 2)
    e.evaluate .debug sc = .ok (.int 2, true) ∧
    ∃ env, e.run ctx env .i32 = some (.int 1) := by
  refine ⟨?_, fun _ => some (.bool true), by simp [Expr.run, runInt, IntTy.Contains, IntTy.i32,
    IntTy.min, IntTy.max]⟩
  simp [Expr.evaluate, lookup, h, SymTy.dummy]

/-- ... even with literals only, since `==` of booleans counts as unknown: `true == true ? 1 : 2`. -/
theorem C35_ternary_literals_violated (sc : EScope fo.F) (ctx : Expr fo.F → IntTy)
    (env : Expr fo.F → Option (RVal fo.F)) :
    let e : Expr fo.F := .tern (.cmp .eq (.boolLit true) (.boolLit true)) (.intLit 1) (.intLit 2)
    e.evaluate .debug sc = .ok (.int 2, true) ∧ e.run ctx env .i32 = some (.int 1) := by
  refine ⟨rfl, ?_⟩
  simp [Expr.run, runInt, runCmp, IntTy.Contains, IntTy.i32, IntTy.min, IntTy.max]

/-- C35 is violated by `<<`: the compiler computes with 32 bits, `1 << 31` is negative there, but
2147483648 where an `int64` is wanted. -/
theorem C35_shift_violated (sc : EScope fo.F) (env : Expr fo.F → Option (RVal fo.F)) :
    let e : Expr fo.F := .bit .shl (.intLit 1) (.intLit 31)
    e.evaluate .debug sc = .ok (.int (-2147483648), true) ∧
    e.run (fun _ => .i32) env ⟨true, 64⟩ = some (.int 2147483648) := by
  refine ⟨rfl, ?_⟩
  simp only [Expr.run]
  rfl

/-- C35 is violated by a compiler built without overflow checks: 65536 * 65536 is 0 for it, but not where
an `int64` is wanted. -/
theorem C35_release_violated (sc : EScope fo.F) (env : Expr fo.F → Option (RVal fo.F)) :
    let e : Expr fo.F := .arith .mul (.intLit 65536) (.intLit 65536)
    e.evaluate .release sc = .ok (.int 0, true) ∧
    e.run (fun _ => .i32) env ⟨true, 64⟩ = some (.int 4294967296) := by
  refine ⟨rfl, ?_⟩
  simp only [Expr.run]
  rfl

/-- C35 is violated by float literals without fractional part, which are printed as integers: with
floats in which 5.0 / 2.0 is greater than 2.0, `5.0 / 2.0 > 2.0` is true for the compiler; the generated
text `5 / 2 > 2` is false. -/
theorem C35_float_violated (sc : EScope fo.F) (env : Expr fo.F → Option (RVal fo.F)) (five two : fo.F)
    (h5 : fo.printsInteger five = some 5) (h2 : fo.printsInteger two = some 2)
    (hlt : fo.lt two (fo.div five two) = true) :
    let e : Expr fo.F := .cmp .gt (.arith .div (.floatLit five) (.floatLit two)) (.floatLit two)
    e.evaluate .debug sc = .ok (.bool true, true) ∧
    e.run (fun _ => .i32) env .i32 = some (.bool false) := by
  constructor
  · simp [Expr.evaluate, evalArith, evalCmp, ArithOp.onFloat, CmpOp.onFloat, hlt]
  · simp only [Expr.run, h5, h2]
    rfl

example : tenths.printsInteger (50 : Int) = some 5 ∧ tenths.printsInteger (20 : Int) = some 2 ∧
    tenths.lt (20 : Int) (tenths.div (50 : Int) (20 : Int)) = true := by decide

end Expressions

/-! ## C36: mixing integer types -/

/-- The integer types that the code knows how to mix. -/
def NumName.Mixable : NumName → Bool
  | .uint64 | .bit | .int | .float16 | .float32 | .float64 => false
  | _ => true

/-- A type without parameter. -/
def NumName.ref (n : NumName) : NumRef := { name := n }

/-- C36 (partial): for any two of the integer types except `uint64`, `bit` and `int`, the result is
defined for both orders of the operands and is the same Rust type: signed if both are, as wide as the
wider one.  Missing: `uint64`, `bit:n`, `int:n`, see `C36_violated`. -/
theorem C36_mixing_partial (n1 n2 : NumName) (h1 : n1.Mixable = true) (h2 : n2.Mixable = true) :
    ∃ r r' t t1 t2, mixInteger (some n1.ref) (some n2.ref) = .ok (some r) ∧
      mixInteger (some n2.ref) (some n1.ref) = .ok (some r') ∧
      n1.rustInt = some t1 ∧ n2.rustInt = some t2 ∧
      r.name.rustInt = some t ∧ r'.name.rustInt = some t ∧
      t.signed = (t1.signed && t2.signed) ∧ t.width = max t1.width t2.width := by
  revert h1 h2
  cases n1 <;> cases n2 <;> intro h1 h2 <;> first
    | (exact absurd h1 (by decide))
    | (exact absurd h2 (by decide))
    | exact ⟨_, _, _, _, _, rfl, rfl, rfl, rfl, rfl, rfl, rfl, rfl⟩

example : NumName.Mixable .varint16 = true ∧ NumName.Mixable .uint32 = true := by decide

/-- C36: literals have no type of their own and do not change the type of the other operand. -/
theorem C36_literals (t : Option NumRef) :
    mixInteger none t = .ok t ∧ mixInteger t none = .ok t := by
  cases t <;> exact ⟨rfl, rfl⟩

/-- C36 is violated: mixing `uint64`, `bit:n` or `int:n` (for any n, or dynamic length) with any other
integer type, or with the same at another bit length, panics, in both orders. -/
theorem C36_violated (t1 t2 : NumRef) (h1 : t1.name = .uint64 ∨ t1.name = .bit ∨ t1.name = .int)
    (hne : t1.name ≠ t2.name ∨ t1.bits ≠ t2.bits) :
    mixInteger (some t1) (some t2) = .panic ∧ mixInteger (some t2) (some t1) = .panic := by
  have hc : compareNative t1 t2 = false := by
    cases h : compareNative t1 t2 with
    | false => rfl
    | true =>
      simp only [compareNative, Bool.and_eq_true, beq_iff_eq] at h
      rcases hne with h' | h'
      · exact absurd h.1 h'
      · exact absurd h.2 h'
  have hc' : compareNative t2 t1 = false := by
    cases h : compareNative t2 t1 with
    | false => rfl
    | true =>
      simp only [compareNative, Bool.and_eq_true, beq_iff_eq] at h
      rcases hne with h' | h'
      · exact absurd h.1.symm h'
      · exact absurd h.2.symm h'
  have hs : isSigned t1.name = .panic := by rcases h1 with h | h | h <;> rw [h] <;> rfl
  constructor
  · simp [mixInteger, hc, hs]
  · simp only [mixInteger, hc', hs]
    have hs2 : isSigned t2.name = .panic ∨ ∃ s, isSigned t2.name = .ok s := by
      cases t2.name <;> first
        | exact .inl rfl
        | exact .inr ⟨_, rfl⟩
    rcases hs2 with h | ⟨s, h⟩ <;> rw [h] <;> rfl

-- `bit:3` and `bit:5`; `uint64` and `uint8`
example : mixInteger (some { name := .bit, bits := 3 }) (some { name := .bit, bits := 5 }) = .panic ∧
    mixInteger (some { name := .uint64 }) (some { name := .uint8 }) = .panic := ⟨rfl, rfl⟩

/-- ... which also means that adding up three numbers can panic though each pair can be mixed:
`int64 + uint8` has the type `uint64`, to which a `uint16` cannot be added. -/
theorem C36_sum_violated :
    mixInteger (some NumName.int64.ref) (some NumName.uint8.ref) = .ok (some NumName.uint64.ref) ∧
    mixInteger (some NumName.uint64.ref) (some NumName.uint16.ref) = .panic := ⟨rfl, rfl⟩

/-- C36: the float type of a sum does not depend on the order of the operands, when one is a float. -/
theorem C36_floats (n1 n2 : NumName) (h : n1.rustFloat ≠ none ∨ n2.rustFloat ≠ none) :
    ∃ r r' w, mixFloat (some n1.ref) (some n2.ref) = .ok (some r) ∧
      mixFloat (some n2.ref) (some n1.ref) = .ok (some r') ∧
      r.name.rustFloat = some w ∧ r'.name.rustFloat = some w ∧
      w = max (n1.rustFloat.getD 0) (n2.rustFloat.getD 0) := by
  revert h
  cases n1 <;> cases n2 <;> intro h <;> first
    | (exact absurd h (by decide))
    | exact ⟨_, _, _, rfl, rfl, rfl, rfl, rfl⟩

example : NumName.rustFloat .int8 ≠ none ∨ NumName.rustFloat .float16 ≠ none := by decide

/-! ## C37: name resolution -/

section Scopes

variable {σ : Type}

/-- C37: a name defined in the current type is found there (unless local names are to be ignored). -/
theorem C37_local_first (m : ModelScope σ) (fuel : Nat) (package current name : String)
    (p : PackageScope σ) (locals : String → Option σ) (s : σ) (hp : m.packages package = some p)
    (hl : p.locals current = some locals) (hs : locals name = some s) :
    m.resolve fuel package (some current) name false = some (.ok (s, package)) := by
  simp [ModelScope.resolve, hp, PackageScope.resolve, hl, hs]

/-- Package `p` with a structure `S` that has a field `x`, and a global name `x`. -/
def localExample : ModelScope Nat where
  packages := fun q =>
    if q = "p" then
      some ⟨fun c => if c = "S" then some (fun n => if n = "x" then some 1 else none) else none,
        fun n => if n = "x" then some 2 else if n = "y" then some 3 else none, []⟩
    else none

example : localExample.resolve 0 "p" (some "S") "x" false = some (.ok (1, "p")) := rfl

/-- The name is not a local name of the current type, or those are ignored. -/
def PackageScope.NotLocal (p : PackageScope σ) (current : Option String) (name : String)
    (ignoreLocals : Bool) : Prop :=
  ignoreLocals = true ∨ ∀ c l, current = some c → p.locals c = some l → l name = none

theorem resolve_notLocal (p : PackageScope σ) (current : Option String) (name : String) (ig : Bool)
    (h : p.NotLocal current name ig) : p.resolve name ig current = p.file name := by
  unfold PackageScope.resolve
  cases hi : ig with
  | true => simp
  | false =>
    rcases h with h | h
    · rw [hi] at h; cases h
    · cases current with
      | none => simp
      | some c =>
        cases hl : p.locals c with
        | none => simp [hl]
        | some l => simp [hl, h c l rfl hl]

/-- C37: otherwise a name defined in the current package is found there. -/
theorem C37_package_next (m : ModelScope σ) (fuel : Nat) (package name : String)
    (current : Option String) (ig : Bool) (p : PackageScope σ) (s : σ)
    (hp : m.packages package = some p) (hl : p.NotLocal current name ig) (hs : p.file name = some s) :
    m.resolve fuel package current name ig = some (.ok (s, package)) := by
  simp [ModelScope.resolve, hp, resolve_notLocal p current name ig hl, hs]

-- The global `x` if local names are ignored, and `y`, which is not a name of `S`.
example : localExample.resolve 0 "p" (some "S") "x" true = some (.ok (2, "p")) ∧
    localExample.resolve 0 "p" (some "S") "y" false = some (.ok (3, "p")) := ⟨rfl, rfl⟩

/-- C37: otherwise it is found in the first package that defines it, going through the imported packages
breadth first (layer by layer: the imports, their imports, ...) and in the order of the import
declarations; the search ends there, cyclic imports or not. -/
theorem C37_imports_breadth_first (m : ModelScope σ) (package name : String) (current : Option String)
    (ig : Bool) (p : PackageScope σ) (hp : m.packages package = some p)
    (hl : p.NotLocal current name ig) (hnot : p.file name = none)
    (n : Nat) (hearlier : ∀ k, k < n → m.NotIn name (m.layer p.imports k))
    (before after : List Import) (i : Import) (hlayer : m.layer p.imports n = before ++ i :: after)
    (hbefore : m.NotIn name before) (q : PackageScope σ) (hq : m.packages i.package = some q) (s : σ)
    (hs : q.file name = some s) (fuel : Nat) (hf : n < fuel) :
    m.resolve fuel package current name ig = some (.ok (s, i.package)) := by
  simp only [ModelScope.resolve, hp, resolve_notLocal p current name ig hl, hnot]
  exact searchImports_found m name ig n p.imports fuel hf hearlier before after i q s hlayer hbefore hq hs

/-- Packages `a` (imports `b` and `c`), `b` (imports `a`), `c` (imports `d`, defines `C`), `d` (defines
`C` and `D`). -/
def scopeExample : ModelScope Nat where
  packages := fun q =>
    if q = "a" then some ⟨fun _ => none, fun _ => none, [{ package := "b" }, { package := "c" }]⟩
    else if q = "b" then some ⟨fun _ => none, fun _ => none, [{ package := "a" }]⟩
    else if q = "c" then
      some ⟨fun _ => none, fun n => if n = "C" then some 1 else none, [{ package := "d" }]⟩
    else if q = "d" then
      some ⟨fun _ => none, fun n => if n = "C" then some 2 else if n = "D" then some 3 else none, []⟩
    else none

-- From `a`, the name `D` is found in `d`, in layer 1, though `a` and `b` import each other.
example : scopeExample.layer [{ package := "b" }, { package := "c" }] 1 =
    [{ package := "a" }] ++ { package := "d" } :: [] ∧
    scopeExample.resolve 2 "a" none "D" true = some (.ok (3, "d")) ∧
    scopeExample.resolve 2 "a" none "C" true = some (.ok (1, "c")) := ⟨rfl, rfl, rfl⟩

/-- C37 (partial): if imports are acyclic (each package has a rank above those of its imports), the
search ends for every name.  Missing: cyclic imports, see `C37_cyclic_imports_violated`. -/
theorem C37_terminates_partial (m : ModelScope σ) (rank : String → Nat)
    (hacyclic : ∀ q p, m.packages q = some p → ∀ i ∈ p.imports, rank i.package < rank q)
    (package name : String) (current : Option String) (ig : Bool) (fuel : Nat)
    (hf : rank package < fuel) : ∃ r, m.resolve fuel package current name ig = some r := by
  unfold ModelScope.resolve
  cases hp : m.packages package with
  | none => exact ⟨_, rfl⟩
  | some p =>
    simp only
    cases hr : p.resolve name ig current with
    | some s => exact ⟨_, rfl⟩
    | none =>
      refine searchImports_empty m name ig (rank package) p.imports fuel hf ?_
      have := layer_rank m rank hacyclic (rank package) p.imports (rank package)
        (hacyclic package p hp)
      exact List.eq_nil_iff_forall_not_mem.2 (fun i hi => by have := this i hi; omega)

/-- Package `a` imports `b`. -/
def acyclicExample : ModelScope Nat where
  packages := fun q =>
    if q = "a" then some ⟨fun _ => none, fun _ => none, [{ package := "b" }]⟩
    else if q = "b" then some ⟨fun _ => none, fun _ => none, []⟩
    else none

example : ∃ rank : String → Nat, ∀ q p, acyclicExample.packages q = some p →
    ∀ i ∈ p.imports, rank i.package < rank q := by
  refine ⟨fun q => if q = "a" then 1 else 0, fun q p h i hi => ?_⟩
  simp only [acyclicExample] at h
  split at h
  · cases h; simp only [List.mem_singleton] at hi; subst hi; rename_i hq; subst hq; decide
  · split at h
    · cases h; cases hi
    · cases h

/-- C37 is violated: two packages that import each other make the search for a name that neither defines
run forever. -/
theorem C37_cyclic_imports_violated (fuel : Nat) :
    ({ packages := fun q =>
        if q = "a" then some ⟨fun _ => none, fun _ => none, [{ package := "b" }]⟩
        else if q = "b" then some ⟨fun _ => none, fun _ => none, [{ package := "a" }]⟩
        else none } : ModelScope Nat).resolve fuel "a" none "Undefined" true = none := by
  simp only [ModelScope.resolve, if_true, PackageScope.resolve]
  apply searchImports_diverges
  · simp
  · intro q p h
    simp only at h
    split at h
    · cases h
      refine ⟨rfl, by simp, fun i hi => ?_⟩
      simp only [List.mem_singleton] at hi; subst hi
      exact ⟨_, rfl⟩
    · split at h
      · cases h
        refine ⟨rfl, by simp, fun i hi => ?_⟩
        simp only [List.mem_singleton] at hi; subst hi
        exact ⟨_, rfl⟩
      · cases h
  · intro i hi
    simp only [List.mem_singleton] at hi; subst hi
    exact ⟨_, rfl⟩

/-! ## C44: selective imports -/

/-- The same packages with `import p.*` in place of every `import p.Name`. -/
def ModelScope.withWholeImports (m : ModelScope σ) : ModelScope σ where
  packages := fun q => (m.packages q).map fun p =>
    { p with imports := p.imports.map fun i => { i with symbol := none } }

/-- C44 is violated: which symbol an import names makes no difference to any lookup. -/
theorem C44_selection_ignored_violated (m : ModelScope σ) (fuel : Nat) (package name : String)
    (current : Option String) (ig : Bool) :
    m.withWholeImports.resolve fuel package current name ig =
      m.resolve fuel package current name ig := by
  have hlayer : ∀ (is acc : List Import),
      m.withWholeImports.searchLayer name ig (is.map fun i => { i with symbol := none })
        (acc.map fun i => { i with symbol := none }) =
      match m.searchLayer name ig is acc with
      | .found s q => .found s q
      | .panic => .panic
      | .next is => .next (is.map fun i => { i with symbol := none }) := by
    intro is
    induction is with
    | nil => intro acc; rfl
    | cons i rest ih =>
      intro acc
      simp only [List.map_cons, ModelScope.searchLayer, ModelScope.withWholeImports]
      cases hp : m.packages i.package with
      | none => rfl
      | some p =>
        simp only [Option.map_some, resolve_import]
        cases hs : p.file name with
        | some s => rfl
        | none =>
          simp only
          rw [← List.map_append]
          exact ih _
  have hloop : ∀ (fuel : Nat) (is : List Import),
      m.withWholeImports.searchImports name ig fuel (is.map fun i => { i with symbol := none }) =
      m.searchImports name ig fuel is := by
    intro fuel
    induction fuel with
    | zero => intro is; rfl
    | succ fuel ih =>
      intro is
      cases is with
      | nil => rfl
      | cons i rest =>
        simp only [ModelScope.searchImports, List.map_cons]
        have := hlayer (i :: rest) []
        simp only [List.map_cons, List.map_nil] at this
        rw [this]
        cases m.searchLayer name ig (i :: rest) [] with
        | found s q => rfl
        | panic => rfl
        | next is => exact ih is
  unfold ModelScope.resolve
  simp only [ModelScope.withWholeImports]
  cases hp : m.packages package with
  | none => rfl
  | some p =>
    simp only [Option.map_some]
    have hres : ({ p with imports := p.imports.map fun i => { i with symbol := none } } :
        PackageScope σ).resolve name ig current = p.resolve name ig current := rfl
    rw [hres]
    cases p.resolve name ig current with
    | some s => rfl
    | none => exact hloop fuel p.imports

-- `import b.X` makes the name `Y` of `b` visible.
example : ({ packages := fun q =>
      if q = "a" then some ⟨fun _ => none, fun _ => none, [{ package := "b", symbol := some "X" }]⟩
      else if q = "b" then some ⟨fun _ => none, fun n => if n = "Y" then some 1 else none, []⟩
      else none } : ModelScope Nat).resolve 1 "a" none "Y" true = some (.ok (1, "b")) := rfl

/-- C44 (partial): what a selective import names is found, if it is not defined nearer. -/
theorem C44_selected_symbol_partial (m : ModelScope σ) (package name : String) (p q : PackageScope σ)
    (hp : m.packages package = some p) (hnot : p.file name = none) (before after : List Import)
    (i : Import) (hi : p.imports = before ++ i :: after) (_hsel : i.symbol = some name)
    (hbefore : m.NotIn name before) (hq : m.packages i.package = some q) (s : σ)
    (hs : q.file name = some s) (fuel : Nat) (hf : 0 < fuel) :
    m.resolve fuel package none name true = some (.ok (s, i.package)) :=
  C37_imports_breadth_first m package name none true p hp (.inl rfl) hnot 0 (fun k hk => by omega)
    before after i hi hbefore q hq s hs fuel hf

example : ({ packages := fun q =>
      if q = "a" then some ⟨fun _ => none, fun _ => none, [{ package := "b", symbol := some "Y" }]⟩
      else if q = "b" then some ⟨fun _ => none, fun n => if n = "Y" then some 1 else none, []⟩
      else none } : ModelScope Nat).resolve 1 "a" none "Y" true = some (.ok (1, "b")) := rfl

end Scopes

/-! ## C38: subtypes -/

section Subtypes

variable {α : Type}

/-- C38 (partial): if subtype declarations are acyclic (the type of a subtype has a smaller rank) and
refer to declared types, following them from any reference to a declared type ends, and the result is the
base type at the end of the chain: a builtin type with its bit length, or a type declared as something
other than a subtype.  The arguments of the reference are kept.  Missing: cyclic declarations, see
`C38_cyclic_subtypes_violated`. -/
theorem C38_subtypes_partial (decls : String → String → Option (Decl α)) (rank : String → String → Nat)
    (hacyclic : ∀ p n s, decls p n = some (.subtype s) → s.builtin = false →
      rank s.package s.name < rank p n)
    (hclosed : ∀ p n s, decls p n = some (.subtype s) → s.builtin = false →
      ∃ d, decls s.package s.name = some d ∧ d ≠ .other)
    (t : TypeRef α) (ht : t.builtin = true ∨ ∃ d, decls t.package t.name = some d ∧ d ≠ .other) :
    ∃ base, BaseOf decls t base ∧ ∃ n, ∀ fuel, n < fuel → ∃ r m,
      fundamentalType decls fuel t = some (.ok (r, m)) ∧
      r.builtin = base.builtin ∧ r.package = base.package ∧ r.name = base.name ∧ r.args = t.args ∧
      (r.builtin = true → r.bits = base.bits ∧ r.length = base.length ∧ m = false) ∧
      (r.builtin = false → decls r.package r.name = some .definition ∧ m = true) := by
  have hbase : ∃ base, BaseOf decls t base := by
    cases hb : t.builtin with
    | true => exact ⟨t, .builtin t hb⟩
    | false =>
      rcases ht with h | h
      · rw [hb] at h; cases h
      · exact baseOf_exists decls rank hacyclic hclosed _ t hb (Nat.le_refl _) h
  obtain ⟨base, hb⟩ := hbase
  refine ⟨base, hb, ?_⟩
  obtain ⟨n, hn⟩ := fundamentalType_base decls t base hb
  refine ⟨n, fun fuel hf => ?_⟩
  have hone := hn t.args fuel hf
  have hdef : base.builtin = false → decls base.package base.name = some .definition := by
    clear hone hn ht
    induction hb with
    | builtin t h => intro h'; rw [h] at h'; cases h'
    | defined t h hd => intro _; exact hd
    | subtype t s b h hd hb ih => exact ih
  cases hbb : base.builtin with
  | true =>
    rw [if_pos hbb] at hone
    exact ⟨_, _, hone, hbb, rfl, rfl, rfl, fun _ => ⟨rfl, rfl, rfl⟩, fun h => by rw [hbb] at h; cases h⟩
  | false =>
    rw [if_neg (by rw [hbb]; simp)] at hone
    exact ⟨_, _, hone, rfl, rfl, rfl, rfl, (fun h => by cases h), fun _ => ⟨hdef hbb, rfl⟩⟩

-- `subtype bit:5 A; subtype A B;`: B stands for `bit:5`.
example : fundamentalType (α := Nat) (fun _ n =>
      if n = "A" then some (.subtype { builtin := true, package := "", name := "bit", bits := 5 })
      else if n = "B" then some (.subtype { builtin := false, package := "p", name := "A" })
      else none) 3 { builtin := false, package := "p", name := "B" } =
    some (.ok ({ builtin := true, package := "", name := "bit", bits := 5 }, false)) := rfl

example : ∃ (decls : String → String → Option (Decl Nat)) (rank : String → String → Nat),
    (∀ p n s, decls p n = some (.subtype s) → s.builtin = false → rank s.package s.name < rank p n) ∧
    (∀ p n s, decls p n = some (.subtype s) → s.builtin = false →
      ∃ d, decls s.package s.name = some d ∧ d ≠ .other) ∧
    ∃ s, decls "p" "B" = some (.subtype s) ∧ s.builtin = false := by
  refine ⟨fun _ n => if n = "A" then some .definition else
    if n = "B" then some (.subtype { builtin := false, package := "p", name := "A" }) else none,
    fun _ n => if n = "B" then 1 else 0, ?_, ?_, _, rfl, rfl⟩
  · intro p n s h _
    simp only at h
    split at h
    · cases h
    · split at h
      · cases h; rename_i hn _; subst hn; exact Nat.zero_lt_one
      · cases h
  · intro p n s h _
    simp only at h
    split at h
    · cases h
    · split at h
      · cases h; exact ⟨.definition, rfl, by simp⟩
      · cases h

/-- C38 is violated: two subtypes declared as each other are followed forever. -/
theorem C38_cyclic_subtypes_violated (fuel : Nat) (name : String) (h : name = "A" ∨ name = "B") :
    fundamentalType (α := Nat) (fun _ n =>
      if n = "A" then some (.subtype { builtin := false, package := "p", name := "B" })
      else if n = "B" then some (.subtype { builtin := false, package := "p", name := "A" })
      else none) fuel { builtin := false, package := "p", name := name } = none := by
  induction fuel generalizing name with
  | zero => rfl
  | succ fuel ih =>
    rcases h with rfl | rfl
    · exact ih "B" (.inr rfl)
    · exact ih "A" (.inl rfl)

end Subtypes

/-! ## C39: names of template instantiations -/

/-- The name of an instantiation that is not given one. -/
def instanceName (fuel : Nat) (st : TState) (t : TRef) : Option String :=
  match instantiateType fuel st t "" with
  | some (.ok (_, ref)) => some ref.name
  | _ => none

/-- C39: instantiating a template a second time with the same arguments yields the same reference and
adds nothing to the package (if the template is still the one the name refers to). -/
theorem C39_same_arguments (fuel fuel' : Nat) (st st' : TState) (t ref : TRef) (given : String)
    (kind : TKind) (d : TDef) (hl : st.lookup t.name = some (kind, d))
    (hl' : st'.lookup t.name = some (kind, d)) (hpkg : st'.package = st.package)
    (ht : t.targs ≠ []) (h : instantiateType fuel st t given = some (.ok (st', ref))) :
    instantiateType (fuel' + 1) st' t given = some (.ok (st', ref)) := by
  obtain ⟨⟨d', hd'⟩, hp, hlen, rfl⟩ := instantiateType_stored fuel st st' t ref given kind d hl ht h
  simp only [instantiateType, ht, if_false, hl']
  rw [if_neg (by rw [not_or]; exact ⟨hp, by omega⟩)]
  simp only [hd', hpkg]

/-- C39 (partial): instantiations of a template with one parameter, with arguments of different names,
have different names.  Missing: arguments that differ only in bit length, package or template arguments;
several parameters, see the violations. -/
theorem C39_one_parameter_partial (fuel1 fuel2 : Nat) (st1 st2 : TState) (t1 t2 a1 a2 : TRef)
    (hname : t1.name = t2.name) (h1 : t1.targs = [a1]) (h2 : t2.targs = [a2])
    (hne : a1.name ≠ a2.name) (n1 n2 : String) (hn1 : instanceName fuel1 st1 t1 = some n1)
    (hn2 : instanceName fuel2 st2 t2 = some n2) : n1 ≠ n2 := by
  have key : ∀ (fuel : Nat) (st : TState) (t a : TRef) (n : String), t.targs = [a] →
      instanceName fuel st t = some n → n = t.name ++ a.name := by
    intro fuel st t a n ht hn
    unfold instanceName at hn
    split at hn
    · rename_i st' ref h
      cases hn
      have hne : t.targs ≠ [] := by simp [ht]
      cases hl : st.lookup t.name with
      | none =>
        cases fuel with
        | zero => cases h
        | succ fuel => simp [instantiateType, ht, hl] at h
      | some kd =>
        obtain ⟨kind, d⟩ := kd
        obtain ⟨_, _, _, rfl⟩ := instantiateType_stored fuel st st' t ref "" kind d hl hne h
        simp [TRef.name, instantiatedName, ht]
    · cases hn
  rw [key _ _ _ _ _ h1 hn1, key _ _ _ _ _ h2 hn2, hname]
  intro hc
  exact hne (String.append_right_inj t2.name |>.1 hc)

/-- A package with the template `struct Box<T> { T value; }` and `struct Pair<S, T> { S first; T second; }`
and `struct Wrap<T> { T inner; }`. -/
def templates : TState where
  package := "p"
  store := fun k n => match k with
    | .struct =>
      if n = "Box" then some ⟨["T"], [("value", .mk false "" "T" 0 [] [])], [], []⟩ else none
    | _ => none
  lookup := fun n =>
    if n = "Box" then some (.struct, ⟨["T"], [("value", .mk false "" "T" 0 [] [])], [], []⟩)
    else if n = "Pair" then some (.struct, ⟨["S", "T"],
      [("first", .mk false "" "S" 0 [] []), ("second", .mk false "" "T" 0 [] [])], [], []⟩)
    else if n = "Wrap" then some (.struct, ⟨["T"], [("inner", .mk false "" "T" 0 [] [])], [], []⟩)
    else none

/-- `bit:n`, a type name, and an instantiation of a template. -/
def tBit (n : Nat) : TRef := .mk true "" "bit" n [] []
def tName (n : String) : TRef := .mk false "" n 0 [] []
def tInst (template : String) (args : List TRef) : TRef := .mk false "" template 0 args []

-- `Box<int8>` twice.
example : ∃ st' ref d, instantiateType 2 templates (tInst "Box" [tName "int8"]) "" = some (.ok (st', ref)) ∧
    templates.lookup "Box" = some (.struct, d) ∧ st'.lookup "Box" = some (.struct, d) ∧
    st'.package = templates.package := ⟨_, _, _, rfl, rfl, rfl, rfl⟩

example : instanceName 2 templates (tInst "Box" [tName "int8"]) = some "Boxint8" ∧
    instanceName 2 templates (tInst "Box" [tName "int16"]) = some "Boxint16" := by
  constructor <;> decide +kernel

/-- C39 is violated: `Box<bit:3>` and `Box<bit:5>` have the same name. -/
theorem C39_bit_length_violated :
    instanceName 2 templates (tInst "Box" [tBit 3]) = some "Boxbit" ∧
    instanceName 2 templates (tInst "Box" [tBit 5]) = some "Boxbit" := by
  constructor <;> decide +kernel

/-- C39 is violated: `Wrap<Box<int8>>` and `Wrap<Box<int16>>` have the same name. -/
theorem C39_nested_violated :
    instanceName 3 templates (tInst "Wrap" [tInst "Box" [tName "int8"]]) = some "WrapBox" ∧
    instanceName 3 templates (tInst "Wrap" [tInst "Box" [tName "int16"]]) = some "WrapBox" := by
  constructor <;> decide +kernel

/-- C39 is violated: `Pair<AB, C>` and `Pair<A, BC>` have the same name. -/
theorem C39_two_parameters_violated :
    instanceName 2 templates (tInst "Pair" [tName "AB", tName "C"]) = some "PairABC" ∧
    instanceName 2 templates (tInst "Pair" [tName "A", tName "BC"]) = some "PairABC" := by
  constructor <;> decide +kernel

/-- C39 is violated: `Box<p.X>` and `Box<q.X>`, with types of different packages, have the same name. -/
theorem C39_packages_violated :
    instanceName 2 templates (tInst "Box" [.mk false "p" "X" 0 [] []]) = some "BoxX" ∧
    instanceName 2 templates (tInst "Box" [.mk false "q" "X" 0 [] []]) = some "BoxX" := by
  constructor <;> decide +kernel

/-! ## C45: instantiated templates -/

/-- The definition that an instantiation of a template refers to, with the names and bit lengths of the
types of its fields. -/
def instanceFields (fuel : Nat) (st : TState) (t : TRef) : Option (List (String × String × Nat)) :=
  match instantiateType fuel st t "" with
  | some (.ok (st', ref)) =>
    (st'.store .struct ref.name).map fun d => d.fields.map fun f => (f.1, f.2.name, f.2.bits)
  | _ => none

/-- C45 (partial): instantiating a template, under a name not yet taken, whose fields and arguments have
no template arguments of their own, defines a type of that name that is the template with each field of a
parameter's type given the corresponding argument as its type, and likewise the parameters (except of a
choice) and the results of functions; all other types stay as they were.
Missing: names already taken; fields whose types have template arguments; parameters of choices.  See the
violations. -/
theorem C45_substitution_partial (fuel : Nat) (st : TState) (t : TRef) (given : String) (kind : TKind)
    (d : TDef) (hl : st.lookup t.name = some (kind, d)) (ht : t.targs ≠ [])
    (hp : d.params.length = t.targs.length) (hargs : ∀ a ∈ t.targs, a.Plain)
    (hfields : ∀ f ∈ d.fields, f.2.Plain)
    (hfresh : st.store kind (if given = "" then instantiatedName t else given) = none)
    (hfuel : 1 < fuel) :
    ∃ st' ref d', instantiateType fuel st t given = some (.ok (st', ref)) ∧
      ref.name = (if given = "" then instantiatedName t else given) ∧
      st'.store kind ref.name = some d' ∧ d'.params = [] ∧
      d'.fields.map (·.1) = d.fields.map (·.1) ∧
      (∀ (i : Nat) (f f' : String × TRef), d.fields[i]? = some f → d'.fields[i]? = some f' →
        (∀ x a, (d.params.zip t.targs).reverse.find? (fun p => p.1 == f.2.name) = some (x, a) →
          f'.2 = a.withArgs f.2.args) ∧
        (f.2.name ∉ d.params → f'.2 = f.2)) ∧
      (kind ≠ .choice → d'.typeParams.map (·.1) = d.typeParams.map (·.1) ∧
        ∀ (i : Nat) (f f' : String × TRef), d.typeParams[i]? = some f → d'.typeParams[i]? = some f' →
          (∀ x a, (d.params.zip t.targs).reverse.find? (fun p => p.1 == f.2.name) = some (x, a) →
            f'.2 = a) ∧
          (f.2.name ∉ d.params → f'.2 = f.2)) ∧
      (d'.functions.map (·.1) = d.functions.map (·.1) ∧
        ∀ (i : Nat) (f f' : String × TRef), d.functions[i]? = some f → d'.functions[i]? = some f' →
          (∀ x a, (d.params.zip t.targs).reverse.find? (fun p => p.1 == f.2.name) = some (x, a) →
            f'.2 = a) ∧
          (f.2.name ∉ d.params → f'.2 = f.2)) ∧
      (∀ k n, ¬(k = kind ∧ n = ref.name) → st'.store k n = st.store k n) := by
  obtain ⟨fuel, rfl⟩ : ∃ k, fuel = k + 1 := ⟨fuel - 1, by omega⟩
  have hpne : d.params ≠ [] := by
    intro h; rw [h] at hp; exact ht (List.length_eq_zero_iff.1 hp.symm)
  simp only [instantiateType, ht, if_false, hl]
  rw [if_neg (by rw [not_or]; exact ⟨hpne, by omega⟩)]
  simp only [hfresh]
  rw [instArgs_plain fuel (by omega) t.targs st hargs]
  simp only [Run.bind]
  rw [instFields_plain _ _ d.fields st hfields]
  have hnone : ∀ name, name ∉ d.params →
      (d.params.zip t.targs).reverse.find? (fun p => p.1 == name) = none := by
    intro name hnot
    rw [List.find?_eq_none]
    intro x hx hc
    rw [List.mem_reverse] at hx
    simp only [beq_iff_eq] at hc
    exact hnot (hc ▸ (List.of_mem_zip hx).1)
  refine ⟨_, _, _, rfl, rfl, if_pos ⟨rfl, rfl⟩, rfl, ?_, ?_, ?_, ?_, ?_⟩
  · simp [List.map_map, Function.comp_def]
  · intro i f f' hf hf'
    simp only [List.getElem?_map, hf, Option.map_some, Option.some.injEq] at hf'
    subst hf'
    constructor
    · intro x a ha
      simp [substType, substLookup, ha]
    · intro hnot
      simp [substType, substLookup, hnone _ hnot]
  · intro hk
    constructor
    · simp only [List.map_map]
      apply List.map_congr_left
      intro f _
      simp only [Function.comp, instTypeParam]
      split <;> rfl
    · intro i f f' hf hf'
      simp only [List.getElem?_map, hf, Option.map_some, Option.some.injEq] at hf'
      subst hf'
      have hkey : (match kind with
        | .choice => f.1
        | _ => f.2.name) = f.2.name := by cases kind <;> first | rfl | exact absurd rfl hk
      constructor
      · intro x a ha
        simp only [instTypeParam, hkey, substLookup, ha, Option.map_some]
      · intro hnot
        simp only [instTypeParam, hkey, substLookup, hnone _ hnot, Option.map_none]
  · constructor
    · simp only [List.map_map]
      apply List.map_congr_left
      intro f _
      simp only [Function.comp, instFunction]
      split <;> rfl
    · intro i f f' hf hf'
      simp only [List.getElem?_map, hf, Option.map_some, Option.some.injEq] at hf'
      subst hf'
      constructor
      · intro x a ha
        simp only [instFunction, substLookup, ha, Option.map_some]
      · intro hnot
        simp only [instFunction, substLookup, hnone _ hnot, Option.map_none]
  · intro k n hkn
    exact if_neg hkn

example : instanceFields 2 templates (tInst "Pair" [tBit 3, tName "X"]) =
    some [("first", "bit", 3), ("second", "X", 0)] := by decide +kernel

/-- C45 is violated when a name is taken: after `Box<bit:3>`, the type used for `Box<bit:5>` has a field
of 3 bits. -/
theorem C45_name_taken_violated :
    (match instantiateType 2 templates (tInst "Box" [tBit 3]) "" with
      | some (.ok (st, _)) => instanceFields 2 st (tInst "Box" [tBit 5])
      | _ => none) = some [("value", "bit", 3)] := by decide +kernel

/-- C45 is violated by nested template arguments: the field of `struct Outer<T> { Wrap<Box<T>> field; }`
in `Outer<int8>` has a type that still contains the parameter: the field `value` of the type `BoxT`, made
on the way, is of type `T`. -/
theorem C45_nested_violated :
    let st := templates.insert .struct "Outer"
      ⟨["T"], [("field", tInst "Wrap" [tInst "Box" [tName "T"]])], [], []⟩
    (match instantiateType 4 st (tInst "Outer" [tName "int8"]) "" with
      | some (.ok (st', _)) =>
        ((st'.store .struct "BoxT").map fun d => d.fields.map fun f => (f.1, f.2.name),
         (st'.store .struct "Boxint8").isSome)
      | _ => (none, true)) = (some [("value", "T")], false) := by decide +kernel

/-- C45 is violated by choices: the parameter of `choice Pick<T>(T selector) on selector { .. }` is not
given the type that the template is instantiated with. -/
theorem C45_choice_parameter_violated :
    let st := templates.insert .choice "Pick" ⟨["T"], [], [("selector", tName "T")], []⟩
    (match instantiateType 2 st (tInst "Pick" [tName "int8"]) "" with
      | some (.ok (st', ref)) =>
        (st'.store .choice ref.name).map fun d => d.typeParams.map fun p => (p.1, p.2.name)
      | _ => none) = some [("selector", "T")] := by decide +kernel

/-! ## C46: values of enumeration and bitmask items -/

section Items

variable {fo : FloatOps}

/-- The value of an expression in the generated code, in a context of `i32`. -/
def RunsTo (env : Expr fo.F → Option (RVal fo.F)) (e : Expr fo.F) (v : Int) : Prop :=
  e.run (fun _ => .i32) env .i32 = some (.int v)

/-- C46 (partial): the items of an enumeration have the values that the language prescribes, if the
expressions are made of literals (and are reported as resolved) and the compiler is built with overflow
checks.  Missing: expressions that refer to constants, see `C46_constants_violated`. -/
theorem C46_enum_items_partial (sc : EScope fo.F) (env : Expr fo.F → Option (RVal fo.F))
    (items : List (Option (Expr fo.F)))
    (hitems : ∀ e, some e ∈ items → e.Literal ∧ e.Faithful .debug sc true ∧
      ∃ c, e.evaluate .debug sc = .ok (c, true))
    (vs : List Int) (h : enumItemValues .debug sc 0 items = .ok vs) :
    EnumItems (RunsTo env) 0 items vs := by
  refine enumItemValues_spec sc _ items (fun e he v r hev => ?_) 0 vs h
  obtain ⟨hl, hf, c, hc⟩ := hitems e he
  rw [hev] at hc
  cases hc
  obtain ⟨w, hw, hrun⟩ := C35_literal_expressions_partial sc e _ hl hf hev env
  cases hw
  exact hrun

-- `enum E { A, B = 2 * 5, C }`
example : enumItemValues (fo := tenths) .debug (noNames _) 0
    [none, some (.arith .mul (.intLit 2) (.intLit 5)), none] = .ok [0, 10, 11] := rfl

/-- C46 is violated by constants: an item `= MAX_VALUE` has the value 0, whatever the constant is. -/
theorem C46_constants_violated (sc : EScope fo.F) (h : sc.ident "MAX_VALUE" = some .integer) :
    enumItemValues .debug sc 0 [some (.ident "MAX_VALUE")] = .ok [0] ∧
    bitmaskItemValues .debug sc 1 [some (.ident "MAX_VALUE")] = .ok [0] := by
  constructor
  · simp [enumItemValues, Expr.evaluate, lookup, h, SymTy.dummy, ArithOp.compile, ArithOp.undefined,
      ArithOp.exact, IntTy.Contains, IntTy.i32, IntTy.min, IntTy.max]
  · simp [bitmaskItemValues, Expr.evaluate, lookup, h, SymTy.dummy, asU64]

/-- C46 is violated by the largest value: after an item with the value 2147483647 the compiler panics,
although no further item follows. -/
theorem C46_largest_violated (sc : EScope fo.F) :
    enumItemValues .debug sc 0 [some (.intLit 2147483647)] = .panic := rfl

/-- C46 (partial): the items of a bitmask have the values that the language prescribes, the next free bit
for those without expression, if the expressions are made of literals, are reported as resolved and have
powers of two as values, and only the last item takes the highest bit.  Missing: other values, see the
violations. -/
theorem C46_bitmask_items_partial (sc : EScope fo.F) (env : Expr fo.F → Option (RVal fo.F))
    (items : List (Option (Expr fo.F)))
    (hitems : ∀ e, some e ∈ items → e.Literal ∧ e.Faithful .debug sc true ∧
      ∃ k, k < 31 ∧ e.evaluate .debug sc = .ok (.int (2 ^ k), true))
    (vs : List Nat) (hlast : ∀ v ∈ vs.dropLast, v < 2 ^ 63)
    (h : bitmaskItemValues .debug sc 1 items = .ok vs) :
    BitmaskItems (fun e v => RunsTo env e v) [] items vs := by
  refine bitmaskItemValues_spec sc _ items (fun e he v r hev => ?_) [] 0 vs (by omega) (by simp)
    (fun j _ => Nat.zero_le j) hlast h
  obtain ⟨hl, hf, k, hk, hc⟩ := hitems e he
  rw [hev] at hc
  cases hc
  obtain ⟨w, hw, hrun⟩ := C35_literal_expressions_partial sc e _ hl hf hev env
  cases hw
  refine ⟨?_, k, hk, rfl⟩
  simp only [asU64_pow k (by omega)]
  simpa [RunsTo] using hrun

-- `bitmask uint8 M { A, B = 8, C }`
example : bitmaskItemValues (fo := tenths) .debug (noNames _) 1 [none, some (.intLit 8), none] =
    .ok [1, 8, 16] := rfl

/-- C46 is violated after a value of several bits: the item after `= 3` gets 6, not the next free bit
4. -/
theorem C46_several_bits_violated (sc : EScope fo.F) :
    bitmaskItemValues .debug sc 1 [some (.intLit 3), none] = .ok [3, 6] ∧
    NextFreeBit [3] 4 ∧ ¬ NextFreeBit [3] 6 := by
  have h4 : NextFreeBit [3] 4 := by
    refine ⟨2, rfl, by simp, fun j hj => ?_⟩
    have := hj 3 (by simp)
    rcases j with _ | _ | j
    · omega
    · omega
    · omega
  refine ⟨rfl, h4, ?_⟩
  rintro ⟨k, hk, h1, h2⟩
  have : k ≤ 2 := h2 2 (by simp)
  have : k = 0 ∨ k = 1 ∨ k = 2 := by omega
  rcases this with rfl | rfl | rfl <;> omega

/-- C46 is violated after a value of 0 that is not the first: the next item gets the bit 1 again. -/
theorem C46_zero_violated (sc : EScope fo.F) :
    bitmaskItemValues .debug sc 1 [none, some (.intLit 0), none] = .ok [1, 0, 1] := rfl

end Items

end Zs
