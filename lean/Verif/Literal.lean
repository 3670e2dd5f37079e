import Verif.Base

/-!
# Model of the literals of schema expressions

`crates/zserio-rs-build/src/internal/visitor.rs` turns the text of a literal into a value,
`generator/expression.rs` turns the value back into Rust text.  Texts are lists of characters.  File
names are relative to `crates/zserio-rs-build/src/internal/`.
-/

namespace Zs

/-- The literal tokens of `parser/ZserioLexer.g4`. -/
inductive LitKind where
  | bool | decimal | hexadecimal | octal | binary | string | float | double
  deriving DecidableEq, Repr

/-- `ast/expression.rs`: the `ExpressionType` of a literal.  `F` stands for `f64`. -/
inductive LitVal (F : Type) where
  | bool (b : Bool)
  | int (n : Int)
  | str (s : List Char)
  | float (f : F)

/-- `f64` as far as literals need it: the number a text that `f64::from_str` accepts is rounded to, and
`Display`. -/
structure FloatText where
  F : Type
  round : List Char → F
  display : F → List Char

/-! ## Functions of the Rust standard library -/

/-- `char::to_digit` for a radix up to 16. -/
def toDigit (radix : Nat) (c : Char) : Option Nat :=
  let d :=
    if '0' ≤ c ∧ c ≤ '9' then some (c.toNat - '0'.toNat)
    else if 'a' ≤ c ∧ c ≤ 'z' then some (c.toNat - 'a'.toNat + 10)
    else if 'A' ≤ c ∧ c ≤ 'Z' then some (c.toNat - 'A'.toNat + 10)
    else none
  d.bind fun d => if d < radix then some d else none

/-- The loop of `i32::from_str_radix` for a number without sign: `checked_mul`, `checked_add`. -/
def parseDigits (radix : Nat) : Int → List Char → Option Int
  | acc, [] => some acc
  | acc, c :: cs =>
    (toDigit radix c).bind fun d =>
      if acc * radix < 2 ^ 31 ∧ acc * radix + d < 2 ^ 31 then parseDigits radix (acc * radix + d) cs
      else none

/-- The same for a number with the sign `-`: `checked_mul`, `checked_sub`. -/
def parseDigitsNeg (radix : Nat) : Int → List Char → Option Int
  | acc, [] => some acc
  | acc, c :: cs =>
    (toDigit radix c).bind fun d =>
      if -2 ^ 31 ≤ acc * radix ∧ -2 ^ 31 ≤ acc * radix - d then
        parseDigitsNeg radix (acc * radix - d) cs
      else none

/-- `i32::from_str_radix`, and `parse::<i32>` with radix 10. -/
def parseI32 (radix : Nat) : List Char → Option Int
  | [] => none
  | ['+'] | ['-'] => none
  | '+' :: cs => parseDigits radix 0 cs
  | '-' :: cs => parseDigitsNeg radix 0 cs
  | cs => parseDigits radix 0 cs

/-- `trim_start_matches("0x")`: removes the prefix as often as it occurs. -/
def trimStart0x : List Char → List Char
  | '0' :: 'x' :: cs => trimStart0x cs
  | cs => cs

/-- `trim_end_matches('b')`. -/
def trimEndB (cs : List Char) : List Char := (cs.reverse.dropWhile (· == 'b')).reverse

/-- A decimal digit. -/
def isDigit (c : Char) : Bool := decide ('0' ≤ c) && decide (c ≤ '9')

/-- The exponent in the grammar of `f64::from_str`, with the end of the text behind it. -/
def acceptsExponent : List Char → Bool
  | [] => true
  | e :: cs =>
    (e == 'e' || e == 'E') &&
      (match cs with
        | '+' :: ds | '-' :: ds => !ds.isEmpty && ds.all isDigit
        | ds => !ds.isEmpty && ds.all isDigit)

/-- The grammar of `f64::from_str` for a text that starts with a digit or a dot: digits with a dot before,
between or behind them, at least one digit, an exponent. -/
def acceptsNumber (cs : List Char) : Bool :=
  let whole := cs.takeWhile isDigit
  match cs.dropWhile isDigit with
  | '.' :: rest =>
    (!whole.isEmpty || !(rest.takeWhile isDigit).isEmpty) && acceptsExponent (rest.dropWhile isDigit)
  | rest => !whole.isEmpty && acceptsExponent rest

/-- `parse::<f64>`.  Simplified: a sign, `inf`, `infinity` and `nan` are not modelled; no literal token
starts like that. -/
def parseF64 (fl : FloatText) (cs : List Char) : Option fl.F :=
  if acceptsNumber cs then some (fl.round cs) else none

/-- The character of a digit, as `Display`, `{:x}` and `{:o}` write it. -/
def lowerDigit (d : Nat) : Char := Char.ofNat (if d < 10 then 48 + d else 87 + d)

/-- The digits of a number, most significant first, without leading zeros. -/
def showDigits (radix n : Nat) : List Char :=
  if h : radix < 2 ∨ n < radix then [lowerDigit n]
  else showDigits radix (n / radix) ++ [lowerDigit (n % radix)]
termination_by n
decreasing_by exact Nat.div_lt_self (by omega) (by omega)

/-- `i32::to_string`. -/
def showI32 (n : Int) : List Char :=
  if n < 0 then '-' :: showDigits 10 n.natAbs else showDigits 10 n.natAbs

/-- `{:#x}`, `{:#o}` of an `i32`: the bit pattern for a negative number. -/
def showRadix (radix : Nat) (pre : List Char) (n : Int) : List Char :=
  pre ++ showDigits radix (n % 2 ^ 32).toNat

/-! ## The compiler -/

/-- `visitor.rs` lines 933-975: the value of a literal (`expect` panics). -/
def literalValue (fl : FloatText) (kind : LitKind) (text : List Char) : Res (LitVal fl.F) :=
  match kind with
  | .bool =>
    if text = "true".toList then .ok (.bool true)
    else if text = "false".toList then .ok (.bool false)
    else .panic
  | .decimal => match parseI32 10 text with
    | some n => .ok (.int n)
    | none => .panic
  | .hexadecimal => match parseI32 16 (trimStart0x text) with
    | some n => .ok (.int n)
    | none => .panic
  | .octal => match parseI32 8 text with
    | some n => .ok (.int n)
    | none => .panic
  | .binary => match parseI32 2 (trimEndB text) with
    | some n => .ok (.int n)
    | none => .panic
  | .string => if text.length < 2 then .panic else .ok (.str (text.drop 1).dropLast)
  | .float | .double => match parseF64 fl text with
    | some f => .ok (.float f)
    | none => .panic

/-- `generator/expression.rs` lines 433-468: the Rust text of a literal.  `fully_resolved` is true for
every literal (`visitor.rs` line 999). -/
def literalText (fl : FloatText) (kind : LitKind) (v : LitVal fl.F) : Res (List Char) :=
  let intValue := match v with | .int n => n | _ => 0
  let boolValue := match v with | .bool b => b | _ => false
  let stringValue := match v with | .str s => s | _ => []
  match kind with
  | .decimal => .ok (showI32 intValue)
  | .hexadecimal => .ok (showRadix 16 ['0', 'x'] intValue)
  | .octal => .ok (showRadix 8 ['0', 'o'] intValue)
  | .float | .double => match v with
    | .float f => .ok (fl.display f)
    | _ => .ok ['0']
  | .bool => .ok (if boolValue then "true".toList else "false".toList)
  | .string => .ok ('"' :: stringValue ++ ['"'])
  | .binary => .panic

/-- From the literal in the schema to the literal in the generated code. -/
def compileLiteral (fl : FloatText) (kind : LitKind) (text : List Char) : Res (List Char) := do
  let v ← literalValue fl kind text
  literalText fl kind v

end Zs
