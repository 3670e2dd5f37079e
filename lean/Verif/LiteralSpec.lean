import Verif.Base

/-!
# What literals mean

The literals of `parser/ZserioLexer.g4` lines 116-156, what they denote in zserio, and what a literal
denotes in Rust.  Independent of the code.
-/

namespace Zs.Spec

/-! ## Integer literals of a schema -/

/-- The character of a digit; `upper`: written with a capital letter. -/
def digitChar (upper : Bool) (d : Nat) : Char :=
  Char.ofNat (if d < 10 then 48 + d else if upper then 55 + d else 87 + d)

/-- Big-endian value of digits. -/
def digitsValue (base : Nat) (ds : List Nat) : Nat := ds.foldl (fun acc d => base * acc + d) 0

/-- An integer literal.  Capital letters may be used for the prefix `0x`, for the suffix `b` and for each
hexadecimal digit. -/
inductive IntLit where
  | decimal (ds : List Nat)
  | octal (ds : List Nat)
  | hexadecimal (upper : Bool) (ds : List (Nat × Bool))
  | binary (upper : Bool) (ds : List Nat)

namespace IntLit

/-- The digits are digits, there is at least one; decimal literals have no leading zero. -/
def WellFormed : IntLit → Prop
  | .decimal ds => ds ≠ [] ∧ (∀ d ∈ ds, d < 10) ∧ (ds.head? = some 0 → ds = [0])
  | .octal ds => ds ≠ [] ∧ ∀ d ∈ ds, d < 8
  | .hexadecimal _ ds => ds ≠ [] ∧ ∀ d ∈ ds, d.1 < 16
  | .binary _ ds => ds ≠ [] ∧ ∀ d ∈ ds, d < 2

/-- What is written in the schema. -/
def text : IntLit → List Char
  | .decimal ds => ds.map (digitChar false)
  | .octal ds => '0' :: ds.map (digitChar false)
  | .hexadecimal upper ds => '0' :: (if upper then 'X' else 'x') :: ds.map (fun d => digitChar d.2 d.1)
  | .binary upper ds => ds.map (digitChar false) ++ [if upper then 'B' else 'b']

/-- The number. -/
def value : IntLit → Nat
  | .decimal ds => digitsValue 10 ds
  | .octal ds => digitsValue 8 ds
  | .hexadecimal _ ds => digitsValue 16 (ds.map Prod.fst)
  | .binary _ ds => digitsValue 2 ds

end IntLit

/-! ## String literals of a schema -/

/-- What a string literal consists of. -/
inductive StrElem where
  /-- a character that stands for itself -/
  | plain (c : Char)
  /-- a backslash with one of `"`, `\`, `r`, `n`, `f`, `t` -/
  | escape (c : Char)
  /-- a backslash, `u` and four hexadecimal digits -/
  | unicode (ds : List (Nat × Bool))
  /-- a backslash, `x` and two hexadecimal digits -/
  | hex (a b : Nat × Bool)
  /-- a backslash, `0` and one to three octal digits, of three the first up to `3` -/
  | octal (ds : List Nat)

namespace StrElem

/-- Allowed by the lexer. -/
def WellFormed : StrElem → Prop
  | .plain c => c ≠ '"' ∧ c ≠ '\\' ∧ c ≠ '\r' ∧ c ≠ '\n' ∧ c ≠ Char.ofNat 12
  | .escape c => c ∈ ['"', '\\', 'r', 'n', 'f', 't']
  | .unicode ds => ds.length = 4 ∧ ∀ d ∈ ds, d.1 < 16
  | .hex a b => a.1 < 16 ∧ b.1 < 16
  | .octal ds => (0 < ds.length ∧ ds.length ≤ 3 ∧ ∀ d ∈ ds, d < 8) ∧ (ds.length = 3 → ds.headD 0 < 4)

/-- What is written in the schema. -/
def text : StrElem → List Char
  | .plain c => [c]
  | .escape c => ['\\', c]
  | .unicode ds => '\\' :: 'u' :: ds.map (fun d => digitChar d.2 d.1)
  | .hex a b => ['\\', 'x', digitChar a.2 a.1, digitChar b.2 b.1]
  | .octal ds => '\\' :: '0' :: ds.map (digitChar false)

/-- The code point it denotes. -/
def denote : StrElem → Nat
  | .plain c => c.toNat
  | .escape c =>
    if c = 'r' then 13 else if c = 'n' then 10 else if c = 'f' then 12 else if c = 't' then 9 else c.toNat
  | .unicode ds => digitsValue 16 (ds.map Prod.fst)
  | .hex a b => digitsValue 16 [a.1, b.1]
  | .octal ds => digitsValue 8 ds

/-- The escapes that Rust writes in the same way. -/
def Shared : StrElem → Prop
  | .plain _ => True
  | .escape c => c ≠ 'f'
  | .unicode _ => False
  | .hex a _ => a.1 < 8
  | .octal _ => False

end StrElem

/-- A string literal in the schema. -/
def strText (es : List StrElem) : List Char := '"' :: es.flatMap StrElem.text ++ ['"']

/-! ## Floating-point literals of a schema -/

/-- The exponent: `e` or `E`, a sign, digits. -/
structure Exponent where
  upper : Bool
  sign : Option Bool
  digits : List Nat

/-- What is written in the schema. -/
def Exponent.text (e : Exponent) : List Char :=
  (if e.upper then 'E' else 'e') ::
    ((match e.sign with | none => [] | some true => ['-'] | some false => ['+']) ++
      e.digits.map (digitChar false))

/-- A floating-point literal: digits, possibly a dot and more digits, possibly an exponent. -/
structure FloatLit where
  whole : List Nat
  fraction : Option (List Nat)
  exponent : Option Exponent

namespace FloatLit

/-- Allowed by the lexer (`DOUBLE_LITERAL`). -/
def WellFormed (l : FloatLit) : Prop :=
  (∀ d ∈ l.whole, d < 10) ∧ (∀ f, l.fraction = some f → ∀ d ∈ f, d < 10) ∧
  (∀ e, l.exponent = some e → e.digits ≠ [] ∧ ∀ d ∈ e.digits, d < 10) ∧
  (match l.fraction with
    | none => l.whole ≠ [] ∧ l.exponent ≠ none
    | some f => l.whole ≠ [] ∨ f ≠ [])

/-- What is written in the schema. -/
def text (l : FloatLit) : List Char :=
  l.whole.map (digitChar false) ++
  (match l.fraction with | none => [] | some f => '.' :: f.map (digitChar false)) ++
  (match l.exponent with | none => [] | some e => e.text)

end FloatLit

/-! ## Literals of Rust -/

/-- The value of a digit in Rust. -/
def rustDigit (base : Nat) (c : Char) : Option Nat :=
  (List.range base).find? (fun d => c = digitChar false d ∨ c = digitChar true d)

/-- Digits of an integer literal. -/
def rustDigits (base : Nat) : Nat → List Char → Option Nat
  | acc, [] => some acc
  | acc, c :: cs => (rustDigit base c).bind fun d => rustDigits base (base * acc + d) cs

/-- The number an integer literal without suffix denotes in Rust (Rust reference, "Integer literals"). -/
def rustInt : List Char → Option Nat
  | [] => none
  | '0' :: 'x' :: c :: cs => rustDigits 16 0 (c :: cs)
  | '0' :: 'o' :: c :: cs => rustDigits 8 0 (c :: cs)
  | '0' :: 'b' :: c :: cs => rustDigits 2 0 (c :: cs)
  | c :: cs => rustDigits 10 0 (c :: cs)

/-- The contents of a string literal in Rust up to the closing quote, as code points; `none`: rejected
(Rust reference, "String literals").  Only what can occur here: no line continuation, no `\u{..}`. -/
def rustStrBody : List Char → Option (List Nat)
  | ['"'] => some []
  | '"' :: _ => none
  | '\\' :: 'n' :: cs => (rustStrBody cs).map (10 :: ·)
  | '\\' :: 'r' :: cs => (rustStrBody cs).map (13 :: ·)
  | '\\' :: 't' :: cs => (rustStrBody cs).map (9 :: ·)
  | '\\' :: '\\' :: cs => (rustStrBody cs).map (92 :: ·)
  | '\\' :: '"' :: cs => (rustStrBody cs).map (34 :: ·)
  | '\\' :: '\'' :: cs => (rustStrBody cs).map (39 :: ·)
  | '\\' :: '0' :: cs => (rustStrBody cs).map (0 :: ·)
  | '\\' :: 'x' :: a :: b :: cs =>
    (rustDigit 8 a).bind fun x => (rustDigit 16 b).bind fun y =>
      (rustStrBody cs).map ((16 * x + y) :: ·)
  | '\\' :: _ => none
  | '\r' :: _ => none
  | c :: cs => (rustStrBody cs).map (c.toNat :: ·)
  | [] => none

/-- A string literal in Rust. -/
def rustStr : List Char → Option (List Nat)
  | '"' :: cs => rustStrBody cs
  | _ => none

/-- A Rust literal without dot and exponent is an integer literal: it has no floating-point type. -/
def RustFloat (cs : List Char) : Prop := '.' ∈ cs ∨ 'e' ∈ cs ∨ 'E' ∈ cs

end Zs.Spec
