import Verif.ExprType

/-!
# The texts that are emitted for the expressions of a field

`ExprText.lean` has the text of an expression; here is what the generator puts around it at the places where a field
has expressions.
-/

namespace Zs

variable {fo : FloatOps}

/-- `generator/expression.rs` lines 14-26 (`generate_boolean_expression`): a condition. -/
def conditionText (md : Mode) (sc : TScope) (e : Expr fo.F) : Option (List (Tok fo.F)) :=
  (e.text md sc.erase (textInfo md sc)).map fun ts => match e.evaluate md sc.erase with
    | .ok (.int _, _) | .ok (.bitmask, _) => ts ++ [.op (.cmp .ne), .atom (.int 0)]
    | _ => ts

/-- `generator/array.rs` lines 122-127, `generator/encode.rs` lines 272-276: `({}) as usize`. -/
def lengthText (md : Mode) (sc : TScope) (e : Expr fo.F) : Option (List (Tok fo.F)) :=
  (e.text md sc.erase (textInfo md sc)).map fun ts => [.lpar] ++ ts ++ [.rpar] ++ [.as "usize"]

/-- `generator/encode.rs` lines 67-79, `generator/decode.rs` lines 74-90: the length of `bit<e>` and `int<e>`,
`({}) as u8` if the native type is not called `uint8`.  Simplified as `bitsCode`. -/
def bitsText (md : Mode) (sc : TScope) (e : Expr fo.F) : Option (List (Tok fo.F)) :=
  (e.text md sc.erase (textInfo md sc)).map fun ts => match e.nativeOf md sc with
    | some r => if r.name = .uint8 then ts else [.lpar] ++ ts ++ [.rpar] ++ [.as "u8"]
    | none => ts

/-- `generator/casts.rs` lines 16-30: the cast of an argument for a parameter of the type `param`. -/
def argumentCast (md : Mode) (sc : TScope) (param : ZTy) (e : Expr fo.F) : Option String :=
  match e.castTarget md sc with
  | some r => if param.rustName ≠ r.name.rustName then some param.rustName else none
  | none => none

/-- `generator/encode.rs` lines 240-260: the assertion before an object is written, that its parameter `name` has the
value of the argument: `assert!({}.{} == {});`.  `place`: the object. -/
def assertText (md : Mode) (sc : TScope) (param : ZTy) (place name : String) (e : Expr fo.F) : Option (List (Tok fo.F)) :=
  (e.text md sc.erase (textInfo md sc)).map fun ts =>
    [.atom (.name place), .dot name] ++ [.op (.cmp .eq)] ++ (ts ++ match argumentCast md sc param e with
      | none => []
      | some ty => [.as ty])

end Zs
