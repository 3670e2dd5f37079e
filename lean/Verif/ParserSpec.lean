import Verif.Parser

/-!
# Specification: how expressions are written

Nothing here is code of the repository.
-/

namespace Zs.Spec

open Src

/-- The sign of an operator with one operand. -/
def unarySign : UnOp → Token
  | .plus => .plus
  | .minus => .minus
  | .bang => .bang
  | .tilde => .tilde

/-- The signs of an operator with two operands. -/
def binarySigns : BinOp → List Token
  | .mul => [.multiply]
  | .div => [.divide]
  | .mod => [.modulo]
  | .add => [.plus]
  | .sub => [.minus]
  | .shl => [.lshift]
  | .shr => [.gt, .gt]
  | .lt => [.lt]
  | .le => [.le]
  | .gt => [.gt]
  | .ge => [.ge]
  | .eq => [.eq]
  | .ne => [.ne]
  | .band => [.and]
  | .bxor => [.xor]
  | .bor => [.or]
  | .land => [.logicalAnd]
  | .lor => [.logicalOr]

/-- How an expression is written. -/
def written : Exp → List Token
  | .paren e => [.lparen] ++ written e ++ [.rparen]
  | .call e => written e ++ [.lparen, .rparen]
  | .elem e i => written e ++ [.lbracket] ++ written i ++ [.rbracket]
  | .dot e x => written e ++ [.dot, .id x]
  | .isset a b => [.isset, .lparen] ++ written a ++ [.comma] ++ written b ++ [.rparen]
  | .lengthof e => [.lengthof, .lparen] ++ written e ++ [.rparen]
  | .valueof e => [.valueof, .lparen] ++ written e ++ [.rparen]
  | .numbits e => [.numbits, .lparen] ++ written e ++ [.rparen]
  | .unary op e => [unarySign op] ++ written e
  | .binary op a b => written a ++ binarySigns op ++ written b
  | .ternary c a b => written c ++ [.question] ++ written a ++ [.colon] ++ written b
  | .lit k x => [.lit k x]
  | .index => [.index]
  | .id x => [.id x]

/-- The groups of operators with two operands, as in C; those in front bind tighter. -/
def groups : List (List BinOp) :=
  [[.mul, .div, .mod], [.add, .sub], [.shl, .shr], [.lt, .le, .gt, .ge], [.eq, .ne], [.band], [.bxor], [.bor], [.land],
   [.lor]]

/-- The group of an operator. -/
def group (op : BinOp) : Nat := groups.findIdx fun g => op ∈ g

/-- How loosely the outermost operator of an expression binds: 0 for names, literals, parentheses and functions, 1 for
calls, elements and members, 2 for operators with one operand, then the groups, and `? :` at last. -/
def looseness : Exp → Nat
  | .call _ | .elem _ _ | .dot _ _ => 1
  | .unary _ _ => 2
  | .binary op _ _ => 3 + group op
  | .ternary _ _ _ => 3 + groups.length
  | _ => 0

/-- There are parentheses around every operand that binds more loosely than the operator.  Operators of the same group
associate to the left, `? :` to the right. -/
def Bracketed : Exp → Prop
  | .paren e | .lengthof e | .valueof e | .numbits e => Bracketed e
  | .call e | .dot e _ => looseness e ≤ 1 ∧ Bracketed e
  | .elem e i => looseness e ≤ 1 ∧ Bracketed e ∧ Bracketed i
  | .isset a b => Bracketed a ∧ Bracketed b
  | .unary _ e => looseness e ≤ 2 ∧ Bracketed e
  | .binary op a b => looseness a ≤ 3 + group op ∧ looseness b < 3 + group op ∧ Bracketed a ∧ Bracketed b
  | .ternary c a b => looseness c < 3 + groups.length ∧ Bracketed c ∧ Bracketed a ∧ Bracketed b
  | .lit _ _ | .index | .id _ => True

/-- The token is no operator that may follow an operand. -/
def Token.NoOperator : Token → Prop
  | .rparen | .rbracket | .comma | .colon | .isset | .lengthof | .valueof | .numbits | .index | .bang | .tilde
  | .lit _ _ | .id _ | .other _ => True
  | _ => False

/-- Nothing that may follow an operand is in front. -/
def NoOperator : List Token → Prop
  | [] => True
  | t :: _ => Token.NoOperator t

end Zs.Spec
