import Verif.Source

/-!
# The parser of expressions

`crates/zserio-rs-build/src/internal/parser/gen/zserioparser.rs`, which is generated from `ZserioParser.g4`; line
numbers in the comments refer to it.  `expression_rec(p)` reads one operand and then, in a loop, operators whose
precedence is at least `p`.

Simplified: the ATN interpreter of ANTLR (`adaptive_predict`, not in the repository) is replaced by a look at the next
one or two tokens, which decide between the alternatives of the rule except for a `>` behind the expression of
`bit<..>` and `int<..>`, where ANTLR looks further ahead.  Syntax errors are `none`; how ANTLR recovers from them is
not modelled.
-/

namespace Zs.Src

/-- `ZserioLexer.g4` lines 5-35 and 38-92: the tokens.  `other`: one that is never in an expression, like `;`. -/
inductive Token where
  | lparen | rparen | lbracket | rbracket | dot | comma | question | colon
  | isset | lengthof | valueof | numbits | index
  | plus | minus | bang | tilde | multiply | divide | modulo | lshift | lt | le | gt | ge | eq | ne
  | and | xor | or | logicalAnd | logicalOr
  | lit (kind : LitKind) (text : List Char)
  | id (name : String)
  | other (text : String)
  deriving DecidableEq, Repr

/-- Lines 12373-12410: the alternative for `BANG | MINUS | PLUS | TILDE`. -/
def prefixOp : Token → Option UnOp
  | .plus => some .plus
  | .minus => some .minus
  | .bang => some .bang
  | .tilde => some .tilde
  | _ => none

/-- Lines 12462-12950: the alternatives 1 to 10 of the loop and the tokens of their operators; `>>` is two tokens. -/
def infixOp : List Token → Option (BinOp × List Token)
  | .multiply :: ts => some (.mul, ts)
  | .divide :: ts => some (.div, ts)
  | .modulo :: ts => some (.mod, ts)
  | .plus :: ts => some (.add, ts)
  | .minus :: ts => some (.sub, ts)
  | .lshift :: ts => some (.shl, ts)
  | .gt :: .gt :: ts => some (.shr, ts)
  | .lt :: ts => some (.lt, ts)
  | .le :: ts => some (.le, ts)
  | .gt :: ts => some (.gt, ts)
  | .ge :: ts => some (.ge, ts)
  | .eq :: ts => some (.eq, ts)
  | .ne :: ts => some (.ne, ts)
  | .and :: ts => some (.band, ts)
  | .xor :: ts => some (.bxor, ts)
  | .or :: ts => some (.bor, ts)
  | .logicalAnd :: ts => some (.land, ts)
  | .logicalOr :: ts => some (.lor, ts)
  | _ => none

/-- Lines 12479, 12531, 12589, 12647, 12706, 12764, 12804, 12844, 12884, 12925: `precpred(None, n)`. -/
def BinOp.prec : BinOp → Nat
  | .mul | .div | .mod => 14
  | .add | .sub => 13
  | .shl | .shr => 12
  | .lt | .le | .gt | .ge => 11
  | .eq | .ne => 10
  | .band => 9
  | .bxor => 8
  | .bor => 7
  | .land => 6
  | .lor => 5

/-- Lines 12512, 12570, 12628, 12687, 12745, 12785, 12825, 12865, 12906, 12947: `expression_rec(n)` for the operand on
the right. -/
def BinOp.rightPrec : BinOp → Nat
  | .mul | .div | .mod => 15
  | .add | .sub => 14
  | .shl | .shr => 13
  | .lt | .le | .gt | .ge => 12
  | .eq | .ne => 11
  | .band => 10
  | .bxor => 9
  | .bor => 8
  | .land => 7
  | .lor => 6

/-- `match_token`. -/
def matchToken (t : Token) : List Token → Option (List Token)
  | u :: ts => if u = t then some ts else none
  | [] => none

mutual
/-- Lines 12198-13145: `expression_rec(p)`.  The first argument bounds the number of nested calls. -/
def expressionRec : Nat → Nat → List Token → Option (Exp × List Token)
  | 0, _, _ => none
  | n + 1, p, ts => (operand n ts).bind fun r => operators n p r.1 r.2
/-- Lines 12219-12447: the first operand. -/
def operand : Nat → List Token → Option (Exp × List Token)
  | 0, _ => none
  | n + 1, ts => match ts with
    | .lparen :: ts => (expressionRec n 0 ts).bind fun r => (matchToken .rparen r.2).map fun ts => (.paren r.1, ts)
    | .isset :: ts => (matchToken .lparen ts).bind fun ts => (expressionRec n 0 ts).bind fun a =>
        (matchToken .comma a.2).bind fun ts => (expressionRec n 0 ts).bind fun b =>
        (matchToken .rparen b.2).map fun ts => (.isset a.1 b.1, ts)
    | .lengthof :: ts => (matchToken .lparen ts).bind fun ts => (expressionRec n 0 ts).bind fun r =>
        (matchToken .rparen r.2).map fun ts => (.lengthof r.1, ts)
    | .valueof :: ts => (matchToken .lparen ts).bind fun ts => (expressionRec n 0 ts).bind fun r =>
        (matchToken .rparen r.2).map fun ts => (.valueof r.1, ts)
    | .numbits :: ts => (matchToken .lparen ts).bind fun ts => (expressionRec n 0 ts).bind fun r =>
        (matchToken .rparen r.2).map fun ts => (.numbits r.1, ts)
    | .lit k x :: ts => some (.lit k x, ts)
    | .index :: ts => some (.index, ts)
    | .id x :: ts => some (.id x, ts)
    | t :: ts => (prefixOp t).bind fun op => (expressionRec n 15 ts).map fun r => (.unary op r.1, r.2)
    | [] => none
/-- Lines 12454-13127: the loop; `e` is what was read so far. -/
def operators : Nat → Nat → Exp → List Token → Option (Exp × List Token)
  | 0, _, _, _ => none
  | n + 1, p, e, ts => match ts with
    | .lparen :: .rparen :: us => if p ≤ 22 then operators n p (.call e) us else some (e, ts)
    | .lbracket :: us => if p ≤ 21 then (expressionRec n 0 us).bind fun i =>
        (matchToken .rbracket i.2).bind fun us => operators n p (.elem e i.1) us else some (e, ts)
    | .dot :: us => if p ≤ 20 then match us with
        | .id x :: us => operators n p (.dot e x) us
        | _ => none
      else some (e, ts)
    | .question :: us => if p ≤ 4 then (expressionRec n 0 us).bind fun a =>
        (matchToken .colon a.2).bind fun us => (expressionRec n 4 us).bind fun b =>
        operators n p (.ternary e a.1 b.1) b.2 else some (e, ts)
    | _ => match infixOp ts with
      | some (op, us) => if p ≤ op.prec then (expressionRec n op.rightPrec us).bind fun b =>
          operators n p (.binary op e b.1) b.2 else some (e, ts)
      | none => some (e, ts)
end

/-- Lines 12194-12196: `expression`.  `C79_calls`: the number of nested calls is no restriction. -/
def parseExpression (ts : List Token) : Option (Exp × List Token) := expressionRec (2 * ts.length) 0 ts

end Zs.Src
