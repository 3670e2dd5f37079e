import Verif.Expr

/-!
# Model of the text of expressions, and of how Rust groups it

`crates/zserio-rs-build/src/internal/generator/expression.rs` emits the text of an expression without
adding parentheses of its own.  The first part gives that text as a list of tokens; the second part is a
parser for the part of Rust's expression syntax that occurs in it (Rust reference, "Expression
precedence"); it is specification, not code of the repository.  File names are relative to
`crates/zserio-rs-build/src/internal/`.
-/

namespace Zs

variable {fo : FloatOps}

/-- The operators of Rust with two operands. -/
inductive BinOp where
  | arith (op : ArithOp)
  | bit (op : BitOp)
  | cmp (op : CmpOp)
  | logic (op : LogicOp)
  deriving DecidableEq

/-- What stands for itself in the text: a literal, a name (`self.x`, the path of a constant), or the path
of an item of an enum or bitmask. -/
inductive Atom (F : Type) where
  | int (n : Int)
  | bool (b : Bool)
  | str (s : String)
  | float (f : F)
  | name (s : String)
  | item (type : Expr F) (name : String)
  | index

/-- Tokens.  `.name`, `as T`, `path::function` and `format!("{}{}", ` count as one token each. -/
inductive Tok (F : Type) where
  | atom (a : Atom F)
  | op (o : BinOp)
  | bang | tilde
  | lpar | rpar | lbrack | rbrack | lbrace | rbrace | comma
  | dot (name : String)
  | as (type : String)
  | func (path : String)
  | kwIf | kwElse
  | format

/-- What the text depends on besides the expression: the casts of the operands of an arithmetic
operation, the type of `valueof`, and whether its operand is a bitmask. -/
structure TextInfo (F : Type) where
  castLeft : Expr F → Option String
  castRight : Expr F → Option String
  valueType : Expr F → String
  isBitmask : Expr F → Bool

/-- `generator/expression.rs` lines 146-157: an operand with its cast, if it has one. -/
def castText (cast : Option String) (ts : List (Tok fo.F)) : List (Tok fo.F) :=
  match cast with
  | none => ts
  | some t => [.lpar, .lpar] ++ ts ++ [.rpar, .as t, .rpar]

/-- `generator/expression.rs` lines 27-474: `generate_expression` with the functions it calls.  `none`:
it panics.  Simplified: texts of literals and names are atoms. -/
def Expr.text (md : Mode) (sc : EScope fo.F) (info : TextInfo fo.F) : Expr fo.F → Option (List (Tok fo.F))
  | .intLit n => some [.atom (.int n)]
  | .boolLit b => some [.atom (.bool b)]
  | .strLit s => some [.atom (.str s)]
  | .floatLit f => some [.atom (.float f)]
  | .paren e => (e.text md sc info).map fun t => [.lpar] ++ t ++ [.rpar]
  | .call e => (e.text md sc info).map fun t => t ++ [.lpar, .rpar]
  | .elem e i =>                                                -- lines 168-178
    (e.text md sc info).bind fun t => (i.text md sc info).map fun u =>
      t ++ [.lbrack] ++ u ++ [.rbrack]
  | .dot e name =>                                              -- lines 198-237
    match e.evaluate md sc with
    | .ok (.enum, _) | .ok (.bitmask, _) => some [.atom (.item e name)]
    | .ok (.compound, _) => (e.text md sc info).map fun t => t ++ [.dot name]
    | _ => none
  | .isset e x =>                                               -- lines 239-249
    (e.text md sc info).bind fun t => (x.text md sc info).map fun u =>
      t ++ [.op (.bit .and), .lpar] ++ u ++ [.rpar, .op (.cmp .ne), .atom (.int 0)]
  | .valueof e =>                                               -- lines 251-270
    (e.text md sc info).map fun t =>
      t ++ (if info.isBitmask e then [.dot "bits", .lpar, .rpar] else []) ++ [.as (info.valueType e)]
  | .lengthof e =>                                              -- lines 272-281
    (e.text md sc info).map fun t => [.lpar] ++ t ++ [.dot "len", .lpar, .rpar, .as "u32", .rpar]
  | .numbits e =>                                               -- lines 283-292
    (e.text md sc info).map fun t => [.lpar, .func "zserio::numbits", .lpar] ++ t ++
      [.rpar, .as "u32", .rpar]
  | .plus e => (e.text md sc info).map fun t => [.op (.arith .add)] ++ t       -- lines 71-85
  | .neg e => (e.text md sc info).map fun t => [.op (.arith .sub)] ++ t
  | .not e => (e.text md sc info).map fun t => [.bang] ++ t                    -- lines 353-362
  | .compl e => (e.text md sc info).map fun t => [.tilde] ++ t                 -- lines 364-373
  | .cmp op a b =>                                                             -- lines 412-431
    (a.text md sc info).bind fun t => (b.text md sc info).map fun u => t ++ [.op (.cmp op)] ++ u
  | .arith op a b =>                                                           -- lines 87-166
    (a.text md sc info).bind fun t => (b.text md sc info).bind fun u =>
      match (Expr.arith op a b).evaluate md sc with
      | .ok (.str _, _) => match op with
        | .add => some ([.format] ++ t ++ [.comma] ++ u ++ [.rpar])
        | _ => none
      | _ => some (castText (info.castLeft (.arith op a b)) t ++ [.op (.arith op)] ++
          castText (info.castRight (.arith op a b)) u)
  | .bit op a b =>                                                             -- lines 375-393
    (a.text md sc info).bind fun t => (b.text md sc info).map fun u => t ++ [.op (.bit op)] ++ u
  | .logic op a b =>                                                           -- lines 395-410
    (a.text md sc info).bind fun t => (b.text md sc info).map fun u => t ++ [.op (.logic op)] ++ u
  | .tern c a b =>                                                             -- lines 335-351
    (c.text md sc info).bind fun t => (a.text md sc info).bind fun u => (b.text md sc info).map fun v =>
      [.kwIf] ++ t ++ [.lbrace] ++ u ++ [.rbrace, .kwElse, .lbrace] ++ v ++ [.rbrace]
  | .index => some [.atom .index]
  | .ident name => some [.atom (.name name)]

/-- `generator/decode.rs` lines 235-258 (and 340-362): the text of an argument of a parameterised type:
`.clone()` if it is not resolved, `as T` if a cast is required. -/
def argumentText (md : Mode) (sc : EScope fo.F) (info : TextInfo fo.F) (cast : Option String)
    (e : Expr fo.F) : Option (List (Tok fo.F)) :=
  (e.text md sc info).map fun t =>
    t ++ (match e.evaluate md sc with
      | .ok (_, true) => []
      | _ => [.dot "clone", .lpar, .rpar]) ++
    (match cast with
      | none => []
      | some ty => [.as ty])

/-! ## Rust's grouping -/

/-- Rust expressions, grouped. -/
inductive RExpr (F : Type) where
  | atom (a : Atom F)
  | paren (e : RExpr F)
  | call (e : RExpr F)
  | apply (path : String) (e : RExpr F)
  | field (e : RExpr F) (name : String)
  | elem (e i : RExpr F)
  | cast (e : RExpr F) (type : String)
  | neg (e : RExpr F)
  | not (e : RExpr F)
  | bin (o : BinOp) (a b : RExpr F)
  | ite (c a b : RExpr F)
  | concat (a b : RExpr F)

/-- Precedence of the operators with two operands; higher binds tighter.  (`as`: 11, unary operators: 12,
method calls, fields, calls, elements: 13.) -/
def BinOp.prec : BinOp → Nat
  | .arith .mul | .arith .div | .arith .mod => 10
  | .arith .add | .arith .sub => 9
  | .bit .shl | .bit .shr => 8
  | .bit .and => 7
  | .bit .xor => 6
  | .bit .or => 5
  | .cmp _ => 4
  | .logic .and => 3
  | .logic .or => 2

/-- The next token is a comparison; comparisons require parentheses to be chained. -/
def startsWithCmp {F : Type} : List (Tok F) → Bool
  | .op (.cmp _) :: _ => true
  | _ => false

/-- The next token is `<` or `<<`; behind a type it would start generic arguments. -/
def startsGenerics {F : Type} : List (Tok F) → Bool
  | .op (.cmp .lt) :: _ => true
  | .op (.bit .shl) :: _ => true
  | _ => false

/-- The next token has to be `t`. -/
def expect {F α : Type} (t : Tok F → Bool) (x : α) : List (Tok F) → Option (α × List (Tok F))
  | s :: rest => if t s then some (x, rest) else none
  | [] => none

def Tok.isRpar {F : Type} : Tok F → Bool | .rpar => true | _ => false
def Tok.isRbrack {F : Type} : Tok F → Bool | .rbrack => true | _ => false
def Tok.isLbrace {F : Type} : Tok F → Bool | .lbrace => true | _ => false
def Tok.isRbrace {F : Type} : Tok F → Bool | .rbrace => true | _ => false
def Tok.isElse {F : Type} : Tok F → Bool | .kwElse => true | _ => false
def Tok.isComma {F : Type} : Tok F → Bool | .comma => true | _ => false

mutual

/-- An expression of operators of precedence `min` and above. -/
def rExpr {F : Type} : Nat → Nat → List (Tok F) → Option (RExpr F × List (Tok F))
  | 0, _, _ => none
  | n + 1, min, ts => (rUnary n ts).bind fun r => rLoop n min r.1 r.2

/-- What follows the operand `x`. -/
def rLoop {F : Type} : Nat → Nat → RExpr F → List (Tok F) → Option (RExpr F × List (Tok F))
  | 0, _, _, _ => none
  | n + 1, min, x, .as ty :: ts =>
    if startsGenerics ts then none else rLoop n min (.cast x ty) ts
  | n + 1, min, x, .op o :: ts =>
    if min ≤ o.prec then
      (rExpr n (o.prec + 1) ts).bind fun r =>
        if o.prec = 4 ∧ startsWithCmp r.2 = true then none
        else rLoop n min (.bin o x r.1) r.2
    else some (x, .op o :: ts)
  | _ + 1, _, x, ts => some (x, ts)

/-- An operand with unary operators. -/
def rUnary {F : Type} : Nat → List (Tok F) → Option (RExpr F × List (Tok F))
  | 0, _ => none
  | n + 1, .op (.arith .sub) :: ts => (rUnary n ts).map fun r => (.neg r.1, r.2)
  | n + 1, .bang :: ts => (rUnary n ts).map fun r => (.not r.1, r.2)
  | n + 1, ts => (rPrimary n ts).bind fun r => rPost n r.1 r.2

/-- Calls, elements, fields and methods behind an operand. -/
def rPost {F : Type} : Nat → RExpr F → List (Tok F) → Option (RExpr F × List (Tok F))
  | 0, _, _ => none
  | n + 1, x, .dot name :: ts => rPost n (.field x name) ts
  | n + 1, x, .lpar :: .rpar :: ts => rPost n (.call x) ts
  | _ + 1, _, .lpar :: _ => none
  | n + 1, x, .lbrack :: ts =>
    (rExpr n 0 ts).bind fun i => (expect Tok.isRbrack () i.2).bind fun r =>
      rPost n (.elem x i.1) r.2
  | _ + 1, x, ts => some (x, ts)

/-- Operands: atoms, parentheses, calls of functions, `if`, `format!`. -/
def rPrimary {F : Type} : Nat → List (Tok F) → Option (RExpr F × List (Tok F))
  | 0, _ => none
  | _ + 1, .atom a :: ts => some (.atom a, ts)
  | n + 1, .lpar :: ts =>
    (rExpr n 0 ts).bind fun e => expect Tok.isRpar (.paren e.1) e.2
  | n + 1, .func path :: .lpar :: ts =>
    (rExpr n 0 ts).bind fun e => expect Tok.isRpar (.apply path e.1) e.2
  | n + 1, .kwIf :: ts =>
    (rExpr n 0 ts).bind fun c => (expect Tok.isLbrace () c.2).bind fun s1 =>
    (rExpr n 0 s1.2).bind fun a => (expect Tok.isRbrace () a.2).bind fun s2 =>
    (expect Tok.isElse () s2.2).bind fun s3 => (expect Tok.isLbrace () s3.2).bind fun s4 =>
    (rExpr n 0 s4.2).bind fun b => expect Tok.isRbrace (.ite c.1 a.1 b.1) b.2
  | n + 1, .format :: ts =>
    (rExpr n 0 ts).bind fun a => (expect Tok.isComma () a.2).bind fun s =>
    (rExpr n 0 s.2).bind fun b => expect Tok.isRpar (.concat a.1 b.1) b.2
  | _ + 1, _ => none

end

/-- Rust reads the text `ts` as the expression `t`. -/
def ReadsAs {F : Type} (ts : List (Tok F)) (t : RExpr F) : Prop :=
  ∃ n, ∀ m, n ≤ m → rExpr m 0 ts = some (t, [])

/-- Rust rejects the text `ts`: no amount of fuel gives a tree for the whole of it. -/
def Rejected {F : Type} (ts : List (Tok F)) : Prop :=
  ∀ n t, rExpr n 0 ts ≠ some (t, [])

/-! ## What the text is meant to say -/

/-- The operand of an arithmetic operation with its cast. -/
def castTree {F : Type} (cast : Option String) (t : RExpr F) : RExpr F :=
  match cast with
  | none => t
  | some ty => .paren (.cast (.paren t) ty)

/-- The Rust expression grouped as the schema expression is. -/
def Expr.tree (md : Mode) (sc : EScope fo.F) (info : TextInfo fo.F) : Expr fo.F → RExpr fo.F
  | .intLit n => .atom (.int n)
  | .boolLit b => .atom (.bool b)
  | .strLit s => .atom (.str s)
  | .floatLit f => .atom (.float f)
  | .paren e => .paren (e.tree md sc info)
  | .call e => .call (e.tree md sc info)
  | .elem e i => .elem (e.tree md sc info) (i.tree md sc info)
  | .dot e name =>
    match e.evaluate md sc with
    | .ok (.compound, _) => .field (e.tree md sc info) name
    | _ => .atom (.item e name)
  | .isset e x =>
    .bin (.cmp .ne) (.bin (.bit .and) (e.tree md sc info) (.paren (x.tree md sc info))) (.atom (.int 0))
  | .valueof e =>
    .cast (if info.isBitmask e then .call (.field (e.tree md sc info) "bits") else e.tree md sc info)
      (info.valueType e)
  | .lengthof e => .paren (.cast (.call (.field (e.tree md sc info) "len")) "u32")
  | .numbits e => .paren (.cast (.apply "zserio::numbits" (e.tree md sc info)) "u32")
  | .plus e => e.tree md sc info
  | .neg e => .neg (e.tree md sc info)
  | .not e => .not (e.tree md sc info)
  | .compl e => .not (e.tree md sc info)
  | .cmp op a b => .bin (.cmp op) (a.tree md sc info) (b.tree md sc info)
  | .arith op a b =>
    match (Expr.arith op a b).evaluate md sc with
    | .ok (.str _, _) => .concat (a.tree md sc info) (b.tree md sc info)
    | _ => .bin (.arith op) (castTree (info.castLeft (.arith op a b)) (a.tree md sc info))
        (castTree (info.castRight (.arith op a b)) (b.tree md sc info))
  | .bit op a b => .bin (.bit op) (a.tree md sc info) (b.tree md sc info)
  | .logic op a b => .bin (.logic op) (a.tree md sc info) (b.tree md sc info)
  | .tern c a b => .ite (c.tree md sc info) (a.tree md sc info) (b.tree md sc info)
  | .index => .atom .index
  | .ident name => .atom (.name name)

/-! ## The grammar of schema expressions -/

/-- `parser/ZserioParser.g4` lines 349-373: the precedence of an expression, as the order of the
alternatives gives it; higher binds tighter. -/
def Expr.level {F : Type} : Expr F → Nat
  | .tern .. => 0
  | .logic .or .. => 1
  | .logic .and .. => 2
  | .bit .or .. => 3
  | .bit .xor .. => 4
  | .bit .and .. => 5
  | .cmp .eq .. | .cmp .ne .. => 6
  | .cmp .. => 7
  | .bit .shl .. | .bit .shr .. => 8
  | .arith .add .. | .arith .sub .. => 9
  | .arith .. => 10
  | .plus _ | .neg _ | .not _ | .compl _ => 11
  | .call _ | .elem .. | .dot .. => 12
  | _ => 12

/-- A tree that the schema parser can build: the left operand of an operator binds at least as tight as
the operator, the right one tighter; only `? :` is the other way round. -/
def Expr.Parsed {F : Type} : Expr F → Prop
  | .paren e | .lengthof e | .valueof e | .numbits e => e.Parsed
  | .isset e x => e.Parsed ∧ x.Parsed
  | .call e | .dot e _ => e.Parsed ∧ 12 ≤ e.level
  | .elem e i => e.Parsed ∧ 12 ≤ e.level ∧ i.Parsed
  | .plus e | .neg e | .not e | .compl e => e.Parsed ∧ 11 ≤ e.level
  | .cmp op a b => a.Parsed ∧ b.Parsed ∧ (Expr.cmp op a b).level ≤ a.level ∧
      (Expr.cmp op a b).level < b.level
  | .arith op a b => a.Parsed ∧ b.Parsed ∧ (Expr.arith op a b).level ≤ a.level ∧
      (Expr.arith op a b).level < b.level
  | .bit op a b => a.Parsed ∧ b.Parsed ∧ (Expr.bit op a b).level ≤ a.level ∧
      (Expr.bit op a b).level < b.level
  | .logic op a b => a.Parsed ∧ b.Parsed ∧ (Expr.logic op a b).level ≤ a.level ∧
      (Expr.logic op a b).level < b.level
  | .tern c a b => c.Parsed ∧ a.Parsed ∧ b.Parsed ∧ 0 < c.level
  | _ => True

/-- The text ends with `as T`. -/
def Expr.endsWithCast {F : Type} (casts : Expr F → Option String) : Expr F → Bool
  | .valueof _ => true
  | .neg e | .not e | .plus e | .compl e => e.endsWithCast casts
  | .cmp _ _ b | .bit _ _ b | .logic _ _ b => b.endsWithCast casts
  | .arith op a b => (casts (.arith op a b)).isNone && b.endsWithCast casts
  | _ => false

end Zs
