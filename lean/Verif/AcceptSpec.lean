import Verif.Source
import Verif.PropsLiteral

/-!
# What a file must satisfy to be represented (C62)

The list of all numbers and literals of a file that the compiler reads, and which of them it can read.  The
default of a choice and the constraints in choices and unions are not in the list (C60).
-/

namespace Zs.Spec

open Src

/-- Something in a file that the compiler must be able to read. -/
inductive Demand where
  /-- a literal -/
  | literal (kind : LitKind) (text : List Char)
  /-- the width `n` of `bit:n` or `int:n` -/
  | width (bits : Nat)
  /-- the expression in `align(..)` -/
  | align (e : Exp)

/-- What the lexer makes a literal of this kind (`parser/ZserioLexer.g4` lines 119-151). -/
def Lexed (kind : LitKind) (text : List Char) : Prop :=
  match kind with
  | .bool => text = "true".toList ∨ text = "false".toList
  | .decimal | .octal | .hexadecimal | .binary => ∃ l : IntLit, l.WellFormed ∧ l.kind = kind ∧ l.text = text
  | .string => ∃ es : List StrElem, (∀ e ∈ es, e.WellFormed) ∧ strText es = text
  | .double => ∃ l : FloatLit, l.WellFormed ∧ l.text = text
  | .float => ∃ (l : FloatLit) (f : Char), l.WellFormed ∧ (f = 'f' ∨ f = 'F') ∧ l.text ++ [f] = text

/-- The demand comes from a text that the lexer accepts. -/
def Demand.Lexed : Demand → Prop
  | .literal kind text => Spec.Lexed kind text
  | .width _ => True
  | .align (.lit kind text) => Spec.Lexed kind text
  | .align _ => True

/-- The demand can be met: integers are below `2^31` and have no capital `X` or `B`, floats have no suffix, widths
are below 256, and alignments are decimal numbers below 256. -/
def Demand.Met : Demand → Prop
  | .literal kind text =>
    match kind with
    | .bool | .string | .double => True
    | .decimal | .octal | .hexadecimal | .binary => ∃ l : IntLit, l.WellFormed ∧ l.kind = kind ∧ l.text = text ∧ l.Understood
    | .float => False
  | .width bits => bits < 256
  | .align e => ∃ l : IntLit, l.WellFormed ∧ l.kind = .decimal ∧ e = .lit .decimal l.text ∧ l.value < 256

/-! ## The demands of a file -/

/-- Of an expression. -/
def expDemands : Exp → List Demand
  | .paren e | .call e | .dot e _ | .lengthof e | .valueof e | .numbits e | .unary _ e => expDemands e
  | .elem a b | .isset a b | .binary _ a b => expDemands a ++ expDemands b
  | .ternary a b c => expDemands a ++ expDemands b ++ expDemands c
  | .lit kind text => [.literal kind text]
  | .index | .id _ => []

/-- Of a type. -/
def tyDemands : Ty → List Demand
  | .builtin _ => []
  | .fixedBits _ bits => [.width bits]
  | .named _ _ args => tysDemands args
where
  /-- Of several types. -/
  tysDemands : List Ty → List Demand
    | [] => []
    | t :: ts => tyDemands t ++ tysDemands ts

/-- Of an optional part. -/
def optDemands {α : Type} (f : α → List Demand) : Option α → List Demand
  | none => []
  | some a => f a

/-- Of an argument of a type. -/
def argDemands : Arg → List Demand
  | .explicit _ => []
  | .expr e => expDemands e

/-- Of a type with its arguments. -/
def instDemands (t : Inst) : List Demand :=
  tyDemands t.type ++
    match t.args with
    | .none => []
    | .args first rest => (first :: rest).flatMap argDemands
    | .length e => expDemands e

/-- Of the type, name and array of a field. -/
def fieldTypeDemands (f : FieldTypeId) : List Demand :=
  instDemands f.type ++ optDemands (optDemands expDemands) f.array

/-- Of a field of a structure. -/
def structFieldDemands (f : StructField) : List Demand :=
  fieldTypeDemands f.typeId ++ optDemands (fun e => [.align e]) f.align ++ optDemands expDemands f.offset ++
    optDemands expDemands f.initializer ++ optDemands expDemands f.clause ++ optDemands expDemands f.constraint

/-- Of a function. -/
def funcDemands (f : Src.Func) : List Demand := expDemands f.body ++ tyDemands f.type

/-- Of a case of a choice. -/
def casesDemands (c : Cases) : List Demand :=
  c.labels.flatMap expDemands ++ optDemands (fun f => fieldTypeDemands f.typeId) c.field

/-- Of a declaration. -/
def demands : Directive → List Demand
  | .const c => instDemands c.type ++ expDemands c.value
  | .subtype a | .instantiate a => tyDemands a.type
  | .struct s => s.params.flatMap (fun p => tyDemands p.type) ++ s.fields.flatMap structFieldDemands ++
      s.functions.flatMap funcDemands
  | .choice c => expDemands c.selector ++ c.params.flatMap (fun p => tyDemands p.type) ++
      c.cases.flatMap casesDemands ++ c.functions.flatMap funcDemands
  | .union u => u.params.flatMap (fun p => tyDemands p.type) ++
      u.fields.flatMap (fun f => fieldTypeDemands f.typeId) ++ u.functions.flatMap funcDemands
  | .enum e => instDemands e.type ++ e.items.flatMap fun i => optDemands expDemands i.value
  | .bitmask b => instDemands b.type ++ b.values.flatMap fun v => optDemands expDemands v.2
  | .other o => o.types.flatMap instDemands ++ o.exprs.flatMap expDemands

end Zs.Spec
