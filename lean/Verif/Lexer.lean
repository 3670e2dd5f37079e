import Verif.Parser

/-!
# The lexer

`crates/zserio-rs-build/src/internal/parser/ZserioLexer.g4`, from which `gen/zseriolexer.rs` is generated; line numbers
in the comments refer to the grammar (the generated file holds it as an encoded automaton, which the runtime library of
ANTLR interprets).  The lexer takes the longest text that matches a rule; of several rules that match it, the first.

Simplified: where no rule matches, ANTLR reports an error and goes on behind the character; here this is `none`.
-/

namespace Zs.Src

/-- Regular expressions; characters are given by ranges. -/
inductive Rx where
  | none
  | empty
  | chars (neg : Bool) (ranges : List (Char × Char))
  | seq (a b : Rx)
  | alt (a b : Rx)
  | star (a : Rx)
  deriving DecidableEq

/-- The character is in one of the ranges (`neg`: in none of them). -/
def inRanges (neg : Bool) (ranges : List (Char × Char)) (c : Char) : Bool :=
  neg != ranges.any fun r => decide (r.1 ≤ c) && decide (c ≤ r.2)

namespace Rx

/-- The empty text matches. -/
def nullable : Rx → Bool
  | .none | .chars _ _ => false
  | .empty | .star _ => true
  | .seq a b => a.nullable && b.nullable
  | .alt a b => a.nullable || b.nullable

/-- What has to match behind the character: the step of the automaton. -/
def step (c : Char) : Rx → Rx
  | .none | .empty => .none
  | .chars neg ranges => if inRanges neg ranges c then .empty else .none
  | .seq a b => if a.nullable then .alt (.seq (a.step c) b) (b.step c) else .seq (a.step c) b
  | .alt a b => .alt (a.step c) (b.step c)
  | .star a => .seq (a.step c) (.star a)

/-- One character. -/
def one (c : Char) : Rx := .chars false [(c, c)]
/-- One of some characters. -/
def among (cs : List Char) : Rx := .chars false (cs.map fun c => (c, c))
/-- None of some characters. -/
def except (cs : List Char) : Rx := .chars true (cs.map fun c => (c, c))
/-- A fixed text. -/
def lits : List Char → Rx
  | [] => .empty
  | [c] => one c
  | c :: cs => .seq (one c) (lits cs)
/-- `+`. -/
def plus (a : Rx) : Rx := .seq a (.star a)
/-- `?`. -/
def opt (a : Rx) : Rx := .alt a .empty

end Rx

open Rx hiding none

/-- The rules.  `word`: an operator or keyword. -/
inductive Rule where
  | word (text : String)
  | ws | doc | markdown | block | line
  | lit (kind : LitKind)
  | id | invalidString | invalidToken
  deriving DecidableEq, Repr

/-- Lines 6-36: the operators. -/
def operatorTexts : List String :=
  ["&", "=", "!", ":", ",", "/", ".", "==", ">=", ">", "{", "[", "<=", "&&", "||", "(", "<<", "<", "-", "%", "*", "!=",
   "|", "+", "?", "}", "]", ")", ";", "~", "^"]

/-- Lines 39-107: the keywords. -/
def keywordTexts : List String :=
  ["align", "bit", "bool", "bitmask", "bytes", "case", "choice", "const", "default", "@deprecated", "enum", "explicit",
   "extend", "extern", "float16", "float32", "float64", "function", "if", "implicit", "import", "@index", "instantiate",
   "int", "int16", "int32", "int64", "int8", "isset", "lengthof", "numbits", "on", "optional", "package", "packed",
   "pubsub", "publish", "@removed", "return", "rule", "rule_group", "service", "sql", "sql_database", "sql_table",
   "sql_virtual", "sql_without_rowid", "string", "struct", "subscribe", "subtype", "topic", "uint16", "uint32",
   "uint64", "uint8", "union", "using", "valueof", "varint", "varint16", "varint32", "varint64", "varsize", "varuint",
   "varuint16", "varuint32", "varuint64", "zserio_compatibility_version"]

/-- The end of a line, as in lines 110, 116, 122. -/
def lineEnds : List Char := ['\r', '\n', Char.ofNat 12]

/-- `.*? '*/'` of lines 113-115: everything up to the first `*/`.  (`*?` is not greedy: the rule stops where it first
matches.)  Written as an expression without that operator: each `*` that does not end the comment is followed by
something else than `/`. -/
def untilEnd : Rx :=
  .seq (.star (.alt (except ['*']) (.seq (plus (one '*')) (except ['*', '/'])))) (.seq (plus (one '*')) (one '/'))

def digitRx : Rx := .chars false [('0', '9')]
def octalRx : Rx := .chars false [('0', '7')]
def hexRx : Rx := .chars false [('0', '9'), ('a', 'f'), ('A', 'F')]
def letterRx : Rx := .chars false [('a', 'z'), ('A', 'Z'), ('_', '_')]
def wordRx : Rx := .chars false [('a', 'z'), ('A', 'Z'), ('_', '_'), ('0', '9')]

/-- Lines 121-127: `STRING_CHARACTER`. -/
def stringCharacter : Rx :=
  .alt (except ['"', '\\', '\r', '\n', Char.ofNat 12])
    (.alt (.seq (one '\\') (among ['"', '\\', 'r', 'n', 'f', 't']))
      (.alt (.seq (lits ['\\', 'u']) (.seq hexRx (.seq hexRx (.seq hexRx hexRx))))
        (.alt (.seq (lits ['\\', 'x']) (.seq hexRx hexRx))
          (.seq (lits ['\\', '0']) (.seq (opt (.chars false [('0', '3')])) (.seq octalRx (opt octalRx)))))))

/-- Line 139: `FLOAT_EXPONENT`. -/
def exponentRx : Rx := .seq (among ['e', 'E']) (.seq (opt (among ['+', '-'])) (plus digitRx))

/-- Lines 141-145: `DOUBLE_LITERAL`. -/
def doubleRx : Rx :=
  .alt (.seq (plus digitRx) exponentRx)
    (.alt (.seq (plus digitRx) (.seq (one '.') (.seq (.star digitRx) (opt exponentRx))))
      (.seq (one '.') (.seq (plus digitRx) (opt exponentRx))))

/-- Lines 109-160: the other rules. -/
def otherRules : List (Rule × Rx) :=
  [(.ws, among ['\r', '\n', Char.ofNat 12, '\t', ' ']),
   (.doc, .seq (lits ['/', '*', '*']) untilEnd),
   (.markdown, .seq (lits ['/', '*', '!']) untilEnd),
   (.block, .seq (lits ['/', '*']) untilEnd),
   (.line, .seq (lits ['/', '/']) (.star (except lineEnds))),
   (.lit .bool, .alt (lits ['t', 'r', 'u', 'e']) (lits ['f', 'a', 'l', 's', 'e'])),
   (.lit .string, .seq (one '"') (.seq (.star stringCharacter) (one '"'))),
   (.lit .binary, .seq (plus (.chars false [('0', '1')])) (among ['b', 'B'])),
   (.lit .octal, .seq (one '0') (plus octalRx)),
   (.lit .hexadecimal, .seq (one '0') (.seq (among ['x', 'X']) (plus hexRx))),
   (.lit .double, doubleRx),
   (.lit .float, .seq doubleRx (among ['f', 'F'])),
   (.lit .decimal, .alt (.seq (.chars false [('1', '9')]) (.star digitRx)) (one '0')),
   (.id, .seq letterRx (.star wordRx)),
   (.invalidString, .seq (one '"') (.seq (.star (except ['"'])) (opt (one '"')))),
   (.invalidToken, plus wordRx)]

/-- All rules, in the order of the grammar. -/
def lexRules : List (Rule × Rx) :=
  (operatorTexts ++ keywordTexts).map (fun s => (Rule.word s, lits s.toList)) ++ otherRules

/-- The longest text in front that matches a rule, with the first rule that matches it, and what is behind. -/
def munch (rs : List (Rule × Rx)) : List Char → Option (Rule × List Char × List Char)
  | [] => (rs.find? fun r => r.2.nullable).map fun r => (r.1, [], [])
  | c :: cs => match munch (rs.map fun r => (r.1, r.2.step c)) cs with
    | some (r, w, rest) => some (r, c :: w, rest)
    | Option.none => (rs.find? fun r => r.2.nullable).map fun r => (r.1, [], c :: cs)

/-- The tokens of the rules; whitespace is skipped, and comments go to other channels, which the parser does not
read. -/
def tokenOf : Rule → List Char → Option Token
  | .word "(", _ => some .lparen
  | .word ")", _ => some .rparen
  | .word "[", _ => some .lbracket
  | .word "]", _ => some .rbracket
  | .word ".", _ => some .dot
  | .word ",", _ => some .comma
  | .word "?", _ => some .question
  | .word ":", _ => some .colon
  | .word "isset", _ => some .isset
  | .word "lengthof", _ => some .lengthof
  | .word "valueof", _ => some .valueof
  | .word "numbits", _ => some .numbits
  | .word "@index", _ => some .index
  | .word "+", _ => some .plus
  | .word "-", _ => some .minus
  | .word "!", _ => some .bang
  | .word "~", _ => some .tilde
  | .word "*", _ => some .multiply
  | .word "/", _ => some .divide
  | .word "%", _ => some .modulo
  | .word "<<", _ => some .lshift
  | .word "<", _ => some .lt
  | .word "<=", _ => some .le
  | .word ">", _ => some .gt
  | .word ">=", _ => some .ge
  | .word "==", _ => some .eq
  | .word "!=", _ => some .ne
  | .word "&", _ => some .and
  | .word "^", _ => some .xor
  | .word "|", _ => some .or
  | .word "&&", _ => some .logicalAnd
  | .word "||", _ => some .logicalOr
  | .lit k, w => some (.lit k w)
  | .id, w => some (.id (String.ofList w))
  | .ws, _ | .doc, _ | .markdown, _ | .block, _ | .line, _ => none
  | .word _, w | .invalidString, w | .invalidToken, w => some (.other (String.ofList w))

/-- The tokens of a text.  The first argument bounds their number. -/
def lexAll : Nat → List Char → Option (List Token)
  | _, [] => some []
  | 0, _ :: _ => none
  | n + 1, cs => match munch lexRules cs with
    | some (r, c :: w, rest) => (lexAll n rest).map fun ts => match tokenOf r (c :: w) with
      | some t => t :: ts
      | Option.none => ts
    | _ => Option.none

/-- The tokens of a text; every token has at least one character. -/
def lexText (cs : List Char) : Option (List Token) := lexAll cs.length cs

end Zs.Src
