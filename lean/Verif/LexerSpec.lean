import Verif.Lexer
import Verif.AcceptSpec

/-!
# Specification: how a text is divided into tokens

Nothing here is code of the repository.
-/

namespace Zs.Spec

open Src

/-! ## What a rule describes -/

/-- The text is one that the regular expression describes. -/
inductive Matches : Rx → List Char → Prop
  | empty : Matches .empty []
  | chars {neg ranges c} : ((∃ r ∈ ranges, r.1 ≤ c ∧ c ≤ r.2) ↔ neg = false) → Matches (.chars neg ranges) [c]
  | seq {a b u v} : Matches a u → Matches b v → Matches (.seq a b) (u ++ v)
  | left {a b u} : Matches a u → Matches (.alt a b) u
  | right {a b u} : Matches b u → Matches (.alt a b) u
  | stop {a} : Matches (.star a) []
  | more {a u v} : Matches a u → Matches (.star a) v → Matches (.star a) (u ++ v)

/-- `w` is the longest text in front that a rule describes, and `r` is the first rule that describes it. -/
structure Longest (rs : List (Rule × Rx)) (cs : List Char) (r : Rule) (w rest : List Char) : Prop where
  text : cs = w ++ rest
  first : ∃ before x behind, rs = before ++ (r, x) :: behind ∧ Matches x w ∧ ∀ q ∈ before, ¬Matches q.2 w
  longest : ∀ q ∈ rs, ∀ u v, cs = u ++ v → Matches q.2 u → u.length ≤ w.length

/-- The text, divided into the longest pieces that a rule describes. -/
inductive Divided : List Char → List (Rule × List Char) → Prop
  | nil : Divided [] []
  | piece {cs r w rest ps} : Longest lexRules cs r w rest → w ≠ [] → Divided rest ps → Divided cs ((r, w) :: ps)

/-! ## How tokens are written -/

/-- The tokens that are always written in the same way. -/
def signTexts : List (Token × String) :=
  [(.lparen, "("), (.rparen, ")"), (.lbracket, "["), (.rbracket, "]"), (.dot, "."), (.comma, ","), (.question, "?"),
   (.colon, ":"), (.isset, "isset"), (.lengthof, "lengthof"), (.valueof, "valueof"), (.numbits, "numbits"),
   (.index, "@index"), (.plus, "+"), (.minus, "-"), (.bang, "!"), (.tilde, "~"), (.multiply, "*"), (.divide, "/"),
   (.modulo, "%"), (.lshift, "<<"), (.lt, "<"), (.le, "<="), (.gt, ">"), (.ge, ">="), (.eq, "=="), (.ne, "!="),
   (.and, "&"), (.xor, "^"), (.or, "|"), (.logicalAnd, "&&"), (.logicalOr, "||"),
   (.other "{", "{"), (.other "}", "}"), (.other ";", ";"), (.other "=", "=")]

/-- The words of the language that do not occur in expressions. -/
def otherWords : List String :=
  ["align", "bit", "bool", "bitmask", "bytes", "case", "choice", "const", "default", "@deprecated", "enum", "explicit",
   "extend", "extern", "float16", "float32", "float64", "function", "if", "implicit", "import", "instantiate", "int",
   "int16", "int32", "int64", "int8", "on", "optional", "package", "packed", "pubsub", "publish", "@removed", "return",
   "rule", "rule_group", "service", "sql", "sql_database", "sql_table", "sql_virtual", "sql_without_rowid", "string",
   "struct", "subscribe", "subtype", "topic", "uint16", "uint32", "uint64", "uint8", "union", "using", "varint",
   "varint16", "varint32", "varint64", "varsize", "varuint", "varuint16", "varuint32", "varuint64",
   "zserio_compatibility_version"]

/-- A digit. -/
def IsDigit (c : Char) : Prop := '0' ≤ c ∧ c ≤ '9'

/-- A letter or underscore. -/
def IsLetter (c : Char) : Prop := 'a' ≤ c ∧ c ≤ 'z' ∨ 'A' ≤ c ∧ c ≤ 'Z' ∨ c = '_'

/-- A character of words and numbers. -/
def IsWordChar (c : Char) : Prop := IsLetter c ∨ IsDigit c

/-- A name: it begins with a letter, and is no word of the language. -/
def IsName (w : List Char) : Prop :=
  (∃ c cs, w = c :: cs ∧ IsLetter c ∧ ∀ d ∈ cs, IsWordChar d) ∧
    (∀ p ∈ signTexts, w ≠ p.2.toList) ∧ (∀ s ∈ otherWords, w ≠ s.toList) ∧
    w ≠ "true".toList ∧ w ≠ "false".toList

/-- How a token is written. -/
inductive Spells : Token → List Char → Prop
  | sign {t s} : (t, s) ∈ signTexts → Spells t s.toList
  | word {s} : s ∈ otherWords → Spells (.other s) s.toList
  | name {w} : IsName w → Spells (.id (String.ofList w)) w
  | lit {kind w} : Lexed kind w → Spells (.lit kind w) w

/-- The character would be read together with the token in front of it: it goes on with a word or number, or makes
another sign or the beginning of a comment. -/
def Glues (w : List Char) (c : Char) : Prop :=
  (w ≠ ['.'] ∧ (∃ a, w.getLast? = some a ∧ (IsWordChar a ∨ a = '.')) ∧ IsWordChar c) ∨
  (w = ['.'] ∧ IsDigit c) ∨
  ((∃ a, w.head? = some a ∧ (IsDigit a ∨ a = '.')) ∧ c = '.') ∨
  (∃ p ∈ signTexts, w ++ [c] = p.2.toList) ∨ w ++ [c] = ['/', '/'] ∨ w ++ [c] = ['/', '*']

/-- The text is not read together with the token in front of it. -/
def Apart (w : List Char) : List Char → Prop
  | [] => True
  | c :: _ => ¬Glues w c

/-- `*/` comes only behind the text. -/
def NoEnd (body : List Char) : Prop := ∀ u v, body ++ ['*'] ≠ u ++ '*' :: '/' :: v

/-- Behind a comment that reaches to the end of the line. -/
def LineEnds : List Char → Prop
  | [] => True
  | c :: _ => c ∈ ['\r', '\n', Char.ofNat 12]

/-- The text consists of these tokens, with blanks and comments between them as needed.  Comments `/* … */` are not
empty. -/
inductive Tokens : List Char → List Token → Prop
  | nil : Tokens [] []
  | token {t w rest ts} : Spells t w → Apart w rest → Tokens rest ts → Tokens (w ++ rest) (t :: ts)
  | blank {c rest ts} : c ∈ ['\r', '\n', Char.ofNat 12, '\t', ' '] → Tokens rest ts → Tokens (c :: rest) ts
  | comment {body rest ts} : body ≠ [] → NoEnd body → Tokens rest ts →
      Tokens ('/' :: '*' :: body ++ '*' :: '/' :: rest) ts
  | line {body rest ts} : (∀ c ∈ body, c ∉ ['\r', '\n', Char.ofNat 12]) → LineEnds rest → Tokens rest ts →
      Tokens ('/' :: '/' :: body ++ rest) ts

/-- What is between the tokens: a blank, or a comment. -/
def Skipped (w : List Char) : Prop :=
  (∃ c ∈ ['\r', '\n', Char.ofNat 12, '\t', ' '], w = [c]) ∨ (∃ v, w = '/' :: '/' :: v) ∨ ∃ v, w = '/' :: '*' :: v

end Zs.Spec
