import Verif.Names

/-!
# Specification of names

Which words a name consists of, and what Rust demands of names.
-/

namespace Zs.Spec

/-- A letter or digit. -/
def inWord (c : Char) : Bool := c.isUpper || c.isLower || c.isDigit

/-- Whether a word that contains the character `p` goes on with the character `c` behind it, in front of `next`.  A
word ends in front of anything that is no letter or digit, between a digit and a letter, between a lower case
and an upper case letter, and in front of an upper case letter that begins a new word, as in `XMLFile`.  If
`nums` is true, digits are words of their own. -/
def goesOn (nums : Bool) (p c : Char) (next : Option Char) : Bool :=
  inWord c &&
  if c.isDigit then p.isDigit || !nums
  else if p.isDigit then false
  else if c.isUpper then p.isUpper && !next.any Char.isLower
  else true

/-- The words of a name, in lower case. -/
def words (nums : Bool) : List Char → List (List Char)
  | [] => []
  | c :: cs =>
    if inWord c then
      match cs with
      | [] => [[c.toLower]]
      | d :: ds =>
        if goesOn nums c d ds.head? then
          match words nums (d :: ds) with
          | w :: ws => (c.toLower :: w) :: ws
          | [] => [[c.toLower]]
        else [c.toLower] :: words nums (d :: ds)
    else words nums cs

/-- The words of the Rust name for a name: three names are given the prefix `z`. -/
def nameWords (nums : Bool) (name : String) : List (List Char) :=
  if name.toLower = "type" ∨ name.toLower = "struct" ∨ name.toLower = "self" then ['z'] :: [name.toLower.toList]
  else words nums name.toList

/-- Words with underscores in between. -/
def underscored : List (List Char) → List Char
  | [] => []
  | [w] => w
  | w :: ws => w ++ '_' :: underscored ws

/-- A word with an upper case letter in front. -/
def capitalised : List Char → List Char
  | [] => []
  | c :: cs => c.toUpper :: cs

/-- Rust accepts the names of the members of a structure, of the variants of an enumeration, or of the methods of a
type: they are identifiers, and different. -/
def RustNames (names : List String) : Prop := (∀ n ∈ names, isRustIdent n = true) ∧ names.Nodup

/-- A name in lower camel case: letters and digits, beginning with a lower case letter; an upper case letter is not
followed by another one, a digit is not followed by a lower case letter. -/
def lowerCamel : List Char → Bool
  | [] => false
  | c :: cs => c.isLower && camelTail c cs
where
  /-- The characters behind `p`. -/
  camelTail : Char → List Char → Bool
    | _, [] => true
    | p, c :: cs => inWord c && !(p.isUpper && c.isUpper) && !(p.isDigit && c.isLower) && camelTail c cs

/-- A name in upper case: letters, digits and single underscores between words; a word begins with a letter, and
has digits only at its end. -/
def upperCase : List Char → Bool
  | [] => false
  | c :: cs => c.isUpper && upperTail c cs
where
  /-- The characters behind `p`. -/
  upperTail : Char → List Char → Bool
    | p, [] => p != '_'
    | p, c :: cs => (c.isUpper && !p.isDigit || c.isDigit && p != '_' || c == '_' && p != '_') && upperTail c cs

/-- The methods of generated types that generated code calls: those of `ZserioPackableObject`
(`crates/zserio/src/ztype/traits.rs` lines 6-27) and of `Clone`.  A method of the type itself with such a name would
be called instead. -/
def calledMethods : List String :=
  ["zserio_read", "zserio_write", "zserio_read_packed", "zserio_write_packed", "zserio_bitsize",
   "zserio_bitsize_packed", "zserio_create_packing_context", "zserio_init_packing_context", "clone"]

/-- Rust accepts the types that a generated file declares: they are identifiers, different from each other and from what
is imported. -/
def FileNames (imports types : List String) : Prop := RustNames (imports ++ types)

end Zs.Spec
