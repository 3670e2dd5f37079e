import Verif.Arguments

/-!
# Model of the names of generated members, variants, functions and types

`generator/types.rs` lines 26-104, with the conversions of the crate `stringcase` (version 0.3.0, `Cargo.toml` line 26)
that it calls, `generator/preamble.rs`, and the places where names are generated.  File names are relative to
`crates/zserio-rs-build/src/internal/`.

The source of `stringcase` is not part of the repository; its two functions are written down from knowledge of that
crate.  The examples behind them are the tests of `generator/types.rs` (lines 142-186) and `generator/array.rs`
(lines 134-142).
-/

namespace Zs

/-! ## `stringcase` -/

/-- What the functions of `stringcase` remember about the last character. -/
inductive LastChar where
  | firstOfStr
  | nextOfUpper
  | nextOfContdUpper
  | nextOfSepMark
  | nextOfKeptMark
  | others
  deriving DecidableEq

/-- The last character is taken out, and put back behind an underscore: `match result.pop()`. -/
def markLast (ch : Char) : List Char → List Char
  | prev :: acc => ch :: prev :: '_' :: acc
  | [] => []

/-- `snake_case`: an upper case letter.  The result so far is in reverse order. -/
def snakeUpper (acc : List Char) (ch : Char) : LastChar → List Char × LastChar
  | .firstOfStr => (ch.toLower :: acc, .nextOfUpper)
  | .nextOfUpper => (ch.toLower :: acc, .nextOfContdUpper)
  | .nextOfContdUpper => (ch.toLower :: acc, .nextOfContdUpper)
  | _ => (ch.toLower :: '_' :: acc, .nextOfUpper)

/-- `snake_case`: a lower case letter. -/
def snakeLower (acc : List Char) (ch : Char) : LastChar → List Char × LastChar
  | .nextOfContdUpper => (markLast ch acc, .others)
  | .nextOfSepMark => (ch :: '_' :: acc, .others)
  | .nextOfKeptMark => (ch :: '_' :: acc, .others)
  | _ => (ch :: acc, .others)

/-- `snake_case_with_nums_as_word`: a digit. -/
def snakeDigitWord (acc : List Char) (ch : Char) : LastChar → List Char × LastChar
  | .firstOfStr => (ch :: acc, .nextOfKeptMark)
  | .nextOfKeptMark => (ch :: acc, .nextOfKeptMark)
  | _ => (ch :: '_' :: acc, .nextOfKeptMark)

/-- `snake_case`: a digit. -/
def snakeDigit (acc : List Char) (ch : Char) : LastChar → List Char × LastChar
  | .nextOfSepMark => (ch :: '_' :: acc, .nextOfKeptMark)
  | _ => (ch :: acc, .nextOfKeptMark)

/-- Both functions, and `pascal_case`: a character that is no letter and no digit. -/
def dropMark : LastChar → LastChar
  | .firstOfStr => .firstOfStr
  | _ => .nextOfSepMark

/-- One character of `snake_case` and (if `nums` is true) `snake_case_with_nums_as_word`. -/
def snakeStep (nums : Bool) (acc : List Char) (flag : LastChar) (ch : Char) : List Char × LastChar :=
  if ch.isUpper then snakeUpper acc ch flag
  else if ch.isLower then snakeLower acc ch flag
  else if ch.isDigit then (if nums then snakeDigitWord acc ch flag else snakeDigit acc ch flag)
  else (acc, dropMark flag)

/-- The loop of `snake_case`. -/
def snakeRun (nums : Bool) : List Char → LastChar → List Char → List Char
  | acc, _, [] => acc.reverse
  | acc, flag, ch :: chs => snakeRun nums (snakeStep nums acc flag ch).1 (snakeStep nums acc flag ch).2 chs

/-- `to_snake_case_with_nums_as_word` of `stringcase`. -/
def snakeNums (s : String) : String := String.ofList (snakeRun true [] .firstOfStr s.toList)

/-- `to_snake_case` of `stringcase`. -/
def snakePlain (s : String) : String := String.ofList (snakeRun false [] .firstOfStr s.toList)

/-- The last character is taken out, and put back in upper case: `match result.pop()`. -/
def raiseLast (ch : Char) : List Char → List Char
  | prev :: acc => ch :: prev.toUpper :: acc
  | [] => []

/-- `pascal_case`: an upper case letter. -/
def pascalUpper (acc : List Char) (ch : Char) : LastChar → List Char × LastChar
  | .nextOfUpper => (ch.toLower :: acc, .nextOfContdUpper)
  | .nextOfContdUpper => (ch.toLower :: acc, .nextOfContdUpper)
  | _ => (ch :: acc, .nextOfUpper)

/-- `pascal_case`: a lower case letter. -/
def pascalLower (acc : List Char) (ch : Char) : LastChar → List Char × LastChar
  | .nextOfContdUpper => (raiseLast ch acc, .others)
  | .firstOfStr => (ch.toUpper :: acc, .others)
  | .nextOfSepMark => (ch.toUpper :: acc, .others)
  | .nextOfKeptMark => (ch.toUpper :: acc, .others)
  | _ => (ch :: acc, .others)

/-- One character of `pascal_case`. -/
def pascalStep (acc : List Char) (flag : LastChar) (ch : Char) : List Char × LastChar :=
  if ch.isUpper then pascalUpper acc ch flag
  else if ch.isLower then pascalLower acc ch flag
  else if ch.isDigit then (ch :: acc, .nextOfKeptMark)
  else (acc, dropMark flag)

/-- The loop of `pascal_case`. -/
def pascalRun : List Char → LastChar → List Char → List Char
  | acc, _, [] => acc.reverse
  | acc, flag, ch :: chs => pascalRun (pascalStep acc flag ch).1 (pascalStep acc flag ch).2 chs

/-- `to_pascal_case` of `stringcase`. -/
def pascal (s : String) : String := String.ofList (pascalRun [] .firstOfStr s.toList)

/-! ## `generator/types.rs` and `generator/array.rs` -/

/-- Lines 57-59 `to_rust_type_name`, lines 93-95 `convert_to_enum_field_name`, lines 97-99
`convert_to_union_selector_name`. -/
def variantName (name : String) : String := pascal (removeReserved name)

/-- Lines 101-104: `convert_to_function_name`; the same as for fields (lines 26-28, `Zs.memberName`). -/
def functionName (name : String) : String := memberName snakeNums name

/-- `generator/array.rs` lines 10-12: `array_type_name`. -/
def arrayTypeName (name : String) : String := "zs_array_" ++ snakePlain name

-- the tests in `generator/types.rs` and `generator/array.rs`
example : variantName "UNKNOWN" = "Unknown" ∧ variantName "MORE_THAN_4_TOWARDS_CURB" = "MoreThan4TowardsCurb" ∧
    functionName "getLayerType" = "get_layer_type" ∧ functionName "getSomeRandomValue" = "get_some_random_value" ∧
    memberName snakeNums "simple" = "simple" ∧ memberName snakeNums "numItems" = "num_items" ∧
    memberName snakeNums "boValue1" = "bo_value_1" ∧ memberName snakeNums "positions2D" = "positions_2_d" ∧
    arrayTypeName "points" = "zs_array_points" ∧ arrayTypeName "adasGeometry" = "zs_array_adas_geometry" := by
  decide +kernel

/-! ## Generated names -/

/-- The members of the structure generated for a structure (`generator/zstruct.rs` lines 54-74) or for a choice
(`generator/zchoice.rs` lines 63-82; `fields` are those of the cases): the parameters, then the fields
(`generator/packed_contexts.rs` line 33 converts their names). -/
def structMembers (params fields : List String) : List String :=
  params.map (memberName snakeNums) ++ fields.map (memberName snakeNums)

/-- The members of the structure generated for a union (`generator/zunion.rs` lines 95-116). -/
def unionMembers (params fields : List String) : List String :=
  params.map (memberName snakeNums) ++ "union_selector" :: fields.map (memberName snakeNums)

/-- The variants of the enumeration generated for an enumeration (`generator/zenum.rs` lines 43-60), a bitmask
(`generator/zbitmask.rs` lines 45-51) or the selector of a union (`generator/zunion.rs` lines 58-66). -/
def variants (items : List String) : List String := items.map variantName

/-- The methods generated for the functions of a type (`generator/function.rs` lines 17-18). -/
def methods (functions : List String) : List String := functions.map functionName

/-- `generator/preamble.rs` lines 3-15: the names imported into every generated file. -/
def standardImports : List String :=
  ["BitWriter", "BitReader", "Result", "ZserioPackableObject", "ztype", "PackingContextNode", "DeltaContext"]

/-- The types declared in the file of a structure, choice, enumeration or bitmask (one), or of a union
(`generator/zunion.rs` lines 46-50 and 87: also that of the selector). -/
def fileTypes (isUnion : Bool) (name : String) : List String :=
  if isUnion then [variantName name ++ "Selector", variantName name] else [variantName name]

end Zs
