import Verif.Base

/-!
# Model of the modules and files of the generated code

`generator/mod_file.rs`, `generator/package.rs`, `generator/model.rs`, `generator/file_generator.rs` and the
names of modules in `generator/types.rs`.  File names are relative to
`crates/zserio-rs-build/src/internal/`.

A package name is the list of its components (`split('.')`, never empty: `visitor.rs` line 148 panics
without a package name).
-/

namespace Zs

/-! ## Names -/

/-- `generator/types.rs` lines 78-86: `remove_reserved_identifier`. -/
def removeReserved (name : String) : String :=
  if name.toLower = "type" then "z_type"
  else if name.toLower = "struct" then "z_struct"
  else if name.toLower = "self" then "z_self"
  else name

/-- `generator/types.rs` lines 53-55: `to_rust_module_name`.  `snake` stands for
`to_snake_case_with_nums_as_word` of the crate `stringcase`. -/
def moduleName (snake : String → String) (name : String) : String := snake (removeReserved name)

/-! ## Lines of a module file -/

/-- The lines that module files consist of. -/
inductive Line where
  /-- `#[rustfmt::skip]`, `#![allow(..)]` -/
  | attribute
  /-- `pub mod name;` -/
  | file (name : String)
  /-- `pub mod name {` -/
  | opening (name : String)
  /-- `}` -/
  | closing
  /-- `pub use name::*;` -/
  | reexport (name : String)
  deriving DecidableEq, Repr

/-- The words that the parser of the crate `syn` rejects as identifiers. -/
def rustKeywords : List String :=
  ["_", "abstract", "as", "async", "await", "become", "box", "break", "const", "continue", "crate", "do",
   "dyn", "else", "enum", "extern", "false", "final", "fn", "for", "if", "impl", "in", "let", "loop",
   "macro", "match", "mod", "move", "mut", "override", "priv", "pub", "ref", "return", "Self", "self",
   "static", "struct", "super", "trait", "true", "try", "type", "typeof", "unsafe", "unsized", "use",
   "virtual", "where", "while", "yield"]

/-- An identifier for the parser of the crate `syn` (ASCII only, as the lexer of zserio allows no more). -/
def isRustIdent (s : String) : Bool :=
  match s.toList with
  | [] => false
  | c :: cs => (c.isAlpha || c == '_') && cs.all (fun c => c.isAlphanum || c == '_') &&
      !rustKeywords.contains s

/-- The line is accepted by `syn::parse_str`. -/
def Line.parses : Line → Bool
  | .file n => isRustIdent n
  | .opening n => isRustIdent n
  | .reexport n => isRustIdent n
  | _ => true

/-! ## The module tree -/

/-- `generator/mod_file.rs` lines 10-12: `ZserioModuleTreeNode`; a node is the list of its children.  The
hash map of the children is an association list in its (arbitrary) order of iteration. -/
inductive Forest where
  | nil
  | cons (name : String) (sub rest : Forest)

/-- `children.is_empty()`. -/
def Forest.isNil : Forest → Bool
  | .nil => true
  | .cons .. => false

/-- `generator/mod_file.rs` lines 20-43: continues in the child with this name, which is created if it does
not exist. -/
def Forest.update (name : String) (continue_ : Forest → Forest) : Forest → Forest
  | .nil => .cons name (continue_ .nil) .nil
  | .cons m sub rest =>
    if m = name then .cons m (continue_ sub) rest else .cons m sub (rest.update name continue_)

/-- `generator/mod_file.rs` lines 14-45: `add_package_to_tree`.  The components are converted already. -/
def addPackage : List String → Forest → Forest
  | [], f => f
  | n :: ns, f => f.update n (addPackage ns)

/-- `sorted_by_key`, then the sections one after the other. -/
def joinSections (sections : List (String × List Line)) : List Line :=
  (sections.mergeSort fun a b => decide (a.1 ≤ b.1)).flatMap Prod.snd

/-- `generator/mod_file.rs` lines 53-79: the lines around the sections of the children. -/
def wrapSection (level : Nat) (name : String) (childless : Bool) (body : List Line) : List Line :=
  if name = "" then body
  else (if level ≤ 1 then [.attribute] else []) ++
    (if childless then [.file name] else .opening name :: body ++ [.closing])

/-- `generator/mod_file.rs` lines 47-80: `generate_mod_section` for all children of a node, in the order of
the hash map.  Simplified: `level` is a `u8`, so a package name of more than 255 components overflows. -/
def Forest.sections : Nat → Forest → List (String × List Line)
  | _, .nil => []
  | level, .cons name sub rest =>
    (name, wrapSection level name sub.isNil (joinSections (sub.sections (level + 1)))) ::
      rest.sections level

/-- `generator/mod_file.rs` lines 86-96: the contents of the top-level file, from the converted names of the
packages in the order of the hash map of packages. -/
def topLevelLines (packages : List (List String)) : List Line :=
  joinSections ((packages.foldl (fun f p => addPackage p f) .nil).sections 1)

/-! ## Files -/

/-- Contents of a generated file: module declarations, or the code of a symbol. -/
inductive FileText where
  | lines (ls : List Line)
  | code (package : List String) (symbol : String)
  deriving DecidableEq

/-- The files below the output directory: directory and file name without `.rs`. -/
abbrev Files := List String × String → Option FileText

/-- `File::create`, `write_all`: an existing file is replaced. -/
def Files.put (fs : Files) (path : List String × String) (t : FileText) : Files :=
  fun q => if q = path then some t else fs q

/-- `generator/file_generator.rs` lines 7-26: `write_to_file` (panics if the contents do not parse).  The
code of symbols is assumed to parse.  An empty component does not change the path. -/
def writeToFile (snake : String → String) (fs : Files) (package : List String) (fileName : String)
    (t : FileText) : Res Files :=
  let parses := match t with
    | .lines ls => ls.all Line.parses
    | .code .. => true
  if parses then
    .ok (fs.put ((package.map (moduleName snake)).filter (· ≠ ""), fileName) t)
  else .panic

/-- A package: its name, and the names of the symbols for which code is generated, in the order of
generation (templates are left out).  Constants, enums, … are not distinguished. -/
structure Pkg where
  name : List String
  symbols : List String

/-- `generator/package.rs` lines 129-165: the module file of a package. -/
def packageLines (snake : String → String) (p : Pkg) : List Line :=
  let names := (p.symbols.map (moduleName snake)).mergeSort (fun a b => decide (a ≤ b))
  List.replicate 18 .attribute ++ names.map .file ++ names.map .reexport

/-- The files of the symbols, `generator/package.rs` lines 22-127 (`generate_struct`, … write one file each:
`zstruct.rs` line 116, `zchoice.rs` line 125, `zunion.rs` line 148, `zenum.rs` line 118, `zbitmask.rs`
line 87, `subtype.rs` line 24, `zconst.rs` line 55). -/
def writeSymbols (snake : String → String) (p : Pkg) : List String → Files → Res Files
  | [], fs => .ok fs
  | s :: ss, fs => do
    let fs ← writeToFile snake fs p.name (moduleName snake s) (.code p.name s)
    writeSymbols snake p ss fs

/-- `generator/package.rs` lines 12-168: `generate_package`. -/
def generatePackage (snake : String → String) (fs : Files) (p : Pkg) : Res Files := do
  let fs ← writeSymbols snake p p.symbols fs
  writeToFile snake fs p.name "mod" (.lines (packageLines snake p))

/-- `generator/model.rs` lines 13-16. -/
def generatePackages (snake : String → String) : List Pkg → Files → Res Files
  | [], fs => .ok fs
  | p :: ps, fs => do
    let fs ← generatePackage snake fs p
    generatePackages snake ps fs

/-- `generator/mod_file.rs` lines 98-104: the name of the top-level file. -/
def rootFile (rootPackage : String) : String := if rootPackage = "" then "lib" else "mod"

/-- `generator/model.rs` lines 8-20: `generate_model`, into an empty directory.  The package name `""` of
the top-level file is the directory itself. -/
def generateModel (snake : String → String) (rootPackage : String) (packages : List Pkg) : Res Files := do
  let fs ← generatePackages snake packages fun _ => none
  let ls := topLevelLines (packages.map fun p => p.name.map (moduleName snake))
  writeToFile snake fs [] (rootFile rootPackage) (.lines ls)

/-- `generator/types.rs` lines 13-24, 61-67: the module in which other generated code looks for a symbol,
below the module of the top-level file: `zserio_package_to_rust_module`, `custom_type_to_rust_type`. -/
def referencePath (snake : String → String) (package : List String) (symbol : String) : List String :=
  package.map (moduleName snake) ++ [moduleName snake symbol]

end Zs
