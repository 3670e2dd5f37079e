import Verif.Modules

/-!
# How Rust finds modules

Rust reference, "Modules": which modules a file declares, in which file a declared module is, and which
modules a crate consists of.  Nothing here depends on how the generator works.
-/

namespace Zs.Spec

/-- The modules that the lines of a file declare, in order: path inside the file, and whether the module is
in a file of its own.  The first argument is the path of the modules that are open. -/
def declared : List String → List Line → List (List String × Bool)
  | _, [] => []
  | here, .file n :: ls => (here ++ [n], true) :: declared here ls
  | here, .opening n :: ls => (here ++ [n], false) :: declared (here ++ [n]) ls
  | here, .closing :: ls => declared here.dropLast ls
  | here, _ :: ls => declared here ls

/-- `path` is declared as a module with a file of its own. -/
def FileModule (ls : List Line) (path : List String) : Prop := (path, true) ∈ declared [] ls

/-- The file of the module with this path is `path.rs` or `path/mod.rs`, of which exactly one exists. -/
def FileOf (fs : Files) (path : List String) (t : FileText) : Prop :=
  ∃ dir name, path = dir ++ [name] ∧
    (fs (dir, name) = some t ∧ fs (path, "mod") = none ∨
     fs (dir, name) = none ∧ fs (path, "mod") = some t)

/-- The modules of a crate whose topmost file is `root`.  Declared modules are looked for in the directory
that has the path of the declaring module. -/
inductive ModuleAt (fs : Files) (root : String) : List String → FileText → Prop
  | top {t : FileText} : fs ([], root) = some t → ModuleAt fs root [] t
  | child {m p : List String} {ls : List Line} {t : FileText} :
      ModuleAt fs root m (.lines ls) → FileModule ls p → FileOf fs (m ++ p) t → ModuleAt fs root (m ++ p) t

/-- No module is declared twice. -/
def NoDuplicates (ls : List Line) : Prop := ((declared [] ls).map Prod.fst).Nodup

/-- Every module file of the crate is free of duplicates. -/
def Consistent (fs : Files) (root : String) : Prop :=
  ∀ m ls, ModuleAt fs root m (.lines ls) → NoDuplicates ls

end Zs.Spec
