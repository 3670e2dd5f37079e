import Verif.Visitor

/-!
# Model of the symbol tables

`crates/zserio-rs-build/src/internal/compiler/symbol_scope.rs` and the functions `add_*_to_scope` in
`crates/zserio-rs-build/src/internal/ast/`: which declaration is found under which name.  `Scope.lean` is about
the way from package to package, this file is about the tables of one package.
-/

namespace Zs

open Ast

namespace Ast

/-- `compiler/symbol_scope.rs` lines 22-36: `Symbol`. -/
inductive Symbol (F : Type) where
  | struct (d : Struct F)
  | choice (d : Choice F)
  | union (d : Union F)
  | enum (d : Enum F)
  | item (d : Enum F) (index : Nat)
  | subtype (d : Alias F)
  | const (d : Const F)
  | bitmask (d : Bitmask F)
  | field (f : Field F)
  | param (p : Param F)
  | func (f : Func F)

/-- One `HashMap::insert` per element. -/
def Map.insertAll {α β : Type} (name : α → String) (value : α → β) : List α → Map β → Map β
  | [], m => m
  | a :: as, m => insertAll name value as (m.insert (name a) (value a))

/-- One `HashMap::insert` per entry of another map, in whatever order: the keys are different.  Every entry of
`structs`, `zchoices` and `zunions` is stored under the name of the declaration. -/
def Map.insertMap {α β : Type} (value : α → β) (entries : Map α) (m : Map β) : Map β :=
  fun n => match entries n with
    | some a => some (value a)
    | none => m n

end Ast

variable {F : Type}

/-- `compiler/symbol_scope.rs` lines 166-199: `file_symbols` of a package; `ast/zconst.rs` lines 22-28,
`ast/zbitmask.rs` lines 70-79, `ast/zstruct.rs` lines 63-67, `ast/zchoice.rs` lines 189-193, `ast/zunion.rs`
lines 77-81, `ast/zenum.rs` lines 45-48, `ast/zsubtype.rs` lines 12-17. -/
def fileSymbols (p : Package F) : Map (Symbol F) :=
  Map.insertAll Alias.name .subtype p.subtypes <|
  Map.insertAll Enum.name .enum p.enums <|
  Map.insertMap .union p.unions <|
  Map.insertMap .choice p.choices <|
  Map.insertMap .struct p.structs <|
  Map.insertAll Bitmask.name .bitmask p.bitmasks <|
  Map.insertAll Const.name .const p.consts Map.empty

/-- `ast/zstruct.rs` lines 38-57: the names inside a structure. -/
def structSymbols (s : Struct F) : Map (Symbol F) :=
  Map.insertAll Func.name .func s.functions <|
  Map.insertAll Field.name .field s.fields <|
  Map.insertAll Param.name .param s.params Map.empty

/-- `ast/zunion.rs` lines 52-71: the names inside a union. -/
def unionSymbols (u : Ast.Union F) : Map (Symbol F) :=
  Map.insertAll Func.name .func u.functions <|
  Map.insertAll Field.name .field u.fields <|
  Map.insertAll Param.name .param u.params Map.empty

/-- `ast/zchoice.rs` lines 155-182: the names inside a choice; there is no default. -/
def choiceSymbols (c : Choice F) : Map (Symbol F) :=
  Map.insertAll Func.name .func c.functions <|
  Map.insertAll Field.name .field (c.cases.filterMap Case.field) <|
  Map.insertAll Param.name .param c.params Map.empty

/-- `ast/zenum.rs` lines 34-39: the names inside an enumeration. -/
def enumSymbols (e : Enum F) : Map (Symbol F) :=
  Map.insertAll (fun i => i.1.name) (fun i => .item e i.2) e.items.zipIdx Map.empty

end Zs
