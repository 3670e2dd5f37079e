import Verif.Expr
import Verif.Scope

/-!
# Model of the evaluation of expressions with the symbol tables

`Expr.lean` evaluates expressions with an abstract scope.  Here the names of an expression are looked up in the
symbol tables, as `ast/expression.rs` and `compiler/symbol_scope.rs` do it: which declaration a name stands for, how
the type of that declaration is found, and which cells (`RefCell`) are borrowed on the way.  File names are relative
to `crates/zserio-rs-build/src/internal/`.

A declaration is evaluated while its own cell is borrowed mutably (`model.rs` lines 226-277: enumerations, constants
and bitmasks; `ast/zstruct.rs` lines 29-34, `ast/zchoice.rs` lines 56-74, `ast/zunion.rs` lines 41-46: fields and
functions).  Every other borrow of that cell panics.  All other borrows are shared and do not disturb each other.

Simplified: of a type reference only the names are kept (no lengths, arguments); native types (`native_type`) are the
subject of `ExprType.lean`.  Lookups that may not end have fuel, as in `Scope.lean`; `none` means that it ran out.
-/

namespace Zs.Lookup

/-- A computation that may run for ever, and may panic. -/
def Look (α : Type) : Type := Option (Res α)

namespace Look

def ok {α : Type} (a : α) : Look α := some (.ok a)
def panic {α : Type} : Look α := some .panic
def endless {α : Type} : Look α := none

def bind {α β : Type} (x : Look α) (f : α → Look β) : Look β :=
  match x with
  | none => none
  | some (.ok a) => f a
  | some (.err e) => some (.err e)
  | some .panic => some .panic

instance : Monad Look where
  pure := ok
  bind := bind

def ofRes {α : Type} (r : Res α) : Look α := some r

end Look

/-- `compiler/symbol_scope.rs` lines 22-36: the variants of `Symbol`. -/
inductive Kind where
  | struct | choice | union | enum | item | subtype | const | bitmask | field | param | func
  deriving DecidableEq, Repr

/-- `compiler/symbol_scope.rs` lines 22-36: `Symbol`, with what expressions ask for: the cell that is behind the `Rc`
(for an item: the one of its enumeration), the name, the type that is written in the declaration (of a field, a
parameter, a constant; what a subtype stands for; the underlying type of an enumeration, also for its items, and of
a bitmask; the result of a function; nothing for structures, choices and unions), and the items of an enumeration
or bitmask. -/
structure Sym where
  kind : Kind
  cell : Nat
  name : String
  type : TypeRef Unit := { builtin := true, package := "", name := "" }
  items : List String := []

/-- `compiler/symbol_scope.rs` lines 65-75: the tables of all packages. -/
abbrev Tables := ModelScope Sym

/-- `compiler/symbol_scope.rs` lines 59-63: `ScopeLocation`. -/
structure Loc where
  package : String
  current : Option String

/-- `compiler/symbol_scope.rs` lines 38-43: `SymbolReference`. -/
structure SymRef where
  symbol : Sym
  name : String
  package : String

/-- The cells that are borrowed mutably. -/
abbrev Held := Nat → Bool

/-- `RefCell::borrow` (released at once, or kept while only shared borrows follow). -/
def borrow (held : Held) (cell : Nat) : Look Unit := if held cell then .panic else .ok ()

/-- `compiler/symbol_scope.rs` lines 244-253: `get_symbol_name`; unions, constants and members have no name here. -/
def symbolName (held : Held) (s : Sym) : Look String :=
  match s.kind with
  | .struct | .choice | .subtype | .enum | .bitmask => do
    borrow held s.cell
    pure s.name
  | _ => pure ""

/-- `compiler/symbol_scope.rs` lines 106-161 and 209-241: `resolve_symbol`, the search itself as in `Scope.lean`. -/
def resolve (t : Tables) (held : Held) (n : Nat) (loc : Loc) (name : String) (ignoreLocals : Bool) : Look SymRef :=
  match t.resolve n loc.package loc.current name ignoreLocals with
  | none => .endless
  | some (.ok (s, package)) => do
    let own ← symbolName held s
    pure ⟨s, own, package⟩
  | some (.err e) => some (.err e)
  | some .panic => .panic

/-- `compiler/symbol_scope.rs` lines 98-103 and 197-206: `get_symbol`. -/
def getSymbol (t : Tables) (held : Held) (package name : String) : Look SymRef :=
  match t.packages package with
  | none => .panic
  | some p => match p.file name with
    | none => .panic
    | some s => do
      let own ← symbolName held s
      pure ⟨s, own, package⟩

/-- `compiler/fundamental_type.rs` lines 16-90: `get_fundamental_type`, with `get_symbol_type`. -/
def fundamental (t : Tables) (held : Held) : Nat → TypeRef Unit → Look (TypeRef Unit)
  | 0, _ => .endless
  | n + 1, r =>
    if r.builtin then pure r
    else do
      let s ← getSymbol t held r.package r.name
      match s.symbol.kind with
      | .bitmask | .choice | .enum | .const | .union | .struct => do
        borrow held s.symbol.cell
        pure { builtin := false, package := s.package, name := s.symbol.name }
      | .subtype => do
        borrow held s.symbol.cell
        fundamental t held n s.symbol.type
      | _ => .panic

/-- `ast/expression.rs` lines 27-39: `ExpressionType`, with dummy values (lines 657-699). -/
inductive Ty where
  | int | float | bool | str
  | bitmask (s : Sym)
  | enum (s : Sym)
  | compound
  | function (s : Sym)

/-- The type without the declaration. -/
def Ty.sym : Ty → SymTy
  | .int => .integer
  | .float => .float
  | .bool => .bool
  | .str => .string
  | .bitmask _ => .bitmask
  | .enum _ => .enum
  | .compound => .compound
  | .function _ => .function

/-- The declaration in an `ExpressionType`. -/
def Ty.who : Ty → Option Sym
  | .bitmask s | .enum s | .function s => some s
  | _ => none

/-- `ast/expression.rs` lines 661-694: the type of a built-in name. -/
def builtinTy (name : String) : Option Ty :=
  let starts (p : String) : Bool := p.toList.isPrefixOf name.toList
  if name = "string" then some .str
  else if name = "bool" then some .bool
  else if starts "float" then some .float
  else if starts "bit" || starts "int" || starts "varsize" || starts "varuint" || starts "uint" || starts "varint" then
    some .int
  else none

/-- `ast/expression.rs` lines 625-655: `symbol_to_expression_type`; `follow` is
`type_reference_to_expression_type`. -/
def symbolTypeWith (held : Held) (follow : TypeRef Unit → Look Ty) (s : Sym) : Look Ty :=
  match s.kind with
  | .const | .field | .param | .item | .subtype => do
    borrow held s.cell
    follow s.type
  | .bitmask => pure (.bitmask s)
  | .enum => pure (.enum s)
  | .union | .struct | .choice => pure .compound
  | .func => pure (.function s)

/-- `ast/expression.rs` lines 657-699: `type_reference_to_expression_type`: the name is looked up from the current
location, whatever package the reference has. -/
def typeOf (t : Tables) (held : Held) (n : Nat) (loc : Loc) : Nat → TypeRef Unit → Look Ty
  | 0, _ => .endless
  | k + 1, r =>
    if r.builtin then
      match builtinTy r.name with
      | some ty => pure ty
      | none => .panic
    else do
      let s ← resolve t held n loc r.name true
      symbolTypeWith held (typeOf t held n loc k) s.symbol

/-- `ast/expression.rs` lines 625-655. -/
def symbolType (t : Tables) (held : Held) (n : Nat) (loc : Loc) (s : Sym) : Look Ty :=
  symbolTypeWith held (typeOf t held n loc n) s

/-- What `evaluate` leaves in an expression: `result_type` (`val`, and `who`: the declaration in it),
`fully_resolved` and `symbol`. -/
structure Out (F : Type) where
  val : CVal F
  who : Option Sym := none
  resolved : Bool
  symbol : Option SymRef := none

variable {fo : FloatOps}

/-- An expression that has a type, but no value yet. -/
def Ty.out (ty : Ty) (resolved : Bool) (symbol : SymRef) : Out fo.F :=
  { val := ty.sym.dummy fo, who := ty.who, resolved := resolved, symbol := some symbol }

/-- `ast/expression.rs` lines 235-281: `evaluate_compound_dot_expression`, given the symbol of the left operand. -/
def memberOf (t : Tables) (held : Held) (n : Nat) (left : SymRef) (name : String) : Look (Ty × SymRef) := do
  match left.symbol.kind with
  | .field | .param => do
    borrow held left.symbol.cell
    let base ← fundamental t held n left.symbol.type
    let compound ← getSymbol t held base.package base.name
    let inner : Loc := ⟨compound.package, some compound.name⟩
    let m ← resolve t held n inner name false
    let ty ← symbolType t held n inner m.symbol
    pure (ty, m)
  | _ => .panic

/-- `ast/expression.rs` lines 190-233: an item of an enumeration or bitmask. -/
def itemOf (held : Held) (who : Option Sym) (name : String) : Look Unit :=
  match who with
  | some d => do
    borrow held d.cell
    if name ∈ d.items then pure () else .panic
  | none => .panic

/-- `ast/expression.rs` lines 137-155: `evaluate_function_call_expression`. -/
def resultOf (t : Tables) (held : Held) (n : Nat) (loc : Loc) (who : Option Sym) : Look (Ty × SymRef) :=
  match who with
  | some f => do
    borrow held f.cell
    let ty ← typeOf t held n loc n f.type
    pure (ty, ⟨f, f.name, ""⟩)
  | none => .panic

/-- `ast/expression.rs` lines 73-622: `evaluate`. -/
def evaluate (t : Tables) (held : Held) (n : Nat) (loc : Loc) (md : Mode) : Expr fo.F → Look (Out fo.F)
  | .intLit v => pure { val := .int v, resolved := true }
  | .boolLit b => pure { val := .bool b, resolved := true }
  | .strLit s => pure { val := .str s, resolved := true }
  | .floatLit f => pure { val := .float f, resolved := true }
  | .paren e => do                                              -- lines 126-135
    let o ← evaluate t held n loc md e
    pure { val := o.val, who := o.who, resolved := o.resolved }
  | .call e => do                                               -- lines 137-155
    let o ← evaluate t held n loc md e
    match o.val with
    | .function => do
      let (ty, s) ← resultOf t held n loc o.who
      pure (ty.out o.resolved s)
    | _ => .panic
  | .elem e i => do                                             -- lines 157-168
    let o ← evaluate t held n loc md e
    let x ← evaluate t held n loc md i
    match o.val with
    | .compound | .int _ => pure { val := .other, resolved := o.resolved && x.resolved }
    | _ => .panic
  | .dot e name => do                                           -- lines 170-281
    let o ← evaluate t held n loc md e
    match o.val with
    | .enum => do
      itemOf held o.who name
      pure { val := .int 0, resolved := o.resolved }
    | .bitmask => do
      itemOf held o.who name
      pure { val := .int 0, resolved := false }
    | .compound => match o.symbol with
      | some left => do
        let (ty, s) ← memberOf t held n left name
        pure (ty.out o.resolved s)
      | none => .panic
    | _ => .panic
  | .isset e x => do                                            -- lines 289-301
    let o ← evaluate t held n loc md e
    let p ← evaluate t held n loc md x
    match o.val, p.val with
    | .bitmask, .int _ => pure { val := .bool false, resolved := o.resolved && p.resolved }
    | _, _ => .panic
  | .lengthof e => do                                           -- lines 283-287
    let _ ← evaluate t held n loc md e
    pure { val := .int 0, resolved := false }
  | .valueof e => do                                            -- lines 303-320
    let o ← evaluate t held n loc md e
    match o.val, o.who with
    | .bitmask, some d | .enum, some d => do
      borrow held d.cell
      pure { val := .int 0, resolved := false }
    | _, _ => .panic
  | .numbits e => do                                            -- lines 322-336
    let o ← evaluate t held n loc md e
    match o.val with
    | .int v => do
      let k ← Look.ofRes (Zs.numbits v)
      pure { val := .int (k : Int), resolved := o.resolved }
    | _ => .panic
  | .plus e => do                                               -- lines 338-360
    let o ← evaluate t held n loc md e
    match o.val with
    | .int _ | .float _ => pure { val := o.val, resolved := o.resolved }
    | _ => .panic
  | .neg e => do
    let o ← evaluate t held n loc md e
    let c ← Look.ofRes (evalNeg md o.val)
    pure { val := c, resolved := o.resolved }
  | .not e => do                                                -- lines 509-522
    let o ← evaluate t held n loc md e
    match o.val with
    | .bool b => pure { val := .bool !b, resolved := o.resolved }
    | _ => .panic
  | .compl e => do                                              -- lines 524-537
    let o ← evaluate t held n loc md e
    match o.val with
    | .int v => pure { val := .int (-v - 1), resolved := o.resolved }
    | _ => .panic
  | .cmp op a b => do
    let x ← evaluate t held n loc md a
    let y ← evaluate t held n loc md b
    let (c, known) ← Look.ofRes (evalCmp op x.val y.val x.resolved y.resolved)
    pure { val := c, resolved := x.resolved && y.resolved && known }
  | .arith op a b => do
    let x ← evaluate t held n loc md a
    let y ← evaluate t held n loc md b
    let c ← Look.ofRes (evalArith md op x.val y.val x.resolved y.resolved)
    pure { val := c, resolved := x.resolved && y.resolved }
  | .bit op a b => do
    let x ← evaluate t held n loc md a
    let y ← evaluate t held n loc md b
    let (c, known) ← Look.ofRes (evalBit md op x.val y.val)
    pure { val := c, resolved := x.resolved && y.resolved && known }
  | .logic op a b => do
    let x ← evaluate t held n loc md a
    let y ← evaluate t held n loc md b
    let c ← Look.ofRes (evalLogic op x.val y.val)
    pure { val := c, resolved := x.resolved && y.resolved }
  | .tern c a b => do                                           -- lines 586-603
    let z ← evaluate t held n loc md c
    let x ← evaluate t held n loc md a
    let y ← evaluate t held n loc md b
    match z.val with
    | .bool true => pure x
    | .bool false => pure y
    | _ => .panic
  | .index => pure { val := .int 0, resolved := false }         -- lines 605-608
  | .ident name => do                                           -- lines 610-622
    let s ← resolve t held n loc name false
    let ty ← symbolType t held n loc s.symbol
    pure (ty.out false s)

/-- Nothing is borrowed mutably. -/
def free : Held := fun _ => false

/-- Only the cell of the declaration whose expressions are evaluated is borrowed mutably. -/
def only (cell : Nat) : Held := fun c => c == cell

end Zs.Lookup
