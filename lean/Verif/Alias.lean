import Verif.PackageCode
import Verif.ResolveSpec

/-!
# Subtypes in the symbol table of a package

File names are relative to `crates/zserio-rs-build/src/internal/`.
-/

namespace Zs

open Ast Spec

variable {F : Type}

/-- `compiler/fundamental_type.rs` lines 14-90: `get_fundamental_type` with `get_symbol_type`, where `T` are the symbols
of the package (`compiler/symbol_scope.rs` lines 98-103, 197-206).  `none`: still running after `fuel` rounds.  Panics if
there is no such symbol, or if it is none of those in lines 35-43.  Simplified: one package, whose name is left out of
the references. -/
def underlying (T : Map (Symbol F)) : Nat → Ast.TypeRef F → Option (Res (Ast.TypeRef F))
  | 0, _ => none
  | fuel + 1, .mk b p name bits ts as l =>
    if b then some (.ok (.mk b p name bits ts as l))
    else match T name with
      | some (.subtype a) => underlying T fuel (a.type.withArgs as)
      | some (.struct _) | some (.choice _) | some (.union _) | some (.enum _) | some (.bitmask _) | some (.const _) =>
        some (.ok (.mk false p name 0 [] as none))
      | _ => some .panic

/-- The result of `get_fundamental_type`. -/
def Spec.Underlies (T : Map (Symbol F)) (t t' : Ast.TypeRef F) : Prop := ∃ fuel, underlying T fuel t = some (.ok t')

/-- The generator asks for the fundamental type whenever it looks at the type of a field or parameter:
`generator/packed_contexts.rs` lines 51 and 86, `generator/array.rs` line 105, `ast/expression.rs` lines 244-262 and
622-699, `generator/expression.rs` lines 183-187, `generator/zconst.rs` lines 27-35.  The name of a subtype is a Rust type (`generator/subtype.rs` lines
9-30) with the values of the type that it stands for.

Simplified: an argument with a known type is always cast to the type of its parameter if that is a subtype, because
`generator/casts.rs` lines 5-30 compare the names of Rust types; here it is cast if the Rust types differ, which has the
same value.  The names of enumerations and bitmasks that are labels of a choice (`ast/zchoice.rs` line 118) are those of
the types themselves. -/
inductive Spec.SymbolUnder (T : Map (Symbol F)) : Symbol F → Symbol F → Prop
  | struct {d d' : Struct F} : StructTo (Underlies T) d d' → SymbolUnder T (.struct d) (.struct d')
  | choice {d d' : Choice F} : ChoiceTo (Underlies T) d d' → SymbolUnder T (.choice d) (.choice d')
  | union {d d' : Ast.Union F} : UnionTo (Underlies T) d d' → SymbolUnder T (.union d) (.union d')
  | enum {d : Enum F} : SymbolUnder T (.enum d) (.enum d)
  | bitmask {d : Bitmask F} : SymbolUnder T (.bitmask d) (.bitmask d)
  | const {d d' : Const F} : ConstTo (Underlies T) d d' → SymbolUnder T (.const d) (.const d')
  | subtype {d : Alias F} : SymbolUnder T (.subtype d) (.subtype d)

/-- `T'` is what the generator sees of the symbols `T`. -/
def Spec.TableUnder (T T' : Map (Symbol F)) : Prop := ∀ n, Opt2 (SymbolUnder T) (T n) (T' n)

end Zs
