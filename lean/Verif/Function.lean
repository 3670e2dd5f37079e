import Verif.Constant

/-!
# The functions that the generator emits for a package

File names are relative to `crates/zserio-rs-build/src/internal/`.

Simplified, for the whole file: one package without imports; functions are called in the type that declares them, and of
objects that are structures; the functions of unions and choices do not use their fields.
-/

namespace Zs

open Ast Emit Spec

variable {fo : FloatOps}

/-- `generator/zstruct.rs` lines 105-114, `generator/zunion.rs` lines 137-146, `generator/zchoice.rs` lines 114-123: the
types that have functions. -/
def Ast.Symbol.withFunctions {F : Type} : Ast.Symbol F → Option (Ast.Struct F)
  | .struct d => some d
  | .union d => some d.asStruct
  | .choice d => some d.asStruct
  | _ => none

/-- `generator/function.rs` lines 7-50: `v` is what the method `m` of an object of the type `n` returns, if the Rust compiler
accepts it; `env`: the values of the parameters and fields.  In debug builds a method that overflows returns nothing. -/
def Spec.Called (md build : Mode) (float : Val → fo.F) (T : Ast.Map (Ast.Symbol fo.F)) (K : Constants fo.F) (n m : String)
    (env : Env) (v : Datum fo.F Object) : Prop :=
  ∃ y d f e z R, T n = some y ∧ y.withFunctions = some d ∧ d.functions.find? (fun f => f.name = m) = some f ∧
    f.result.expr = some e ∧ f.returnType.zty K.names.types = some z ∧ valueTy z = some R ∧
    Typed (rscope (d.scope K.names)) (functionCode md (d.scope K.names) z e) R ∧
    ∀ o, Evals (d.look float K env) (rscope (d.scope K.names)) build (functionCode md (d.scope K.names) z e) R o ↔ o = .ok v

/-- `generator/expression.rs` (calls): no method calls itself, and no type contains itself.  Simplified: Rust would
accept both, the one runs forever, and the other is possible with optional fields and arrays (C67). -/
def Spec.CallsEnd (md : Mode) (T : Ast.Map (Ast.Symbol fo.F)) (K : Constants fo.F) : Prop :=
  (∃ depth : String → Nat, ∀ n y d, T n = some y → y.withFunctions = some d → ∀ x ∈ d.members K, ∀ t sh,
    x.symb = some ⟨.compound t, sh⟩ → depth t < depth n) ∧
  ∃ rank : String → String → Nat, ∀ n y d f e z, T n = some y → y.withFunctions = some d → f ∈ d.functions →
    f.result.expr = some e → f.returnType.zty K.names.types = some z →
    ∀ m ∈ (functionCode md (d.scope K.names) z e).names, m ∈ d.functions.map Ast.Func.name → rank n m < rank n f.name

/-- `generator/function.rs` lines 7-50 for all functions in the symbol table: `K.calls` is what the methods return. -/
def Spec.CallsSeen (md build : Mode) (float : Val → fo.F) (T : Ast.Map (Ast.Symbol fo.F)) (K : Constants fo.F) : Prop :=
  ∀ n m env v, K.calls n m env = some v ↔ Called md build float T K n m env v

end Zs
