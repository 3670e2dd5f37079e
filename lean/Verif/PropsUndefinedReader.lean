import Verif.PropsSource
import Verif.PropsUndefined

/-!
# C49, C96: readers whose expressions have no value
-/

namespace Zs

open Spec Emit

/-- `struct Sample { uint8 a; uint8 b; uint8 c[a / b]; }` -/
def quotStruct : WrittenType tenths.F := .struct [] [
  { ty := .plain (.scalar (.uint 8)) },
  { ty := .plain (.scalar (.uint 8)) },
  { ty := .plain (.scalar (.uint 8)), array := some (false, some (.arith .div (.ident "a") (.ident "b"))) }]

/-- `(self.a / self.b) as usize`. -/
def quotLength (env : Env) : Res Nat :=
  if Demo.num env 1 % 256 = 0 then .panic else .ok ((Demo.num env 0 % 256) / (Demo.num env 1 % 256))

/-- The fields as the generator sees them. -/
def quotFields : List Field := [
  { ty := .builtin .uint8 0 none },
  { ty := .builtin .uint8 0 none },
  { ty := .builtin .uint8 0 none, array := some ⟨false, some quotLength⟩ }]

/-- An object before it is read, and sixteen bits that are 0. -/
def quotCore : Core :=
  ⟨[], [.nat 0, .nat 0, .list []], 0, Node.new, ⟨[]⟩, ⟨0, List.replicate 16 false⟩, 0, 0, 0⟩

theorem quot_result (x y : Nat) (h : y ≠ 0) : ArithOp.result .div (x : Int) (y : Int) = some ((x / y : Nat) : Int) := by
  simp [ArithOp.result, h]

theorem quot_inType (build : Mode) (q : Nat) (h : q < 256) :
    inType build ⟨false, 8⟩ (q : Int) = .ok (.int q : Datum tenths.F Unit) := by
  unfold inType
  rw [if_pos (by simp only [IntTy.Contains, IntTy.min, IntTy.max]; simp; omega)]

theorem quot_wrap (q : Nat) (h : q < 256) : (q : Int) = IntTy.wrap ⟨false, 64⟩ q := by
  simp only [IntTy.wrap, IntTy.min]
  simp
  omega

theorem quotLength_runs (build : Mode) : Runs sourceLook (rscope sourceScope) build
    (lengthCode .debug sourceScope (.arith .div (.ident "a") (.ident "b"))) (· = .usize)
    (fun n : Nat => .int n) quotLength := by
  intro env r h
  have hcode : lengthCode .debug sourceScope (.arith .div (.ident "a") (.ident "b") : Expr tenths.F) =
      .cast (.paren (.bin (.arith .div) (.atom (.name "a")) (.atom (.name "b")))) "usize" := rfl
  have hty : Infers (rscope sourceScope) (.paren (.bin (.arith .div) (.atom (.name "a")) (.atom (.name "b"))) :
      RExpr tenths.F) .usize (.int ⟨false, 8⟩) := by
    refine ⟨⟨rfl, rfl, trivial⟩, ?_⟩
    rintro ⟨h, _⟩
    cases h
  have h0 := Nat.mod_lt (Demo.num env 0) (show 256 > 0 by decide)
  have hev : Evals (sourceLook env) (rscope sourceScope) build
      (lengthCode .debug sourceScope (.arith .div (.ident "a") (.ident "b"))) .usize
      ((quotLength env).bind fun n => .ok (.int n)) := by
    rw [hcode]
    unfold quotLength
    by_cases hz : Demo.num env 1 % 256 = 0
    · rw [if_pos hz]
      refine ⟨rfl, _, hty, .inr (.inl ⟨trivial, trivial⟩), .panic, ?_, rfl⟩
      refine ⟨_, ⟨_, rfl, rfl⟩, _, ⟨_, rfl, rfl⟩, _, rfl, ?_⟩
      rw [if_pos (by simp [hz])]
    · rw [if_neg hz]
      have hle := Nat.div_le_self (Demo.num env 0 % 256) (Demo.num env 1 % 256)
      refine ⟨rfl, _, hty, .inr (.inl ⟨trivial, trivial⟩),
        .ok (.int ((Demo.num env 0 % 256) / (Demo.num env 1 % 256) : Nat)), ?_, ?_⟩
      · refine ⟨_, ⟨_, rfl, rfl⟩, _, ⟨_, rfl, rfl⟩, _, rfl, ?_⟩
        rw [if_neg (by simp; omega)]
        exact ⟨_, quot_result _ _ hz, (quot_inType build _ (by omega)).symm⟩
      · exact congrArg (fun z => Res.ok (Datum.int z)) (quot_wrap _ (by omega))
  have heq := (h _).1 ⟨_, rfl, hev⟩
  cases hp : quotLength env <;> rw [hp] at heq <;> cases r <;> simp [Res.bind] at heq ⊢
  · exact_mod_cast heq
  · exact heq

theorem quotStruct_bodies (cfg : Cfg) (build : Mode) :
    quotStruct.Bodies cfg .debug sourceScope build sourceLook (structBodies quotFields) :=
  ⟨quotFields, ⟨⟨⟨rfl, trivial, rfl, rfl, trivial, trivial, rfl, fun h => absurd rfl h⟩, .scalar .uint8⟩,
    ⟨⟨rfl, trivial, rfl, rfl, trivial, trivial, rfl, fun h => absurd rfl h⟩, .scalar .uint8⟩,
    ⟨⟨rfl, trivial, rfl, rfl, ⟨rfl, _, rfl, quotLength_runs build⟩, trivial, rfl, fun h => absurd rfl h⟩, .scalar .uint8⟩,
    trivial⟩, rfl⟩

/-- **C49** is violated by expressions without a value, which corrupt data may cause: of a structure of numbers and an array
that Rust accepts, as `uint8 a; uint8 b; uint8 c[a / b];`, the emitted reader panics for some bytes, in debug and in release
builds, as when both are 0. -/
theorem C49_expressions_violated (cfg : Cfg) (build : Mode) : ∃ (t : WrittenType tenths.F) (b : Bodies) (k : Core),
    (∀ f ∈ t.fields, f.Accepts .debug sourceScope) ∧ t.Bodies cfg .debug sourceScope build sourceLook b ∧
    (t.meaning sourceLook).Supported cfg ∧ k.node = Node.new ∧ k.r.rest = List.replicate 16 false ∧
    Executes cfg (b.read false) k Core.r .panic := by
  refine ⟨quotStruct, _, quotCore, fun f hf => ?_, quotStruct_bodies cfg build, ?_, rfl, rfl, ?_⟩
  · simp only [quotStruct, WrittenType.fields, List.mem_cons, List.not_mem_nil, or_false] at hf
    rcases hf with rfl | rfl | rfl <;> constructor <;>
    simp [Written.Mentions, Expr.Separable, Expr.Unit, Expr.level, Expr.isCmp,
      Expr.isIsset, Expr.isValueof, Expr.endsWithCast, or_imp, forall_and]
    exact ⟨rfl, .int ⟨false, 8⟩, ⟨rfl, rfl, trivial⟩, .inr (.inl ⟨trivial, trivial⟩)⟩
  · simp [quotStruct, WrittenType.meaning, meaning, Modifiers.info, Written.type, Ty.Supported, Fields.Supported,
      Scalar.WidthOk]
  · refine ⟨structCode decodeCode false 0 quotFields ++ Code.one .okUnit, ?_, ?_⟩
    · rw [Code.lines_append, lines_structCode lines_decodeCode]; rfl
    · rfl

end Zs
