import Verif.ScopeCycles
import Verif.PropsCompiler

/-!
# Searches that do not end (C37, C38)

The statements are in English in `properties.jsonl`; each theorem below repeats what it says.
-/

namespace Zs

variable {σ α : Type}

/-! ## C37: cyclic imports -/

/-- C37: the exact condition for the search of a name to end: it runs forever exactly if the package
exists and does not know the name, every package that can be reached through imports exists and does not
define the name, and a cycle of imports can be reached.  (`names`: there are finitely many packages.) -/
theorem C37_runs_forever_iff (m : ModelScope σ) (names : List String)
    (hfin : ∀ q p, m.packages q = some p → q ∈ names) (package name : String) (current : Option String)
    (ig : Bool) :
    (∀ fuel, m.resolve fuel package current name ig = none) ↔
      ∃ p, m.packages package = some p ∧ p.resolve name ig current = none ∧
        (∀ q, ManySteps m.Imports package q → ∃ p', m.packages q = some p' ∧ p'.file name = none) ∧
        ∃ q, (q = package ∨ ManySteps m.Imports package q) ∧ ManySteps m.Imports q q := by
  have hcycle := endless_iff (R := m.Imports) id names (fun a b ⟨p, hp, _⟩ => hfin a p hp)
    (fun a a' b h hr => by rw [← show a = a' from h]; exact hr) package
  rw [← hcycle]
  unfold ModelScope.resolve
  cases hp : m.packages package with
  | none =>
    refine ⟨fun h => absurd (h 0) (by simp), ?_⟩
    rintro ⟨p, hp', _⟩
    cases hp'
  | some p =>
    simp only [Option.some.injEq, exists_eq_left']
    cases hr : p.resolve name ig current with
    | some s => simp
    | none =>
      simp only [searchImports_none_iff, true_and]
      rw [← endless_imports_iff m package p hp]
      constructor
      · intro h
        refine ⟨fun q hq => ?_, fun n => (h (n + 1) n (by omega)).1⟩
        obtain ⟨n, i, hi, rfl⟩ := steps_layer m package q hq p hp
        exact (h (n + 1) n (by omega)).2 i hi
      · rintro ⟨hall, hne⟩ fuel n _
        exact ⟨hne n, fun i hi => hall _ (mem_layer m package p hp n i hi)⟩

-- Two packages that import each other, neither of which defines the name.
example : ManySteps (({ packages := fun q =>
        if q = "a" then some ⟨fun _ => none, fun _ => none, [{ package := "b" }]⟩
        else if q = "b" then some ⟨fun _ => none, fun _ => none, [{ package := "a" }]⟩
        else none } : ModelScope Nat).Imports) "a" "a" :=
  .more (.one ⟨_, rfl, _, List.mem_cons_self, rfl⟩) ⟨_, rfl, _, List.mem_cons_self, rfl⟩

/-! ## C38: cyclic subtypes -/

/-- C38: following the subtype declarations ends with a type exactly if they lead to a builtin type or a
type that is declared as something other than a subtype. -/
theorem C38_resolves_iff (decls : String → String → Option (Decl α)) (t : TypeRef α) :
    (∃ fuel r, fundamentalType decls fuel t = some (.ok r)) ↔ ∃ base, BaseOf decls t base := by
  constructor
  · rintro ⟨fuel, r, h⟩
    exact fundamentalType_ok decls fuel t r h
  · rintro ⟨b, hb⟩
    obtain ⟨n, h⟩ := fundamentalType_base decls t b hb
    exact ⟨n + 1, _, h t.args (n + 1) (by omega)⟩

/-- C38: it runs forever exactly if a type is reached that is, through other subtypes, declared as itself.
(`names`: there are finitely many declarations.) -/
theorem C38_runs_forever_iff (decls : String → String → Option (Decl α)) (names : List (String × String))
    (hfin : ∀ p n d, decls p n = some d → (p, n) ∈ names) (t : TypeRef α) :
    (∀ fuel, fundamentalType decls fuel t = none) ↔
      ∃ s, (s = t ∨ ManySteps (DeclaredAs decls) t s) ∧ ManySteps (DeclaredAs decls) s s := by
  rw [endless_subtypes_iff]
  refine endless_iff (fun t => (t.builtin, t.package, t.name)) (names.map fun n => (false, n)) ?_ ?_ t
  · rintro a b ⟨hb, hd⟩
    rw [hb]
    exact List.mem_map_of_mem (hfin _ _ _ hd)
  · rintro a a' b h ⟨hb, hd⟩
    simp only [Prod.mk.injEq] at h
    exact ⟨h.1 ▸ hb, by rw [← h.2.1, ← h.2.2]; exact hd⟩

-- `subtype B A; subtype A B;`
example : let decls : String → String → Option (Decl Nat) := fun _ n =>
      if n = "A" then some (.subtype { builtin := false, package := "p", name := "B" })
      else if n = "B" then some (.subtype { builtin := false, package := "p", name := "A" })
      else none
    ManySteps (DeclaredAs decls) { builtin := false, package := "p", name := "A" }
      { builtin := false, package := "p", name := "A" } :=
  .more (.one ⟨rfl, rfl⟩) ⟨rfl, rfl⟩

end Zs
