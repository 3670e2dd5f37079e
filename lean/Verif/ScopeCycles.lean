import Verif.ScopeLemmas

/-!
# Lemmas about searches that do not end
-/

namespace Zs

variable {σ α : Type}

/-- One or more steps. -/
inductive ManySteps {β : Type} (R : β → β → Prop) : β → β → Prop
  | one {a b : β} (h : R a b) : ManySteps R a b
  | more {a b c : β} (h : ManySteps R a b) (h' : R b c) : ManySteps R a c

theorem ManySteps.first {β : Type} {R : β → β → Prop} {a b c : β} (h : R a b) (h' : ManySteps R b c) :
    ManySteps R a c := by
  induction h' with
  | one h' => exact .more (.one h) h'
  | more _ h' ih => exact .more ih h'

theorem ManySteps.trans {β : Type} {R : β → β → Prop} {a b c : β} (h : ManySteps R a b) (h' : ManySteps R b c) :
    ManySteps R a c := by
  induction h' with
  | one h' => exact .more h h'
  | more _ h' ih => exact .more ih h'

/-- The first of several steps. -/
theorem ManySteps.split {β : Type} {R : β → β → Prop} {a c : β} (h : ManySteps R a c) :
    ∃ b, R a b ∧ (b = c ∨ ManySteps R b c) := by
  induction h with
  | one h => exact ⟨_, h, .inl rfl⟩
  | more _ h' ih =>
    obtain ⟨b, hb, rfl | hs⟩ := ih
    · exact ⟨_, hb, .inr (.one h')⟩
    · exact ⟨_, hb, .inr (.more hs h')⟩

/-- Infinitely many steps from `a`. -/
def Endless {β : Type} (R : β → β → Prop) (a : β) : Prop :=
  ∃ chain : Nat → β, chain 0 = a ∧ ∀ n, R (chain n) (chain (n + 1))

theorem chain_steps {β : Type} {R : β → β → Prop} {chain : Nat → β} (h : ∀ n, R (chain n) (chain (n + 1)))
    (i k : Nat) : ManySteps R (chain i) (chain (i + k + 1)) := by
  induction k with
  | zero => exact .one (h i)
  | succ k ih => exact .more ih (h _)

theorem endless_cons {β : Type} {R : β → β → Prop} {a b : β} (h : R a b) (hb : Endless R b) :
    Endless R a := by
  obtain ⟨chain, h0, hs⟩ := hb
  refine ⟨fun n => match n with | 0 => a | n + 1 => chain n, rfl, fun n => ?_⟩
  cases n with
  | zero => simpa [h0] using h
  | succ n => exact hs n

theorem endless_steps {β : Type} {R : β → β → Prop} {a b : β} (h : ManySteps R a b) (hb : Endless R b) :
    Endless R a := by
  induction h with
  | one h => exact endless_cons h hb
  | more _ h' ih => exact ih (endless_cons h' hb)

/-- A predicate that can always be continued gives infinitely many steps. -/
theorem endless_of {β : Type} {R : β → β → Prop} (P : β → Prop) (h : ∀ a, P a → ∃ b, R a b ∧ P b) {a : β}
    (ha : P a) : Endless R a := by
  let f : Nat → { b // P b } := fun n => Nat.rec ⟨a, ha⟩
    (fun _ b => ⟨(h b.1 b.2).choose, (h b.1 b.2).choose_spec.2⟩) n
  exact ⟨fun n => (f n).1, rfl, fun n => (h (f n).1 (f n).2).choose_spec.1⟩

theorem endless_cycle {β : Type} {R : β → β → Prop} {a : β} (h : ManySteps R a a) : Endless R a :=
  endless_of (fun b => b = a ∨ ManySteps R b a) (by
    rintro b (rfl | hb)
    · obtain ⟨c, hc, hs⟩ := h.split
      exact ⟨c, hc, hs⟩
    · obtain ⟨c, hc, hs⟩ := hb.split
      exact ⟨c, hc, hs⟩) (.inl rfl)

/-- An injective sequence leaves every list. -/
theorem leaves_list {β : Type} (l : List β) : ∀ f : Nat → β, (∀ i j, f i = f j → i = j) → ∃ n, f n ∉ l := by
  induction l with
  | nil => exact fun f _ => ⟨0, by simp⟩
  | cons a l ih =>
    intro f hf
    by_cases h : ∃ m, f m = a
    · obtain ⟨m, hm⟩ := h
      obtain ⟨n, hn⟩ := ih (fun n => f (m + 1 + n)) fun i j hij => by have := hf _ _ hij; omega
      refine ⟨m + 1 + n, fun hmem => ?_⟩
      rcases List.mem_cons.mp hmem with h | h
      · have := hf _ _ (h.trans hm.symm)
        omega
      · exact hn h
    · obtain ⟨n, hn⟩ := ih f hf
      refine ⟨n, fun hmem => ?_⟩
      rcases List.mem_cons.mp hmem with h' | h'
      · exact h ⟨n, h'⟩
      · exact hn h'

/-- Infinitely many steps among finitely many things (told apart by `key`) run into a cycle. -/
theorem endless_iff {β κ : Type} {R : β → β → Prop} (key : β → κ) (keys : List κ)
    (hfin : ∀ a b, R a b → key a ∈ keys) (hkey : ∀ a a' b, key a = key a' → R a b → R a' b) (a : β) :
    Endless R a ↔ ∃ b, (b = a ∨ ManySteps R a b) ∧ ManySteps R b b := by
  constructor
  · rintro ⟨chain, h0, hs⟩
    by_cases hinj : ∀ i j, key (chain i) = key (chain j) → i = j
    · obtain ⟨n, hn⟩ := leaves_list keys (fun n => key (chain n)) hinj
      exact absurd (hfin _ _ (hs n)) hn
    · have : ∃ i j, i < j ∧ key (chain i) = key (chain j) := by
        by_cases h : ∃ i j, i < j ∧ key (chain i) = key (chain j)
        · exact h
        · refine absurd (fun i j hij => ?_) hinj
          rcases Nat.lt_trichotomy i j with hlt | heq | hgt
          · exact absurd ⟨i, j, hlt, hij⟩ h
          · exact heq
          · exact absurd ⟨j, i, hgt, hij.symm⟩ h
      obtain ⟨i, j, hij, hk⟩ := this
      have hback : R (chain j) (chain (i + 1)) := hkey _ _ _ hk (hs i)
      obtain ⟨k, rfl⟩ : ∃ k, j = i + k + 1 := ⟨j - i - 1, by omega⟩
      have hcycle : ManySteps R (chain (i + 1)) (chain (i + 1)) := by
        cases k with
        | zero => exact .one hback
        | succ k =>
          have := chain_steps hs (i + 1) k
          have hidx : i + 1 + k + 1 = i + (k + 1) + 1 := by omega
          rw [hidx] at this
          exact .more this hback
      refine ⟨chain (i + 1), .inr ?_, hcycle⟩
      have := chain_steps hs 0 i
      rw [h0, Nat.zero_add] at this
      exact this
  · rintro ⟨b, rfl | hab, hb⟩
    · exact endless_cycle hb
    · exact endless_steps hab (endless_cycle hb)

/-! ## Imports -/

/-- The package `a` imports from the package `b`. -/
def ModelScope.Imports (m : ModelScope σ) (a b : String) : Prop :=
  ∃ p, m.packages a = some p ∧ ∃ i ∈ p.imports, i.package = b

theorem searchLayer_next_iff (m : ModelScope σ) (name : String) (ig : Bool) (is acc next : List Import) :
    m.searchLayer name ig is acc = .next next → m.NotIn name is ∧ next = acc ++ m.importsOf is := by
  induction is generalizing acc with
  | nil =>
    intro h
    cases h
    exact ⟨fun i hi => (by cases hi), by simp [importsOf_nil]⟩
  | cons i rest ih =>
    intro h
    simp only [ModelScope.searchLayer] at h
    split at h
    · cases h
    · rename_i p hp
      rw [resolve_import] at h
      split at h
      · cases h
      · rename_i hn
        obtain ⟨h1, rfl⟩ := ih _ h
        refine ⟨fun j hj => ?_, ?_⟩
        · rcases List.mem_cons.mp hj with rfl | hj
          · exact ⟨p, hp, hn⟩
          · exact h1 j hj
        · simp [ModelScope.importsOf, hp]

theorem searchImports_none_iff (m : ModelScope σ) (name : String) (ig : Bool) (fuel : Nat) :
    ∀ is, m.searchImports name ig fuel is = none ↔
      ∀ n, n < fuel → m.layer is n ≠ [] ∧ m.NotIn name (m.layer is n) := by
  induction fuel with
  | zero => exact fun is => ⟨fun _ n hn => absurd hn (Nat.not_lt_zero n), fun _ => rfl⟩
  | succ fuel ih =>
    intro is
    constructor
    · intro h
      cases is with
      | nil => cases h
      | cons i rest =>
        simp only [ModelScope.searchImports] at h
        split at h
        · cases h
        · cases h
        · rename_i next hnext
          obtain ⟨hnot, rfl⟩ := searchLayer_next_iff m name ig _ _ _ hnext
          have := (ih _).mp h
          intro n hn
          cases n with
          | zero => exact ⟨by simp [ModelScope.layer], hnot⟩
          | succ n =>
            have := this n (by omega)
            rw [List.nil_append, layer_shift] at this
            exact this
    · intro h
      have h0 := h 0 (by omega)
      rw [searchImports_step m name ig fuel is h0.1 h0.2, ih]
      intro n hn
      rw [layer_shift]
      exact h (n + 1) (by omega)

/-- The packages of the layers are those that can be reached. -/
theorem mem_layer (m : ModelScope σ) (a : String) (p : PackageScope σ) (hp : m.packages a = some p) (n : Nat) :
    ∀ i ∈ m.layer p.imports n, ManySteps m.Imports a i.package := by
  induction n with
  | zero => exact fun i hi => .one ⟨p, hp, i, hi, rfl⟩
  | succ n ih =>
    intro i hi
    simp only [ModelScope.layer, ModelScope.importsOf, List.mem_flatMap] at hi
    obtain ⟨j, hj, hi⟩ := hi
    split at hi
    · rename_i q hq
      exact .more (ih j hj) ⟨q, hq, i, hi, rfl⟩
    · cases hi

theorem steps_layer (m : ModelScope σ) (a b : String) (h : ManySteps m.Imports a b) (p : PackageScope σ)
    (hp : m.packages a = some p) : ∃ n, ∃ i ∈ m.layer p.imports n, i.package = b := by
  induction h with
  | one h =>
    obtain ⟨p', hp', i, hi, hb⟩ := h
    rw [hp] at hp'
    cases hp'
    exact ⟨0, i, hi, hb⟩
  | more _ h' ih =>
    obtain ⟨n, i, hi, hb⟩ := ih
    obtain ⟨q, hq, j, hj, hc⟩ := h'
    refine ⟨n + 1, j, ?_, hc⟩
    simp only [ModelScope.layer, ModelScope.importsOf, List.mem_flatMap]
    refine ⟨i, hi, ?_⟩
    rw [hb, hq]
    exact hj

theorem layer_append (m : ModelScope σ) (a b : List Import) (n : Nat) :
    m.layer (a ++ b) n = m.layer a n ++ m.layer b n := by
  induction n with
  | zero => rfl
  | succ n ih => simp [ModelScope.layer, ih, ModelScope.importsOf]

theorem layer_nonempty_of_succ (m : ModelScope σ) (is : List Import) (n k : Nat) (h : m.layer is (n + k) ≠ []) :
    m.layer is n ≠ [] := by
  induction k with
  | zero => exact h
  | succ k ih =>
    refine ih fun h0 => h ?_
    show m.importsOf (m.layer is (n + k)) = []
    rw [h0, importsOf_nil]

/-- Of a list whose layers never end, one import has layers that never end. -/
theorem deep_import (m : ModelScope σ) : ∀ is, (∀ n, m.layer is n ≠ []) → ∃ i ∈ is, ∀ n, m.layer [i] n ≠ []
  | [], h => absurd rfl (h 0)
  | i :: is, h => by
    by_cases hi : ∀ n, m.layer [i] n ≠ []
    · exact ⟨i, List.mem_cons_self, hi⟩
    · have : ∃ k, m.layer [i] k = [] := by
        by_cases hk : ∃ k, m.layer [i] k = []
        · exact hk
        · exact absurd (fun n hn => hk ⟨n, hn⟩) hi
      obtain ⟨k, hk⟩ := this
      have hrest : ∀ n, m.layer is n ≠ [] := by
        intro n
        refine layer_nonempty_of_succ m is n k fun h0 => ?_
        have hnk : m.layer [i] (k + n) = [] := by
          by_cases hc : m.layer [i] (k + n) = []
          · exact hc
          · exact absurd hk (layer_nonempty_of_succ m [i] k n hc)
        have := h (n + k)
        rw [← List.singleton_append, layer_append, h0, List.append_nil, Nat.add_comm, hnk] at this
        exact this rfl
      obtain ⟨j, hj, hd⟩ := deep_import m is hrest
      exact ⟨j, List.mem_cons_of_mem _ hj, hd⟩

theorem endless_imports_iff (m : ModelScope σ) (a : String) (p : PackageScope σ) (hp : m.packages a = some p) :
    (∀ n, m.layer p.imports n ≠ []) ↔ Endless m.Imports a := by
  constructor
  · intro h
    obtain ⟨i, hi, hd⟩ := deep_import m _ h
    refine endless_cons ⟨p, hp, i, hi, rfl⟩ (endless_of (fun b => ∀ j : Import, j.package = b →
      ∀ n, m.layer [j] n ≠ []) ?_ (a := i.package) ?_)
    · intro b hb
      have hb' := hb { package := b } rfl
      have hone : ∀ n, m.layer [({ package := b } : Import)] (n + 1) =
          m.layer (m.importsOf [({ package := b } : Import)]) n := fun n => (layer_shift m _ n).symm
      cases hq : m.packages b with
      | none =>
        have := hb' 1
        rw [hone 0] at this
        simp [ModelScope.importsOf, hq, ModelScope.layer] at this
      | some q =>
        have himp : m.importsOf [({ package := b } : Import)] = q.imports := by
          simp [ModelScope.importsOf, hq]
        obtain ⟨j, hj, hd⟩ := deep_import m q.imports fun n => by
          rw [← himp, ← hone]
          exact hb' (n + 1)
        refine ⟨j.package, ⟨q, hq, j, hj, rfl⟩, fun j' hj' n => ?_⟩
        cases n with
        | zero => simp [ModelScope.layer]
        | succ n =>
          have := hd (n + 1)
          rw [← layer_shift] at this ⊢
          simpa [ModelScope.importsOf, hj'] using this
    · intro j hj n
      cases n with
      | zero => simp [ModelScope.layer]
      | succ n =>
        have := hd (n + 1)
        rw [← layer_shift] at this ⊢
        simpa [ModelScope.importsOf, hj] using this
  · rintro ⟨chain, h0, hs⟩ n
    have : ∃ i ∈ m.layer p.imports n, i.package = chain (n + 1) := by
      induction n with
      | zero =>
        obtain ⟨q, hq, i, hi, hb⟩ := hs 0
        rw [h0, hp] at hq
        cases hq
        exact ⟨i, hi, hb⟩
      | succ n ih =>
        obtain ⟨i, hi, hb⟩ := ih
        obtain ⟨q, hq, j, hj, hc⟩ := hs (n + 1)
        refine ⟨j, ?_, hc⟩
        simp only [ModelScope.layer, ModelScope.importsOf, List.mem_flatMap]
        refine ⟨i, hi, ?_⟩
        rw [hb, hq]
        exact hj
    obtain ⟨i, hi, _⟩ := this
    exact List.ne_nil_of_mem hi

/-! ## Subtypes -/

/-- The type `a` is a subtype declared as `b`. -/
def DeclaredAs (decls : String → String → Option (Decl α)) (a b : TypeRef α) : Prop :=
  a.builtin = false ∧ decls a.package a.name = some (.subtype b)

theorem fundamentalType_none_iff (decls : String → String → Option (Decl α)) (fuel : Nat) :
    ∀ (t : TypeRef α), fundamentalType decls fuel t = none ↔
      ∃ chain : Nat → TypeRef α, chain 0 = t ∧ ∀ n, n < fuel → DeclaredAs decls (chain n) (chain (n + 1)) := by
  induction fuel with
  | zero => exact fun t => ⟨fun _ => ⟨fun _ => t, rfl, fun n hn => absurd hn (Nat.not_lt_zero n)⟩, fun _ => rfl⟩
  | succ fuel ih =>
    intro t
    constructor
    · intro h
      simp only [fundamentalType] at h
      split at h
      · cases h
      · rename_i hb
        split at h
        · cases h
        · cases h
        · cases h
        · rename_i s hs
          obtain ⟨chain, h0, hc⟩ := (ih _).mp h
          refine ⟨fun n => match n with | 0 => t | 1 => s | n + 2 => chain (n + 1), rfl, fun n hn => ?_⟩
          match n with
          | 0 => exact ⟨by simpa using hb, hs⟩
          | 1 =>
            have := hc 0 (by omega)
            rw [h0] at this
            exact this
          | n + 2 => exact hc (n + 1) (by omega)
    · rintro ⟨chain, h0, hc⟩
      have hstep := hc 0 (by omega)
      rw [h0] at hstep
      simp only [fundamentalType, hstep.1, hstep.2, Bool.false_eq_true, if_false]
      refine (ih _).mpr ⟨fun n => match n with | 0 => _ | n + 1 => chain (n + 2), rfl, fun n hn => ?_⟩
      cases n with
      | zero => exact hc 1 (by omega)
      | succ n => exact hc (n + 2) (by omega)

theorem endless_subtypes_iff (decls : String → String → Option (Decl α)) (t : TypeRef α) :
    (∀ fuel, fundamentalType decls fuel t = none) ↔ Endless (DeclaredAs decls) t := by
  constructor
  · refine fun h => endless_of (fun t => ∀ fuel, fundamentalType decls fuel t = none) (fun a ha => ?_) h
    obtain ⟨chain, h0, hc⟩ := (fundamentalType_none_iff decls 1 a).mp (ha 1)
    have hfirst := hc 0 (by omega)
    rw [h0] at hfirst
    refine ⟨chain 1, hfirst, fun fuel => ?_⟩
    obtain ⟨chain', h0', hc'⟩ := (fundamentalType_none_iff decls (fuel + 1) a).mp (ha (fuel + 1))
    have hfirst' := hc' 0 (by omega)
    rw [h0'] at hfirst'
    have hsame : chain' 1 = chain 1 := by
      have := hfirst'.2.symm.trans hfirst.2
      simpa using this
    refine (fundamentalType_none_iff decls fuel _).mpr ⟨fun n => chain' (n + 1), hsame, fun n hn => ?_⟩
    exact hc' (n + 1) (by omega)
  · rintro ⟨chain, h0, hc⟩ fuel
    exact (fundamentalType_none_iff decls fuel t).mpr ⟨chain, h0, fun n _ => hc n⟩

/-- If the loop ends with a type, that is the end of the chain. -/
theorem fundamentalType_ok (decls : String → String → Option (Decl α)) (fuel : Nat) :
    ∀ (t : TypeRef α) r, fundamentalType decls fuel t = some (.ok r) → ∃ b, BaseOf decls t b := by
  induction fuel with
  | zero =>
    intro t r h
    cases h
  | succ fuel ih =>
    intro t r h
    simp only [fundamentalType] at h
    split at h
    · rename_i hb
      exact ⟨t, .builtin t hb⟩
    · rename_i hb
      have hb : t.builtin = false := by simpa using hb
      split at h
      · cases h
      · cases h
      · rename_i hd
        exact ⟨t, .defined t hb hd⟩
      · rename_i s hs
        obtain ⟨b, hbase⟩ := ih _ _ h
        obtain ⟨b', hb', _⟩ := baseOf_args decls _ b hbase s.args
        exact ⟨b', .subtype t s b' hb hs hb'⟩

end Zs
