import Verif.Scope

/-!
# Name resolution: specification predicates and lemmas (C37, C38)
-/

namespace Zs

variable {σ : Type}

/-- The packages named by a list of imports exist and do not define the name. -/
def ModelScope.NotIn (m : ModelScope σ) (name : String) (is : List Import) : Prop :=
  ∀ i ∈ is, ∃ p, m.packages i.package = some p ∧ p.file name = none

/-- The imports of the packages named by a list of imports, in order. -/
def ModelScope.importsOf (m : ModelScope σ) (is : List Import) : List Import :=
  is.flatMap (fun i => match m.packages i.package with
    | some p => p.imports
    | none => [])

/-- Layer 0 are the given imports, layer n + 1 the imports of the packages of layer n. -/
def ModelScope.layer (m : ModelScope σ) (is : List Import) : Nat → List Import
  | 0 => is
  | n + 1 => m.importsOf (m.layer is n)

theorem resolve_import (p : PackageScope σ) (name : String) (ig : Bool) :
    p.resolve name ig none = p.file name := by
  unfold PackageScope.resolve
  cases ig <;> simp

theorem searchLayer_next (m : ModelScope σ) (name : String) (ig : Bool) (is : List Import) :
    ∀ acc, m.NotIn name is → m.searchLayer name ig is acc = .next (acc ++ m.importsOf is) := by
  induction is with
  | nil => intro acc _; simp [ModelScope.searchLayer, ModelScope.importsOf]
  | cons i rest ih =>
    intro acc h
    obtain ⟨p, hp, hf⟩ := h i (by simp)
    simp only [ModelScope.searchLayer, hp, resolve_import, hf]
    rw [ih _ (fun j hj => h j (by simp [hj]))]
    simp [ModelScope.importsOf, hp, List.append_assoc]

theorem searchLayer_found (m : ModelScope σ) (name : String) (ig : Bool) (pre post : List Import)
    (i : Import) (p : PackageScope σ) (s : σ) (hp : m.packages i.package = some p)
    (hs : p.file name = some s) :
    ∀ acc, m.NotIn name pre →
      m.searchLayer name ig (pre ++ i :: post) acc = .found s i.package := by
  induction pre with
  | nil => intro acc _; simp [ModelScope.searchLayer, hp, resolve_import, hs]
  | cons j rest ih =>
    intro acc h
    obtain ⟨q, hq, hf⟩ := h j (by simp)
    simp only [List.cons_append, ModelScope.searchLayer, hq, resolve_import, hf]
    exact ih _ (fun j hj => h j (by simp [hj]))

theorem layer_shift (m : ModelScope σ) (is : List Import) (n : Nat) :
    m.layer (m.importsOf is) n = m.layer is (n + 1) := by
  induction n with
  | zero => rfl
  | succ n ih => simp only [ModelScope.layer] at ih ⊢; rw [ih]

theorem importsOf_nil (m : ModelScope σ) : m.importsOf [] = [] := rfl

theorem layer_nil (m : ModelScope σ) (n : Nat) : m.layer [] n = [] := by
  induction n with
  | zero => rfl
  | succ n ih => simp [ModelScope.layer, ih, importsOf_nil]

/-- One round without success. -/
theorem searchImports_step (m : ModelScope σ) (name : String) (ig : Bool) (fuel : Nat)
    (is : List Import) (hne : is ≠ []) (h : m.NotIn name is) :
    m.searchImports name ig (fuel + 1) is = m.searchImports name ig fuel (m.importsOf is) := by
  cases is with
  | nil => exact absurd rfl hne
  | cons i rest =>
    simp only [ModelScope.searchImports]
    rw [searchLayer_next m name ig _ [] h, List.nil_append]

theorem searchImports_found (m : ModelScope σ) (name : String) (ig : Bool) (n : Nat) :
    ∀ (is : List Import) (fuel : Nat), n < fuel →
      (∀ k, k < n → m.NotIn name (m.layer is k)) →
      ∀ (pre post : List Import) (i : Import) (p : PackageScope σ) (s : σ),
        m.layer is n = pre ++ i :: post → m.NotIn name pre → m.packages i.package = some p →
        p.file name = some s → m.searchImports name ig fuel is = some (.ok (s, i.package)) := by
  induction n with
  | zero =>
    intro is fuel hf _ pre post i p s hl hpre hp hs
    obtain ⟨fuel, rfl⟩ : ∃ k, fuel = k + 1 := ⟨fuel - 1, by omega⟩
    simp only [ModelScope.layer] at hl
    cases is with
    | nil => simp at hl
    | cons j rest =>
      simp only [ModelScope.searchImports]
      rw [hl, searchLayer_found m name ig pre post i p s hp hs [] hpre]
  | succ n ih =>
    intro is fuel hf hno pre post i p s hl hpre hp hs
    obtain ⟨fuel, rfl⟩ : ∃ k, fuel = k + 1 := ⟨fuel - 1, by omega⟩
    have hne : is ≠ [] := by
      intro h; rw [h, layer_nil] at hl; simp at hl
    rw [searchImports_step m name ig fuel is hne (hno 0 (by omega))]
    refine ih _ fuel (by omega) (fun k hk => ?_) pre post i p s ?_ hpre hp hs
    · rw [layer_shift]; exact hno (k + 1) (by omega)
    · rw [layer_shift]; exact hl

theorem searchImports_empty (m : ModelScope σ) (name : String) (ig : Bool) (n : Nat) :
    ∀ (is : List Import) (fuel : Nat), n < fuel → m.layer is n = [] →
      ∃ r, m.searchImports name ig fuel is = some r := by
  induction n with
  | zero =>
    intro is fuel hf hl
    obtain ⟨fuel, rfl⟩ : ∃ k, fuel = k + 1 := ⟨fuel - 1, by omega⟩
    simp only [ModelScope.layer] at hl
    subst hl
    exact ⟨_, rfl⟩
  | succ n ih =>
    intro is fuel hf hl
    obtain ⟨fuel, rfl⟩ : ∃ k, fuel = k + 1 := ⟨fuel - 1, by omega⟩
    cases is with
    | nil => exact ⟨_, rfl⟩
    | cons j rest =>
      simp only [ModelScope.searchImports]
      cases hr : m.searchLayer name ig (j :: rest) [] with
      | found s q => exact ⟨_, rfl⟩
      | panic => exact ⟨_, rfl⟩
      | next is' =>
        refine ih is' fuel (by omega) ?_
        have : ∀ (is acc is' : List Import), m.searchLayer name ig is acc = .next is' →
            is' = acc ++ m.importsOf is := by
          intro is
          induction is with
          | nil =>
            intro acc is' h
            simp only [ModelScope.searchLayer] at h; cases h
            simp [ModelScope.importsOf]
          | cons j rest ihl =>
            intro acc is' h
            simp only [ModelScope.searchLayer] at h
            split at h
            · cases h
            · rename_i p hp
              split at h
              · cases h
              · rw [ihl _ _ h]; simp [ModelScope.importsOf, hp, List.append_assoc]
        have := this _ _ _ hr
        rw [List.nil_append] at this
        rw [this, layer_shift]; exact hl

/-- Imports whose packages have a smaller rank: layers die out. -/
theorem layer_rank (m : ModelScope σ) (rank : String → Nat)
    (h : ∀ q p, m.packages q = some p → ∀ i ∈ p.imports, rank i.package < rank q) (n : Nat) :
    ∀ (is : List Import) (r : Nat), (∀ i ∈ is, rank i.package < r) → 
      ∀ i ∈ m.layer is n, rank i.package + n < r := by
  induction n with
  | zero => intro is r hr i hi; exact hr i hi
  | succ n ih =>
    intro is r hr i hi
    simp only [ModelScope.layer, ModelScope.importsOf, List.mem_flatMap] at hi
    obtain ⟨j, hj, hi⟩ := hi
    have h1 := ih is r hr j hj
    split at hi
    · rename_i p hp
      have := h _ _ hp i hi
      omega
    · cases hi

/-- Packages that all define nothing of the name and import something: the search goes on forever. -/
theorem searchImports_diverges (m : ModelScope σ) (name : String) (ig : Bool) (fuel : Nat) :
    ∀ (is : List Import), is ≠ [] → 
      (∀ q p, m.packages q = some p → p.file name = none ∧ p.imports ≠ [] ∧
        ∀ i ∈ p.imports, ∃ p', m.packages i.package = some p') →
      (∀ i ∈ is, ∃ p, m.packages i.package = some p) →
      m.searchImports name ig fuel is = none := by
  induction fuel with
  | zero => intro is _ _ _; rfl
  | succ fuel ih =>
    intro is hne hall his
    have hno : m.NotIn name is := by
      intro i hi
      obtain ⟨p, hp⟩ := his i hi
      exact ⟨p, hp, (hall _ _ hp).1⟩
    rw [searchImports_step m name ig fuel is hne hno]
    apply ih _ _ hall
    · intro i hi
      simp only [ModelScope.importsOf, List.mem_flatMap] at hi
      obtain ⟨j, hj, hi⟩ := hi
      obtain ⟨p, hp⟩ := his j hj
      rw [hp] at hi
      exact (hall _ _ hp).2.2 i hi
    · cases is with
      | nil => exact absurd rfl hne
      | cons j rest =>
        obtain ⟨p, hp⟩ := his j (by simp)
        have hi := (hall _ _ hp).2.1
        intro hcontra
        simp only [ModelScope.importsOf, List.flatMap_cons, hp, List.append_eq_nil_iff] at hcontra
        exact hi hcontra.1

/-! ## Subtypes -/

variable {α : Type}

/-- `BaseOf decls t b`: following the subtype declarations from `t` leads to `b`, a builtin type or a
type that is declared as something other than a subtype. -/
inductive BaseOf (decls : String → String → Option (Decl α)) : TypeRef α → TypeRef α → Prop
  | builtin (t : TypeRef α) (h : t.builtin = true) : BaseOf decls t t
  | defined (t : TypeRef α) (h : t.builtin = false) (hd : decls t.package t.name = some .definition) :
    BaseOf decls t t
  | subtype (t s b : TypeRef α) (h : t.builtin = false)
    (hd : decls t.package t.name = some (.subtype s)) (hb : BaseOf decls s b) : BaseOf decls t b

theorem baseOf_args (decls : String → String → Option (Decl α)) (t b : TypeRef α)
    (h : BaseOf decls t b) : ∀ args, ∃ b', BaseOf decls { t with args := args } b' ∧
      b'.builtin = b.builtin ∧ b'.package = b.package ∧ b'.name = b.name ∧ b'.bits = b.bits ∧
      b'.length = b.length := by
  induction h with
  | builtin t h => intro args; exact ⟨_, .builtin _ h, rfl, rfl, rfl, rfl, rfl⟩
  | defined t h hd => intro args; exact ⟨_, .defined _ h hd, rfl, rfl, rfl, rfl, rfl⟩
  | subtype t s b h hd hb ih =>
    intro args
    exact ⟨b, .subtype _ s _ h hd hb, rfl, rfl, rfl, rfl, rfl⟩

/-- What the loop returns when the chain from `t` leads to `b`. -/
theorem fundamentalType_base (decls : String → String → Option (Decl α)) (t b : TypeRef α)
    (h : BaseOf decls t b) : ∃ n, ∀ args fuel, n < fuel →
      fundamentalType decls fuel { t with args := args } = some (.ok (
        if b.builtin then ({ b with args := args }, false)
        else ({ builtin := false, package := b.package, name := b.name, args := args }, true))) := by
  induction h with
  | builtin t h =>
    refine ⟨0, fun args fuel hf => ?_⟩
    obtain ⟨fuel, rfl⟩ : ∃ k, fuel = k + 1 := ⟨fuel - 1, by omega⟩
    simp [fundamentalType, h]
  | defined t h hd =>
    refine ⟨0, fun args fuel hf => ?_⟩
    obtain ⟨fuel, rfl⟩ : ∃ k, fuel = k + 1 := ⟨fuel - 1, by omega⟩
    simp [fundamentalType, h, hd]
  | subtype t s b h hd hb ih =>
    obtain ⟨n, ih⟩ := ih
    refine ⟨n + 1, fun args fuel hf => ?_⟩
    obtain ⟨fuel, rfl⟩ : ∃ k, fuel = k + 1 := ⟨fuel - 1, by omega⟩
    rw [fundamentalType]
    simp only [h, hd, Bool.false_eq_true, if_false]
    exact ih args fuel (by omega)

/-- Declarations without cycles: the type of a subtype has a smaller rank. -/
theorem baseOf_exists (decls : String → String → Option (Decl α)) (rank : String → String → Nat)
    (hrank : ∀ p n s, decls p n = some (.subtype s) → s.builtin = false →
      rank s.package s.name < rank p n)
    (hclosed : ∀ p n s, decls p n = some (.subtype s) → s.builtin = false →
      ∃ d, decls s.package s.name = some d ∧ d ≠ .other)
    (k : Nat) : ∀ t : TypeRef α, t.builtin = false → rank t.package t.name ≤ k →
      (∃ d, decls t.package t.name = some d ∧ d ≠ .other) → ∃ b, BaseOf decls t b := by
  induction k with
  | zero =>
    intro t ht hk ⟨d, hd, hno⟩
    cases d with
    | definition => exact ⟨t, .defined t ht hd⟩
    | other => exact absurd rfl hno
    | subtype s =>
      cases hs : s.builtin with
      | true => exact ⟨s, .subtype t s s ht hd (.builtin s hs)⟩
      | false => have := hrank _ _ _ hd hs; omega
  | succ k ih =>
    intro t ht hk ⟨d, hd, hno⟩
    cases d with
    | definition => exact ⟨t, .defined t ht hd⟩
    | other => exact absurd rfl hno
    | subtype s =>
      cases hs : s.builtin with
      | true => exact ⟨s, .subtype t s s ht hd (.builtin s hs)⟩
      | false =>
        have hr := hrank _ _ _ hd hs
        obtain ⟨b, hb⟩ := ih s hs (by omega) (hclosed _ _ _ hd hs)
        exact ⟨b, .subtype t s b ht hd hb⟩

end Zs
