import Verif.ModulesSpec

/-!
# Lemmas about the module tree and the files
-/

namespace Zs

open Spec

/-! ## The module tree -/

namespace Forest

/-- The child with a name. -/
def get : Forest → String → Option Forest
  | .nil, _ => none
  | .cons m sub rest, n => if m = n then some sub else rest.get n

/-- The names of the children. -/
def keys : Forest → List String
  | .nil => []
  | .cons m _ rest => m :: rest.keys

theorem get_update (n : String) (g : Forest → Forest) (f : Forest) (m : String) :
    (f.update n g).get m = if m = n then some (g ((f.get n).getD .nil)) else f.get m := by
  induction f with
  | nil =>
    by_cases h : m = n
    · subst h; simp [update, get]
    · have : n ≠ m := fun e => h e.symm
      simp [update, get, h, this]
  | cons k sub rest _ ih =>
    simp only [update]
    by_cases hk : k = n
    · subst hk
      by_cases h : m = k
      · subst h; simp [get]
      · have : k ≠ m := fun e => h e.symm
        simp [get, h, this]
    · simp only [if_neg hk, get]
      by_cases hm : k = m
      · subst hm; simp [hk]
      · simp [hm, ih]

theorem keys_update (n : String) (g : Forest → Forest) (f : Forest) :
    (f.update n g).keys = if n ∈ f.keys then f.keys else f.keys ++ [n] := by
  induction f with
  | nil => simp [update, keys]
  | cons k sub rest _ ih =>
    simp only [update]
    by_cases hk : k = n
    · subst hk; simp [keys]
    · have : n ≠ k := fun e => hk e.symm
      simp only [if_neg hk, keys, ih, List.mem_cons, this, false_or]
      split <;> simp

theorem mem_keys (f : Forest) (n : String) : n ∈ f.keys ↔ ∃ sub, f.get n = some sub := by
  induction f with
  | nil => simp [keys, get]
  | cons k sub rest _ ih =>
    simp only [keys, get, List.mem_cons]
    by_cases hk : k = n
    · subst hk; simp
    · have : n ≠ k := fun e => hk e.symm
      simp [hk, this, ih]

theorem isNil_iff (f : Forest) : f.isNil = true ↔ f = .nil := by
  cases f <;> simp [isNil]

theorem nil_of_get {f : Forest} (h : ∀ n, f.get n = none) : f = .nil := by
  cases f with
  | nil => rfl
  | cons m sub rest => have := h m; simp [get] at this

end Forest

/-- The tree of some packages. -/
def buildForest (ps : List (List String)) : Forest := ps.foldl (fun f p => addPackage p f) .nil

/-- What is behind the name in the paths that start with it. -/
def tailsOf (n : String) (ps : List (List String)) : List (List String) :=
  ps.filterMap fun p => match p with
    | [] => none
    | m :: t => if m = n then some t else none

theorem mem_tailsOf {n : String} {ps : List (List String)} {t : List String} :
    t ∈ tailsOf n ps ↔ n :: t ∈ ps := by
  simp only [tailsOf, List.mem_filterMap]
  constructor
  · rintro ⟨p, hp, h⟩
    cases p with
    | nil => cases h
    | cons m t' =>
      simp only at h
      split at h
      · rename_i e; subst e; cases h; exact hp
      · cases h
  · intro h
    exact ⟨n :: t, h, by simp⟩

theorem get_foldl (ps : List (List String)) (f : Forest) (n : String) :
    (ps.foldl (fun f p => addPackage p f) f).get n =
      if tailsOf n ps = [] then f.get n
      else some ((tailsOf n ps).foldl (fun f p => addPackage p f) ((f.get n).getD .nil)) := by
  induction ps generalizing f with
  | nil => simp [tailsOf]
  | cons p ps ih =>
    rw [List.foldl_cons, ih]
    cases p with
    | nil => rfl
    | cons m t =>
      have hget : (addPackage (m :: t) f).get n =
          if n = m then some (addPackage t ((f.get m).getD .nil)) else f.get n :=
        Forest.get_update m (addPackage t) f n
      by_cases hm : m = n
      · subst hm
        have e : tailsOf m ((m :: t) :: ps) = t :: tailsOf m ps := by simp [tailsOf]
        rw [e, hget, if_pos rfl, if_neg (List.cons_ne_nil _ _), List.foldl_cons]
        split
        · rename_i h; rw [h]; rfl
        · rfl
      · have e : tailsOf n ((m :: t) :: ps) = tailsOf n ps := by simp [tailsOf, hm]
        have hm' : ¬n = m := fun h => hm h.symm
        rw [e, hget, if_neg hm']

theorem get_buildForest (ps : List (List String)) (n : String) :
    (buildForest ps).get n = if tailsOf n ps = [] then none else some (buildForest (tailsOf n ps)) :=
  get_foldl ps .nil n

theorem keys_nodup_foldl (ps : List (List String)) (f : Forest) (h : f.keys.Nodup) :
    (ps.foldl (fun f p => addPackage p f) f).keys.Nodup := by
  induction ps generalizing f with
  | nil => exact h
  | cons p ps ih =>
    refine ih _ ?_
    cases p with
    | nil => exact h
    | cons n t =>
      show (f.update n (addPackage t)).keys.Nodup
      rw [Forest.keys_update]
      split
      · exact h
      · rename_i hn
        rw [List.nodup_append]
        refine ⟨h, by simp, ?_⟩
        intro a ha b hb e
        have : b = n := by simpa using hb
        subst this; subst e
        exact hn ha

theorem keys_buildForest_nodup (ps : List (List String)) : (buildForest ps).keys.Nodup :=
  keys_nodup_foldl ps .nil List.nodup_nil

theorem mem_keys_buildForest {ps : List (List String)} {n : String} :
    n ∈ (buildForest ps).keys ↔ ∃ t, n :: t ∈ ps := by
  rw [Forest.mem_keys, get_buildForest]
  constructor
  · rintro ⟨sub, h⟩
    split at h
    · cases h
    · rename_i hne
      obtain ⟨t, ht⟩ := List.exists_mem_of_ne_nil _ hne
      exact ⟨t, mem_tailsOf.1 ht⟩
  · rintro ⟨t, ht⟩
    have : tailsOf n ps ≠ [] := List.ne_nil_of_mem (mem_tailsOf.2 ht)
    exact ⟨_, by rw [if_neg this]⟩

theorem buildForest_nil_iff {ps : List (List String)} :
    buildForest ps = .nil ↔ ∀ p ∈ ps, p = [] := by
  constructor
  · intro h p hp
    cases p with
    | nil => rfl
    | cons n t =>
      have := (mem_keys_buildForest (ps := ps) (n := n)).2 ⟨t, hp⟩
      rw [h] at this
      cases this
  · intro h
    refine Forest.nil_of_get fun n => ?_
    rw [get_buildForest, if_pos]
    refine List.eq_nil_iff_forall_not_mem.2 fun t ht => ?_
    have := h _ (mem_tailsOf.1 ht)
    cases this

/-! ## Sections -/

/-- The section of one child. -/
def sectionOf (level : Nat) (n : String) (sub : Forest) : List Line :=
  wrapSection level n sub.isNil (joinSections (sub.sections (level + 1)))

theorem sections_keys (level : Nat) (f : Forest) : (f.sections level).map Prod.fst = f.keys := by
  induction f with
  | nil => rfl
  | cons n sub rest _ ih => simp [Forest.sections, Forest.keys, ih]

theorem mem_sections (level : Nat) (f : Forest) (hn : f.keys.Nodup) (n : String) (t : List Line) :
    (n, t) ∈ f.sections level ↔ ∃ sub, f.get n = some sub ∧ t = sectionOf level n sub := by
  induction f with
  | nil => simp [Forest.sections, Forest.get]
  | cons m sub rest _ ih =>
    have hn' : m ∉ rest.keys ∧ rest.keys.Nodup := List.nodup_cons.1 hn
    simp only [Forest.sections, List.mem_cons, ih hn'.2, Forest.get, Prod.mk.injEq]
    by_cases hm : m = n
    · subst hm
      simp only [if_true]
      constructor
      · rintro (⟨_, h⟩ | ⟨s, hs, _⟩)
        · exact ⟨sub, rfl, h⟩
        · exact absurd ((Forest.mem_keys rest m).2 ⟨s, hs⟩) hn'.1
      · rintro ⟨s, hs, h⟩
        cases hs
        exact Or.inl ⟨trivial, h⟩
    · have hm' : ¬n = m := fun h => hm h.symm
      simp [hm, hm']

theorem mem_sections_build (level : Nat) (ps : List (List String)) (n : String) (t : List Line) :
    (n, t) ∈ (buildForest ps).sections level ↔
      (∃ q, n :: q ∈ ps) ∧ t = sectionOf level n (buildForest (tailsOf n ps)) := by
  rw [mem_sections level _ (keys_buildForest_nodup ps), get_buildForest]
  constructor
  · rintro ⟨sub, h, ht⟩
    split at h
    · cases h
    · rename_i hne
      obtain ⟨q, hq⟩ := List.exists_mem_of_ne_nil _ hne
      cases h
      exact ⟨⟨q, mem_tailsOf.1 hq⟩, ht⟩
  · rintro ⟨⟨q, hq⟩, ht⟩
    have : tailsOf n ps ≠ [] := List.ne_nil_of_mem (mem_tailsOf.2 hq)
    exact ⟨_, by rw [if_neg this], ht⟩

theorem sections_nodup (level : Nat) (ps : List (List String)) :
    ((buildForest ps).sections level).Nodup := by
  have h := keys_buildForest_nodup ps
  rw [← sections_keys level] at h
  exact List.Pairwise.of_map Prod.fst (fun a b hab e => hab (e ▸ rfl)) h

/-! ## The order does not matter -/

theorem section_le_trans (a b c : String × List Line) (h1 : decide (a.1 ≤ b.1) = true)
    (h2 : decide (b.1 ≤ c.1) = true) : decide (a.1 ≤ c.1) = true := by
  simp only [decide_eq_true_eq] at *
  exact String.le_trans h1 h2

theorem section_le_total (a b : String × List Line) :
    (decide (a.1 ≤ b.1) || decide (b.1 ≤ a.1)) = true := by
  simp only [Bool.or_eq_true, decide_eq_true_eq]
  exact String.le_total a.1 b.1

theorem eq_of_fst_eq {α β : Type} {xs : List (α × β)} (h : (xs.map Prod.fst).Nodup) {a b : α × β}
    (ha : a ∈ xs) (hb : b ∈ xs) (e : a.1 = b.1) : a = b := by
  induction xs with
  | nil => cases ha
  | cons x xs ih =>
    rw [List.map_cons, List.nodup_cons] at h
    rcases List.mem_cons.1 ha with ha' | ha' <;> rcases List.mem_cons.1 hb with hb' | hb'
    · rw [ha', hb']
    · subst ha'; exact absurd (List.mem_map.2 ⟨b, hb', e.symm⟩) h.1
    · subst hb'; exact absurd (List.mem_map.2 ⟨a, ha', e⟩) h.1
    · exact ih h.2 ha' hb'

/-- Two lists of sections with distinct names and the same elements are joined to the same lines. -/
theorem joinSections_congr {xs ys : List (String × List Line)} (hx : (xs.map Prod.fst).Nodup)
    (hxn : xs.Nodup) (hyn : ys.Nodup) (h : ∀ a, a ∈ xs ↔ a ∈ ys) : joinSections xs = joinSections ys := by
  have hperm : xs.Perm ys := (List.perm_ext_iff_of_nodup hxn hyn).2 h
  unfold joinSections
  congr 1
  refine List.Perm.eq_of_pairwise (le := fun a b => decide (a.1 ≤ b.1) = true) ?_
    (List.pairwise_mergeSort section_le_trans section_le_total xs)
    (List.pairwise_mergeSort section_le_trans section_le_total ys)
    ((List.mergeSort_perm xs _).trans (hperm.trans (List.mergeSort_perm ys _).symm))
  intro a b ha hb h1 h2
  simp only [decide_eq_true_eq] at h1 h2
  have e : a.1 = b.1 := String.le_antisymm h1 h2
  rw [List.mem_mergeSort] at ha hb
  have hb' := (h b).2 hb
  exact eq_of_fst_eq hx ha hb' e

theorem joinSections_build_congr (N : Nat) (level : Nat) (ps qs : List (List String))
    (hN : ∀ p ∈ ps, p.length ≤ N) (h : ∀ p, p ∈ ps ↔ p ∈ qs) :
    joinSections ((buildForest ps).sections level) = joinSections ((buildForest qs).sections level) := by
  induction N generalizing ps qs level with
  | zero =>
    have h1 : buildForest ps = .nil := buildForest_nil_iff.2 fun p hp => by
      have := hN p hp; exact List.length_eq_zero_iff.1 (by omega)
    have h2 : buildForest qs = .nil := buildForest_nil_iff.2 fun p hp => by
      have := hN p ((h p).2 hp); exact List.length_eq_zero_iff.1 (by omega)
    rw [h1, h2]
  | succ N ih =>
    refine joinSections_congr ?_ (sections_nodup level ps) (sections_nodup level qs) ?_
    · rw [sections_keys]; exact keys_buildForest_nodup ps
    · rintro ⟨n, t⟩
      have htails : ∀ t, t ∈ tailsOf n ps ↔ t ∈ tailsOf n qs := fun t => by
        rw [mem_tailsOf, mem_tailsOf]; exact h _
      have hnil : (buildForest (tailsOf n ps)).isNil = (buildForest (tailsOf n qs)).isNil := by
        rw [Bool.eq_iff_iff, Forest.isNil_iff, Forest.isNil_iff, buildForest_nil_iff, buildForest_nil_iff]
        exact ⟨fun hh p hp => hh p ((htails p).2 hp), fun hh p hp => hh p ((htails p).1 hp)⟩
      have hsec : sectionOf level n (buildForest (tailsOf n ps)) =
          sectionOf level n (buildForest (tailsOf n qs)) := by
        unfold sectionOf
        rw [hnil, ih (level + 1) (tailsOf n ps) (tailsOf n qs) (fun p hp => by
          have := hN _ (mem_tailsOf.1 hp); simp at this; omega) htails]
      rw [mem_sections_build, mem_sections_build, hsec]
      constructor
      · rintro ⟨⟨q, hq⟩, ht⟩; exact ⟨⟨q, (h _).1 hq⟩, ht⟩
      · rintro ⟨⟨q, hq⟩, ht⟩; exact ⟨⟨q, (h _).2 hq⟩, ht⟩

/-! ## Which modules are declared -/

/-- The lines leave the open modules as they were. -/
def Balanced (ls : List Line) : Prop :=
  ∀ here rest, declared here (ls ++ rest) =
    (declared [] ls).map (fun d => (here ++ d.1, d.2)) ++ declared here rest

theorem Balanced.nil : Balanced [] := fun here rest => by simp [declared]

theorem Balanced.at {ls : List Line} (h : Balanced ls) (here : List String) :
    declared here ls = (declared [] ls).map (fun d => (here ++ d.1, d.2)) := by
  have := h here []
  simpa [declared] using this

theorem Balanced.append {xs ys : List Line} (hx : Balanced xs) (hy : Balanced ys) :
    Balanced (xs ++ ys) := by
  intro here rest
  rw [List.append_assoc, hx here, hy here, hx [] ys, List.map_append, List.map_map,
    List.append_assoc]
  rfl

theorem Balanced.flatMap {α : Type} (xs : List α) (f : α → List Line) (h : ∀ x ∈ xs, Balanced (f x)) :
    Balanced (xs.flatMap f) := by
  induction xs with
  | nil => exact Balanced.nil
  | cons x xs ih =>
    rw [List.flatMap_cons]
    exact (h x (List.mem_cons_self ..)).append (ih fun y hy => h y (List.mem_cons_of_mem _ hy))

theorem Balanced.attribute : Balanced [.attribute] := fun here rest => by simp [declared]

theorem Balanced.file (n : String) : Balanced [.file n] := fun here rest => by simp [declared]

theorem Balanced.reexport (n : String) : Balanced [.reexport n] := fun here rest => by simp [declared]

theorem declared_block (n : String) {body : List Line} (hb : Balanced body) (here : List String)
    (rest : List Line) :
    declared here (.opening n :: body ++ [.closing] ++ rest) =
      (here ++ [n], false) :: ((declared [] body).map fun d => (here ++ n :: d.1, d.2)) ++
        declared here rest := by
  simp only [List.cons_append, declared, List.append_assoc]
  rw [hb (here ++ [n])]
  simp [declared]

theorem Balanced.block (n : String) {body : List Line} (hb : Balanced body) :
    Balanced (.opening n :: body ++ [.closing]) := by
  intro here rest
  rw [declared_block n hb here rest]
  have := declared_block n hb [] []
  rw [List.append_nil] at this
  rw [this]
  simp [declared, List.map_map, Function.comp_def]

theorem wrapSection_balanced (level : Nat) (n : String) (childless : Bool) {body : List Line}
    (hb : Balanced body) : Balanced (wrapSection level n childless body) := by
  unfold wrapSection
  split
  · exact hb
  · refine Balanced.append ?_ ?_
    · split
      · exact Balanced.attribute
      · exact Balanced.nil
    · split
      · exact Balanced.file n
      · exact Balanced.block n hb

theorem joinSections_balanced (xs : List (String × List Line)) (h : ∀ x ∈ xs, Balanced x.2) :
    Balanced (joinSections xs) :=
  Balanced.flatMap _ _ fun x hx => h x (List.mem_mergeSort.1 hx)

theorem sections_balanced (level : Nat) (f : Forest) : ∀ x ∈ f.sections level, Balanced x.2 := by
  induction f generalizing level with
  | nil => intro x hx; cases hx
  | cons n sub rest ih1 ih2 =>
    intro x hx
    simp only [Forest.sections, List.mem_cons] at hx
    rcases hx with rfl | hx
    · exact wrapSection_balanced _ _ _ (joinSections_balanced _ (ih1 (level + 1)))
    · exact ih2 level x hx

/-- The modules declared by sections one after the other. -/
theorem declared_flatMap {α : Type} (xs : List α) (f : α → List Line) (h : ∀ x ∈ xs, Balanced (f x)) :
    declared [] (xs.flatMap f) = xs.flatMap fun x => declared [] (f x) := by
  induction xs with
  | nil => rfl
  | cons x xs ih =>
    rw [List.flatMap_cons, (h x (List.mem_cons_self ..)) [], ih fun y hy => h y (List.mem_cons_of_mem _ hy)]
    simp

theorem declared_join (xs : List (String × List Line)) (h : ∀ x ∈ xs, Balanced x.2)
    (d : List String × Bool) :
    d ∈ declared [] (joinSections xs) ↔ ∃ n t, (n, t) ∈ xs ∧ d ∈ declared [] t := by
  unfold joinSections
  rw [declared_flatMap _ _ fun x hx => h x (List.mem_mergeSort.1 hx)]
  simp only [List.mem_flatMap, List.mem_mergeSort]
  constructor
  · rintro ⟨⟨n, t⟩, hm, hd⟩; exact ⟨n, t, hm, hd⟩
  · rintro ⟨n, t, hm, hd⟩; exact ⟨(n, t), hm, hd⟩

theorem declared_section (level : Nat) {n : String} (hn : n ≠ "") (sub : Forest) :
    declared [] (sectionOf level n sub) = ([n], sub.isNil) ::
      (declared [] (joinSections (sub.sections (level + 1)))).map fun d => (n :: d.1, d.2) := by
  have hb := joinSections_balanced _ (sections_balanced (level + 1) sub)
  have hskip : Balanced (if level ≤ 1 then [Line.attribute] else []) := by
    split
    · exact Balanced.attribute
    · exact Balanced.nil
  have h0 : declared [] (if level ≤ 1 then [Line.attribute] else []) = [] := by
    split <;> rfl
  unfold sectionOf wrapSection
  rw [if_neg hn, hskip [] _, h0, List.map_nil, List.nil_append]
  cases hs : sub.isNil with
  | true =>
    have : sub = .nil := (Forest.isNil_iff sub).1 hs
    subst this
    simp [declared, joinSections, Forest.sections]
  | false =>
    have := declared_block n hb [] []
    rw [List.append_nil] at this
    simp only [Bool.false_eq_true, if_false]
    rw [this]
    simp [declared]

/-- A path is declared if a package starts with it, with a file of its own if no package is longer. -/
theorem declared_build (p : List String) (b : Bool) (level : Nat) (ps : List (List String))
    (hne : ∀ q ∈ ps, "" ∉ q) :
    (p, b) ∈ declared [] (joinSections ((buildForest ps).sections level)) ↔
      p ≠ [] ∧ (∃ q ∈ ps, p <+: q) ∧ (b = true ↔ ∀ q ∈ ps, p <+: q → q = p) := by
  induction p generalizing level ps with
  | nil =>
    rw [declared_join _ (sections_balanced level _)]
    constructor
    · rintro ⟨n, t, hm, hd⟩
      obtain ⟨⟨q, hq⟩, ht⟩ := (mem_sections_build level ps n t).1 hm
      have hn : n ≠ "" := fun e => hne _ hq (e ▸ List.mem_cons_self ..)
      rw [ht, declared_section level hn] at hd
      simp at hd
    · rintro ⟨h, _⟩; exact absurd rfl h
  | cons n p ih =>
    have hne' : ∀ q ∈ tailsOf n ps, "" ∉ q := fun q hq he =>
      hne _ (mem_tailsOf.1 hq) (List.mem_cons_of_mem _ he)
    have hiso : (b = true ↔ ∀ q ∈ ps, n :: p <+: q → q = n :: p) ↔
        (b = true ↔ ∀ q ∈ tailsOf n ps, p <+: q → q = p) := by
      have : (∀ q ∈ ps, n :: p <+: q → q = n :: p) ↔ (∀ q ∈ tailsOf n ps, p <+: q → q = p) := by
        constructor
        · intro h q hq hp
          have := h _ (mem_tailsOf.1 hq) (List.cons_prefix_cons.2 ⟨rfl, hp⟩)
          exact (List.cons.inj this).2
        · intro h q hq hp
          cases q with
          | nil => exact absurd (List.prefix_nil.1 hp) (List.cons_ne_nil _ _)
          | cons m q =>
            obtain ⟨rfl, hp'⟩ := List.cons_prefix_cons.1 hp
            rw [h q (mem_tailsOf.2 hq) hp']
      rw [this]
    have hex : (∃ q ∈ ps, n :: p <+: q) ↔ ∃ q ∈ tailsOf n ps, p <+: q := by
      constructor
      · rintro ⟨q, hq, hp⟩
        cases q with
        | nil => exact absurd (List.prefix_nil.1 hp) (List.cons_ne_nil _ _)
        | cons m q =>
          obtain ⟨rfl, hp'⟩ := List.cons_prefix_cons.1 hp
          exact ⟨q, mem_tailsOf.2 hq, hp'⟩
      · rintro ⟨q, hq, hp⟩
        exact ⟨_, mem_tailsOf.1 hq, List.cons_prefix_cons.2 ⟨rfl, hp⟩⟩
    rw [hiso, hex, declared_join _ (sections_balanced level _)]
    constructor
    · rintro ⟨m, t, hm, hd⟩
      obtain ⟨⟨q, hq⟩, ht⟩ := (mem_sections_build level ps m t).1 hm
      have hn : m ≠ "" := fun e => hne _ hq (e ▸ List.mem_cons_self ..)
      rw [ht, declared_section level hn, List.mem_cons] at hd
      rcases hd with hd | hd
      · injection hd with h1 h2
        injection h1 with h3 h4
        subst h3; subst h4; subst h2
        refine ⟨List.cons_ne_nil _ _, ⟨q, mem_tailsOf.2 hq, List.nil_prefix⟩, ?_⟩
        rw [Forest.isNil_iff, buildForest_nil_iff]
        exact ⟨fun h q hq _ => h q hq, fun h q hq => h q hq List.nil_prefix⟩
      · obtain ⟨⟨d, b'⟩, hd', e⟩ := List.mem_map.1 hd
        injection e with h1 h2
        injection h1 with h3 h4
        simp only at h2 h4
        subst h3; subst h4; subst h2
        have := (ih (level + 1) (tailsOf m ps) hne').1 hd'
        exact ⟨List.cons_ne_nil _ _, this.2⟩
    · rintro ⟨_, ⟨q, hq, hp⟩, hb⟩
      have hn : n ≠ "" := fun e => hne _ (mem_tailsOf.1 hq) (e ▸ List.mem_cons_self ..)
      refine ⟨n, _, (mem_sections_build level ps n _).2 ⟨⟨q, mem_tailsOf.1 hq⟩, rfl⟩, ?_⟩
      rw [declared_section level hn, List.mem_cons]
      cases p with
      | nil =>
        left
        have : b = (buildForest (tailsOf n ps)).isNil := by
          rw [Bool.eq_iff_iff, Forest.isNil_iff, buildForest_nil_iff, hb]
          exact ⟨fun h q hq => h q hq List.nil_prefix, fun h q hq _ => h q hq⟩
        rw [this]
      | cons m p =>
        right
        refine List.mem_map.2 ⟨(m :: p, b), ?_, rfl⟩
        exact (ih (level + 1) (tailsOf n ps) hne').2 ⟨List.cons_ne_nil _ _, ⟨q, hq, hp⟩, hb⟩

/-- No module is declared twice. -/
theorem declared_build_nodup (N : Nat) (level : Nat) (ps : List (List String))
    (hN : ∀ p ∈ ps, p.length ≤ N) (hne : ∀ q ∈ ps, "" ∉ q) :
    ((declared [] (joinSections ((buildForest ps).sections level))).map Prod.fst).Nodup := by
  induction N generalizing level ps with
  | zero =>
    have : buildForest ps = .nil := buildForest_nil_iff.2 fun p hp => by
      have := hN p hp; exact List.length_eq_zero_iff.1 (by omega)
    rw [this]
    simp [joinSections, Forest.sections, declared]
  | succ N ih =>
    have hsec : ∀ n t, (n, t) ∈ (buildForest ps).sections level →
        n ≠ "" ∧ t = sectionOf level n (buildForest (tailsOf n ps)) := by
      intro n t hm
      obtain ⟨⟨q, hq⟩, ht⟩ := (mem_sections_build level ps n t).1 hm
      exact ⟨fun e => hne _ hq (e ▸ List.mem_cons_self ..), ht⟩
    unfold joinSections
    rw [declared_flatMap _ _ fun x hx => sections_balanced level _ x (List.mem_mergeSort.1 hx),
      List.map_flatMap]
    unfold List.Nodup
    rw [List.pairwise_flatMap]
    constructor
    · rintro ⟨n, t⟩ hm
      rw [List.mem_mergeSort] at hm
      obtain ⟨hn, rfl⟩ := hsec n t hm
      simp only
      rw [declared_section level hn, List.map_cons, List.map_map]
      refine List.nodup_cons.2 ⟨?_, ?_⟩
      · intro h
        obtain ⟨⟨d, b⟩, hd, e⟩ := List.mem_map.1 h
        have hd' := (declared_build d b (level + 1) (tailsOf n ps) (fun q hq he =>
          hne _ (mem_tailsOf.1 hq) (List.mem_cons_of_mem _ he))).1 hd
        injection e with _ e2
        exact hd'.1 e2
      · have := ih (level + 1) (tailsOf n ps)
          (fun p hp => by have := hN _ (mem_tailsOf.1 hp); simp at this; omega)
          (fun q hq he => hne _ (mem_tailsOf.1 hq) (List.mem_cons_of_mem _ he))
        have e : (Prod.fst ∘ fun d : List String × Bool => (n :: d.1, d.2)) = (fun x => n :: x) ∘ Prod.fst := rfl
        rw [e, ← List.map_map]
        exact List.Pairwise.map _ (fun a b hab he => hab (List.cons.inj he).2) this
    · have hkeys : (((buildForest ps).sections level).map Prod.fst).Nodup := by
        rw [sections_keys]; exact keys_buildForest_nodup ps
      have hperm := List.mergeSort_perm ((buildForest ps).sections level)
        (fun a b => decide (a.1 ≤ b.1))
      have hkeys' := (hperm.map Prod.fst).nodup_iff.2 hkeys
      have hp : List.Pairwise (fun a b : String × List Line => a.1 ≠ b.1)
          (((buildForest ps).sections level).mergeSort fun a b => decide (a.1 ≤ b.1)) :=
        List.Pairwise.of_map Prod.fst (fun a b hab => hab) hkeys'
      refine List.Pairwise.imp_of_mem ?_ hp
      rintro ⟨n, t⟩ ⟨m, u⟩ hn hm hnm x hx y hy e
      rw [List.mem_mergeSort] at hn hm
      obtain ⟨hn1, rfl⟩ := hsec n t hn
      obtain ⟨hm1, rfl⟩ := hsec m u hm
      simp only [declared_section level hn1, declared_section level hm1, List.map_cons, List.map_map,
        List.mem_cons, List.mem_map] at hx hy
      have hx' : ∃ p, x = n :: p := by
        rcases hx with h | ⟨d, _, h⟩
        · exact ⟨_, h⟩
        · exact ⟨_, h.symm⟩
      have hy' : ∃ p, y = m :: p := by
        rcases hy with h | ⟨d, _, h⟩
        · exact ⟨_, h⟩
        · exact ⟨_, h.symm⟩
      obtain ⟨p, rfl⟩ := hx'
      obtain ⟨q, rfl⟩ := hy'
      exact hnm (List.cons.inj e).1

/-! ## Files -/

section Files

variable (snake : String → String)

/-- The directory of a package. -/
def dirOf (p : Pkg) : List String := (p.name.map (moduleName snake)).filter (· ≠ "")

theorem put_same (fs : Files) (q : List String × String) (t : FileText) : fs.put q t q = some t := by
  simp [Files.put]

theorem put_other (fs : Files) {q r : List String × String} (t : FileText) (h : r ≠ q) :
    fs.put q t r = fs r := by
  simp [Files.put, h]

/-- The files of a package in its directory, later symbols first. -/
def symbolFile (p : Pkg) (ss : List String) (n : String) : Option FileText :=
  (ss.reverse.find? fun s => moduleName snake s = n).map fun s => .code p.name s

theorem writeSymbols_get (p : Pkg) (ss : List String) (fs : Files) :
    ∃ fs', writeSymbols snake p ss fs = .ok fs' ∧
      ∀ d n, fs' (d, n) =
        if d = dirOf snake p then (symbolFile snake p ss n).or (fs (d, n)) else fs (d, n) := by
  induction ss generalizing fs with
  | nil => exact ⟨fs, rfl, fun d n => by simp [symbolFile]⟩
  | cons s ss ih =>
    obtain ⟨fs', h, hget⟩ := ih (fs.put (dirOf snake p, moduleName snake s) (.code p.name s))
    refine ⟨fs', h, fun d n => ?_⟩
    rw [hget]
    by_cases hd : d = dirOf snake p
    · rw [if_pos hd, if_pos hd]
      subst hd
      unfold symbolFile
      rw [List.reverse_cons, List.find?_append]
      cases hf : ss.reverse.find? fun s => moduleName snake s = n with
      | some x => simp
      | none =>
        by_cases hn : moduleName snake s = n
        · subst hn; simp [put_same]
        · have : (dirOf snake p, n) ≠ (dirOf snake p, moduleName snake s) := fun e =>
            hn (Prod.mk.inj e).2.symm
          simp [put_other _ _ this, hn]
    · rw [if_neg hd, if_neg hd]
      exact put_other _ _ fun e => hd (Prod.mk.inj e).1

theorem generatePackage_get (p : Pkg) (fs : Files)
    (hp : (packageLines snake p).all Line.parses = true) :
    ∃ fs', generatePackage snake fs p = .ok fs' ∧
      ∀ d n, fs' (d, n) =
        if d = dirOf snake p then
          if n = "mod" then some (.lines (packageLines snake p))
          else (symbolFile snake p p.symbols n).or (fs (d, n))
        else fs (d, n) := by
  obtain ⟨fs', h, hget⟩ := writeSymbols_get snake p p.symbols fs
  refine ⟨fs'.put (dirOf snake p, "mod") (.lines (packageLines snake p)), ?_, fun d n => ?_⟩
  · simp only [generatePackage, h, Res.ok_bind, writeToFile, hp, if_true]
    rfl
  · by_cases hd : d = dirOf snake p
    · subst hd
      rw [if_pos rfl]
      by_cases hn : n = "mod"
      · subst hn; simp [put_same]
      · rw [if_neg hn, put_other _ _ (fun e => hn (Prod.mk.inj e).2), hget, if_pos rfl]
    · rw [if_neg hd, put_other _ _ (fun e => hd (Prod.mk.inj e).1), hget, if_neg hd]

/-- Files in the directory of a package after all packages have been written, if the directories are
distinct. -/
theorem generatePackages_get (ps : List Pkg) (fs : Files)
    (hp : ∀ p ∈ ps, (packageLines snake p).all Line.parses = true)
    (hd : ps.Pairwise fun p q => dirOf snake p ≠ dirOf snake q) :
    ∃ fs', generatePackages snake ps fs = .ok fs' ∧
      (∀ d n, (∀ p ∈ ps, d ≠ dirOf snake p) → fs' (d, n) = fs (d, n)) ∧
      (∀ p ∈ ps, ∀ n, fs' (dirOf snake p, n) =
        if n = "mod" then some (.lines (packageLines snake p))
        else (symbolFile snake p p.symbols n).or (fs (dirOf snake p, n))) := by
  induction ps generalizing fs with
  | nil => exact ⟨fs, rfl, fun _ _ _ => rfl, fun p hp => by cases hp⟩
  | cons p ps ih =>
    obtain ⟨fs1, h1, hget1⟩ := generatePackage_get snake p fs (hp p (List.mem_cons_self ..))
    rw [List.pairwise_cons] at hd
    obtain ⟨fs2, h2, hother, hself⟩ := ih fs1 (fun q hq => hp q (List.mem_cons_of_mem _ hq)) hd.2
    refine ⟨fs2, ?_, ?_, ?_⟩
    · simp only [generatePackages, h1, Res.ok_bind]; exact h2
    · intro d n hdn
      rw [hother d n (fun q hq => hdn q (List.mem_cons_of_mem _ hq)), hget1,
        if_neg (hdn p (List.mem_cons_self ..))]
    · intro q hq n
      rcases List.mem_cons.1 hq with rfl | hq
      · rw [hother _ n (fun r hr => hd.1 r hr), hget1, if_pos rfl]
      · have : fs1 (dirOf snake q, n) = fs (dirOf snake q, n) := by
          rw [hget1, if_neg (fun e => hd.1 q hq e.symm)]
        rw [hself q hq n, this]

/-- The modules that the module file of a package declares. -/
theorem declared_packageLines (p : Pkg) :
    declared [] (packageLines snake p) =
      ((p.symbols.map (moduleName snake)).mergeSort fun a b => decide (a ≤ b)).map fun n => ([n], true) := by
  have hattr : ∀ k rest, declared [] (List.replicate k Line.attribute ++ rest) = declared [] rest := by
    intro k rest
    induction k with
    | zero => rfl
    | succ k ih => rw [List.replicate_succ, List.cons_append, declared.eq_5 _ _ _ (by simp) (by simp) (by simp)]; exact ih
  have hre : ∀ names : List String, declared [] (names.map Line.reexport) = [] := by
    intro names
    induction names with
    | nil => rfl
    | cons n ns ih => exact ih
  have hfile : ∀ (names : List String) rest, declared [] (names.map Line.file ++ rest) =
      names.map (fun n => ([n], true)) ++ declared [] rest := by
    intro names rest
    induction names with
    | nil => rfl
    | cons n ns ih => rw [List.map_cons, List.cons_append, declared, ih]; rfl
  unfold packageLines
  rw [List.append_assoc, hattr, hfile, hre, List.append_nil]

theorem fileModule_package (p : Pkg) (path : List String) :
    FileModule (packageLines snake p) path ↔ ∃ s ∈ p.symbols, path = [moduleName snake s] := by
  unfold FileModule
  rw [declared_packageLines]
  simp only [List.mem_map, List.mem_mergeSort]
  constructor
  · rintro ⟨n, ⟨s, hs, rfl⟩, e⟩
    injection e with e _
    exact ⟨s, hs, e.symm⟩
  · rintro ⟨s, hs, rfl⟩
    exact ⟨_, ⟨s, hs, rfl⟩, rfl⟩

theorem packageLines_parses (p : Pkg) (h : ∀ s ∈ p.symbols, isRustIdent (moduleName snake s) = true) :
    (packageLines snake p).all Line.parses = true := by
  rw [List.all_eq_true]
  intro l hl
  simp only [packageLines, List.mem_append, List.mem_replicate, List.mem_map, List.mem_mergeSort] at hl
  rcases hl with (⟨_, rfl⟩ | ⟨n, ⟨s, hs, rfl⟩, rfl⟩) | ⟨n, ⟨s, hs, rfl⟩, rfl⟩
  · rfl
  · exact h s hs
  · exact h s hs

end Files

/-- All lines of the top-level file parse if the names are identifiers. -/
theorem sections_parse (N : Nat) (level : Nat) (ps : List (List String))
    (hN : ∀ p ∈ ps, p.length ≤ N) (h : ∀ q ∈ ps, ∀ n ∈ q, isRustIdent n = true) :
    ∀ l ∈ joinSections ((buildForest ps).sections level), l.parses = true := by
  induction N generalizing level ps with
  | zero =>
    have : buildForest ps = .nil := buildForest_nil_iff.2 fun p hp => by
      have := hN p hp; exact List.length_eq_zero_iff.1 (by omega)
    rw [this]
    intro l hl
    simp [joinSections, Forest.sections] at hl
  | succ N ih =>
    intro l hl
    simp only [joinSections, List.mem_flatMap, List.mem_mergeSort] at hl
    obtain ⟨⟨n, t⟩, hm, hl⟩ := hl
    obtain ⟨⟨q, hq⟩, rfl⟩ := (mem_sections_build level ps n t).1 hm
    have hn : isRustIdent n = true := h _ hq n (List.mem_cons_self ..)
    have hbody := ih (level + 1) (tailsOf n ps)
      (fun p hp => by have := hN _ (mem_tailsOf.1 hp); simp at this; omega)
      (fun q hq m hm => h _ (mem_tailsOf.1 hq) m (List.mem_cons_of_mem _ hm))
    simp only [sectionOf, wrapSection] at hl
    split at hl
    · exact hbody l hl
    · rcases List.mem_append.1 hl with hl | hl
      · split at hl
        · simp at hl; subst hl; rfl
        · cases hl
      · split at hl
        · simp at hl; subst hl; exact hn
        · simp only [List.cons_append, List.mem_cons, List.mem_append, List.not_mem_nil, or_false] at hl
          rcases hl with rfl | hl | rfl
          · exact hn
          · exact hbody l hl
          · rfl

theorem exists_bound (ps : List (List String)) : ∃ N, ∀ p ∈ ps, p.length ≤ N := by
  induction ps with
  | nil => exact ⟨0, fun p hp => by cases hp⟩
  | cons q ps ih =>
    obtain ⟨N, hN⟩ := ih
    refine ⟨max q.length N, fun p hp => ?_⟩
    rcases List.mem_cons.1 hp with rfl | hp
    · exact Nat.le_max_left ..
    · exact Nat.le_trans (hN p hp) (Nat.le_max_right ..)

end Zs
