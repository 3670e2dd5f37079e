import Verif.PropsModules
import Verif.PropsShared
import Verif.InstOrder

/-!
# C80: the same schema gives the same code

The packages of a model, their structures, choices and unions, and the children of the nodes of the module
tree are kept in hash maps of the standard library of Rust, which are traversed in another order in every run
of the program.  What is generated must not depend on this order.
-/

namespace Zs

open Spec

/-! ## Files -/

namespace Spec

/-- The same packages with the same symbols, found in another order: the order of packages and the order of
symbols in each of them. -/
structure Reordered (ps qs : List Pkg) : Prop where
  names : (ps.map Pkg.name).Nodup ∧ (qs.map Pkg.name).Nodup
  there : ∀ p ∈ ps, ∃ q ∈ qs, q.name = p.name ∧ q.symbols.Perm p.symbols
  back : ∀ q ∈ qs, ∃ p ∈ ps, p.name = q.name ∧ p.symbols.Perm q.symbols

/-- No two packages share a directory, no two symbols of a package share a file: different names are still
different after their conversion. -/
structure NoClash (snake : String → String) (ps : List Pkg) : Prop where
  directories : ∀ p ∈ ps, ∀ q ∈ ps, (p.name.map (moduleName snake)).filter (· ≠ "") =
    (q.name.map (moduleName snake)).filter (· ≠ "") → p.name = q.name
  files : ∀ p ∈ ps, (p.symbols.map (moduleName snake)).Nodup

end Spec

variable (snake : String → String)

/-- A sorted list does not depend on the order of what is sorted. -/
theorem mergeSort_perm_eq {xs ys : List String} (h : xs.Perm ys) :
    xs.mergeSort (fun a b => decide (a ≤ b)) = ys.mergeSort (fun a b => decide (a ≤ b)) := by
  have htrans : ∀ a b c : String, decide (a ≤ b) = true → decide (b ≤ c) = true → decide (a ≤ c) = true := by
    intro a b c h1 h2
    simp only [decide_eq_true_eq] at *
    exact String.le_trans h1 h2
  have htotal : ∀ a b : String, (decide (a ≤ b) || decide (b ≤ a)) = true := by
    intro a b
    simp only [Bool.or_eq_true, decide_eq_true_eq]
    exact String.le_total a b
  refine List.Perm.eq_of_pairwise (le := fun a b => decide (a ≤ b) = true) ?_
    (List.pairwise_mergeSort htrans htotal xs) (List.pairwise_mergeSort htrans htotal ys)
    ((List.mergeSort_perm xs _).trans (h.trans (List.mergeSort_perm ys _).symm))
  intro a b _ _ h1 h2
  simp only [decide_eq_true_eq] at h1 h2
  exact String.le_antisymm h1 h2

/-- C80: the module file of a package lists its modules in the same order, however they are found. -/
theorem C80_module_file (name : List String) (xs ys : List String) (h : xs.Perm ys) :
    packageLines snake ⟨name, xs⟩ = packageLines snake ⟨name, ys⟩ := by
  unfold packageLines
  simp only
  rw [mergeSort_perm_eq (h.map _)]

/-- Who has a file, among symbols with different files. -/
theorem symbolFile_perm (name : List String) {xs ys : List String} (h : xs.Perm ys)
    (hn : (xs.map (moduleName snake)).Nodup) (n : String) :
    symbolFile snake ⟨name, xs⟩ xs n = symbolFile snake ⟨name, ys⟩ ys n := by
  have hn' : (ys.map (moduleName snake)).Nodup := (h.map _).nodup_iff.1 hn
  by_cases he : ∃ s ∈ xs, moduleName snake s = n
  · obtain ⟨s, hs, rfl⟩ := he
    rw [symbolFile_eq snake (p := ⟨name, xs⟩) hn hs, symbolFile_eq snake (p := ⟨name, ys⟩) hn' (h.mem_iff.1 hs)]
  · have he' : ∀ s ∈ xs, moduleName snake s ≠ n := fun s hs e => he ⟨s, hs, e⟩
    rw [symbolFile_none snake (p := ⟨name, xs⟩) he',
      symbolFile_none snake (p := ⟨name, ys⟩) fun s hs => he' s (h.mem_iff.2 hs)]

/-- A name that is no identifier ends the generation of a package. -/
theorem generatePackage_panic (p : Pkg) (fs : Files)
    (hp : ¬ (packageLines snake p).all Line.parses = true) : generatePackage snake fs p = .panic := by
  obtain ⟨fs', h, _⟩ := writeSymbols_get snake p p.symbols fs
  simp only [generatePackage, h, Res.ok_bind, writeToFile, hp]
  rfl

theorem generatePackages_panic (ps : List Pkg) (fs : Files) (p : Pkg) (hp : p ∈ ps)
    (hb : ¬ (packageLines snake p).all Line.parses = true) : generatePackages snake ps fs = .panic := by
  induction ps generalizing fs with
  | nil => cases hp
  | cons x ps ih =>
    by_cases hx : (packageLines snake x).all Line.parses = true
    · have hpx : p ∈ ps := by
        rcases List.mem_cons.1 hp with rfl | h
        · exact absurd hx hb
        · exact h
      obtain ⟨fs1, h1, _⟩ := generatePackage_get snake x fs hx
      simp only [generatePackages, h1, Res.ok_bind]
      exact ih fs1 hpx
    · simp only [generatePackages, generatePackage_panic snake x fs hx]
      rfl

theorem same_name_eq {ps : List Pkg} (h : (ps.map Pkg.name).Nodup) {p q : Pkg} (hp : p ∈ ps) (hq : q ∈ ps)
    (e : p.name = q.name) : p = q := by
  induction ps with
  | nil => cases hp
  | cons x ps ih =>
    rw [List.map_cons, List.nodup_cons] at h
    rcases List.mem_cons.1 hp with hp' | hp' <;> rcases List.mem_cons.1 hq with hq' | hq'
    · rw [hp', hq']
    · subst hp'; exact absurd (List.mem_map.2 ⟨q, hq', e.symm⟩) h.1
    · subst hq'; exact absurd (List.mem_map.2 ⟨p, hp', e⟩) h.1
    · exact ih h.2 hp' hq'

theorem dirs_pairwise {ps : List Pkg} (h : (ps.map Pkg.name).Nodup)
    (hd : ∀ p ∈ ps, ∀ q ∈ ps, dirOf snake p = dirOf snake q → p.name = q.name) :
    ps.Pairwise fun p q => dirOf snake p ≠ dirOf snake q := by
  have h' : ps.Pairwise fun p q => p.name ≠ q.name := List.Pairwise.of_map Pkg.name (fun _ _ h => h) h
  exact List.Pairwise.imp_of_mem (fun hp hq hne e => hne (hd _ hp _ hq e)) h'

/-- **C80**: the generated files do not depend on the order in which packages and symbols are found: either
the generator panics in every order, or it writes the same files with the same contents.
Missing: schemas whose names clash (`C80_clash_violated`), and what the code of the symbols is
(`C80_expression_violated`, `C80_instance_violated`). -/
theorem C80_files_partial (root : String) (ps qs : List Pkg) (h : Reordered ps qs) (hc : NoClash snake ps) :
    generateModel snake root ps = generateModel snake root qs := by
  have hdp : ∀ p ∈ ps, ∀ q ∈ ps, dirOf snake p = dirOf snake q → p.name = q.name := hc.directories
  have hdir : ∀ p q : Pkg, q.name = p.name → dirOf snake q = dirOf snake p := by
    intro p q e
    unfold dirOf
    rw [e]
  have hdq : ∀ p ∈ qs, ∀ q ∈ qs, dirOf snake p = dirOf snake q → p.name = q.name := by
    intro p hp q hq e
    obtain ⟨p', hp', ep, _⟩ := h.back p hp
    obtain ⟨q', hq', eq, _⟩ := h.back q hq
    rw [← ep, ← eq]
    exact hdp p' hp' q' hq' (by rw [hdir p p' ep, hdir q q' eq, e])
  have hlines : ∀ p q : Pkg, q.name = p.name → q.symbols.Perm p.symbols →
      packageLines snake q = packageLines snake p := by
    rintro ⟨pn, ps⟩ ⟨qn, qs⟩ e hperm
    cases e
    exact C80_module_file snake pn _ _ hperm
  have htop : topLevelLines (ps.map fun p => p.name.map (moduleName snake)) =
      topLevelLines (qs.map fun p => p.name.map (moduleName snake)) := by
    refine C53_order _ _ fun x => ?_
    simp only [List.mem_map]
    constructor
    · rintro ⟨p, hp, rfl⟩
      obtain ⟨q, hq, e, _⟩ := h.there p hp
      exact ⟨q, hq, by rw [e]⟩
    · rintro ⟨q, hq, rfl⟩
      obtain ⟨p, hp, e, _⟩ := h.back q hq
      exact ⟨p, hp, by rw [e]⟩
  by_cases hall : ∀ p ∈ ps, (packageLines snake p).all Line.parses = true
  · have hall' : ∀ q ∈ qs, (packageLines snake q).all Line.parses = true := by
      intro q hq
      obtain ⟨p, hp, e, hperm⟩ := h.back q hq
      rw [← hlines q p e hperm]
      exact hall p hp
    obtain ⟨fs, h1, hother, hself⟩ := generatePackages_get snake ps (fun _ => none) hall
      (dirs_pairwise snake h.names.1 hdp)
    obtain ⟨fs', h1', hother', hself'⟩ := generatePackages_get snake qs (fun _ => none) hall'
      (dirs_pairwise snake h.names.2 hdq)
    have hfs : fs = fs' := by
      funext ⟨d, n⟩
      by_cases hd : ∃ p ∈ ps, d = dirOf snake p
      · obtain ⟨p, hp, rfl⟩ := hd
        obtain ⟨q, hq, e, hperm⟩ := h.there p hp
        have hq2 := hself' q hq n
        rw [hdir p q e] at hq2
        rw [hself p hp n, hq2, hlines p q e hperm]
        have hsym : symbolFile snake q q.symbols n = symbolFile snake p p.symbols n := by
          obtain ⟨pn, ps⟩ := p
          obtain ⟨qn, qs⟩ := q
          cases e
          exact (symbolFile_perm snake pn hperm.symm (hc.files _ hp) n).symm
        rw [hsym]
      · rw [hother d n fun p hp e => hd ⟨p, hp, e⟩, hother' d n ?_]
        intro q hq e
        obtain ⟨p, hp, ep, _⟩ := h.back q hq
        exact hd ⟨p, hp, by rw [e, hdir q p ep]⟩
    subst hfs
    simp only [generateModel, h1, h1', Res.ok_bind, htop]
  · have ⟨p, hp, hb⟩ : ∃ p ∈ ps, ¬ (packageLines snake p).all Line.parses = true := by
      refine Classical.byContradiction fun hno => hall fun p hp => ?_
      exact Classical.byContradiction fun hb => hno ⟨p, hp, hb⟩
    obtain ⟨q, hq, e, hperm⟩ := h.there p hp
    have hb' : ¬ (packageLines snake q).all Line.parses = true := by rw [hlines p q e hperm]; exact hb
    simp only [generateModel, generatePackages_panic snake ps _ p hp hb,
      generatePackages_panic snake qs _ q hq hb']
    rfl

/-- Two packages, and their symbols, in both orders. -/
example : Reordered [⟨["a", "b"], ["X", "y", "Z"]⟩, ⟨["c"], ["X"]⟩] [⟨["c"], ["X"]⟩, ⟨["a", "b"], ["Z", "X", "y"]⟩] ∧
    NoClash id [⟨["a", "b"], ["X", "y", "Z"]⟩, ⟨["c"], ["X"]⟩] := by
  refine ⟨⟨by decide, ?_, ?_⟩, ⟨?_, ?_⟩⟩
  · simp only [List.mem_cons, List.not_mem_nil, or_false, forall_eq_or_imp, forall_eq, exists_eq_or_imp,
      exists_eq_left]
    decide
  · simp only [List.mem_cons, List.not_mem_nil, or_false, forall_eq_or_imp, forall_eq, exists_eq_or_imp,
      exists_eq_left]
    decide
  · simp only [List.mem_cons, List.not_mem_nil, or_false, forall_eq_or_imp, forall_eq]
    decide +kernel
  · simp only [List.mem_cons, List.not_mem_nil, or_false, forall_eq_or_imp, forall_eq]
    decide +kernel

/-- The files of one package whose names are identifiers. -/
theorem generate_single (root : String) (name ss : List String) (h0 : name ≠ [])
    (hname : ∀ n ∈ name, isRustIdent (moduleName snake n) = true)
    (hss : ∀ s ∈ ss, isRustIdent (moduleName snake s) = true) :
    ∃ fs, generateModel snake root [⟨name, ss⟩] = .ok fs ∧
      ∀ s ∈ ss, fs (name.map (moduleName snake), moduleName snake s) =
        symbolFile snake ⟨name, ss⟩ ss (moduleName snake s) := by
  have hparse := packageLines_parses snake ⟨name, ss⟩ hss
  have hdir : dirOf snake ⟨name, ss⟩ = name.map (moduleName snake) := dirOf_eq snake (p := ⟨name, ss⟩) hname
  obtain ⟨fs, h1, _, hself⟩ := generatePackages_get snake [⟨name, ss⟩] (fun _ => none)
    (fun q hq => by simp only [List.mem_singleton] at hq; subst hq; exact hparse) (by simp)
  have htop : (topLevelLines [name.map (moduleName snake)]).all Line.parses = true := by
    rw [List.all_eq_true]
    refine sections_parse name.length 1 _ (by simp) ?_
    intro q hq n hn
    simp only [List.mem_singleton] at hq
    subst hq
    obtain ⟨m, hm, rfl⟩ := List.mem_map.1 hn
    exact hname m hm
  refine ⟨fs.put ([], rootFile root) (.lines (topLevelLines [name.map (moduleName snake)])), ?_, ?_⟩
  · simp only [generateModel, h1, Res.ok_bind, writeToFile, List.map_cons, List.map_nil, htop, if_true]
    rfl
  · intro s hs
    rw [put_other _ _ (fun e => h0 (List.map_eq_nil_iff.1 (Prod.mk.inj e).1)), ← hdir,
      hself _ (List.mem_singleton_self _), if_neg (ident_ne_mod (hss s hs)), Option.or_none]

theorem nodup_of_nodup_map {α β : Type} (f : α → β) {xs : List α} (h : (xs.map f).Nodup) : xs.Nodup :=
  List.Pairwise.of_map f (fun _ _ hab e => hab (e ▸ rfl)) h

/-- The last of the symbols that share a file has it. -/
theorem symbolFile_last (name xs : List String) (s : String) :
    symbolFile snake ⟨name, xs ++ [s]⟩ (xs ++ [s]) (moduleName snake s) = some (.code name s) := by
  simp [symbolFile]

/-- **C80** for one package whose names are identifiers, exactly: what is generated is independent of the
order in which its symbols are found if and only if no two symbols have names that become equal. -/
theorem C80_symbols_iff (root : String) (name ss : List String) (h0 : name ≠ [])
    (hname : ∀ n ∈ name, isRustIdent (moduleName snake n) = true)
    (hss : ∀ s ∈ ss, isRustIdent (moduleName snake s) = true) (hn : ss.Nodup) :
    (∀ ss', ss'.Perm ss → generateModel snake root [⟨name, ss'⟩] = generateModel snake root [⟨name, ss⟩]) ↔
    ∀ s ∈ ss, ∀ t ∈ ss, moduleName snake s = moduleName snake t → s = t := by
  constructor
  · intro h s hs t ht e
    refine Classical.byContradiction fun hne => ?_
    have hlast : ∀ x ∈ ss, ∃ fs, generateModel snake root [⟨name, ss⟩] = .ok fs ∧
        fs (name.map (moduleName snake), moduleName snake x) = some (.code name x) := by
      intro x hx
      have hperm : (ss.erase x ++ [x]).Perm ss :=
        (List.perm_append_comm (l₁ := ss.erase x) (l₂ := [x])).trans (List.perm_cons_erase hx).symm
      obtain ⟨fs, h1, hget⟩ := generate_single snake root name (ss.erase x ++ [x]) h0 hname
        fun y hy => hss y (hperm.mem_iff.1 hy)
      exact ⟨fs, by rw [← h _ hperm, h1], by
        rw [hget x (hperm.mem_iff.2 hx), symbolFile_last]⟩
    obtain ⟨fs, h1, g1⟩ := hlast s hs
    obtain ⟨fs', h2, g2⟩ := hlast t ht
    rw [h1] at h2
    cases h2
    rw [e, g2] at g1
    injection g1 with g1
    injection g1 with _ g1
    exact hne g1.symm
  · intro h ss' hperm
    have hnd : (ss'.map (moduleName snake)).Nodup := by
      rw [(hperm.map _).nodup_iff]
      exact List.pairwise_map.2 (List.Pairwise.imp_of_mem (fun hx hy hne e => hne (h _ hx _ hy e)) hn)
    refine C80_files_partial snake root _ _ ⟨by simp, ?_, ?_⟩ ⟨?_, ?_⟩
    · intro p hp
      simp only [List.mem_singleton] at hp
      subst hp
      exact ⟨_, List.mem_singleton_self _, rfl, hperm.symm⟩
    · intro p hp
      simp only [List.mem_singleton] at hp
      subst hp
      exact ⟨_, List.mem_singleton_self _, rfl, hperm⟩
    · intro p hp q hq _
      simp only [List.mem_singleton] at hp hq
      subst hp hq
      rfl
    · intro p hp
      simp only [List.mem_singleton] at hp
      subst hp
      exact hnd

example : (∀ n ∈ ["m", "core"], isRustIdent (moduleName id n) = true) ∧
    (∀ s ∈ ["Type", "z_type", "X"], isRustIdent (moduleName id s) = true) ∧
    ["Type", "z_type", "X"].Nodup := by
  refine ⟨?_, ?_, by decide⟩ <;> decide +kernel

/-- Violation of **C80**: the structures `Type` and `z_type` of one package.  Whose code is in their common
file changes from run to run. -/
theorem C80_clash_violated :
    ¬ ∀ ss', ss'.Perm ["Type", "z_type"] →
      generateModel id "" [⟨["p"], ss'⟩] = generateModel id "" [⟨["p"], ["Type", "z_type"]⟩] := by
  intro h
  have := (C80_symbols_iff id "" ["p"] ["Type", "z_type"] (by simp) (by decide +kernel) (by decide +kernel)
    (by decide)).mp h "Type" (by simp) "z_type" (by simp) (by decide +kernel)
  exact absurd this (by decide)

/-! ## Expressions -/

section Expressions

variable {fo : FloatOps} {md : Mode}

namespace Spec

/-- The instances of a template are traversed in two orders with the same outcome: both times the compiler
accepts, or both times it does not, and the code is the same. -/
def SameOutcome (md : Mode) (scopes : Nat → TScope) (e : Expr fo.F) (o₁ o₂ : List Nat) : Prop :=
  ((∃ c, evaluateInstances md scopes e o₁ none = .ok c) ↔
    ∃ c, evaluateInstances md scopes e o₂ none = .ok c) ∧
  ∀ c₁ c₂, evaluateInstances md scopes e o₁ none = .ok c₁ → evaluateInstances md scopes e o₂ none = .ok c₂ →
    sharedText md scopes e c₁ = sharedText md scopes e c₂

/-- In the instances `i` and `j` the expression means the same to the generator: it is accepted in both or in
none, and has the same translation. -/
def MeansTheSame (md : Mode) (scopes : Nat → TScope) (e : Expr fo.F) (i j : Nat) : Prop :=
  (Accepted md (scopes i) e ↔ Accepted md (scopes j) e) ∧
  (Accepted md (scopes i) e → ∀ t, OwnText md scopes e i t ↔ OwnText md scopes e j t)

end Spec

/-- **C80** for the expressions of templates, exactly: the code is the same in all orders if and only if the
expression means the same in all instances. -/
theorem C80_expression_iff (scopes : Nat → TScope) (e : Expr fo.F) (instances : List Nat) :
    (∀ o₁ o₂, o₁.Perm instances → o₂.Perm instances → SameOutcome md scopes e o₁ o₂) ↔
    ∀ i ∈ instances, ∀ j ∈ instances, MeansTheSame md scopes e i j := by
  constructor
  · intro h i hi j hj
    have hfront : ∀ x ∈ instances, (x :: instances.erase x).Perm instances := fun x hx =>
      (List.perm_cons_erase hx).symm
    obtain ⟨h1, h2⟩ := h _ _ (hfront i hi) (hfront j hj)
    obtain ⟨ai, ti⟩ := C66_first_iff (md := md) scopes e i (instances.erase i)
    obtain ⟨aj, tj⟩ := C66_first_iff (md := md) scopes e j (instances.erase j)
    refine ⟨ai.symm.trans (h1.trans aj), fun hacc t => ?_⟩
    obtain ⟨ci, hci⟩ := ai.mpr hacc
    obtain ⟨cj, hcj⟩ := h1.mp ⟨ci, hci⟩
    rw [← ti ci hci t, ← tj cj hcj t, h2 ci cj hci hcj]
  · intro h o₁ o₂ p₁ p₂
    cases o₁ with
    | nil =>
      cases List.Perm.eq_nil (p₁.trans p₂.symm |>.symm)
      exact ⟨Iff.rfl, fun c₁ c₂ e₁ e₂ => by rw [e₁] at e₂; cases e₂; rfl⟩
    | cons i r =>
      cases o₂ with
      | nil => exact absurd (p₁.trans p₂.symm).eq_nil (by simp)
      | cons j r' =>
        obtain ⟨ai, ti⟩ := C66_first_iff (md := md) scopes e i r
        obtain ⟨aj, tj⟩ := C66_first_iff (md := md) scopes e j r'
        obtain ⟨m1, m2⟩ := h i (p₁.mem_iff.1 (by simp)) j (p₂.mem_iff.1 (by simp))
        refine ⟨ai.trans (m1.trans aj.symm), fun c₁ c₂ e₁ e₂ => ?_⟩
        have hiff : ∀ t, sharedText md scopes e c₁ = some t ↔ sharedText md scopes e c₂ = some t := fun t => by
          rw [ti c₁ e₁ t, tj c₂ e₂ t, m2 (ai.mp ⟨_, e₁⟩) t]
        cases hs : sharedText md scopes e c₁ with
        | none =>
          cases hs' : sharedText md scopes e c₂ with
          | none => rfl
          | some t => rw [(hiff t).mpr hs'] at hs; cases hs
        | some t => exact ((hiff t).mp hs).symm

-- `y + y`, where `y` has the same type in all instances
example : ∀ i ∈ [0, 1, 2], ∀ j ∈ [0, 1, 2], MeansTheSame .debug Demo.instanceScope
    (.arith .add (.ident "y") (.ident "y") : Expr tenths.F) i j := by
  intro i _ j _
  exact ⟨⟨fun _ => ⟨⟨_, _, rfl⟩, _, rfl⟩, fun _ => ⟨⟨_, _, rfl⟩, _, rfl⟩⟩, fun _ t => Iff.rfl⟩

/-- Violation of **C80**: `x + y` in `struct S<T> { T x; uint32 y; }` with the instances `S<uint32>` and
`S<uint8>`.  The text that is emitted changes from run to run. -/
theorem C80_expression_violated :
    ¬ ∀ o₁ o₂ : List Nat, o₁.Perm [0, 1] → o₂.Perm [0, 1] →
      SameOutcome .debug Demo.instanceScope Demo.sumXY o₁ o₂ := by
  intro h
  have := (h [0, 1] [1, 0] (List.Perm.refl _) (List.Perm.swap ..)).2 _ _ rfl rfl
  have hl := congrArg (Option.map List.length) this
  revert hl
  decide +kernel

/-- Violation of **C80**: with the instances `S<uint8>` and `S<E>`, where `E` is an enumeration, the same schema
is accepted in one run and makes the compiler panic in the next. -/
theorem C80_accepted_violated :
    ¬ ∀ o₁ o₂ : List Nat, o₁.Perm [1, 2] → o₂.Perm [1, 2] →
      SameOutcome .debug Demo.instanceScope Demo.sumXY o₁ o₂ := by
  intro h
  obtain ⟨c, hc⟩ := (h [1, 2] [2, 1] (List.Perm.refl _) (List.Perm.swap ..)).1.mp ⟨_, rfl⟩
  cases hc

end Expressions

/-! ## Templates -/

namespace Spec

/-- The fields with the types `types` are instantiated in this order, starting with `st`, and in the end the
package is as in `st'` and the fields have the types `refs`. -/
def Instantiates (st : TState) (types : List TRef) (st' : TState) (refs : List TRef) : Prop :=
  ∃ fuel, instantiateFieldTypes fuel st types = some (.ok (st', refs))

end Spec

theorem needed_perm {st : TState} {ts ts' : List TRef} (h : ts.Perm ts') {t : TRef} (ht : Needed st ts t) :
    Needed st ts' t := by
  induction ht with
  | root h' => exact .root (h.mem_iff.1 h')
  | argument _ ha ih => exact .argument ih ha
  | field _ h0 hl hf hft ih => exact .field ih h0 hl hf hft

theorem unambiguous_perm {st : TState} {ts ts' : List TRef} (h : ts.Perm ts') (hu : Unambiguous st ts) :
    Unambiguous st ts' where
  names := fun t t' ht ht' => hu.names t t' (needed_perm h.symm ht) (needed_perm h.symm ht')
  unused := fun t ht h0 =>
    ⟨(hu.unused t (needed_perm h.symm ht) h0).1,
      fun t' ht' => (hu.unused t (needed_perm h.symm ht) h0).2 t' (needed_perm h.symm ht')⟩

/-- Everything that is needed has been made. -/
theorem instantiates_between {st st' : TState} {ts refs : List TRef} (hu : Unambiguous st ts)
    (h : Instantiates st ts st' refs) :
    Between st ts (Needed st ts) st' ∧ refs = ts.map (madeFor st.package) := by
  obtain ⟨fuel, h⟩ := h
  obtain ⟨hb, hr⟩ := between_args (inst := fun s a => instantiateType fuel s a "") (between_type hu fuel) ts _ st
    st' refs (fun t ht => .root ht) (.start st ts) h
  refine ⟨hb.congr fun x => ?_, hr⟩
  constructor
  · rintro (h | ⟨t, ht, h⟩)
    · exact h.elim
    · exact Needed.of_mem ht h
  · exact fun h => .inr (Needed.of_list h)

/-- **C80** for the instances of templates: if the names of the instances are unambiguous, the package is the same
in the end, whatever the order in which the fields are visited, and every field gets the type that is made for
it.  Missing: ambiguous names (`C80_instance_violated`). -/
theorem C80_instances_partial (st st' : TState) (types types' refs : List TRef) (h : types.Perm types')
    (hu : Unambiguous st types) (hi : Instantiates st types st' refs) :
    refs = types.map (madeFor st.package) ∧
    Instantiates st types' st' (types'.map (madeFor st.package)) := by
  obtain ⟨hb, hr⟩ := instantiates_between hu hi
  refine ⟨hr, ?_⟩
  have hu' := unambiguous_perm h hu
  obtain ⟨fuel, r, h2⟩ := ends_args hu' types' _ st (fun t ht => .root ht)
    (fun t ht => ends_type hu' (hb.finite t (.root (h.mem_iff.2 ht))) (.root ht)) (.start st types')
  obtain ⟨hb', hr'⟩ := instantiates_between hu' ⟨fuel, h2⟩
  have hsame : Between st types (Needed st types') st' :=
    hb.congr fun t => ⟨needed_perm h, needed_perm h.symm⟩
  have : st' = r.1 := Has.unique hb'.finite hsame.has hb'.has
  subst this
  rw [← hr']
  exact ⟨fuel, h2⟩

/-- **C80**, exactly: an unambiguous list of types can be instantiated if and only if every template that is needed
exists and has as many parameters as there are arguments, and no instance needs itself. -/
theorem C80_instantiates_iff (st : TState) (types : List TRef) (hu : Unambiguous st types) :
    (∃ st' refs, Instantiates st types st' refs) ↔ ∀ t ∈ types, Finite st t := by
  constructor
  · rintro ⟨st', refs, h⟩ t ht
    exact (instantiates_between hu h).1.finite t (.root ht)
  · intro h
    obtain ⟨fuel, r, h2⟩ := ends_args hu types _ st (fun t ht => .root ht)
      (fun t ht => ends_type hu (h t ht) (.root ht)) (.start st types)
    exact ⟨r.1, r.2, fuel, h2⟩

namespace Demo

/-- `struct Box<T> { T value; }`, `struct Holder<T> { Box<T> box; T other; }` and
`struct Tree<T> { T value; Tree<T> children[]; }` -/
def nestedTemplates : TState where
  package := "p"
  store := fun _ _ => none
  lookup := fun n =>
    if n = "Box" then some (.struct, ⟨["T"], [("value", tName "T")], [], []⟩)
    else if n = "Holder" then some (.struct, ⟨["T"], [("box", tInst "Box" [tName "T"]), ("other", tName "T")], [], []⟩)
    else if n = "Tree" then some (.struct, ⟨["T"], [("value", tName "T"), ("children", tInst "Tree" [tName "T"])], [], []⟩)
    else none

/-- `Holder<int8>` and `Box<X>` -/
def nestedTypes : List TRef := [tInst "Holder" [tName "int8"], tInst "Box" [tName "X"]]

theorem nested_needed (t : TRef) (h : Needed nestedTemplates nestedTypes t) :
    t = tInst "Holder" [tName "int8"] ∨ t = tInst "Box" [tName "X"] ∨ t = tInst "Box" [tName "int8"] ∨
    t = tName "int8" ∨ t = tName "X" := by
  induction h with
  | root h =>
    simp only [nestedTypes, List.mem_cons, List.not_mem_nil, or_false] at h
    rcases h with rfl | rfl <;> simp
  | argument _ ha ih =>
    rcases ih with rfl | rfl | rfl | rfl | rfl <;>
      simp only [tInst, tName, TRef.targs, List.mem_cons, List.not_mem_nil, or_false] at ha <;>
      subst ha <;> simp [tName]
  | @field t k d f _ h0 hl hf hft ih =>
    rcases ih with rfl | rfl | rfl | rfl | rfl
    · have hd : nestedTemplates.lookup (tInst "Holder" [tName "int8"]).name =
          some (.struct, ⟨["T"], [("box", tInst "Box" [tName "T"]), ("other", tName "T")], [], []⟩) := rfl
      rw [hd] at hl
      cases hl
      simp only [List.mem_cons, List.not_mem_nil, or_false] at hf
      rcases hf with rfl | rfl
      · exact .inr (.inr (.inl rfl))
      · exact absurd rfl hft
    · have hd : nestedTemplates.lookup (tInst "Box" [tName "X"]).name =
          some (.struct, ⟨["T"], [("value", tName "T")], [], []⟩) := rfl
      rw [hd] at hl
      cases hl
      simp only [List.mem_cons, List.not_mem_nil, or_false] at hf
      subst hf
      exact absurd rfl hft
    · have hd : nestedTemplates.lookup (tInst "Box" [tName "int8"]).name =
          some (.struct, ⟨["T"], [("value", tName "T")], [], []⟩) := rfl
      rw [hd] at hl
      cases hl
      simp only [List.mem_cons, List.not_mem_nil, or_false] at hf
      subst hf
      exact absurd rfl hft
    · exact absurd rfl h0
    · exact absurd rfl h0

end Demo

/-- `Holder<int8>` and `Box<X>`: three instances, with different names. -/
example : Unambiguous Demo.nestedTemplates Demo.nestedTypes ∧
    (∃ st' refs, Instantiates Demo.nestedTemplates Demo.nestedTypes st' refs ∧
      (st'.store .struct "Holderint8").isSome ∧ (st'.store .struct "Boxint8").isSome ∧
      (st'.store .struct "BoxX").isSome) := by
  refine ⟨⟨?_, ?_⟩, ⟨_, _, ⟨4, rfl⟩, by decide +kernel, by decide +kernel, by decide +kernel⟩⟩
  · intro t t' ht ht' h0 h0' e
    rcases Demo.nested_needed t ht with rfl | rfl | rfl | rfl | rfl <;>
      rcases Demo.nested_needed t' ht' with rfl | rfl | rfl | rfl | rfl <;>
      first
        | exact ⟨rfl, rfl⟩
        | exact absurd rfl h0
        | exact absurd rfl h0'
        | exact absurd e (by decide +kernel)
  · intro t ht h0
    refine ⟨fun _ => rfl, fun t' ht' h0' e => ?_⟩
    rcases Demo.nested_needed t ht with rfl | rfl | rfl | rfl | rfl <;>
      rcases Demo.nested_needed t' ht' with rfl | rfl | rfl | rfl | rfl <;>
      first
        | exact absurd rfl h0
        | exact absurd rfl h0'
        | exact absurd e (by decide +kernel)

/-- Violation of **C80**: the fields `Pair<A, BC> x; Pair<AB, C> y;`.  Both instances are called `PairABC`; which of
them the package gets depends on the order in which the structures with these fields are visited. -/
theorem C80_instance_violated :
    ∃ st₁ st₂ refs₁ refs₂ d₁ d₂,
      Instantiates templates [tInst "Pair" [tName "A", tName "BC"], tInst "Pair" [tName "AB", tName "C"]] st₁ refs₁ ∧
      Instantiates templates [tInst "Pair" [tName "AB", tName "C"], tInst "Pair" [tName "A", tName "BC"]] st₂ refs₂ ∧
      st₁.store .struct "PairABC" = some d₁ ∧ st₂.store .struct "PairABC" = some d₂ ∧
      d₁.fields.map (fun f => f.2.name) = ["A", "BC"] ∧ d₂.fields.map (fun f => f.2.name) = ["AB", "C"] ∧
      refs₁.map TRef.name = ["PairABC", "PairABC"] ∧ refs₂.map TRef.name = ["PairABC", "PairABC"] :=
  ⟨_, _, _, _, _, _, ⟨2, rfl⟩, ⟨2, rfl⟩, rfl, rfl, by decide +kernel, by decide +kernel, by decide +kernel,
    by decide +kernel⟩

/-- Violation of **C67** for templates: `struct Tree<T> { T value; Tree<T> children[]; }` is not instantiated by any
number of steps: the recursion of the compiler does not end. -/
theorem C67_template_violated (fuel : Nat) :
    instantiateType fuel Demo.nestedTemplates (tInst "Tree" [tName "int8"]) "" = none := by
  induction fuel with
  | zero => rfl
  | succ fuel ih =>
    cases fuel with
    | zero => rfl
    | succ fuel =>
      have hl : Demo.nestedTemplates.lookup "Tree" =
        some (.struct, ⟨["T"], [("value", tName "T"), ("children", tInst "Tree" [tName "T"])], [], []⟩) := rfl
      have harg : instantiateType (fuel + 1) Demo.nestedTemplates (tName "int8") "" =
        some (.ok (Demo.nestedTemplates, tName "int8")) := by
        simp [instantiateType, tName, TRef.targs]
      have hw : (tInst "Tree" [tName "T"]).withTargs [tName "int8"] = tInst "Tree" [tName "int8"] := rfl
      rw [instantiateType]
      have h0 : (tInst "Tree" [tName "int8"]).targs ≠ [] := by simp [tInst, TRef.targs]
      have hn : (tInst "Tree" [tName "int8"]).name = "Tree" := rfl
      have ht : (tInst "Tree" [tName "int8"]).targs = [tName "int8"] := rfl
      have hs : ∀ n, Demo.nestedTemplates.store .struct n = none := fun _ => rfl
      have hsub : substLookup (["T"].zip [tName "int8"]) "T" = some (tName "int8") := rfl
      have hv : (tName "T").targs = [] := rfl
      have hv' : (tName "T").name = "T" := rfl
      have hc : (tInst "Tree" [tName "T"]).targs = [tName "T"] := rfl
      simp only [h0, if_false, hn, hl]
      rw [if_neg (by rw [ht]; simp), hs]
      simp only [ht, instArgs, harg, Run.bind, instFields, instField, hv, hv', hc, hsub, List.map_cons, List.map_nil,
        Option.getD_some, hw, ih, ne_eq, not_true, if_false, List.cons_ne_nil, not_false_eq_true, if_true]

end Zs
