import Verif.ModulesLemmas

/-!
# C53, C54: the generated files form a Rust crate

* `C53`: the top-level file declares the module of every package, and nothing else with a file of its own;
  its text does not depend on the order in which the packages were found.
* `C54`: every symbol of the schema is found in the module in which generated code looks for it.

Both are violated: if the name of a package is the beginning of the name of another package, its module is
not declared; names that differ in the schema can be equal after conversion, or be keywords of Rust.
-/

namespace Zs

open Spec

/-! ## C53 -/

/-- **C53**, exactly: the modules with a file of their own in the top-level file are the packages that are
not the beginning of another package.  Missing: the other packages (`C53_prefix_violated`). -/
theorem C53_package_modules_partial (packages : List (List String)) (hne : ∀ p ∈ packages, "" ∉ p)
    (path : List String) (hpath : path ≠ []) :
    FileModule (topLevelLines packages) path ↔
      path ∈ packages ∧ ∀ q ∈ packages, path <+: q → q = path := by
  have h := declared_build path true 1 packages hne
  unfold FileModule
  refine (show _ ↔ _ from h).trans ?_
  simp only [true_iff]
  constructor
  · rintro ⟨_, ⟨q, hq, hp⟩, hall⟩
    exact ⟨hall q hq hp ▸ hq, hall⟩
  · rintro ⟨hm, hall⟩
    exact ⟨hpath, ⟨path, hm, List.prefix_refl _⟩, hall⟩

/-- **C53** for packages none of which is the beginning of another: every package is declared. -/
theorem C53_every_package_partial (packages : List (List String)) (hne : ∀ p ∈ packages, "" ∉ p)
    (hsep : ∀ p ∈ packages, ∀ q ∈ packages, p <+: q → q = p) (p : List String) (hp : p ∈ packages)
    (h0 : p ≠ []) : FileModule (topLevelLines packages) p :=
  (C53_package_modules_partial packages hne p h0).2 ⟨hp, hsep p hp⟩

/-- Two packages with a common component. -/
example : (∀ p ∈ [["m", "core"], ["m", "user"]], "" ∉ p) ∧
    (∀ p ∈ [["m", "core"], ["m", "user"]], ∀ q ∈ [["m", "core"], ["m", "user"]], p <+: q → q = p) := by
  decide

/-- **C53**: nothing is declared twice, so the file is accepted by Rust. -/
theorem C53_no_duplicates (packages : List (List String)) (hne : ∀ p ∈ packages, "" ∉ p) :
    NoDuplicates (topLevelLines packages) := by
  obtain ⟨N, hN⟩ := exists_bound packages
  exact declared_build_nodup N 1 packages hN hne

example : ∀ p ∈ [["m"], ["m", "core"], ["m", "user"]], "" ∉ p := by decide

/-- **C53**: the text of the top-level file is determined by the set of packages; in whatever order the
hash maps are traversed, it is the same. -/
theorem C53_order (packages packages' : List (List String)) (h : ∀ p, p ∈ packages ↔ p ∈ packages') :
    topLevelLines packages = topLevelLines packages' := by
  obtain ⟨N, hN⟩ := exists_bound packages
  exact joinSections_build_congr N 1 packages packages' hN h

example : ∀ p, p ∈ [["m", "core"], ["m", "user"]] ↔ p ∈ [["m", "user"], ["m", "core"]] := by
  intro p; simp [or_comm]

/-- Violation of **C53**: of the packages `a` and `a.b`, the module of `a` is not declared. -/
theorem C53_prefix_violated : ¬FileModule (topLevelLines [["a"], ["a", "b"]]) ["a"] := by
  rw [C53_package_modules_partial _ (by decide) _ (by decide)]
  rintro ⟨_, h⟩
  have := h ["a", "b"] (by decide) (by decide)
  revert this
  decide

/-! ## C54 -/

variable (snake : String → String)

/-- The directory and the module of a package. -/
def Spec.modulePath (p : Pkg) : List String := p.name.map (moduleName snake)

/-- What the names of a schema must fulfil. -/
structure Spec.WellNamed (rootPackage : String) (packages : List Pkg) : Prop where
  /-- package names are not empty -/
  named : ∀ p ∈ packages, p.name ≠ []
  /-- names become identifiers of Rust -/
  idents : ∀ p ∈ packages, (∀ n ∈ p.name, isRustIdent (moduleName snake n) = true) ∧
    ∀ s ∈ p.symbols, isRustIdent (moduleName snake s) = true
  /-- no package is the beginning of another one -/
  separate : packages.Pairwise fun p q =>
    ¬modulePath snake p <+: modulePath snake q ∧ ¬modulePath snake q <+: modulePath snake p
  /-- the symbols of a package have different modules -/
  symbols : ∀ p ∈ packages, (p.symbols.map (moduleName snake)).Nodup
  /-- no package is called like the top-level file -/
  notRoot : ∀ p ∈ packages, modulePath snake p ≠ [rootFile rootPackage]

theorem ident_ne_empty {s : String} (h : isRustIdent s = true) : s ≠ "" := by
  rintro rfl
  revert h
  decide

theorem ident_ne_mod {s : String} (h : isRustIdent s = true) : s ≠ "mod" := by
  rintro rfl
  revert h
  decide

theorem dirOf_eq {p : Pkg} (h : ∀ n ∈ p.name, isRustIdent (moduleName snake n) = true) :
    dirOf snake p = modulePath snake p := by
  unfold dirOf modulePath
  rw [List.filter_eq_self]
  intro n hn
  obtain ⟨m, hm, rfl⟩ := List.mem_map.1 hn
  simpa using ident_ne_empty (h m hm)

theorem symbolFile_eq {p : Pkg} (hn : (p.symbols.map (moduleName snake)).Nodup) {s : String}
    (hs : s ∈ p.symbols) :
    symbolFile snake p p.symbols (moduleName snake s) = some (.code p.name s) := by
  unfold symbolFile
  have hex : ∃ x ∈ p.symbols.reverse, decide (moduleName snake x = moduleName snake s) = true :=
    ⟨s, List.mem_reverse.2 hs, by simp⟩
  cases hf : p.symbols.reverse.find? fun x => moduleName snake x = moduleName snake s with
  | none =>
    obtain ⟨x, hx, he⟩ := hex
    exact absurd he (by simpa using List.find?_eq_none.1 hf x hx)
  | some x =>
    have hx : moduleName snake x = moduleName snake s := by simpa using List.find?_some hf
    have hm := List.mem_reverse.1 (List.mem_of_find?_eq_some hf)
    have : x = s := by
      have := eq_of_fst_eq (xs := p.symbols.map fun x => (moduleName snake x, x))
        (by simpa [List.map_map, Function.comp_def] using hn)
        (a := (moduleName snake x, x)) (b := (moduleName snake s, s))
        (List.mem_map.2 ⟨x, hm, rfl⟩) (List.mem_map.2 ⟨s, hs, rfl⟩) hx
      exact (Prod.mk.inj this).2
    subst this; rfl

theorem symbolFile_none {p : Pkg} {n : String} (h : ∀ s ∈ p.symbols, moduleName snake s ≠ n) :
    symbolFile snake p p.symbols n = none := by
  unfold symbolFile
  rw [Option.map_eq_none_iff, List.find?_eq_none]
  intro x hx
  simpa using h x (List.mem_reverse.1 hx)

/-- The files of a schema whose names are in order. -/
theorem generateModel_files (root : String) (ps : List Pkg) (h : WellNamed snake root ps) :
    ∃ fs, generateModel snake root ps = .ok fs ∧
      fs ([], rootFile root) = some (.lines (topLevelLines (ps.map (modulePath snake)))) ∧
      (∀ n, n ≠ rootFile root → fs ([], n) = none) ∧
      (∀ d n, d ≠ [] → (∀ p ∈ ps, d ≠ modulePath snake p) → fs (d, n) = none) ∧
      (∀ p ∈ ps, fs (modulePath snake p, "mod") = some (.lines (packageLines snake p))) ∧
      (∀ p ∈ ps, ∀ s ∈ p.symbols,
        fs (modulePath snake p, moduleName snake s) = some (.code p.name s)) := by
  have hdir : ∀ p ∈ ps, dirOf snake p = modulePath snake p := fun p hp => dirOf_eq snake (h.idents p hp).1
  have hpath : ∀ p ∈ ps, modulePath snake p ≠ [] := fun p hp e =>
    h.named p hp (List.map_eq_nil_iff.1 e)
  have hpw : ps.Pairwise fun p q => dirOf snake p ≠ dirOf snake q := by
    refine List.Pairwise.imp_of_mem ?_ h.separate
    intro p q hp hq hsep e
    rw [hdir p hp, hdir q hq] at e
    exact hsep.1 (e ▸ List.prefix_refl _)
  obtain ⟨fs, h1, hother, hself⟩ := generatePackages_get snake ps (fun _ => none)
    (fun p hp => packageLines_parses snake p (h.idents p hp).2) hpw
  have hparse : (topLevelLines (ps.map (modulePath snake))).all Line.parses = true := by
    obtain ⟨N, hN⟩ := exists_bound (ps.map (modulePath snake))
    rw [List.all_eq_true]
    refine sections_parse N 1 _ hN ?_
    intro q hq n hn
    obtain ⟨p, hp, rfl⟩ := List.mem_map.1 hq
    obtain ⟨m, hm, rfl⟩ := List.mem_map.1 hn
    exact (h.idents p hp).1 m hm
  refine ⟨fs.put ([], rootFile root) (.lines (topLevelLines (ps.map (modulePath snake)))), ?_, ?_, ?_, ?_,
    ?_, ?_⟩
  · simp only [generateModel, h1, Res.ok_bind, writeToFile]
    have e : (ps.map fun p => p.name.map (moduleName snake)) = ps.map (modulePath snake) := rfl
    rw [e]
    simp only [hparse, if_true]
    rfl
  · exact put_same _ _ _
  · intro n hn
    rw [put_other _ _ (fun e => hn (Prod.mk.inj e).2)]
    exact hother [] n fun p hp e => hpath p hp (by rw [← hdir p hp]; exact e.symm)
  · intro d n hd hno
    rw [put_other _ _ (fun e => hd (Prod.mk.inj e).1)]
    exact hother d n fun p hp e => hno p hp (e.trans (hdir p hp))
  · intro p hp
    rw [put_other _ _ (fun e => hpath p hp (Prod.mk.inj e).1), ← hdir p hp, hself p hp, if_pos rfl]
  · intro p hp s hs
    rw [put_other _ _ (fun e => hpath p hp (Prod.mk.inj e).1), ← hdir p hp, hself p hp,
      if_neg (ident_ne_mod ((h.idents p hp).2 s hs)), symbolFile_eq snake (h.symbols p hp) hs]
    rfl

theorem separate_eq {root : String} {ps : List Pkg} (h : WellNamed snake root ps) {p q : Pkg}
    (hp : p ∈ ps) (hq : q ∈ ps) (hpre : modulePath snake p <+: modulePath snake q) : p = q := by
  have hsep := h.separate
  clear h
  induction ps with
  | nil => cases hp
  | cons x ps ih =>
    rw [List.pairwise_cons] at hsep
    rcases List.mem_cons.1 hp with hp' | hp' <;> rcases List.mem_cons.1 hq with hq' | hq'
    · rw [hp', hq']
    · subst hp'; exact absurd hpre (hsep.1 q hq').1
    · subst hq'; exact absurd hpre (hsep.1 p hp').2
    · exact ih hp' hq' hsep.2

/-- **C54** for schemas whose names are in order: code is generated, every file is accepted by Rust, and in
the module in which generated code looks for a symbol there is the code of this symbol and nothing else.
Missing: schemas whose names are not in order; see the theorems below, one for each condition. -/
theorem C54_symbols_found_partial (root : String) (ps : List Pkg) (h : WellNamed snake root ps) :
    ∃ fs, generateModel snake root ps = .ok fs ∧ Consistent fs (rootFile root) ∧
      ∀ p ∈ ps, ∀ s ∈ p.symbols, ∀ t,
        ModuleAt fs (rootFile root) (referencePath snake p.name s) t ↔ t = .code p.name s := by
  obtain ⟨fs, hgen, hroot, hroot', hnone, hmod, hsym⟩ := generateModel_files snake root ps h
  have hpath : ∀ p ∈ ps, modulePath snake p ≠ [] := fun p hp e =>
    h.named p hp (List.map_eq_nil_iff.1 e)
  have hne : ∀ q ∈ ps.map (modulePath snake), "" ∉ q := by
    intro q hq he
    obtain ⟨p, hp, rfl⟩ := List.mem_map.1 hq
    obtain ⟨m, hm, e⟩ := List.mem_map.1 he
    exact ident_ne_empty ((h.idents p hp).1 m hm) e
  have htop : ∀ path, path ≠ [] → (FileModule (topLevelLines (ps.map (modulePath snake))) path ↔
      ∃ p ∈ ps, path = modulePath snake p) := by
    intro path h0
    rw [C53_package_modules_partial _ hne path h0]
    constructor
    · rintro ⟨hm, _⟩
      obtain ⟨p, hp, e⟩ := List.mem_map.1 hm
      exact ⟨p, hp, e.symm⟩
    · rintro ⟨p, hp, rfl⟩
      refine ⟨List.mem_map.2 ⟨p, hp, rfl⟩, ?_⟩
      intro q hq hpre
      obtain ⟨r, hr, rfl⟩ := List.mem_map.1 hq
      rw [separate_eq snake h hp hr hpre]
  have htop0 : ¬FileModule (topLevelLines (ps.map (modulePath snake))) [] := by
    intro hf
    exact ((declared_build [] true 1 _ hne).1 hf).1 rfl
  have hmodNone : ∀ p ∈ ps, ∀ s, fs (modulePath snake p ++ [moduleName snake s], "mod") = none := by
    intro p hp s
    refine hnone _ _ (by simp) ?_
    intro q hq e
    have hpre : modulePath snake p <+: modulePath snake q := ⟨_, e⟩
    have := separate_eq snake h hp hq hpre
    subst this
    have := congrArg List.length e
    simp at this
  have hpkg : ∀ p ∈ ps, ModuleAt fs (rootFile root) (modulePath snake p) (.lines (packageLines snake p)) := by
    intro p hp
    have hdec := (htop _ (hpath p hp)).2 ⟨p, hp, rfl⟩
    obtain ⟨dir, name, e⟩ : ∃ dir name, modulePath snake p = dir ++ [name] :=
      ⟨_, _, (List.dropLast_concat_getLast (hpath p hp)).symm⟩
    refine ModuleAt.child (m := []) (ModuleAt.top hroot) hdec ⟨dir, name, e, Or.inr ⟨?_, hmod p hp⟩⟩
    by_cases hd : dir = []
    · subst hd
      exact hroot' name fun en => h.notRoot p hp (by rw [e, en]; rfl)
    · refine hnone dir name hd ?_
      intro q hq eq
      have hpre : modulePath snake q <+: modulePath snake p := ⟨[name], by rw [← eq, e]⟩
      have := separate_eq snake h hq hp hpre
      subst this
      have := congrArg List.length (e.symm.trans eq.symm)
      simp at this
  have hclass : ∀ m t, ModuleAt fs (rootFile root) m t →
      (m = [] ∧ t = .lines (topLevelLines (ps.map (modulePath snake)))) ∨
      (∃ p ∈ ps, m = modulePath snake p ∧ t = .lines (packageLines snake p)) ∨
      (∃ p ∈ ps, ∃ s ∈ p.symbols, m = modulePath snake p ++ [moduleName snake s] ∧
        t = .code p.name s) := by
    intro m t hm
    induction hm with
    | top ht =>
      rw [hroot] at ht
      cases ht
      exact Or.inl ⟨rfl, rfl⟩
    | @child m path ls t _ hf hfile ih =>
      rcases ih with ⟨rfl, e⟩ | ⟨p, hp, rfl, e⟩ | ⟨p, hp, s, hs, rfl, e⟩
      · cases e
        by_cases h0 : path = []
        · subst h0; exact absurd hf htop0
        · obtain ⟨p, hp, rfl⟩ := (htop path h0).1 hf
          refine Or.inr (Or.inl ⟨p, hp, rfl, ?_⟩)
          obtain ⟨dir, name, e, hx | hx⟩ := hfile
          · rw [List.nil_append, hmod p hp] at hx; cases hx.2
          · rw [List.nil_append, hmod p hp] at hx
            exact (Option.some.inj hx.2).symm
      · cases e
        obtain ⟨s, hs, rfl⟩ := (fileModule_package snake p path).1 hf
        refine Or.inr (Or.inr ⟨p, hp, s, hs, rfl, ?_⟩)
        obtain ⟨dir, name, e, hx | hx⟩ := hfile
        · obtain ⟨e1, e2⟩ := List.append_inj' e rfl
          injection e2 with e2 _
          subst e1; subst e2
          rw [hsym p hp s hs] at hx
          exact (Option.some.inj hx.1).symm
        · rw [hmodNone p hp s] at hx; cases hx.2
      · cases e
  refine ⟨fs, hgen, ?_, ?_⟩
  · intro m ls hm
    rcases hclass m _ hm with ⟨_, e⟩ | ⟨p, hp, _, e⟩ | ⟨p, hp, s, hs, _, e⟩
    · cases e; exact C53_no_duplicates _ hne
    · cases e
      unfold NoDuplicates
      rw [declared_packageLines, List.map_map]
      have : (Prod.fst ∘ fun n : String => ([n], true)) = fun n => [n] := rfl
      rw [this]
      have hnd := (List.mergeSort_perm (p.symbols.map (moduleName snake))
        (fun a b => decide (a ≤ b))).nodup_iff.2 (h.symbols p hp)
      exact List.Pairwise.map (R := fun a b => a ≠ b) _
        (fun a b (hab : a ≠ b) e => hab (List.cons.inj e).1) hnd
    · cases e
  · intro p hp s hs t
    constructor
    · intro hm
      rcases hclass _ t hm with ⟨e, _⟩ | ⟨q, hq, e, _⟩ | ⟨q, hq, s', hs', e, et⟩
      · simp [referencePath] at e
      · have hpre : modulePath snake p <+: modulePath snake q := ⟨_, e⟩
        have := separate_eq snake h hp hq hpre
        subst this
        have := congrArg List.length e
        simp [referencePath, modulePath] at this
      · have e' : modulePath snake p ++ [moduleName snake s] =
            modulePath snake q ++ [moduleName snake s'] := e
        obtain ⟨e1, e2⟩ := List.append_inj' e' rfl
        have := separate_eq snake h hp hq (e1 ▸ List.prefix_refl _)
        subst this
        injection e2 with e2 _
        have h1 := symbolFile_eq snake (h.symbols p hp) hs
        have h2 := symbolFile_eq snake (h.symbols p hp) hs'
        rw [e2, h2] at h1
        rw [et]
        exact Option.some.inj h1
    · rintro rfl
      refine ModuleAt.child (hpkg p hp) ((fileModule_package snake p _).2 ⟨s, hs, rfl⟩) ?_
      exact ⟨_, _, rfl, Or.inl ⟨hsym p hp s hs, hmodNone p hp s⟩⟩

/-- A schema whose names are in order, with a name that is converted (`type`). -/
example : WellNamed id "" [⟨["m", "core"], ["point", "type"]⟩, ⟨["m", "user"], ["point"]⟩] where
  named := by decide
  idents := by decide +kernel
  separate := by decide +kernel
  symbols := by decide +kernel
  notRoot := by decide +kernel

/-! ## What is missing -/

/-- Violation of **C54**: a symbol whose module name is a keyword of Rust, for example `loop`, makes the
compiler panic, whatever else is in the schema. -/
theorem C54_keyword_violated (root : String) (ps : List Pkg) (p : Pkg) (hp : p ∈ ps) (s : String)
    (hs : s ∈ p.symbols) (hk : isRustIdent (moduleName snake s) = false) :
    generateModel snake root ps = .panic := by
  have hbad : (packageLines snake p).all Line.parses = false := by
    rw [List.all_eq_false]
    refine ⟨.file (moduleName snake s), ?_, by simp [Line.parses, hk]⟩
    simp only [packageLines, List.mem_append, List.mem_map, List.mem_mergeSort]
    exact Or.inl (Or.inr ⟨_, ⟨s, hs, rfl⟩, rfl⟩)
  have hone : ∀ q fs, (∃ fs', generatePackage snake fs q = .ok fs' ∧
      (packageLines snake q).all Line.parses = true) ∨ generatePackage snake fs q = .panic := by
    intro q fs
    cases hq : (packageLines snake q).all Line.parses with
    | true =>
      obtain ⟨fs', h, _⟩ := generatePackage_get snake q fs hq
      exact Or.inl ⟨fs', h, rfl⟩
    | false =>
      obtain ⟨fs', h, _⟩ := writeSymbols_get snake q q.symbols fs
      refine Or.inr ?_
      simp only [generatePackage, h, Res.ok_bind, writeToFile, hq, Bool.false_eq_true, if_false]
  have hall : ∀ fs, generatePackages snake ps fs = .panic := by
    induction ps with
    | nil => cases hp
    | cons q ps ih =>
      intro fs
      rcases hone q fs with ⟨fs', h, hq⟩ | h
      · simp only [generatePackages, h, Res.ok_bind]
        rcases List.mem_cons.1 hp with rfl | hp'
        · rw [hbad] at hq; cases hq
        · exact ih hp' fs'
      · simp only [generatePackages, h, Res.panic_bind]
  simp only [generateModel, hall, Res.panic_bind]

/-- `loop` is an identifier in zserio; its conversion to snake case does not change it. -/
example : isRustIdent (moduleName id "loop") = false ∧ isRustIdent (moduleName id "match") = false ∧
    isRustIdent (moduleName id "type") = true := by decide +kernel

/-- Violation of **C54**: the symbols `Type` and `z_type` of one package have the same module.  The file of
the first is overwritten, and which one is first depends on the order of a hash map; the module is declared
twice. -/
theorem C54_collision_violated (hp : isRustIdent (moduleName snake "p") = true)
    (hz : isRustIdent (snake "z_type") = true) :
    ∃ fs fs', generateModel snake "" [⟨["p"], ["Type", "z_type"]⟩] = .ok fs ∧
      generateModel snake "" [⟨["p"], ["z_type", "Type"]⟩] = .ok fs' ∧
      referencePath snake ["p"] "Type" = referencePath snake ["p"] "z_type" ∧
      fs ([moduleName snake "p"], moduleName snake "Type") = some (.code ["p"] "z_type") ∧
      fs' ([moduleName snake "p"], moduleName snake "Type") = some (.code ["p"] "Type") ∧
      fs ([moduleName snake "p"], "mod") =
        some (.lines (packageLines snake ⟨["p"], ["Type", "z_type"]⟩)) ∧
      ¬NoDuplicates (packageLines snake ⟨["p"], ["Type", "z_type"]⟩) := by
  have e1 : moduleName snake "Type" = snake "z_type" := by
    unfold moduleName; rw [show removeReserved "Type" = "z_type" by decide +kernel]
  have e2 : moduleName snake "z_type" = snake "z_type" := by
    unfold moduleName; rw [show removeReserved "z_type" = "z_type" by decide +kernel]
  have key : ∀ ss : List String, (∀ s ∈ ss, s = "Type" ∨ s = "z_type") →
      ∃ fs, generateModel snake "" [⟨["p"], ss⟩] = .ok fs ∧
        fs ([moduleName snake "p"], "mod") = some (.lines (packageLines snake ⟨["p"], ss⟩)) ∧
        fs ([moduleName snake "p"], snake "z_type") =
          symbolFile snake ⟨["p"], ss⟩ ss (snake "z_type") := by
    intro ss hss
    have hparse := packageLines_parses snake ⟨["p"], ss⟩ (fun s hs => by
      rcases hss s hs with rfl | rfl
      · rw [e1]; exact hz
      · rw [e2]; exact hz)
    have hdir : dirOf snake ⟨["p"], ss⟩ = [moduleName snake "p"] :=
      dirOf_eq snake (p := ⟨["p"], ss⟩) (fun n hn => by
        have : n = "p" := by simpa using hn
        subst this; exact hp)
    obtain ⟨fs, h1, hother, hself⟩ := generatePackages_get snake [⟨["p"], ss⟩] (fun _ => none)
      (fun q hq => by simp only [List.mem_singleton] at hq; subst hq; exact hparse) (by simp)
    have htop : (topLevelLines [[moduleName snake "p"]]).all Line.parses = true := by
      rw [List.all_eq_true]
      refine sections_parse 1 1 _ (by simp) ?_
      intro q hq n hn
      simp only [List.mem_singleton] at hq
      subst hq
      simp only [List.mem_singleton] at hn
      subst hn
      exact hp
    refine ⟨fs.put ([], "lib") (.lines (topLevelLines [[moduleName snake "p"]])), ?_, ?_, ?_⟩
    · simp only [generateModel, h1, Res.ok_bind, writeToFile, List.map_cons, List.map_nil, htop, if_true]
      rfl
    · rw [put_other _ _ (by simp), ← hdir, hself _ (List.mem_singleton_self _), if_pos rfl]
    · rw [put_other _ _ (by simp), ← hdir, hself _ (List.mem_singleton_self _),
        if_neg (ident_ne_mod hz), Option.or_none]
  obtain ⟨fs, h1, hm1, hs1⟩ := key ["Type", "z_type"] (by simp)
  obtain ⟨fs', h2, hm2, hs2⟩ := key ["z_type", "Type"] (by simp)
  refine ⟨fs, fs', h1, h2, ?_, ?_, ?_, hm1, ?_⟩
  · simp [referencePath, e1, e2]
  · rw [e1, hs1]; simp [symbolFile, e2]
  · rw [e1, hs2]; simp [symbolFile, e1]
  · unfold NoDuplicates
    rw [declared_packageLines, List.map_map]
    have : (Prod.fst ∘ fun n : String => ([n], true)) = fun n => [n] := rfl
    rw [this]
    intro hn
    have hn' := ((List.mergeSort_perm _ _).map (fun n : String => [n])).nodup_iff.1 hn
    simp [e1, e2] at hn'

/-- The conditions hold for a conversion that keeps these names. -/
example : isRustIdent (moduleName id "p") = true ∧ isRustIdent (id "z_type") = true := by decide +kernel

/-- Violation of **C54**: the packages `a` and `a.b`.  Code is generated for both, but no module of the
crate has the code of a symbol of `a`. -/
theorem C54_prefix_violated :
    ∃ fs, generateModel id "" [⟨["a"], ["x"]⟩, ⟨["a", "b"], ["y"]⟩] = .ok fs ∧
      fs (["a"], "x") = some (.code ["a"] "x") ∧
      ∀ m, ¬ModuleAt fs "lib" m (.code ["a"] "x") := by
  have hpar : ∀ q ∈ [(⟨["a"], ["x"]⟩ : Pkg), ⟨["a", "b"], ["y"]⟩],
      (packageLines id q).all Line.parses = true := by
    intro q hq
    refine packageLines_parses id q ?_
    simp only [List.mem_cons, List.not_mem_nil, or_false] at hq
    rcases hq with rfl | rfl <;> decide +kernel
  have hd1 : dirOf id ⟨["a"], ["x"]⟩ = ["a"] := by decide +kernel
  have hd2 : dirOf id ⟨["a", "b"], ["y"]⟩ = ["a", "b"] := by decide +kernel
  obtain ⟨fs, h1, hother, hself⟩ := generatePackages_get id [⟨["a"], ["x"]⟩, ⟨["a", "b"], ["y"]⟩]
    (fun _ => none) hpar (by simp [hd1, hd2])
  have hnames : ([⟨["a"], ["x"]⟩, ⟨["a", "b"], ["y"]⟩].map fun p : Pkg => p.name.map (moduleName id)) =
      [["a"], ["a", "b"]] := by decide +kernel
  have htop : (topLevelLines [["a"], ["a", "b"]]).all Line.parses = true := by
    rw [List.all_eq_true]
    exact sections_parse 2 1 _ (by decide) (by decide +kernel)
  have hf : ∀ path, FileModule (topLevelLines [["a"], ["a", "b"]]) path → path = ["a", "b"] := by
    intro path hp
    by_cases h0 : path = []
    · subst h0
      exact absurd rfl ((declared_build [] true 1 _ (by decide)).1 hp).1
    · obtain ⟨hm, hall⟩ := (C53_package_modules_partial _ (by decide) path h0).1 hp
      simp only [List.mem_cons, List.not_mem_nil, or_false] at hm
      rcases hm with rfl | rfl
      · exact (hall ["a", "b"] (by decide) (by decide)).symm ▸ rfl
      · rfl
  refine ⟨fs.put ([], "lib") (.lines (topLevelLines [["a"], ["a", "b"]])), ?_, ?_, ?_⟩
  · simp only [generateModel, h1, Res.ok_bind, writeToFile, hnames, htop, if_true]
    rfl
  · rw [put_other _ _ (by decide)]
    have := hself ⟨["a"], ["x"]⟩ (by simp) "x"
    rw [hd1] at this
    rw [this]
    decide +kernel
  · have hab : fs (["a", "b"], "mod") = some (.lines (packageLines id ⟨["a", "b"], ["y"]⟩)) := by
      have := hself ⟨["a", "b"], ["y"]⟩ (by simp) "mod"
      rw [hd2] at this
      exact this
    have hy : fs (["a", "b"], "y") = some (.code ["a", "b"] "y") := by
      have := hself ⟨["a", "b"], ["y"]⟩ (by simp) "y"
      rw [hd2] at this
      rw [this]
      decide +kernel
    have hclass : ∀ m t, ModuleAt (fs.put ([], "lib") (.lines (topLevelLines [["a"], ["a", "b"]]))) "lib" m t →
        (m = [] ∧ t = .lines (topLevelLines [["a"], ["a", "b"]])) ∨
        (m = ["a", "b"] ∧ t = .lines (packageLines id ⟨["a", "b"], ["y"]⟩)) ∨
        t = .code ["a", "b"] "y" := by
      intro m t hm
      induction hm with
      | top ht =>
        rw [put_same] at ht
        cases ht
        exact Or.inl ⟨rfl, rfl⟩
      | @child m path ls t _ hfm hfile ih =>
        rcases ih with ⟨rfl, e⟩ | ⟨rfl, e⟩ | e
        · cases e
          have := hf path hfm
          subst this
          refine Or.inr (Or.inl ⟨rfl, ?_⟩)
          obtain ⟨dir, name, e, hx | hx⟩ := hfile
          · have hx2 := hx.2
            rw [List.nil_append, put_other _ _ (by decide), hab] at hx2; cases hx2
          · have hx2 := hx.2
            rw [List.nil_append, put_other _ _ (by decide), hab] at hx2
            exact (Option.some.inj hx2).symm
        · cases e
          obtain ⟨s, hs, rfl⟩ := (fileModule_package id _ path).1 hfm
          have : s = "y" := by simpa using hs
          subst this
          have en : moduleName id "y" = "y" := by decide +kernel
          rw [en] at hfile
          obtain ⟨dir, name, e, hx⟩ := hfile
          have e' : ["a", "b"] ++ ["y"] = dir ++ [name] := e
          obtain ⟨e1, e2⟩ := List.append_inj' e' rfl
          injection e2 with e2 _
          subst e1; subst e2
          rw [put_other _ _ (by decide), hy] at hx
          rcases hx with hx | hx
          · exact Or.inr (Or.inr (Option.some.inj hx.1).symm)
          · cases hx.1
        · cases e
    intro m hm
    rcases hclass m _ hm with ⟨_, e⟩ | ⟨_, e⟩ | e
    · cases e
    · cases e
    · injection e with e _
      revert e; decide

/-- Violation of **C54**: a package called `lib` beside a top-level file `lib.rs`.  The declared module has
two files, and Rust rejects it. -/
theorem C54_root_violated :
    ∃ fs, generateModel id "" [⟨["lib"], ["x"]⟩] = .ok fs ∧
      fs ([], "lib") = some (.lines (topLevelLines [["lib"]])) ∧
      FileModule (topLevelLines [["lib"]]) ["lib"] ∧ ∀ t, ¬FileOf fs ["lib"] t := by
  have hpar : ∀ q ∈ [(⟨["lib"], ["x"]⟩ : Pkg)], (packageLines id q).all Line.parses = true := by
    intro q hq
    refine packageLines_parses id q ?_
    simp only [List.mem_singleton] at hq
    subst hq
    decide +kernel
  have hd : dirOf id ⟨["lib"], ["x"]⟩ = ["lib"] := by decide +kernel
  obtain ⟨fs, h1, hother, hself⟩ := generatePackages_get id [⟨["lib"], ["x"]⟩] (fun _ => none) hpar (by simp)
  have hnames : ([⟨["lib"], ["x"]⟩].map fun p : Pkg => p.name.map (moduleName id)) = [["lib"]] := by
    decide +kernel
  have htop : (topLevelLines [["lib"]]).all Line.parses = true := by
    rw [List.all_eq_true]
    exact sections_parse 2 1 _ (by decide) (by decide +kernel)
  refine ⟨fs.put ([], "lib") (.lines (topLevelLines [["lib"]])), ?_, put_same _ _ _, ?_, ?_⟩
  · simp only [generateModel, h1, Res.ok_bind, writeToFile, hnames, htop, if_true]
    rfl
  · exact C53_every_package_partial _ (by decide) (by decide) _ (by decide) (by decide)
  · rintro t ⟨dir, name, e, hx⟩
    have e' : [] ++ ["lib"] = dir ++ [name] := e
    obtain ⟨e1, e2⟩ := List.append_inj' e' rfl
    injection e2 with e2 _
    subst e1; subst e2
    have hmod := hself ⟨["lib"], ["x"]⟩ (by simp) "mod"
    rw [hd, if_pos rfl] at hmod
    rw [put_same, put_other _ _ (by decide), hmod] at hx
    rcases hx with ⟨_, hx⟩ | ⟨hx, _⟩ <;> cases hx

end Zs
