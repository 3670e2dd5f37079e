import Verif.InstantiateLemmas

/-!
# C65: every type name is bound to the declaration it names

The references of a schema are bound by `resolve_types.rs`, after the templates are instantiated.
-/

namespace Zs

open Ast Spec

variable {σ F : Type}

/-! ## Simple names -/

/-- C65: looking up the name of a type in a package finds exactly the declaration that the name denotes there. -/
theorem C65_name_iff (m : ModelScope σ) (package name q : String) (s : σ) (current : Option String) :
    (∃ fuel, m.resolve fuel package current name true = some (.ok (s, q))) ↔
      NameDenotes m package name q ∧ DeclaresAs m q name s := by
  constructor
  · rintro ⟨fuel, h⟩
    exact resolve_sound m fuel package current name s q h
  · rintro ⟨h, hd⟩
    obtain ⟨n, hn⟩ := resolve_complete m package name q s h hd
    exact ⟨n, hn n (Nat.le_refl n) current⟩

/-- C65: a name denotes at most one declaration, so the specification is one. -/
theorem C65_unique (m : ModelScope σ) (package name q q' : String) (h : NameDenotes m package name q)
    (h' : NameDenotes m package name q') : q = q' :=
  denotes_unique h h'

/-- Packages `app` (declares `Inner`, imports `lib`), `lib` (declares `Inner` and `T`, imports `base`) and `base`
(declares `U8`). -/
def bindExample : ModelScope Nat where
  packages := fun q =>
    if q = "app" then
      some ⟨fun _ => none, fun n => if n = "Inner" then some 1 else none, [{ package := "lib" }]⟩
    else if q = "lib" then
      some ⟨fun _ => none, fun n => if n = "Inner" then some 2 else if n = "T" then some 3 else none,
        [{ package := "base" }]⟩
    else if q = "base" then some ⟨fun _ => none, fun n => if n = "U8" then some 4 else none, []⟩
    else none

theorem bindExample_inner : NameDenotes bindExample "app" "Inner" "app" := .own ⟨1, _, rfl, rfl⟩

theorem bindExample_base : NameDenotes bindExample "app" "U8" "base" :=
  .imported (n := 1) (before := []) (after := []) (i := { package := "base" }) rfl rfl
    (fun k hk => by
      obtain rfl : k = 0 := by omega
      intro i hi
      obtain rfl : i = { package := "lib" } := List.mem_singleton.mp hi
      exact ⟨_, rfl, rfl⟩)
    rfl (fun _ hi => by cases hi) ⟨4, _, rfl, rfl⟩

-- `Inner` is the one of `app`; `U8` is found behind two imports.
example : ∃ fuel, bindExample.resolve fuel "app" (some "S") "U8" true = some (.ok (4, "base")) :=
  (C65_name_iff bindExample "app" "U8" "base" 4 (some "S")).mpr ⟨bindExample_base, _, rfl, rfl⟩

/-! ## Declarations -/

/-- C65, partially: if a structure that is no template only has builtin types and simple names, it is resolved
exactly if every one of them (of the fields, the parameters and the functions) denotes a declaration; then every
reference is bound to it and nothing else changes. Missing: qualified names (`C65_qualified_violated`) and
templates (`C65_template_violated`). -/
theorem C65_struct_partial (m : ModelScope σ) (package : String) (d d' : Struct F) (ht : d.templates = [])
    (hs : ∀ t ∈ structRefs d, Simple t) :
    (∃ fuel, resolveStruct m fuel package d = some (.ok d')) ↔ StructTo (Bound m package) d d' := by
  constructor
  · rintro ⟨fuel, h⟩
    exact ((resolveStruct_lookedUp m package d d' ht).1 fuel h).imp
      fun t hm t' => (lookedUp_bound m package t t' (hs t hm)).mp
  · intro h
    obtain ⟨n, hn⟩ := (resolveStruct_lookedUp m package d d' ht).2
      (h.imp fun t hm t' => (lookedUp_bound m package t t' (hs t hm)).mpr)
    exact ⟨n, hn n (Nat.le_refl n)⟩

/-- C65, partially: choices, with the types of all cases. -/
theorem C65_choice_partial (m : ModelScope σ) (package : String) (d d' : Choice F) (ht : d.templates = [])
    (hs : ∀ t ∈ choiceRefs d, Simple t) :
    (∃ fuel, resolveChoice m fuel package d = some (.ok d')) ↔ ChoiceTo (Bound m package) d d' := by
  constructor
  · rintro ⟨fuel, h⟩
    exact ((resolveChoice_lookedUp m package d d' ht).1 fuel h).imp
      fun t hm t' => (lookedUp_bound m package t t' (hs t hm)).mp
  · intro h
    obtain ⟨n, hn⟩ := (resolveChoice_lookedUp m package d d' ht).2
      (h.imp fun t hm t' => (lookedUp_bound m package t t' (hs t hm)).mpr)
    exact ⟨n, hn n (Nat.le_refl n)⟩

/-- C65, partially: unions. -/
theorem C65_union_partial (m : ModelScope σ) (package : String) (d d' : Ast.Union F) (ht : d.templates = [])
    (hs : ∀ t ∈ unionRefs d, Simple t) :
    (∃ fuel, resolveUnion m fuel package d = some (.ok d')) ↔ UnionTo (Bound m package) d d' := by
  constructor
  · rintro ⟨fuel, h⟩
    exact ((resolveUnion_lookedUp m package d d' ht).1 fuel h).imp
      fun t hm t' => (lookedUp_bound m package t t' (hs t hm)).mp
  · intro h
    obtain ⟨n, hn⟩ := (resolveUnion_lookedUp m package d d' ht).2
      (h.imp fun t hm t' => (lookedUp_bound m package t t' (hs t hm)).mpr)
    exact ⟨n, hn n (Nat.le_refl n)⟩

/-- C65, partially: subtypes. -/
theorem C65_subtype_partial (m : ModelScope σ) (package : String) (d d' : Alias F) (hs : Simple d.type) :
    (∃ fuel, resolveAlias m fuel package d = some (.ok d')) ↔ AliasTo (Bound m package) d d' := by
  constructor
  · rintro ⟨fuel, h⟩
    obtain ⟨t, ht, h⟩ := Run.bind_ok h
    cases h
    exact ⟨t, (lookedUp_bound m package _ _ hs).mp (resolveRef_sound m fuel package _ _ _ ht), rfl⟩
  · rintro ⟨t, ht, rfl⟩
    obtain ⟨n, hn⟩ := resolveRef_complete m package _ _ ((lookedUp_bound m package _ _ hs).mpr ht)
    exact ⟨n, by simp [resolveAlias, hn n (Nat.le_refl n), Run.bind]⟩

/-- C65, partially: constants. -/
theorem C65_const_partial (m : ModelScope σ) (package : String) (d d' : Const F) (hs : Simple d.type) :
    (∃ fuel, resolveConst m fuel package d = some (.ok d')) ↔ ConstTo (Bound m package) d d' := by
  constructor
  · rintro ⟨fuel, h⟩
    obtain ⟨t, ht, h⟩ := Run.bind_ok h
    cases h
    exact ⟨t, (lookedUp_bound m package _ _ hs).mp (resolveRef_sound m fuel package _ _ _ ht), rfl⟩
  · rintro ⟨t, ht, rfl⟩
    obtain ⟨n, hn⟩ := resolveRef_complete m package _ _ ((lookedUp_bound m package _ _ hs).mpr ht)
    exact ⟨n, by simp [resolveConst, hn n (Nat.le_refl n), Run.bind]⟩

/-- C65: a reference that is bound to a declaration is found again when code is generated, as the declaration that
it is to. -/
theorem C65_found (m : ModelScope σ) (package : String) (t t' : Ast.TypeRef F) (h : Bound m package t t')
    (hb : t.builtin = false) :
    ∃ q s, RefersTo m package t q ∧ DeclaresAs m q t.name s ∧ getSymbol m t' = .ok s := by
  unfold Bound at h
  rw [if_neg (by simp [hb])] at h
  obtain ⟨q, hr, rfl⟩ := h
  have hd : Declares m q t.name := by
    obtain ⟨_, hr⟩ := hr
    split at hr
    · exact denotes_declares hr
    · exact hr.2
  obtain ⟨s, p, hp, hs⟩ := hd
  refine ⟨q, s, hr, ⟨p, hp, hs⟩, ?_⟩
  obtain ⟨_, hr⟩ := hr
  have hdot : dotted ((t.withPackage (if t.package = [] then [q] else t.package)).package) = q := by
    by_cases he : t.package = []
    · rw [if_pos he]
      cases t
      simp [Ast.TypeRef.withPackage, Ast.TypeRef.package, dotted]
    · rw [if_neg he] at hr ⊢
      rw [withPackage_same, hr.1]
  have hname : (t.withPackage (if t.package = [] then [q] else t.package)).name = t.name := by
    cases t; rfl
  simp only [getSymbol, hdot, hname, hp, hs]

/-- A reference by a simple name. -/
def simpleRef (name : String) : Ast.TypeRef Unit := .mk false [] name 0 [] [] none

/-- A field without anything. -/
def bareField (name : String) (t : Ast.TypeRef Unit) : Field Unit :=
  ⟨name, false, 0, t, none, none, none, none, none⟩

/-- `struct S { Inner a; U8 b; uint8 c; };` -/
def bindStruct : Struct Unit where
  name := "S"
  templates := []
  params := []
  fields := [bareField "a" (simpleRef "Inner"), bareField "b" (simpleRef "U8"),
    bareField "c" (.mk true [] "uint8" 8 [] [] none)]
  functions := []

-- In `app`, `a` is bound to the `Inner` of `app` and `b` to the `U8` of `base`.
example : StructTo (Bound bindExample "app") bindStruct
    { bindStruct with fields := [bareField "a" (.mk false ["app"] "Inner" 0 [] [] none),
        bareField "b" (.mk false ["base"] "U8" 0 [] [] none), bareField "c" (.mk true [] "uint8" 8 [] [] none)] } :=
  ⟨_, _, _, .cons ⟨_, ⟨_, ⟨rfl, bindExample_inner⟩, rfl⟩, rfl⟩ (.cons ⟨_, ⟨_, ⟨rfl, bindExample_base⟩, rfl⟩, rfl⟩
    (.cons ⟨_, rfl, rfl⟩ .nil)), .nil, .nil, rfl⟩

example : ∀ t ∈ structRefs bindStruct, Simple t := by
  intro t ht
  simp only [structRefs, bindStruct, List.map_cons, List.map_nil, List.append_nil, List.mem_cons,
    List.not_mem_nil, or_false] at ht
  rcases ht with rfl | rfl | rfl
  · exact .inr rfl
  · exact .inr rfl
  · exact .inl rfl

/-! ## Whole packages -/

/-- C65, partially: after `resolve_types`, a package has the same declarations, and of every structure, choice,
union, subtype and constant that is no template the references are bound as seen from that package. -/
theorem C65_package_partial (m : ModelScope σ) (fuel : Nat) (p p' : Package F) (h : ResolvesTypes m fuel p p')
    (hstruct : ∀ n d, p.structs n = some d → ∀ t ∈ structRefs d, Simple t)
    (hchoice : ∀ n d, p.choices n = some d → ∀ t ∈ choiceRefs d, Simple t)
    (hunion : ∀ n d, p.unions n = some d → ∀ t ∈ unionRefs d, Simple t)
    (hsub : ∀ d ∈ p.subtypes, Simple d.type) (hconst : ∀ d ∈ p.consts, Simple d.type) :
    (∀ n d, p.structs n = some d → d.templates = [] →
      ∃ d', p'.structs n = some d' ∧ StructTo (Bound m (dotted p.name)) d d') ∧
    (∀ n d, p.choices n = some d → d.templates = [] →
      ∃ d', p'.choices n = some d' ∧ ChoiceTo (Bound m (dotted p.name)) d d') ∧
    (∀ n d, p.unions n = some d → d.templates = [] →
      ∃ d', p'.unions n = some d' ∧ UnionTo (Bound m (dotted p.name)) d d') ∧
    All2 (AliasTo (Bound m (dotted p.name))) p.subtypes p'.subtypes ∧
    All2 (ConstTo (Bound m (dotted p.name))) p.consts p'.consts ∧
    (∀ n, p'.structs n = none ↔ p.structs n = none) ∧ (∀ n, p'.choices n = none ↔ p.choices n = none) ∧
    (∀ n, p'.unions n = none ↔ p.unions n = none) := by
  have same : ∀ {α β : Type} {f : α → Run β} {a : Map α} {b : Map β}, MapsTo f a b →
      ∀ n, b n = none ↔ a n = none := by
    intro α β f a b hm n
    have := hm n
    split at this
    · rename_i ha
      exact ⟨fun _ => ha, fun _ => this⟩
    · rename_i x ha
      obtain ⟨y, _, hb⟩ := this
      rw [hb, ha]
      simp
  have get : ∀ {α β : Type} {f : α → Run β} {a : Map α} {b : Map β}, MapsTo f a b →
      ∀ n x, a n = some x → ∃ y, f x = some (.ok y) ∧ b n = some y := by
    intro α β f a b hm n x hx
    have := hm n
    rw [hx] at this
    exact this
  refine ⟨fun n d hd ht => ?_, fun n d hd ht => ?_, fun n d hd ht => ?_, ?_, ?_, same h.structs, same h.choices,
    same h.unions⟩
  · obtain ⟨d', hr, hd'⟩ := get h.structs n d hd
    exact ⟨d', hd', (C65_struct_partial m _ d d' ht (hstruct n d hd)).mp ⟨fuel, hr⟩⟩
  · obtain ⟨d', hr, hd'⟩ := get h.choices n d hd
    exact ⟨d', hd', (C65_choice_partial m _ d d' ht (hchoice n d hd)).mp ⟨fuel, hr⟩⟩
  · obtain ⟨d', hr, hd'⟩ := get h.unions n d hd
    exact ⟨d', hd', (C65_union_partial m _ d d' ht (hunion n d hd)).mp ⟨fuel, hr⟩⟩
  · exact runList_sound _ _ _ (fun d hd d' hr => (C65_subtype_partial m _ d d' (hsub d hd)).mp ⟨fuel, hr⟩) _ h.subtypes
  · exact runList_sound _ _ _ (fun d hd d' hr => (C65_const_partial m _ d d' (hconst d hd)).mp ⟨fuel, hr⟩) _ h.consts

/-! ## Qualified names -/

/-- C65: of a qualified name, only the last part is looked up, as if it stood alone; the package that is written
stays. -/
theorem C65_qualified_iff (m : ModelScope σ) (package owner : String) (t t' : Ast.TypeRef F)
    (hb : t.builtin = false) (hp : t.package ≠ []) :
    (∃ fuel, resolveRef m fuel package owner t = some (.ok t')) ↔
      (∃ q, NameDenotes m package t.name q) ∧ t' = t := by
  constructor
  · rintro ⟨fuel, h⟩
    have := resolveRef_sound m fuel package owner t t' h
    unfold LookedUp at this
    rw [if_neg (by simp [hb])] at this
    obtain ⟨q, hq, rfl⟩ := this
    exact ⟨⟨q, hq⟩, by rw [if_neg hp, withPackage_same]⟩
  · rintro ⟨⟨q, hq⟩, rfl⟩
    obtain ⟨n, hn⟩ := resolveRef_complete m package t' t' (by
      unfold LookedUp
      rw [if_neg (by simp [hb])]
      exact ⟨q, hq, by rw [if_neg hp, withPackage_same]⟩)
    exact ⟨n, hn n (Nat.le_refl n) owner⟩

/-- Packages `app` (declares `Inner`, imports `lib`), `lib` (declares `T`) and `far` (declares `Far`); nothing
imports `far`. -/
def farExample : ModelScope Nat where
  packages := fun q =>
    if q = "app" then
      some ⟨fun _ => none, fun n => if n = "Inner" then some 1 else none, [{ package := "lib" }]⟩
    else if q = "lib" then some ⟨fun _ => none, fun n => if n = "T" then some 2 else none, []⟩
    else if q = "far" then some ⟨fun _ => none, fun n => if n = "Far" then some 3 else none, []⟩
    else none

/-- C65 is violated by qualified names: `lib.Inner` is accepted in `app`, because `app` has an `Inner`, though
there is none in `lib` and generating code panics; and `far.Far`, which exists, is rejected by a panic. -/
theorem C65_qualified_violated :
    (∃ (t : Ast.TypeRef Unit) (fuel : Nat),
      resolveRef farExample fuel "app" "S" t = some (.ok t) ∧ (¬ ∃ q, RefersTo farExample "app" t q) ∧
        getSymbol farExample t = .panic) ∧
    (∃ t : Ast.TypeRef Unit, RefersTo farExample "app" t "far" ∧
      ∀ fuel, 3 ≤ fuel → resolveRef farExample fuel "app" "S" t = some .panic) := by
  refine ⟨⟨.mk false ["lib"] "Inner" 0 [] [] none, 0, rfl, ?_, rfl⟩,
    .mk false ["far"] "Far" 0 [] [] none, ⟨rfl, ?_⟩, ?_⟩
  · rintro ⟨q, _, h⟩
    rw [if_neg (by simp [Ast.TypeRef.package])] at h
    obtain ⟨rfl, s, p, hp, hs⟩ := h
    have hl : dotted ["lib"] = "lib" := rfl
    simp only [Ast.TypeRef.package, hl] at hp
    cases hp
    cases hs
  · rw [if_neg (by simp [Ast.TypeRef.package])]
    exact ⟨rfl, 3, _, rfl, rfl⟩
  · intro fuel hf
    obtain ⟨k, rfl⟩ : ∃ k, fuel = k + 3 := ⟨fuel - 3, by omega⟩
    rfl

/-! ## Enumerations and bitmasks -/

/-- C65 is violated by the types of enumerations and bitmasks: `resolve_types` leaves them as they are, so that a
simple name there, whatever it denotes, is never found when code is generated. -/
theorem C65_base_type_violated (m : ModelScope σ) (fuel : Nat) (p p' : Package F) (h : ResolvesTypes m fuel p p')
    (hm : m.packages "" = none) :
    (∀ e ∈ p.enums, e ∈ p'.enums ∧ (e.type.package = [] → getSymbol m e.type = .panic)) ∧
    (∀ b ∈ p.bitmasks, b ∈ p'.bitmasks ∧ (b.type.package = [] → getSymbol m b.type = .panic)) := by
  have key : ∀ t : Ast.TypeRef F, t.package = [] → getSymbol m t = .panic := by
    intro t ht
    have : dotted [] = "" := rfl
    simp [getSymbol, ht, this, hm]
  obtain ⟨_, _, he, hb, _⟩ := h.rest
  exact ⟨fun e hm => ⟨he ▸ hm, key _⟩, fun b hm => ⟨hb ▸ hm, key _⟩⟩

/-- A package without declarations. -/
def emptyPackage (name : String) : Package Unit where
  name := [name]
  imports := []
  structs := Map.empty
  choices := Map.empty
  unions := Map.empty
  enums := []
  consts := []
  subtypes := []
  instantiated := []
  bitmasks := []

/-- `enum U8 Color { RED };`, where `app` sees `U8` in `base`. -/
def colorPackage : Package Unit :=
  { emptyPackage "app" with enums := [⟨"Color", simpleRef "U8", [⟨"RED", none⟩]⟩] }

-- `U8` denotes the declaration in `base`, and nothing hinders the resolution.
example : NameDenotes bindExample "app" "U8" "base" ∧ ResolvesTypes bindExample 5 colorPackage colorPackage ∧
    bindExample.packages "" = none ∧ getSymbol bindExample (simpleRef "U8") = .panic :=
  ⟨bindExample_base, ⟨fun _ => rfl, fun _ => rfl, fun _ => rfl, rfl, rfl, rfl, rfl, rfl, rfl, rfl⟩, rfl, rfl⟩

/-! ## Templates -/

/-- C65, partially: a field of an instance of a template whose type is a simple name, neither a template parameter
nor with template arguments, is bound to what the name denotes where the template is declared, if it denotes the
same where the template is used.  (`package` is the package that the template is found in, `m` the scope of
`resolve_types`.)  Missing: `C65_template_violated`. -/
theorem C65_template_partial {fuel fuel' : Nat} {st st' : InstState F} {t ref : Ast.TypeRef F}
    {given package : String} {d : Struct F} (m : ModelScope σ)
    (h : instantiateRef (fuel + 1) st t given = some (.ok (st', ref))) (ht : t.targs ≠ [])
    (hd : st.scope.resolve fuel st.package none t.name true = some (.ok (.struct d, package)))
    (hnew : st.structs (chosenName t given) = none) :
    ∃ d', st'.structs (chosenName t given) = some d' ∧
      ∀ d'', resolveStruct m fuel' st.package d' = some (.ok d'') →
        ∀ (i : Nat) (f : Field F), d.fields[i]? = some f → f.type.targs = [] → f.type.name ∉ d.templates →
          Simple f.type →
          (∀ q, NameDenotes m st.package f.type.name q ↔ NameDenotes m package f.type.name q) →
          ∃ f'', d''.fields[i]? = some f'' ∧ FieldTo (Bound m package) f f'' := by
  obtain ⟨d', hd', _, htm, hf⟩ := instantiateRef_struct fuel st st' t ref given package h ht d hd hnew
  refine ⟨d', hd', fun d'' hr i f hi hta hn hs hq => ?_⟩
  obtain ⟨f', hf', hu⟩ := hf.get i f hi
  have hu := hu hta hn
  subst hu
  obtain ⟨fs, ps, gs, hfs, _, _, rfl⟩ := (resolveStruct_lookedUp m st.package d' d'' htm).1 fuel' hr
  obtain ⟨f'', hf'', hb⟩ := hfs.get i f' hf'
  refine ⟨f'', hf'', hb.imp fun t' hb => ?_⟩
  rw [lookedUp_bound m st.package _ _ hs] at hb
  unfold Bound at hb ⊢
  split
  · rename_i hbu
    rwa [if_pos hbu] at hb
  · rename_i hbu
    rw [if_neg hbu] at hb
    obtain ⟨q, hr, rfl⟩ := hb
    refine ⟨q, ⟨hr.1, ?_⟩, rfl⟩
    have h2 := hr.2
    split
    · rename_i hp
      rw [if_pos hp] at h2
      exact (hq q).mp h2
    · rename_i hp
      rwa [if_neg hp] at h2

/-- `struct T<X> { Inner a; X b; };` -/
def hygieneTemplate : Struct Unit where
  name := "T"
  templates := ["X"]
  params := []
  fields := [bareField "a" (simpleRef "Inner"), bareField "b" (simpleRef "X")]
  functions := []

/-- `package lib; struct Inner { }; struct T<X> { Inner a; X b; };` -/
def hygieneLib : Package Unit :=
  { emptyPackage "lib" with
    structs := fun n => if n = "Inner" then some ⟨"Inner", [], [], [], []⟩ else
      if n = "T" then some hygieneTemplate else none }

/-- `package app; import lib.*; struct S { T<uint8> f; };`, and with `own` also `struct Inner { };`. -/
def hygieneApp (own : Bool) : Package Unit :=
  { emptyPackage "app" with
    imports := [⟨["lib"], none⟩]
    structs := fun n => if n = "Inner" && own then some ⟨"Inner", [], [], [], []⟩ else
      if n = "S" then some ⟨"S", [], [], [bareField "f" (.mk false [] "T" 0 [.mk true [] "uint8" 8 [] [] none] [] none)], []⟩
      else none }

/-- The state before the templates of `app` are instantiated. -/
def hygieneState (own : Bool) : InstState Unit where
  package := "app"
  structs := (hygieneApp own).structs
  choices := Map.empty
  unions := Map.empty
  scope := buildScope [hygieneLib, hygieneApp own]

/-- The packages of the types of the fields of the instance of `T`. -/
def hygieneBound (own : Bool) : Option (List (List String)) :=
  match instantiateRef 5 (hygieneState own) (.mk false [] "T" 0 [.mk true [] "uint8" 8 [] [] none] [] none) "" with
  | some (.ok (st, _)) =>
    match st.structs "Tuint8" with
    | some d => match resolveStruct st.scope 5 "app" d with
      | some (.ok d') => some (d'.fields.map fun f => f.type.package)
      | _ => none
    | none => none
  | _ => none

-- Without an `Inner` of its own, `app` sees that of `lib`, and the hypotheses of `C65_template_partial` hold.
example : hygieneBound false = some [["lib"], []] := rfl

example : NameDenotes (hygieneState false).scope "app" "Inner" "lib" ∧
    NameDenotes (hygieneState false).scope "lib" "Inner" "lib" :=
  ⟨.imported (n := 0) (before := []) (after := []) (i := { package := "lib" }) rfl rfl
    (fun k hk => absurd hk (Nat.not_lt_zero k)) rfl (fun _ hi => by cases hi) ⟨_, _, rfl, rfl⟩,
    .own ⟨_, _, rfl, rfl⟩⟩

/-- C65 is violated by templates: in the package of the template, `Inner` denotes the `Inner` of that package; in
an instance made in a package that has an `Inner` of its own, it silently becomes that one. -/
theorem C65_template_violated :
    NameDenotes (hygieneState true).scope "lib" "Inner" "lib" ∧ hygieneBound true = some [["app"], []] :=
  ⟨.own ⟨_, _, rfl, rfl⟩, rfl⟩

end Zs
