import Verif.ResolveSpec
import Verif.ScopeCycles
import Verif.TemplateLemmas

/-!
# Lemmas about the resolution of types (C65)
-/

namespace Zs

open Ast Spec

variable {σ F : Type}

/-! ## Searching -/

theorem searchLayer_found_iff (m : ModelScope σ) (name : String) (ig : Bool) (is : List Import) (s : σ) (q : String) :
    ∀ acc, m.searchLayer name ig is acc = .found s q →
      ∃ before i after, is = before ++ i :: after ∧ m.NotIn name before ∧ i.package = q ∧ DeclaresAs m q name s := by
  induction is with
  | nil => intro acc h; cases h
  | cons i rest ih =>
    intro acc h
    simp only [ModelScope.searchLayer] at h
    split at h
    · cases h
    · rename_i p hp
      rw [resolve_import] at h
      split at h
      · rename_i s' hs
        cases h
        exact ⟨[], i, rest, rfl, fun j hj => (by cases hj), rfl, p, hp, hs⟩
      · rename_i hn
        obtain ⟨before, j, after, rfl, hb, hq, hd⟩ := ih _ h
        refine ⟨i :: before, j, after, rfl, fun k hk => ?_, hq, hd⟩
        rcases List.mem_cons.mp hk with rfl | hk
        · exact ⟨p, hp, hn⟩
        · exact hb k hk

theorem searchImports_sound (m : ModelScope σ) (name : String) (ig : Bool) (s : σ) (q : String) (fuel : Nat) :
    ∀ is, m.searchImports name ig fuel is = some (.ok (s, q)) →
      ∃ n, n < fuel ∧ (∀ k, k < n → m.NotIn name (m.layer is k)) ∧
        ∃ before i after, m.layer is n = before ++ i :: after ∧ m.NotIn name before ∧ i.package = q ∧
          DeclaresAs m q name s := by
  induction fuel with
  | zero => intro is h; cases h
  | succ fuel ih =>
    intro is h
    cases is with
    | nil => cases h
    | cons j rest =>
      simp only [ModelScope.searchImports] at h
      split at h
      · rename_i s' q' hf
        cases h
        obtain ⟨before, i, after, hl, hb, hq, hd⟩ := searchLayer_found_iff m name ig _ s q [] hf
        exact ⟨0, by omega, fun k hk => absurd hk (Nat.not_lt_zero k), before, i, after, hl, hb, hq, hd⟩
      · cases h
      · rename_i next hnext
        obtain ⟨hnot, rfl⟩ := searchLayer_next_iff m name ig _ _ _ hnext
        obtain ⟨n, hn, he, before, i, after, hl, hb, hq, hd⟩ := ih _ h
        rw [List.nil_append] at he hl
        refine ⟨n + 1, by omega, fun k hk => ?_, before, i, after, (layer_shift m _ n).symm.trans hl, hb, hq, hd⟩
        cases k with
        | zero => exact hnot
        | succ k => exact (layer_shift m _ k) ▸ he k (by omega)

theorem declaresAs_unique {m : ModelScope σ} {q name : String} {s s' : σ} (h : DeclaresAs m q name s)
    (h' : DeclaresAs m q name s') : s = s' := by
  obtain ⟨p, hp, hs⟩ := h
  obtain ⟨p', hp', hs'⟩ := h'
  rw [hp] at hp'
  cases hp'
  rw [hs] at hs'
  cases hs'
  rfl

/-- Names of types: found exactly where they are declared, as seen from `package`. -/
theorem resolve_sound (m : ModelScope σ) (fuel : Nat) (package : String) (current : Option String) (name : String)
    (s : σ) (q : String) (h : m.resolve fuel package current name true = some (.ok (s, q))) :
    NameDenotes m package name q ∧ DeclaresAs m q name s := by
  unfold ModelScope.resolve at h
  split at h
  · cases h
  · rename_i p hp
    have hr : p.resolve name true current = p.file name := by simp [PackageScope.resolve]
    rw [hr] at h
    split at h
    · rename_i s' hs
      cases h
      exact ⟨.own ⟨s, p, hp, hs⟩, p, hp, hs⟩
    · rename_i hn
      obtain ⟨n, _, he, before, i, after, hl, hb, rfl, hd⟩ := searchImports_sound m name true s q fuel _ h
      exact ⟨.imported hp hn he hl hb ⟨s, hd⟩, hd⟩

theorem resolve_complete (m : ModelScope σ) (package name q : String) (s : σ) (h : NameDenotes m package name q)
    (hd : DeclaresAs m q name s) :
    ∃ n, ∀ fuel, n ≤ fuel → ∀ current, m.resolve fuel package current name true = some (.ok (s, q)) := by
  have hr : ∀ (p : PackageScope σ) current, p.resolve name true current = p.file name :=
    fun p current => by simp [PackageScope.resolve]
  obtain ⟨p', hp', hs⟩ := hd
  cases h with
  | own _ =>
    exact ⟨0, fun fuel _ current => by simp [ModelScope.resolve, hp', hr, hs]⟩
  | @imported p n before after i hp hno he hl hb _ =>
    refine ⟨n + 1, fun fuel hf current => ?_⟩
    simp only [ModelScope.resolve, hp, hr, hno]
    exact searchImports_found m name true n p.imports fuel (by omega) he before after i p' s hl hb hp' hs

/-- A name denotes at most one declaration. -/
theorem denotes_unique {m : ModelScope σ} {package name q q' : String} (h : NameDenotes m package name q)
    (h' : NameDenotes m package name q') : q = q' := by
  have hd : ∀ {q}, NameDenotes m package name q → ∃ s, DeclaresAs m q name s := by
    intro q h
    cases h with
    | own h => exact h
    | imported _ _ _ _ _ h => exact h
  obtain ⟨s, hs⟩ := hd h
  obtain ⟨s', hs'⟩ := hd h'
  obtain ⟨n, hn⟩ := resolve_complete m package name q s h hs
  obtain ⟨n', hn'⟩ := resolve_complete m package name q' s' h' hs'
  have h1 := hn (n + n') (by omega) none
  have h2 := hn' (n + n') (by omega) none
  rw [h1] at h2
  have := Option.some.inj h2
  injection this with this
  exact (Prod.mk.inj this).2

theorem denotes_declares {m : ModelScope σ} {package name q : String} (h : NameDenotes m package name q) :
    Declares m q name := by
  cases h with
  | own h => exact h
  | imported _ _ _ _ _ h => exact h

/-! ## Runs -/

theorem runList_iff {α β : Type} (f : Nat → α → Run β) (R : α → β → Prop)
    (hs : ∀ fuel a b, f fuel a = some (.ok b) → R a b)
    (hc : ∀ a b, R a b → ∃ n, ∀ fuel, n ≤ fuel → f fuel a = some (.ok b)) (as : List α) :
    (∀ fuel bs, runList (f fuel) as = some (.ok bs) → All2 R as bs) ∧
    (∀ bs, All2 R as bs → ∃ n, ∀ fuel, n ≤ fuel → runList (f fuel) as = some (.ok bs)) := by
  induction as with
  | nil =>
    refine ⟨fun fuel bs h => ?_, fun bs h => ?_⟩
    · cases h
      exact .nil
    · cases h
      exact ⟨0, fun _ _ => rfl⟩
  | cons a as ih =>
    refine ⟨fun fuel bs h => ?_, fun bs h => ?_⟩
    · simp only [runList] at h
      obtain ⟨b, hb, h⟩ := Run.bind_ok h
      obtain ⟨bs', hbs, h⟩ := Run.bind_ok h
      cases h
      exact .cons (hs _ _ _ hb) (ih.1 _ _ hbs)
    · cases h with
      | cons hab has =>
        obtain ⟨n, hn⟩ := hc _ _ hab
        obtain ⟨n', hn'⟩ := ih.2 _ has
        refine ⟨n + n', fun fuel hf => ?_⟩
        simp [runList, hn fuel (by omega), hn' fuel (by omega), Run.bind]

theorem runList_sound {α β : Type} (f : α → Run β) (R : α → β → Prop) (as : List α)
    (hs : ∀ a ∈ as, ∀ b, f a = some (.ok b) → R a b) : ∀ bs, runList f as = some (.ok bs) → All2 R as bs := by
  induction as with
  | nil =>
    intro bs h
    cases h
    exact .nil
  | cons a as ih =>
    intro bs h
    simp only [runList] at h
    obtain ⟨b, hb, h⟩ := Run.bind_ok h
    obtain ⟨bs', hbs, h⟩ := Run.bind_ok h
    cases h
    exact .cons (hs a (by simp) b hb) (ih (fun a ha => hs a (by simp [ha])) _ hbs)

theorem runOption_iff {α β : Type} (f : Nat → α → Run β) (R : α → β → Prop)
    (hs : ∀ fuel a b, f fuel a = some (.ok b) → R a b)
    (hc : ∀ a b, R a b → ∃ n, ∀ fuel, n ≤ fuel → f fuel a = some (.ok b)) (a : Option α) :
    (∀ fuel b, runOption (f fuel) a = some (.ok b) → Opt2 R a b) ∧
    (∀ b, Opt2 R a b → ∃ n, ∀ fuel, n ≤ fuel → runOption (f fuel) a = some (.ok b)) := by
  cases a with
  | none =>
    refine ⟨fun fuel b h => ?_, fun b h => ?_⟩
    · cases h
      exact .none
    · cases h
      exact ⟨0, fun _ _ => rfl⟩
  | some a =>
    refine ⟨fun fuel b h => ?_, fun b h => ?_⟩
    · simp only [runOption] at h
      obtain ⟨b', hb, h⟩ := Run.bind_ok h
      cases h
      exact .some (hs _ _ _ hb)
    · cases h with
      | some hab =>
        obtain ⟨n, hn⟩ := hc _ _ hab
        exact ⟨n, fun fuel hf => by simp [runOption, hn fuel hf, Run.bind]⟩

/-! ## References -/

/-- What the code does to a reference: only the simple name counts. -/
def LookedUp (m : ModelScope σ) (package : String) (t t' : Ast.TypeRef F) : Prop :=
  if t.builtin then t' = t
  else ∃ q, NameDenotes m package t.name q ∧ t' = t.withPackage (if t.package = [] then [q] else t.package)

theorem withPackage_same (t : Ast.TypeRef F) : t.withPackage t.package = t := by
  cases t; rfl

theorem resolveRef_sound (m : ModelScope σ) (fuel : Nat) (package owner : String) (t t' : Ast.TypeRef F)
    (h : resolveRef m fuel package owner t = some (.ok t')) : LookedUp m package t t' := by
  unfold LookedUp
  unfold resolveRef at h
  split
  · rename_i hb
    simp only [hb, if_true] at h
    cases h
    rfl
  · rename_i hb
    simp only [hb, Bool.false_eq_true, if_false] at h
    obtain ⟨⟨s, q⟩, hr, h⟩ := Run.bind_ok h
    cases h
    refine ⟨q, (resolve_sound m fuel package _ _ s q hr).1, ?_⟩
    by_cases hp : t.package = []
    · simp [hp]
    · simp [hp, withPackage_same]

theorem resolveRef_complete (m : ModelScope σ) (package : String) (t t' : Ast.TypeRef F)
    (h : LookedUp m package t t') :
    ∃ n, ∀ fuel, n ≤ fuel → ∀ owner, resolveRef m fuel package owner t = some (.ok t') := by
  unfold LookedUp at h
  split at h
  · rename_i hb
    exact ⟨0, fun fuel _ owner => by simp [resolveRef, hb, h]⟩
  · rename_i hb
    obtain ⟨q, hq, rfl⟩ := h
    obtain ⟨s, hs⟩ := denotes_declares hq
    obtain ⟨n, hn⟩ := resolve_complete m package t.name q s hq hs
    refine ⟨n, fun fuel hf owner => ?_⟩
    simp only [resolveRef, hb, Bool.false_eq_true, if_false, hn fuel hf, Run.bind]
    by_cases hp : t.package = []
    · simp [hp]
    · simp [hp, withPackage_same]

theorem lookedUp_unique {m : ModelScope σ} {package : String} {t a b : Ast.TypeRef F}
    (h : LookedUp m package t a) (h' : LookedUp m package t b) : a = b := by
  unfold LookedUp at h h'
  split at h
  · rename_i hb
    rw [if_pos hb] at h'
    rw [h, h']
  · rename_i hb
    rw [if_neg hb] at h'
    obtain ⟨q, hq, rfl⟩ := h
    obtain ⟨q', hq', rfl⟩ := h'
    rw [denotes_unique hq hq']

/-- For simple names that is what the language says. -/
theorem lookedUp_bound (m : ModelScope σ) (package : String) (t t' : Ast.TypeRef F) (hs : Simple t) :
    LookedUp m package t t' ↔ Bound m package t t' := by
  unfold LookedUp Bound RefersTo
  by_cases hb : t.builtin = true
  · simp [hb]
  · have hp : t.package = [] := hs.resolve_left hb
    simp [hb, hp]

/-! ## Declarations -/

section Decls

variable (m : ModelScope σ) (package : String)

theorem resolveField_iff (owner : String) (f f' : Field F) :
    (∀ fuel, resolveField m fuel package owner f = some (.ok f') → FieldTo (LookedUp m package) f f') ∧
    (FieldTo (LookedUp m package) f f' → ∃ n, ∀ fuel, n ≤ fuel →
      resolveField m fuel package owner f = some (.ok f')) := by
  refine ⟨fun fuel h => ?_, ?_⟩
  · obtain ⟨t, ht, h⟩ := Run.bind_ok h
    cases h
    exact ⟨t, resolveRef_sound m fuel package owner _ _ ht, rfl⟩
  · rintro ⟨t, ht, rfl⟩
    obtain ⟨n, hn⟩ := resolveRef_complete m package _ _ ht
    exact ⟨n, fun fuel hf => by simp [resolveField, hn fuel hf, Run.bind]⟩

theorem resolveParam_iff (owner : String) (f f' : Param F) :
    (∀ fuel, resolveParam m fuel package owner f = some (.ok f') → ParamTo (LookedUp m package) f f') ∧
    (ParamTo (LookedUp m package) f f' → ∃ n, ∀ fuel, n ≤ fuel →
      resolveParam m fuel package owner f = some (.ok f')) := by
  refine ⟨fun fuel h => ?_, ?_⟩
  · obtain ⟨t, ht, h⟩ := Run.bind_ok h
    cases h
    exact ⟨t, resolveRef_sound m fuel package owner _ _ ht, rfl⟩
  · rintro ⟨t, ht, rfl⟩
    obtain ⟨n, hn⟩ := resolveRef_complete m package _ _ ht
    exact ⟨n, fun fuel hf => by simp [resolveParam, hn fuel hf, Run.bind]⟩

theorem resolveFunc_iff (owner : String) (f f' : Func F) :
    (∀ fuel, resolveFunc m fuel package owner f = some (.ok f') → FuncTo (LookedUp m package) f f') ∧
    (FuncTo (LookedUp m package) f f' → ∃ n, ∀ fuel, n ≤ fuel →
      resolveFunc m fuel package owner f = some (.ok f')) := by
  refine ⟨fun fuel h => ?_, ?_⟩
  · obtain ⟨t, ht, h⟩ := Run.bind_ok h
    cases h
    exact ⟨t, resolveRef_sound m fuel package owner _ _ ht, rfl⟩
  · rintro ⟨t, ht, rfl⟩
    obtain ⟨n, hn⟩ := resolveRef_complete m package _ _ ht
    exact ⟨n, fun fuel hf => by simp [resolveFunc, hn fuel hf, Run.bind]⟩

theorem resolveCase_iff (owner : String) (c c' : Case F) :
    (∀ fuel, resolveCase m fuel package owner c = some (.ok c') → CaseTo (LookedUp m package) c c') ∧
    (CaseTo (LookedUp m package) c c' → ∃ n, ∀ fuel, n ≤ fuel →
      resolveCase m fuel package owner c = some (.ok c')) := by
  have key := runOption_iff (fun fuel => resolveField (F := F) m fuel package owner) (FieldTo (LookedUp m package))
    (fun fuel a b => (resolveField_iff m package owner a b).1 fuel)
    (fun a b => (resolveField_iff m package owner a b).2) c.field
  refine ⟨fun fuel h => ?_, ?_⟩
  · obtain ⟨f, hf, h⟩ := Run.bind_ok h
    cases h
    exact ⟨f, key.1 _ _ hf, rfl⟩
  · rintro ⟨f, hf, rfl⟩
    obtain ⟨n, hn⟩ := key.2 _ hf
    exact ⟨n, fun fuel hf => by simp [resolveCase, hn fuel hf, Run.bind]⟩

theorem resolved_fields (owner : String) (fs : List (Field F)) :
    (∀ fuel bs, runList (resolveField m fuel package owner) fs = some (.ok bs) → All2 (FieldTo (LookedUp m package)) fs bs) ∧
    (∀ bs, All2 (FieldTo (LookedUp m package)) fs bs → ∃ n, ∀ fuel, n ≤ fuel →
      runList (resolveField m fuel package owner) fs = some (.ok bs)) :=
  runList_iff (fun fuel => resolveField (F := F) m fuel package owner) (FieldTo (LookedUp m package))
    (fun fuel a b => (resolveField_iff m package owner a b).1 fuel)
    (fun a b => (resolveField_iff m package owner a b).2) fs

theorem resolved_params (owner : String) (ps : List (Param F)) :
    (∀ fuel bs, runList (resolveParam m fuel package owner) ps = some (.ok bs) → All2 (ParamTo (LookedUp m package)) ps bs) ∧
    (∀ bs, All2 (ParamTo (LookedUp m package)) ps bs → ∃ n, ∀ fuel, n ≤ fuel →
      runList (resolveParam m fuel package owner) ps = some (.ok bs)) :=
  runList_iff (fun fuel => resolveParam (F := F) m fuel package owner) (ParamTo (LookedUp m package))
    (fun fuel a b => (resolveParam_iff m package owner a b).1 fuel)
    (fun a b => (resolveParam_iff m package owner a b).2) ps

theorem resolved_funcs (owner : String) (fs : List (Func F)) :
    (∀ fuel bs, runList (resolveFunc m fuel package owner) fs = some (.ok bs) → All2 (FuncTo (LookedUp m package)) fs bs) ∧
    (∀ bs, All2 (FuncTo (LookedUp m package)) fs bs → ∃ n, ∀ fuel, n ≤ fuel →
      runList (resolveFunc m fuel package owner) fs = some (.ok bs)) :=
  runList_iff (fun fuel => resolveFunc (F := F) m fuel package owner) (FuncTo (LookedUp m package))
    (fun fuel a b => (resolveFunc_iff m package owner a b).1 fuel)
    (fun a b => (resolveFunc_iff m package owner a b).2) fs

theorem resolved_cases (owner : String) (cs : List (Case F)) :
    (∀ fuel bs, runList (resolveCase m fuel package owner) cs = some (.ok bs) → All2 (CaseTo (LookedUp m package)) cs bs) ∧
    (∀ bs, All2 (CaseTo (LookedUp m package)) cs bs → ∃ n, ∀ fuel, n ≤ fuel →
      runList (resolveCase m fuel package owner) cs = some (.ok bs)) :=
  runList_iff (fun fuel => resolveCase (F := F) m fuel package owner) (CaseTo (LookedUp m package))
    (fun fuel a b => (resolveCase_iff m package owner a b).1 fuel)
    (fun a b => (resolveCase_iff m package owner a b).2) cs

theorem resolved_default (owner : String) (c : Option (Case F)) :
    (∀ fuel bs, runOption (resolveCase m fuel package owner) c = some (.ok bs) → Opt2 (CaseTo (LookedUp m package)) c bs) ∧
    (∀ bs, Opt2 (CaseTo (LookedUp m package)) c bs → ∃ n, ∀ fuel, n ≤ fuel →
      runOption (resolveCase m fuel package owner) c = some (.ok bs)) :=
  runOption_iff (fun fuel => resolveCase (F := F) m fuel package owner) (CaseTo (LookedUp m package))
    (fun fuel a b => (resolveCase_iff m package owner a b).1 fuel)
    (fun a b => (resolveCase_iff m package owner a b).2) c

theorem resolveStruct_lookedUp (d d' : Struct F) (ht : d.templates = []) :
    (∀ fuel, resolveStruct m fuel package d = some (.ok d') → StructTo (LookedUp m package) d d') ∧
    (StructTo (LookedUp m package) d d' → ∃ n, ∀ fuel, n ≤ fuel →
      resolveStruct m fuel package d = some (.ok d')) := by
  refine ⟨fun fuel h => ?_, ?_⟩
  · simp only [resolveStruct, ht, List.isEmpty_nil, if_true] at h
    obtain ⟨fs, hfs, h⟩ := Run.bind_ok h
    obtain ⟨ps, hps, h⟩ := Run.bind_ok h
    obtain ⟨gs, hgs, h⟩ := Run.bind_ok h
    cases h
    exact ⟨fs, ps, gs, (resolved_fields m package _ _).1 _ _ hfs, (resolved_params m package _ _).1 _ _ hps,
      (resolved_funcs m package _ _).1 _ _ hgs, by rw [ht]⟩
  · rintro ⟨fs, ps, gs, hfs, hps, hgs, rfl⟩
    obtain ⟨n1, h1⟩ := (resolved_fields m package d.name _).2 _ hfs
    obtain ⟨n2, h2⟩ := (resolved_params m package d.name _).2 _ hps
    obtain ⟨n3, h3⟩ := (resolved_funcs m package d.name _).2 _ hgs
    refine ⟨n1 + n2 + n3, fun fuel hf => ?_⟩
    simp [resolveStruct, ht, h1 fuel (by omega), h2 fuel (by omega), h3 fuel (by omega), Run.bind]

theorem resolveUnion_lookedUp (d d' : Ast.Union F) (ht : d.templates = []) :
    (∀ fuel, resolveUnion m fuel package d = some (.ok d') → UnionTo (LookedUp m package) d d') ∧
    (UnionTo (LookedUp m package) d d' → ∃ n, ∀ fuel, n ≤ fuel →
      resolveUnion m fuel package d = some (.ok d')) := by
  refine ⟨fun fuel h => ?_, ?_⟩
  · simp only [resolveUnion, ht, List.isEmpty_nil, if_true] at h
    obtain ⟨fs, hfs, h⟩ := Run.bind_ok h
    obtain ⟨ps, hps, h⟩ := Run.bind_ok h
    obtain ⟨gs, hgs, h⟩ := Run.bind_ok h
    cases h
    exact ⟨fs, ps, gs, (resolved_fields m package _ _).1 _ _ hfs, (resolved_params m package _ _).1 _ _ hps,
      (resolved_funcs m package _ _).1 _ _ hgs, by rw [ht]⟩
  · rintro ⟨fs, ps, gs, hfs, hps, hgs, rfl⟩
    obtain ⟨n1, h1⟩ := (resolved_fields m package d.name _).2 _ hfs
    obtain ⟨n2, h2⟩ := (resolved_params m package d.name _).2 _ hps
    obtain ⟨n3, h3⟩ := (resolved_funcs m package d.name _).2 _ hgs
    refine ⟨n1 + n2 + n3, fun fuel hf => ?_⟩
    simp [resolveUnion, ht, h1 fuel (by omega), h2 fuel (by omega), h3 fuel (by omega), Run.bind]

theorem resolveChoice_lookedUp (d d' : Choice F) (ht : d.templates = []) :
    (∀ fuel, resolveChoice m fuel package d = some (.ok d') → ChoiceTo (LookedUp m package) d d') ∧
    (ChoiceTo (LookedUp m package) d d' → ∃ n, ∀ fuel, n ≤ fuel →
      resolveChoice m fuel package d = some (.ok d')) := by
  refine ⟨fun fuel h => ?_, ?_⟩
  · simp only [resolveChoice, ht, List.isEmpty_nil, if_true] at h
    obtain ⟨cs, hcs, h⟩ := Run.bind_ok h
    obtain ⟨df, hdf, h⟩ := Run.bind_ok h
    obtain ⟨ps, hps, h⟩ := Run.bind_ok h
    obtain ⟨gs, hgs, h⟩ := Run.bind_ok h
    cases h
    exact ⟨cs, df, ps, gs, (resolved_cases m package _ _).1 _ _ hcs, (resolved_default m package _ _).1 _ _ hdf,
      (resolved_params m package _ _).1 _ _ hps, (resolved_funcs m package _ _).1 _ _ hgs, by rw [ht]⟩
  · rintro ⟨cs, df, ps, gs, hcs, hdf, hps, hgs, rfl⟩
    obtain ⟨n0, h0⟩ := (resolved_cases m package d.name _).2 _ hcs
    obtain ⟨n1, h1⟩ := (resolved_default m package d.name _).2 _ hdf
    obtain ⟨n2, h2⟩ := (resolved_params m package d.name _).2 _ hps
    obtain ⟨n3, h3⟩ := (resolved_funcs m package d.name _).2 _ hgs
    refine ⟨n0 + n1 + n2 + n3, fun fuel hf => ?_⟩
    simp [resolveChoice, ht, h0 fuel (by omega), h1 fuel (by omega), h2 fuel (by omega), h3 fuel (by omega), Run.bind]

end Decls

/-! ## From one relation to another -/

namespace Spec

theorem All2.imp {α β : Type} {R S : α → β → Prop} {as : List α} {bs : List β} (h : All2 R as bs)
    (hi : ∀ a ∈ as, ∀ b, R a b → S a b) : All2 S as bs := by
  induction h with
  | nil => exact .nil
  | cons hab _ ih =>
    exact .cons (hi _ (by simp) _ hab) (ih fun a ha => hi a (by simp [ha]))

theorem Opt2.imp {α β : Type} {R S : α → β → Prop} {a : Option α} {b : Option β} (h : Opt2 R a b)
    (hi : ∀ x, a = Option.some x → ∀ b, R x b → S x b) : Opt2 S a b := by
  cases h with
  | none => exact .none
  | some h => exact .some (hi _ rfl _ h)

variable {R S : Ast.TypeRef F → Ast.TypeRef F → Prop}

theorem FieldTo.imp {f f' : Field F} (h : FieldTo R f f') (hi : ∀ t, R f.type t → S f.type t) :
    FieldTo S f f' := by
  obtain ⟨t, ht, rfl⟩ := h
  exact ⟨t, hi t ht, rfl⟩

theorem ParamTo.imp {f f' : Param F} (h : ParamTo R f f') (hi : ∀ t, R f.type t → S f.type t) :
    ParamTo S f f' := by
  obtain ⟨t, ht, rfl⟩ := h
  exact ⟨t, hi t ht, rfl⟩

theorem FuncTo.imp {f f' : Func F} (h : FuncTo R f f') (hi : ∀ t, R f.returnType t → S f.returnType t) :
    FuncTo S f f' := by
  obtain ⟨t, ht, rfl⟩ := h
  exact ⟨t, hi t ht, rfl⟩

theorem CaseTo.imp {c c' : Case F} (h : CaseTo R c c')
    (hi : ∀ f, c.field = some f → ∀ t, R f.type t → S f.type t) : CaseTo S c c' := by
  obtain ⟨f, hf, rfl⟩ := h
  exact ⟨f, hf.imp fun x hx b hb => hb.imp (hi x hx), rfl⟩

theorem StructTo.imp {d d' : Struct F} (h : StructTo R d d') (hi : ∀ t ∈ structRefs d, ∀ t', R t t' → S t t') :
    StructTo S d d' := by
  obtain ⟨fs, ps, gs, hf, hp, hg, rfl⟩ := h
  refine ⟨fs, ps, gs, hf.imp fun a ha b hb => hb.imp (hi _ ?_), hp.imp fun a ha b hb => hb.imp (hi _ ?_),
    hg.imp fun a ha b hb => hb.imp (hi _ ?_), rfl⟩
  · simp only [structRefs, List.mem_append, List.mem_map]
    exact .inl (.inl ⟨a, ha, rfl⟩)
  · simp only [structRefs, List.mem_append, List.mem_map]
    exact .inl (.inr ⟨a, ha, rfl⟩)
  · simp only [structRefs, List.mem_append, List.mem_map]
    exact .inr ⟨a, ha, rfl⟩

theorem UnionTo.imp {d d' : Ast.Union F} (h : UnionTo R d d') (hi : ∀ t ∈ unionRefs d, ∀ t', R t t' → S t t') :
    UnionTo S d d' := by
  obtain ⟨fs, ps, gs, hf, hp, hg, rfl⟩ := h
  refine ⟨fs, ps, gs, hf.imp fun a ha b hb => hb.imp (hi _ ?_), hp.imp fun a ha b hb => hb.imp (hi _ ?_),
    hg.imp fun a ha b hb => hb.imp (hi _ ?_), rfl⟩
  · simp only [unionRefs, List.mem_append, List.mem_map]
    exact .inl (.inl ⟨a, ha, rfl⟩)
  · simp only [unionRefs, List.mem_append, List.mem_map]
    exact .inl (.inr ⟨a, ha, rfl⟩)
  · simp only [unionRefs, List.mem_append, List.mem_map]
    exact .inr ⟨a, ha, rfl⟩

theorem ChoiceTo.imp {d d' : Choice F} (h : ChoiceTo R d d') (hi : ∀ t ∈ choiceRefs d, ∀ t', R t t' → S t t') :
    ChoiceTo S d d' := by
  obtain ⟨cs, df, ps, gs, hc, hd, hp, hg, rfl⟩ := h
  have hcase : ∀ c ∈ d.cases ++ d.default_.toList, ∀ f : Field F, c.field = some f → f.type ∈ choiceRefs d := by
    intro c hc f hf
    simp only [choiceRefs, List.mem_append, List.mem_flatMap]
    exact .inl (.inl ⟨c, List.mem_append.mp hc, by simp [hf]⟩)
  refine ⟨cs, df, ps, gs, hc.imp fun a ha b hb => hb.imp fun f hf => hi _ (hcase a (by simp [ha]) f hf),
    hd.imp fun a ha b hb => hb.imp fun f hf => hi _ (hcase a (by simp [ha]) f hf),
    hp.imp fun a ha b hb => hb.imp (hi _ ?_), hg.imp fun a ha b hb => hb.imp (hi _ ?_), rfl⟩
  · simp only [choiceRefs, List.mem_append, List.mem_map]
    exact .inl (.inr ⟨a, ha, rfl⟩)
  · simp only [choiceRefs, List.mem_append, List.mem_map]
    exact .inr ⟨a, ha, rfl⟩

end Spec

end Zs
