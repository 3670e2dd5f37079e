import Verif.PropsTemplates

/-!
# The order in which templates are instantiated

What references to templates need, when this is unambiguous, and what the state of the compiler is after all of
it has been made.  Used for C80 and C67.
-/

namespace Zs

/-- `model.rs` lines 170-211: the types of the fields of the structures, choices and unions of a package, in the
order in which the hash maps yield them.  Simplified: the fields are given by their types, and the new types are
returned instead of being written into the fields; `instantiate` declarations and subtypes, which come first
(lines 142-168), are left out. -/
def instantiateFieldTypes (fuel : Nat) (st : TState) (types : List TRef) : Run (TState × List TRef) :=
  instArgs (fun s a => instantiateType fuel s a "") st types

namespace Spec

/-- What the template parameter `name` stands for, given the parameters of the template and the arguments: the
type that is made for the argument. -/
def standsFor (package : String) : List String → List TRef → String → Option TRef
  | p :: ps, a :: as, name =>
    match standsFor package ps as name with
    | some r => some r
    | none => if p = name then some (madeFor package a) else none
  | _, _, _ => none

/-- A type inside the template `d`, as it is in the instance `t`: parameters among its template arguments are
replaced. -/
def inside (package : String) (d : TDef) (t ty : TRef) : TRef :=
  ty.withTargs (ty.targs.map fun a => (standsFor package d.params t.targs a.name).getD a)

/-- The name that is made for a reference to a template. -/
def madeName (t : TRef) : String := t.name ++ String.join (t.targs.map TRef.name)

/-- The types that have to be made for `roots`: the types themselves, their template arguments, and the types of
the fields of the templates that are instantiated. -/
inductive Needed (st : TState) (roots : List TRef) : TRef → Prop
  | root {t : TRef} : t ∈ roots → Needed st roots t
  | argument {t a : TRef} : Needed st roots t → a ∈ t.targs → Needed st roots a
  | field {t : TRef} {k : TKind} {d : TDef} {f : String × TRef} : Needed st roots t → t.targs ≠ [] →
      st.lookup t.name = some (k, d) → f ∈ d.fields → f.2.targs ≠ [] →
      Needed st roots (inside st.package d t f.2)

/-- The names of the instances that are needed for `roots` are all different, and no other type has such a
name. -/
structure Unambiguous (st : TState) (roots : List TRef) : Prop where
  names : ∀ t t', Needed st roots t → Needed st roots t' → t.targs ≠ [] → t'.targs ≠ [] →
    madeName t = madeName t' → t.name = t'.name ∧ t.targs = t'.targs
  unused : ∀ t, Needed st roots t → t.targs ≠ [] → (∀ k, st.store k (madeName t) = none) ∧
    ∀ t', Needed st roots t' → t'.targs ≠ [] → t'.name ≠ madeName t

/-- The template of a reference exists and has as many parameters as there are arguments, and so do all
templates that are needed for it; and what is needed does not lead back to itself. -/
inductive Finite (st : TState) : TRef → Prop
  | plain {t : TRef} : t.targs = [] → Finite st t
  | made {t : TRef} {k : TKind} {d : TDef} : t.targs ≠ [] → st.lookup t.name = some (k, d) →
      d.params.length = t.targs.length → (∀ a ∈ t.targs, Finite st a) →
      (∀ f ∈ d.fields, f.2.targs ≠ [] → Finite st (inside st.package d t f.2)) → Finite st t

end Spec

open Spec

theorem instantiatedName_made (t : TRef) : instantiatedName t = madeName t := foldl_argNames _ _

theorem madeFor_of {package : String} {t : TRef} (h : t.targs ≠ []) :
    madeFor package t = .mk false package (madeName t) 0 [] t.args := by
  rw [madeFor, if_neg h]
  rfl

theorem substLookup_cons (p : String × TRef) (ps : List (String × TRef)) (n : String) :
    substLookup (p :: ps) n = match substLookup ps n with
      | some r => some r
      | none => if p.1 = n then some p.2 else none := by
  unfold substLookup
  rw [List.reverse_cons, List.find?_append]
  cases ps.reverse.find? (fun p => p.1 == n) with
  | some q => rfl
  | none =>
    by_cases h : p.1 = n
    · simp [h]
    · simp [h]

theorem substLookup_standsFor (package : String) : ∀ (ps : List String) (as : List TRef) (n : String),
    substLookup (ps.zip (as.map (madeFor package))) n = standsFor package ps as n
  | [], _, _ => rfl
  | _ :: _, [], _ => rfl
  | p :: ps, a :: as, n => by
    rw [List.map_cons, List.zip_cons_cons, substLookup_cons, substLookup_standsFor package ps as n]
    rfl

/-- A field of the instance `t`. -/
def fieldIn (package : String) (d : TDef) (t : TRef) (f : String × TRef) : String × TRef :=
  if f.2.targs ≠ [] then (f.1, madeFor package (inside package d t f.2))
  else match standsFor package d.params t.targs f.2.name with
    | some r => (f.1, r.withArgs f.2.args)
    | none => f

/-- The instance `t` of the template `d`. -/
def instanceOf (package : String) (k : TKind) (d : TDef) (t : TRef) : TDef where
  params := []
  fields := d.fields.map (fieldIn package d t)
  typeParams := d.typeParams.map (instTypeParam k (d.params.zip (t.targs.map (madeFor package))))
  functions := d.functions.map (instFunction (d.params.zip (t.targs.map (madeFor package))))

theorem inside_congr {package : String} {d : TDef} {t t' : TRef} (h : t.targs = t'.targs) (ty : TRef) :
    inside package d t ty = inside package d t' ty := by
  unfold inside
  rw [h]

theorem instanceOf_congr {package : String} {k : TKind} {d : TDef} {t t' : TRef} (h : t.targs = t'.targs) :
    instanceOf package k d t = instanceOf package k d t' := by
  have : fieldIn package d t = fieldIn package d t' := by
    funext f
    unfold fieldIn
    rw [inside_congr h, h]
  unfold instanceOf
  rw [this, h]

/-- `Needed` for what is needed. -/
theorem Needed.trans {st : TState} {roots : List TRef} {t x : TRef} (ht : Needed st roots t)
    (hx : Needed st [t] x) : Needed st roots x := by
  induction hx with
  | root h =>
    simp only [List.mem_singleton] at h
    subst h
    exact ht
  | argument _ ha ih => exact .argument ih ha
  | field _ h0 hl hf hft ih => exact .field ih h0 hl hf hft

theorem Needed.of_mem {st : TState} {roots : List TRef} {t x : TRef} (ht : t ∈ roots)
    (hx : Needed st [t] x) : Needed st roots x := Needed.trans (.root ht) hx

/-- The first step of what is needed. -/
theorem Needed.cases' {st : TState} {t x : TRef} (h : Needed st [t] x) :
    x = t ∨ (∃ a ∈ t.targs, Needed st [a] x) ∨
    ∃ k d f, t.targs ≠ [] ∧ st.lookup t.name = some (k, d) ∧ f ∈ d.fields ∧ f.2.targs ≠ [] ∧
      Needed st [inside st.package d t f.2] x := by
  induction h with
  | root h => exact .inl (by simpa using h)
  | @argument u a _ ha ih =>
    rcases ih with rfl | ⟨b, hb, h⟩ | ⟨k, d, f, h0, hl, hf, hft, h⟩
    · exact .inr (.inl ⟨a, ha, .root (by simp)⟩)
    · exact .inr (.inl ⟨b, hb, .argument h ha⟩)
    · exact .inr (.inr ⟨k, d, f, h0, hl, hf, hft, .argument h ha⟩)
  | @field u k d f _ h0 hl hf hft ih =>
    rcases ih with rfl | ⟨b, hb, h⟩ | ⟨k', d', f', h0', hl', hf', hft', h⟩
    · exact .inr (.inr ⟨k, d, f, h0, hl, hf, hft, .root (by simp)⟩)
    · exact .inr (.inl ⟨b, hb, .field h h0 hl hf hft⟩)
    · exact .inr (.inr ⟨k', d', f', h0', hl', hf', hft', .field h h0 hl hf hft⟩)

/-- Everything that is needed for a list is needed for one of its elements. -/
theorem Needed.of_list {st : TState} {roots : List TRef} {x : TRef} (h : Needed st roots x) :
    ∃ t ∈ roots, Needed st [t] x := by
  induction h with
  | root h => exact ⟨_, h, .root (by simp)⟩
  | argument _ ha ih =>
    obtain ⟨t, ht, h⟩ := ih
    exact ⟨t, ht, .argument h ha⟩
  | field _ h0 hl hf hft ih =>
    obtain ⟨t, ht, h⟩ := ih
    exact ⟨t, ht, .field h h0 hl hf hft⟩

theorem Finite.needed {st : TState} {t x : TRef} (ht : Finite st t) (h : Needed st [t] x) : Finite st x := by
  induction h with
  | root h =>
    simp only [List.mem_singleton] at h
    subst h
    exact ht
  | argument _ ha ih =>
    cases ih with
    | plain h0 => rw [h0] at ha; cases ha
    | made _ _ _ hargs _ => exact hargs _ ha
  | field _ h0 hl hf hft ih =>
    cases ih with
    | plain h => exact absurd h h0
    | made _ hl' _ _ hfields =>
      rw [hl] at hl'
      cases hl'
      exact hfields _ hf hft

theorem Finite.congr {st : TState} {t t' : TRef} (hn : t.name = t'.name) (ha : t.targs = t'.targs)
    (h : Finite st t') : Finite st t := by
  cases h with
  | plain h => exact .plain (ha.trans h)
  | made h0 hl hlen hargs hfields =>
    refine .made (by rw [ha]; exact h0) (by rw [hn]; exact hl) (by rw [ha]; exact hlen) (by rw [ha]; exact hargs) ?_
    intro f hf hft
    rw [inside_congr ha]
    exact hfields f hf hft

/-- The state after the instances `P` have been made. -/
structure Has (st₀ : TState) (P : TRef → Prop) (st : TState) : Prop where
  package : st.package = st₀.package
  made : ∀ t k d, P t → t.targs ≠ [] → st₀.lookup t.name = some (k, d) →
    st.store k (madeName t) = some (instanceOf st₀.package k d t) ∧
    st.lookup (madeName t) = some (k, instanceOf st₀.package k d t)
  store : ∀ k n, (∀ t d, P t → t.targs ≠ [] → st₀.lookup t.name = some (k, d) → madeName t ≠ n) →
    st.store k n = st₀.store k n
  lookup : ∀ n, (∀ t, P t → t.targs ≠ [] → madeName t ≠ n) → st.lookup n = st₀.lookup n

/-- A state is determined by what has been made. -/
theorem Has.unique {st₀ st st' : TState} {P : TRef → Prop} (hfin : ∀ t, P t → Finite st₀ t)
    (h : Has st₀ P st) (h' : Has st₀ P st') : st = st' := by
  have hstore : st.store = st'.store := by
    funext k n
    by_cases hp : ∃ t d, P t ∧ t.targs ≠ [] ∧ st₀.lookup t.name = some (k, d) ∧ madeName t = n
    · obtain ⟨t, d, ht, h0, hl, rfl⟩ := hp
      rw [(h.made t k d ht h0 hl).1, (h'.made t k d ht h0 hl).1]
    · have : ∀ t d, P t → t.targs ≠ [] → st₀.lookup t.name = some (k, d) → madeName t ≠ n :=
        fun t d ht h0 hl e => hp ⟨t, d, ht, h0, hl, e⟩
      rw [h.store k n this, h'.store k n this]
  have hlookup : st.lookup = st'.lookup := by
    funext n
    by_cases hp : ∃ t, P t ∧ t.targs ≠ [] ∧ madeName t = n
    · obtain ⟨t, ht, h0, rfl⟩ := hp
      cases hfin t ht with
      | plain h => exact absurd h h0
      | made _ hl _ _ _ => rw [(h.made t _ _ ht h0 hl).2, (h'.made t _ _ ht h0 hl).2]
    · have : ∀ t, P t → t.targs ≠ [] → madeName t ≠ n := fun t ht h0 e => hp ⟨t, ht, h0, e⟩
      rw [h.lookup n this, h'.lookup n this]
  have hpackage := h.package.trans h'.package.symm
  cases st
  cases st'
  simp only at hstore hlookup hpackage
  subst hstore hlookup hpackage
  rfl

/-- Only references with arguments count. -/
theorem Has.congr {st₀ st : TState} {P Q : TRef → Prop} (h : Has st₀ P st)
    (hpq : ∀ t, t.targs ≠ [] → (P t ↔ Q t)) : Has st₀ Q st where
  package := h.package
  made := fun t k d hq h0 hl => h.made t k d ((hpq t h0).mpr hq) h0 hl
  store := fun k n hn => h.store k n fun t d hp h0 hl => hn t d ((hpq t h0).mp hp) h0 hl
  lookup := fun n hn => h.lookup n fun t hp h0 => hn t ((hpq t h0).mp hp) h0

theorem Has.start (st₀ : TState) : Has st₀ (fun _ => False) st₀ :=
  ⟨rfl, fun _ _ _ h => h.elim, fun _ _ _ => rfl, fun _ _ => rfl⟩

/-! ## One instantiation -/

section Step

variable {st₀ : TState} {roots : List TRef}

/-- What is known between two instantiations: the instances in `P` have been made, with all that they need. -/
structure Between (st₀ : TState) (roots : List TRef) (P : TRef → Prop) (st : TState) : Prop where
  has : Has st₀ P st
  needed : ∀ t, P t → Needed st₀ roots t
  closed : ∀ t x, P t → Needed st₀ [t] x → P x
  finite : ∀ t, P t → Finite st₀ t

/-- `P` and what is needed for `t`. -/
def plus (st₀ : TState) (P : TRef → Prop) (t : TRef) : TRef → Prop := fun x => P x ∨ Needed st₀ [t] x

theorem Between.congr {P Q : TRef → Prop} {st : TState} (h : Between st₀ roots P st) (hpq : ∀ t, P t ↔ Q t) :
    Between st₀ roots Q st := by
  have : P = Q := funext fun t => propext (hpq t)
  subst this
  exact h

theorem Between.plus {P : TRef → Prop} {st : TState} {t : TRef} (hP : ∀ t, P t → Needed st₀ roots t)
    (hc : ∀ t x, P t → Needed st₀ [t] x → P x) (hf : ∀ t, P t → Finite st₀ t)
    (ht : Needed st₀ roots t) (hft : Finite st₀ t) (h : Has st₀ (plus st₀ P t) st) :
    Between st₀ roots (plus st₀ P t) st where
  has := h
  needed := fun x hx => hx.elim (hP x) fun hx => Needed.trans ht hx
  closed := fun x y hx hy => hx.elim (fun hx => .inl (hc x y hx hy)) fun hx => .inr (Needed.trans hx hy)
  finite := fun x hx => hx.elim (hf x) fun hx => Finite.needed hft hx

/-- The list of references one after the other. -/
theorem between_args {inst : TState → TRef → Run (TState × TRef)}
    (hinst : ∀ (P : TRef → Prop) (st st' : TState) (t ref : TRef), Needed st₀ roots t →
      Between st₀ roots P st → inst st t = some (.ok (st', ref)) →
      Between st₀ roots (plus st₀ P t) st' ∧ ref = madeFor st₀.package t) :
    ∀ (ts : List TRef) (P : TRef → Prop) (st st' : TState) (rs : List TRef), (∀ t ∈ ts, Needed st₀ roots t) →
      Between st₀ roots P st → instArgs inst st ts = some (.ok (st', rs)) →
      Between st₀ roots (fun x => P x ∨ ∃ t ∈ ts, Needed st₀ [t] x) st' ∧ rs = ts.map (madeFor st₀.package)
  | [], P, st, st', rs, _, hb, h => by
    cases h
    exact ⟨hb.congr fun x => by simp, rfl⟩
  | t :: ts, P, st, st', rs, hts, hb, h => by
    obtain ⟨r, h1, h⟩ := Run.bind_ok h
    obtain ⟨rs', h2, h⟩ := Run.bind_ok h
    cases h
    obtain ⟨hb1, hr⟩ := hinst P st r.1 t r.2 (hts t (by simp)) hb h1
    obtain ⟨hb2, hrs⟩ := between_args hinst ts _ r.1 rs'.1 rs'.2 (fun x hx => hts x (by simp [hx])) hb1 h2
    refine ⟨hb2.congr fun x => ?_, by rw [hr, hrs]; rfl⟩
    simp only [Zs.plus, List.mem_cons, exists_eq_or_imp, or_assoc]

/-- The fields of a template one after the other. -/
theorem between_fields {inst : TState → TRef → Run (TState × TRef)}
    (hinst : ∀ (P : TRef → Prop) (st st' : TState) (t ref : TRef), Needed st₀ roots t →
      Between st₀ roots P st → inst st t = some (.ok (st', ref)) →
      Between st₀ roots (plus st₀ P t) st' ∧ ref = madeFor st₀.package t) (d : TDef) (t : TRef) :
    ∀ (fs : List (String × TRef)) (P : TRef → Prop) (st st' : TState) (rs : List (String × TRef)),
      (∀ f ∈ fs, f.2.targs ≠ [] → Needed st₀ roots (inside st₀.package d t f.2)) → Between st₀ roots P st →
      instFields inst (d.params.zip (t.targs.map (madeFor st₀.package))) st fs = some (.ok (st', rs)) →
      Between st₀ roots
        (fun x => P x ∨ ∃ f ∈ fs, f.2.targs ≠ [] ∧ Needed st₀ [inside st₀.package d t f.2] x) st' ∧
      rs = fs.map (fieldIn st₀.package d t)
  | [], P, st, st', rs, _, hb, h => by
    cases h
    exact ⟨hb.congr fun x => by simp, rfl⟩
  | f :: fs, P, st, st', rs, hfs, hb, h => by
    obtain ⟨r, h1, h⟩ := Run.bind_ok h
    obtain ⟨rs', h2, h⟩ := Run.bind_ok h
    cases h
    have hrest : ∀ g ∈ fs, g.2.targs ≠ [] → Needed st₀ roots (inside st₀.package d t g.2) :=
      fun g hg => hfs g (by simp [hg])
    unfold instField at h1
    by_cases hf : f.2.targs ≠ []
    · rw [if_pos hf] at h1
      obtain ⟨r', h3, h1⟩ := Run.bind_ok h1
      cases h1
      have hin : (f.2.withTargs (f.2.targs.map fun a =>
          (substLookup (d.params.zip (t.targs.map (madeFor st₀.package))) a.name).getD a)) =
          inside st₀.package d t f.2 := by
        unfold inside
        simp only [substLookup_standsFor]
      rw [hin] at h3
      obtain ⟨hb1, hr⟩ := hinst P st r'.1 _ r'.2 (hfs f (by simp) hf) hb h3
      obtain ⟨hb2, hrs⟩ := between_fields hinst d t fs _ _ _ _ hrest hb1 h2
      refine ⟨hb2.congr fun x => ?_, ?_⟩
      · simp only [Zs.plus, List.mem_cons, exists_eq_or_imp, or_assoc, hf, ne_eq, not_false_eq_true, true_and]
      · rw [List.map_cons, ← hrs, fieldIn, if_pos hf, hr]
    · rw [if_neg hf] at h1
      have key : ∀ s g, r = (s, g) → s = st → g = fieldIn st₀.package d t f →
          Between st₀ roots (fun x => P x ∨ ∃ g ∈ f :: fs, g.2.targs ≠ [] ∧
            Needed st₀ [inside st₀.package d t g.2] x) rs'.1 ∧
          r.2 :: rs'.2 = (f :: fs).map (fieldIn st₀.package d t) := by
        intro s g e es eg
        subst e es eg
        obtain ⟨hb2, hrs⟩ := between_fields hinst d t fs _ _ _ _ hrest hb h2
        refine ⟨hb2.congr fun x => ?_, by rw [hrs]; rfl⟩
        simp only [List.mem_cons, exists_eq_or_imp, hf, false_and, false_or]
      split at h1
      · rename_i u hu
        rw [substLookup_standsFor] at hu
        cases h1
        refine key _ _ rfl rfl ?_
        rw [fieldIn, if_neg hf, hu]
      · rename_i hu
        rw [substLookup_standsFor] at hu
        cases h1
        refine key _ _ rfl rfl ?_
        rw [fieldIn, if_neg hf, hu]

/-- In an unambiguous state, templates are found as in the beginning. -/
theorem Between.template {P : TRef → Prop} {st : TState} {t : TRef} (hu : Unambiguous st₀ roots)
    (hb : Between st₀ roots P st) (ht : Needed st₀ roots t) (h0 : t.targs ≠ []) :
    st.lookup t.name = st₀.lookup t.name :=
  hb.has.lookup _ fun x hx hx0 e => (hu.unused x (hb.needed x hx) hx0).2 t ht h0 e.symm

/-- What has been made under the name of `t` is what `t` needs. -/
theorem Between.stored {P : TRef → Prop} {st : TState} {t : TRef} {k : TKind} {d : TDef}
    (hu : Unambiguous st₀ roots) (hb : Between st₀ roots P st) (ht : Needed st₀ roots t) (h0 : t.targs ≠ [])
    (hs : st.store k (madeName t) = some d) :
    ∃ t', P t' ∧ t'.name = t.name ∧ t'.targs = t.targs := by
  refine Classical.byContradiction fun hno => ?_
  have hall : ∀ x d', P x → x.targs ≠ [] → st₀.lookup x.name = some (k, d') → madeName x ≠ madeName t := by
    intro x _ hx hx0 _ e
    obtain ⟨h1, h2⟩ := hu.names x t (hb.needed x hx) ht hx0 h0 e
    exact hno ⟨x, hx, h1, h2⟩
  rw [hb.has.store k _ hall, (hu.unused t ht h0).1 k] at hs
  cases hs

theorem Has.insert {Q : TRef → Prop} {st : TState} {t : TRef} {k : TKind} {d : TDef}
    (hu : Unambiguous st₀ roots) (hQ : ∀ x, Q x → Needed st₀ roots x) (ht : Needed st₀ roots t)
    (h0 : t.targs ≠ []) (hl : st₀.lookup t.name = some (k, d)) (h : Has st₀ Q st) :
    Has st₀ (fun x => Q x ∨ x = t) (st.insert k (madeName t) (instanceOf st₀.package k d t)) where
  package := h.package
  made := by
    intro x k' d' hx hx0 hl'
    have same : madeName x = madeName t → k' = k ∧ instanceOf st₀.package k' d' x = instanceOf st₀.package k d t := by
      intro e
      have hxn : Needed st₀ roots x := hx.elim (hQ x) fun e => e ▸ ht
      obtain ⟨h1, h2⟩ := hu.names x t hxn ht hx0 h0 e
      rw [h1, hl] at hl'
      cases hl'
      exact ⟨rfl, instanceOf_congr h2⟩
    by_cases e : madeName x = madeName t
    · obtain ⟨rfl, hi⟩ := same e
      constructor
      · simp [TState.insert, e, hi]
      · simp [TState.insert, e, hi]
    · have hq : Q x := hx.elim id fun e' => absurd (by rw [e']) e
      obtain ⟨h1, h2⟩ := h.made x k' d' hq hx0 hl'
      constructor
      · simp [TState.insert, e, h1]
      · simp [TState.insert, e, h2]
  store := by
    intro k' n hn
    have hne : ¬ (k' = k ∧ n = madeName t) := by
      rintro ⟨rfl, rfl⟩
      exact hn t d (.inr rfl) h0 hl rfl
    simp only [TState.insert, if_neg hne]
    exact h.store k' n fun x d' hx => hn x d' (.inl hx)
  lookup := by
    intro n hn
    have hne : ¬ n = madeName t := fun e => hn t (.inr rfl) h0 e.symm
    simp only [TState.insert, if_neg hne]
    exact h.lookup n fun x hx => hn x (.inl hx)

/-- One instantiation makes what is needed and nothing else. -/
theorem between_type (hu : Unambiguous st₀ roots) : ∀ (fuel : Nat) (P : TRef → Prop) (st st' : TState)
    (t ref : TRef), Needed st₀ roots t → Between st₀ roots P st →
    instantiateType fuel st t "" = some (.ok (st', ref)) →
    Between st₀ roots (plus st₀ P t) st' ∧ ref = madeFor st₀.package t
  | 0, _, _, _, _, _, _, _, h => by cases h
  | fuel + 1, P, st, st', t, ref, ht, hb, h => by
    by_cases h0 : t.targs = []
    · simp only [instantiateType, h0, if_true] at h
      cases h
      refine ⟨.plus hb.needed hb.closed hb.finite ht (.plain h0) (hb.has.congr fun x hx => ?_), ?_⟩
      · constructor
        · exact .inl
        · rintro (hx' | hx')
          · exact hx'
          · rcases Needed.cases' hx' with rfl | ⟨a, ha, _⟩ | ⟨_, _, _, h1, _⟩
            · exact absurd h0 hx
            · rw [h0] at ha; cases ha
            · exact absurd h0 h1
      · rw [madeFor, if_pos h0]
    · have hl := hb.template hu ht h0
      simp only [instantiateType, h0, if_false, hl, if_true, instantiatedName_made] at h
      cases hl0 : st₀.lookup t.name with
      | none => rw [hl0] at h; cases h
      | some kd =>
        obtain ⟨k, d⟩ := kd
        rw [hl0] at h
        simp only at h
        split at h
        · cases h
        · rename_i hp
          have hlen : d.params.length = t.targs.length := Classical.byContradiction fun hne => hp (.inr hne)
          cases hs : st.store k (madeName t) with
          | some d' =>
            rw [hs] at h
            cases h
            obtain ⟨t', ht', hn', ha'⟩ := hb.stored hu ht h0 hs
            have hfin : Finite st₀ t := Finite.congr hn'.symm ha'.symm (hb.finite t' ht')
            refine ⟨.plus hb.needed hb.closed hb.finite ht hfin ?_, ?_⟩
            · have hsub : ∀ x, Needed st₀ [t] x → x = t ∨ P x := by
                intro x hx
                rcases Needed.cases' hx with rfl | ⟨a, ha, hx⟩ | ⟨k', d'', f, h1, hl', hf, hft, hx⟩
                · exact .inl rfl
                · exact .inr (hb.closed t' x ht' (Needed.trans (.argument (.root (by simp)) (ha' ▸ ha)) hx))
                · refine .inr (hb.closed t' x ht' (Needed.trans
                    (.field (t := t') (.root (by simp)) (by rw [ha']; exact h0) (by rw [hn']; exact hl') hf hft) ?_))
                  rw [inside_congr ha']
                  exact hx
              refine ⟨hb.has.package, ?_, ?_, ?_⟩
              · rintro x kx dx (hx | hx) hx0 hlx
                · exact hb.has.made x kx dx hx hx0 hlx
                · rcases hsub x hx with rfl | hx
                  · have := hb.has.made t' kx dx ht' (by rw [ha']; exact h0) (by rw [hn']; exact hlx)
                    have hm : madeName t' = madeName x := by unfold madeName; rw [hn', ha']
                    rw [hm, instanceOf_congr ha'] at this
                    exact this
                  · exact hb.has.made x kx dx hx hx0 hlx
              · exact fun k' n hn => hb.has.store k' n fun x dx hx => hn x dx (.inl hx)
              · exact fun n hn => hb.has.lookup n fun x hx => hn x (.inl hx)
            · rw [madeFor_of h0, hb.has.package]
          | none =>
            rw [hs] at h
            obtain ⟨r, h1, h⟩ := Run.bind_ok h
            obtain ⟨fs, h2, h⟩ := Run.bind_ok h
            cases h
            have hinst := between_type hu fuel
            obtain ⟨hb1, hr⟩ := between_args (inst := fun s a => instantiateType fuel s a "")
              hinst t.targs P st r.1 r.2 (fun a ha => .argument ht ha) hb h1
            rw [hr] at h2
            obtain ⟨hb2, hfs⟩ := between_fields (inst := fun s a => instantiateType fuel s a "")
              hinst d t d.fields _ r.1 fs.1 fs.2 (fun f hf hft => .field ht h0 hl0 hf hft) hb1 h2
            have hfin : Finite st₀ t := by
              refine .made h0 hl0 hlen (fun a ha => ?_) fun f hf hft => ?_
              · exact hb1.finite a (.inr ⟨a, ha, .root (by simp)⟩)
              · exact hb2.finite _ (.inr ⟨f, hf, hft, .root (by simp)⟩)
            refine ⟨.plus hb.needed hb.closed hb.finite ht hfin ?_, ?_⟩
            · have := hb2.has.insert hu hb2.needed ht h0 hl0
              rw [hr, hfs]
              refine Has.congr this fun x _ => ?_
              constructor
              · rintro (((hx | ⟨a, ha, hx⟩) | ⟨f, hf, hft, hx⟩) | rfl)
                · exact .inl hx
                · exact .inr (Needed.trans (.argument (.root (by simp)) ha) hx)
                · exact .inr (Needed.trans (.field (.root (by simp)) h0 hl0 hf hft) hx)
                · exact .inr (.root (by simp))
              · rintro (hx | hx)
                · exact .inl (.inl (.inl hx))
                · rcases Needed.cases' hx with rfl | ⟨a, ha, hx⟩ | ⟨k', d', f, _, hl', hf, hft, hx⟩
                  · exact .inr rfl
                  · exact .inl (.inl (.inr ⟨a, ha, hx⟩))
                  · rw [hl0] at hl'
                    cases hl'
                    exact .inl (.inr ⟨f, hf, hft, hx⟩)
            · rw [madeFor_of h0, hb.has.package]

/-! ## Everything that is finite is made -/

theorem Run.bind_of_ok {α β : Type} {x : Run α} {f : α → Run β} {a : α} (h : x = some (.ok a)) :
    Run.bind x f = f a := by
  subst h
  rfl

theorem instArgs_mono {inst inst' : TState → TRef → Run (TState × TRef)}
    (hi : ∀ s t r, inst s t = some (.ok r) → inst' s t = some (.ok r)) :
    ∀ (ts : List TRef) (st : TState) (r : TState × List TRef), instArgs inst st ts = some (.ok r) →
      instArgs inst' st ts = some (.ok r)
  | [], _, _, h => h
  | t :: ts, st, r, h => by
    obtain ⟨a, h1, h⟩ := Run.bind_ok h
    obtain ⟨b, h2, h⟩ := Run.bind_ok h
    rw [instArgs, Run.bind_of_ok (hi _ _ _ h1), Run.bind_of_ok (instArgs_mono hi ts _ _ h2)]
    exact h

theorem instFields_mono {inst inst' : TState → TRef → Run (TState × TRef)}
    (hi : ∀ s t r, inst s t = some (.ok r) → inst' s t = some (.ok r)) (subst : List (String × TRef)) :
    ∀ (fs : List (String × TRef)) (st : TState) (r : TState × List (String × TRef)),
      instFields inst subst st fs = some (.ok r) → instFields inst' subst st fs = some (.ok r)
  | [], _, _, h => h
  | f :: fs, st, r, h => by
    obtain ⟨a, h1, h⟩ := Run.bind_ok h
    obtain ⟨b, h2, h⟩ := Run.bind_ok h
    have h1' : instField inst' st subst f = some (.ok a) := by
      unfold instField at h1 ⊢
      split
      · rename_i hf
        rw [if_pos hf] at h1
        obtain ⟨c, h3, h1⟩ := Run.bind_ok h1
        rw [Run.bind_of_ok (hi _ _ _ h3)]
        exact h1
      · rename_i hf
        rw [if_neg hf] at h1
        exact h1
    rw [instFields, Run.bind_of_ok h1', Run.bind_of_ok (instFields_mono hi subst fs _ _ h2)]
    exact h

/-- More steps do not change a result. -/
theorem instantiateType_step : ∀ (fuel : Nat) (st : TState) (t : TRef) (given : String) (r : TState × TRef),
    instantiateType fuel st t given = some (.ok r) → instantiateType (fuel + 1) st t given = some (.ok r)
  | 0, _, _, _, _, h => by cases h
  | fuel + 1, st, t, given, r, h => by
    have hi : ∀ s a r, instantiateType fuel s a "" = some (.ok r) →
        instantiateType (fuel + 1) s a "" = some (.ok r) := fun s a r => instantiateType_step fuel s a "" r
    rw [instantiateType] at h ⊢
    split
    · rename_i h0
      rw [if_pos h0] at h
      exact h
    · rename_i h0
      rw [if_neg h0] at h
      cases hl : st.lookup t.name with
      | none => rw [hl] at h; cases h
      | some kd =>
        obtain ⟨k, d⟩ := kd
        rw [hl] at h
        simp only at h ⊢
        split
        · rename_i hp
          rw [if_pos hp] at h
          exact h
        · rename_i hp
          rw [if_neg hp] at h
          cases hs : st.store k (if given = "" then instantiatedName t else given) with
          | some d' => rw [hs] at h; exact h
          | none =>
            rw [hs] at h
            obtain ⟨a, h1, h⟩ := Run.bind_ok h
            obtain ⟨b, h2, h⟩ := Run.bind_ok h
            simp only
            rw [Run.bind_of_ok (instArgs_mono hi _ _ _ h1), Run.bind_of_ok (instFields_mono hi _ _ _ _ h2)]
            exact h

theorem instantiateType_mono {fuel fuel' : Nat} (hle : fuel ≤ fuel') {st : TState} {t : TRef} {given : String}
    {r : TState × TRef} (h : instantiateType fuel st t given = some (.ok r)) :
    instantiateType fuel' st t given = some (.ok r) := by
  induction hle with
  | refl => exact h
  | step _ ih => exact instantiateType_step _ _ _ _ _ ih

/-- References that can be made one after the other can be made together. -/
theorem ends_args (hu : Unambiguous st₀ roots) : ∀ (ts : List TRef) (P : TRef → Prop) (st : TState),
    (∀ t ∈ ts, Needed st₀ roots t) →
    (∀ t ∈ ts, ∀ (P : TRef → Prop) (st : TState), Between st₀ roots P st →
      ∃ fuel r, instantiateType fuel st t "" = some (.ok r)) →
    Between st₀ roots P st →
    ∃ fuel r, instArgs (fun s a => instantiateType fuel s a "") st ts = some (.ok r)
  | [], _, _, _, _, _ => ⟨0, _, rfl⟩
  | t :: ts, P, st, hn, he, hb => by
    obtain ⟨f1, r1, h1⟩ := he t (by simp) P st hb
    obtain ⟨hb1, _⟩ := between_type hu f1 P st r1.1 t r1.2 (hn t (by simp)) hb h1
    obtain ⟨f2, r2, h2⟩ := ends_args hu ts _ r1.1 (fun x hx => hn x (by simp [hx]))
      (fun x hx => he x (by simp [hx])) hb1
    refine ⟨max f1 f2, (r2.1, r1.2 :: r2.2), ?_⟩
    have h2' := instArgs_mono (inst' := fun s a => instantiateType (max f1 f2) s a "")
      (fun s a r h => instantiateType_mono (Nat.le_max_right _ _) h) ts _ _ h2
    simp only [instArgs]
    rw [Run.bind_of_ok (instantiateType_mono (Nat.le_max_left _ _) h1), Run.bind_of_ok h2']

theorem ends_fields (hu : Unambiguous st₀ roots) (d : TDef) (t : TRef) :
    ∀ (fs : List (String × TRef)) (P : TRef → Prop) (st : TState),
    (∀ f ∈ fs, f.2.targs ≠ [] → Needed st₀ roots (inside st₀.package d t f.2)) →
    (∀ f ∈ fs, f.2.targs ≠ [] → ∀ (P : TRef → Prop) (st : TState), Between st₀ roots P st →
      ∃ fuel r, instantiateType fuel st (inside st₀.package d t f.2) "" = some (.ok r)) →
    Between st₀ roots P st →
    ∃ fuel r, instFields (fun s a => instantiateType fuel s a "")
      (d.params.zip (t.targs.map (madeFor st₀.package))) st fs = some (.ok r)
  | [], _, _, _, _, _ => ⟨0, _, rfl⟩
  | f :: fs, P, st, hn, he, hb => by
    have hone : ∃ fuel r P', instField (fun s a => instantiateType fuel s a "") st
        (d.params.zip (t.targs.map (madeFor st₀.package))) f = some (.ok r) ∧ Between st₀ roots P' r.1 := by
      by_cases hf : f.2.targs ≠ []
      · obtain ⟨f1, r1, h1⟩ := he f (by simp) hf P st hb
        obtain ⟨hb1, _⟩ := between_type hu f1 P st r1.1 _ r1.2 (hn f (by simp) hf) hb h1
        refine ⟨f1, (r1.1, (f.1, r1.2)), _, ?_, hb1⟩
        unfold instField
        rw [if_pos hf]
        have hin : (f.2.withTargs (f.2.targs.map fun a =>
            (substLookup (d.params.zip (t.targs.map (madeFor st₀.package))) a.name).getD a)) =
            inside st₀.package d t f.2 := by
          unfold inside
          simp only [substLookup_standsFor]
        simp only [hin]
        exact Run.bind_of_ok h1
      · unfold instField
        simp only [if_neg hf]
        cases substLookup (d.params.zip (t.targs.map (madeFor st₀.package))) f.2.name with
        | some u => exact ⟨0, _, P, rfl, hb⟩
        | none => exact ⟨0, _, P, rfl, hb⟩
    obtain ⟨f1, r1, P', h1, hb1⟩ := hone
    obtain ⟨f2, r2, h2⟩ := ends_fields hu d t fs P' r1.1 (fun x hx => hn x (by simp [hx]))
      (fun x hx => he x (by simp [hx])) hb1
    refine ⟨max f1 f2, (r2.1, r1.2 :: r2.2), ?_⟩
    have h1' := instFields_mono (inst' := fun s a => instantiateType (max f1 f2) s a "")
      (fun s a r h => instantiateType_mono (Nat.le_max_left _ _) h)
      (d.params.zip (t.targs.map (madeFor st₀.package))) [f] st (r1.1, [r1.2]) (by
        simp only [instFields]
        rw [Run.bind_of_ok h1]
        rfl)
    have h2' := instFields_mono (inst' := fun s a => instantiateType (max f1 f2) s a "")
      (fun s a r h => instantiateType_mono (Nat.le_max_right _ _) h) _ fs _ _ h2
    simp only [instFields] at h1' ⊢
    obtain ⟨a, ha, h1'⟩ := Run.bind_ok h1'
    obtain ⟨b, hb', h1'⟩ := Run.bind_ok h1'
    have hb' : b = (a.1, []) := by injection hb' with hb'; injection hb' with hb'; exact hb'.symm
    subst hb'
    injection h1' with h1'
    injection h1' with h1'
    injection h1' with e1 e2
    injection e2 with e2
    have : a = r1 := Prod.ext e1 e2
    subst this
    rw [Run.bind_of_ok ha, Run.bind_of_ok h2']

/-- A finite reference can be made at any time. -/
theorem ends_type (hu : Unambiguous st₀ roots) {t : TRef} (hfin : Finite st₀ t) (ht : Needed st₀ roots t) :
    ∀ (P : TRef → Prop) (st : TState), Between st₀ roots P st →
      ∃ fuel r, instantiateType fuel st t "" = some (.ok r) := by
  induction hfin with
  | @plain t h0 => exact fun P st _ => ⟨1, (st, t), by simp only [instantiateType, h0, if_true]⟩
  | @made t k d h0 hl hlen hargs hfields iha ihf =>
    intro P st hb
    have hp : ¬ (d.params = [] ∨ d.params.length ≠ t.targs.length) := by
      rintro (e | e)
      · rw [e] at hlen
        exact h0 (List.length_eq_zero_iff.1 hlen.symm)
      · exact e hlen
    have hl' := (hb.template hu ht h0).trans hl
    cases hs : st.store k (madeName t) with
    | some d' =>
      exact ⟨1, (st, .mk false st.package (madeName t) 0 [] t.args), by
        simp only [instantiateType, h0, if_false, hl', if_true, instantiatedName_made, hp, hs]⟩
    | none =>
      obtain ⟨f1, r1, h1⟩ := ends_args hu t.targs P st (fun a ha => .argument ht ha)
        (fun a ha => iha a ha (.argument ht ha)) hb
      obtain ⟨hb1, hr⟩ := between_args (inst := fun s a => instantiateType f1 s a "")
        (between_type hu f1) t.targs P st r1.1 r1.2 (fun a ha => .argument ht ha) hb h1
      obtain ⟨f2, r2, h2⟩ := ends_fields hu d t d.fields _ r1.1 (fun f hf hft => .field ht h0 hl hf hft)
        (fun f hf hft => ihf f hf hft (.field ht h0 hl hf hft)) hb1
      refine ⟨max f1 f2 + 1, ?_⟩
      simp only [instantiateType, h0, if_false, hl', if_true, instantiatedName_made, hp, hs]
      have h1' := instArgs_mono (inst' := fun s a => instantiateType (max f1 f2) s a "")
        (fun s a r h => instantiateType_mono (Nat.le_max_left _ _) h) t.targs _ _ h1
      have h2' := instFields_mono (inst' := fun s a => instantiateType (max f1 f2) s a "")
        (fun s a r h => instantiateType_mono (Nat.le_max_right _ _) h) _ d.fields _ _ h2
      rw [Run.bind_of_ok h1', hr, Run.bind_of_ok h2']
      exact ⟨_, rfl⟩

theorem Between.start (st₀ : TState) (roots : List TRef) : Between st₀ roots (fun _ => False) st₀ :=
  ⟨.start st₀, fun _ h => h.elim, fun _ _ h => h.elim, fun _ h => h.elim⟩

end Step

end Zs
