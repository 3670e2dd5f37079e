import Verif.PropsCompiler

/-!
# Names of template instantiations (C39) and their arguments (C45)

The statements are in English in `properties.jsonl`; each theorem below repeats what it says.
-/

namespace Zs

/-- C39: the name of an instantiation is the name of the template followed by the names of the arguments,
without anything between them. -/
theorem C39_name (fuel : Nat) (st : TState) (t : TRef) (n : String) (ht : t.targs ≠ [])
    (h : instanceName fuel st t = some n) : n = t.name ++ String.join (t.targs.map TRef.name) := by
  unfold instanceName at h
  split at h
  · rename_i st' ref hi
    cases h
    have hfold : ∀ (l : List TRef) (acc : String), l.foldl (fun acc a => acc ++ a.name) acc =
        acc ++ String.join (l.map TRef.name) := by
      intro l
      induction l with
      | nil => simp
      | cons a l ih =>
        intro acc
        simp only [List.foldl_cons, List.map_cons, ih]
        simp [String.append_assoc]
    cases hl : st.lookup t.name with
    | none =>
      cases fuel with
      | zero => cases hi
      | succ fuel => simp [instantiateType, ht, hl] at hi
    | some kd =>
      obtain ⟨kind, d⟩ := kd
      obtain ⟨_, _, _, rfl⟩ := instantiateType_stored fuel st st' t ref "" kind d hl ht hi
      exact hfold t.targs t.name
  · cases h

/-- C39: the exact condition for two instantiations to have the same name: the names of the templates and
of the arguments, written one after the other, are the same. -/
theorem C39_same_name_iff (fuel1 fuel2 : Nat) (st1 st2 : TState) (t1 t2 : TRef) (n1 n2 : String)
    (ht1 : t1.targs ≠ []) (ht2 : t2.targs ≠ []) (h1 : instanceName fuel1 st1 t1 = some n1)
    (h2 : instanceName fuel2 st2 t2 = some n2) :
    n1 = n2 ↔ String.join (t1.name :: t1.targs.map TRef.name) = String.join (t2.name :: t2.targs.map TRef.name) := by
  rw [C39_name _ _ _ _ ht1 h1, C39_name _ _ _ _ ht2 h2]
  simp

-- `Pair<int8, X>`.
example : instanceName 2 templates (tInst "Pair" [tName "int8", tName "X"]) = some "Pairint8X" ∧
    String.join ["Pair", "int8", "X"] = "Pairint8X" := by
  constructor <;> decide +kernel

/-- C39 is violated by instantiations of different templates: `BoxA<B>` and `Box<AB>` have the same
name. -/
theorem C39_templates_violated :
    let st := templates.insert .struct "BoxA" ⟨["T"], [("value", tName "T")], [], []⟩
    instanceName 2 st (tInst "BoxA" [tName "B"]) = some "BoxAB" ∧
    instanceName 2 st (tInst "Box" [tName "AB"]) = some "BoxAB" := by
  constructor <;> decide +kernel

/-! ## C45: arguments that are instantiations themselves -/

/-- The type that an argument stands for: itself, or the type that is made for it under the name of C39. -/
def Spec.madeFor (package : String) (a : TRef) : TRef :=
  if a.targs = [] then a else .mk false package (a.name ++ String.join (a.targs.map TRef.name)) 0 [] a.args

theorem instantiateType_package : ∀ (fuel : Nat) (st st' : TState) (t ref : TRef) (given : String),
    instantiateType fuel st t given = some (.ok (st', ref)) → st'.package = st.package
  | 0, _, _, _, _, _, h => by cases h
  | fuel + 1, st, st', t, ref, given, h => by
    have hargs : ∀ (ts : List TRef) (s s' : TState) (rs : List TRef),
        instArgs (fun s a => instantiateType fuel s a "") s ts = some (.ok (s', rs)) → s'.package = s.package := by
      intro ts
      induction ts with
      | nil => intro s s' rs h; cases h; rfl
      | cons a ts ih =>
        intro s s' rs h
        obtain ⟨r, h1, h⟩ := Run.bind_ok h
        obtain ⟨rs', h2, h⟩ := Run.bind_ok h
        cases h
        rw [ih _ _ _ h2, instantiateType_package fuel _ _ _ _ _ h1]
    have hfields : ∀ (subst : List (String × TRef)) (fs : List (String × TRef)) (s s' : TState)
        (rs : List (String × TRef)),
        instFields (fun s a => instantiateType fuel s a "") subst s fs = some (.ok (s', rs)) →
        s'.package = s.package := by
      intro subst fs
      induction fs with
      | nil => intro s s' rs h; cases h; rfl
      | cons f fs ih =>
        intro s s' rs h
        obtain ⟨r, h1, h⟩ := Run.bind_ok h
        obtain ⟨rs', h2, h⟩ := Run.bind_ok h
        cases h
        rw [ih _ _ _ h2]
        unfold instField at h1
        split at h1
        · obtain ⟨r', h3, h1⟩ := Run.bind_ok h1
          cases h1
          exact instantiateType_package fuel _ _ _ _ _ h3
        · split at h1 <;> (cases h1; rfl)
    simp only [instantiateType] at h
    split at h
    · cases h; rfl
    · split at h
      · cases h
      · split at h
        · cases h
        · split at h
          · cases h; rfl
          · obtain ⟨r, h1, h⟩ := Run.bind_ok h
            obtain ⟨fs, h2, h⟩ := Run.bind_ok h
            cases h
            show fs.1.package = st.package
            rw [hfields _ _ _ _ _ h2, hargs _ _ _ _ h1]

theorem foldl_argNames (l : List TRef) : ∀ acc : String,
    l.foldl (fun acc a => acc ++ a.name) acc = acc ++ String.join (l.map TRef.name) := by
  induction l with
  | nil => simp
  | cons a l ih =>
    intro acc
    simp only [List.foldl_cons, List.map_cons, ih]
    simp [String.append_assoc]

theorem instArgs_made (fuel : Nat) : ∀ (ts : List TRef) (s s' : TState) (rs : List TRef),
    instArgs (fun s a => instantiateType fuel s a "") s ts = some (.ok (s', rs)) →
    rs = ts.map (Spec.madeFor s.package)
  | [], s, s', rs, h => by cases h; rfl
  | a :: ts, s, s', rs, h => by
    obtain ⟨r, h1, h⟩ := Run.bind_ok h
    obtain ⟨rs', h2, h⟩ := Run.bind_ok h
    cases h
    have := instArgs_made fuel ts _ _ _ h2
    rw [instantiateType_package fuel _ _ _ _ _ h1] at this
    rw [List.map_cons, ← this]
    congr 1
    by_cases ha : a.targs = []
    · cases fuel with
      | zero => cases h1
      | succ fuel =>
        simp only [instantiateType, ha, if_true] at h1
        cases h1
        simp [Spec.madeFor, ha]
    · cases hl : s.lookup a.name with
      | none =>
        cases fuel with
        | zero => cases h1
        | succ fuel => simp [instantiateType, ha, hl] at h1
      | some kd =>
        obtain ⟨-, -, -, hr⟩ := instantiateType_stored fuel s r.1 a r.2 "" kd.1 kd.2 hl ha h1
        rw [hr, Spec.madeFor, if_neg ha, if_pos rfl, instantiatedName, foldl_argNames]

theorem instFields_at (inst : TState → TRef → Run (TState × TRef)) (subst : List (String × TRef)) :
    ∀ (fs : List (String × TRef)) (s s' : TState) (rs : List (String × TRef)) (i : Nat) (f f' : String × TRef),
    instFields inst subst s fs = some (.ok (s', rs)) → fs[i]? = some f → rs[i]? = some f' → f.2.targs = [] →
    f' = (f.1, ((substLookup subst f.2.name).map (·.withArgs f.2.args)).getD f.2)
  | [], _, _, _, i, f, f', _, hf, _, _ => by cases i <;> cases hf
  | g :: fs, s, s', rs, i, f, f', h, hf, hf', hp => by
    obtain ⟨r, h1, h⟩ := Run.bind_ok h
    obtain ⟨rs', h2, h⟩ := Run.bind_ok h
    cases h
    cases i with
    | zero =>
      simp only [List.getElem?_cons_zero, Option.some.injEq] at hf hf'
      subst hf hf'
      unfold instField at h1
      rw [if_neg (by simp [hp])] at h1
      split at h1
      · rename_i t ht
        cases h1
        simp [ht]
      · rename_i ht
        cases h1
        simp [ht]
    | succ i => exact instFields_at inst subst fs _ _ _ i f f' h2 hf hf' hp

/-- C45: whatever the arguments of an instantiation, also instantiations of templates: a field whose type is the
`j`-th template parameter gets the type that the `j`-th argument stands for, with the arguments of the field. -/
theorem C45_arguments (fuel : Nat) (st st' : TState) (t ref : TRef) (given : String) (kind : TKind) (d : TDef)
    (hl : st.lookup t.name = some (kind, d)) (ht : t.targs ≠ []) (hnd : d.params.Nodup)
    (hfresh : st.store kind (if given = "" then instantiatedName t else given) = none)
    (h : instantiateType fuel st t given = some (.ok (st', ref))) :
    ∃ d', st'.store kind ref.name = some d' ∧
      ∀ (i j : Nat) (f f' : String × TRef) (a : TRef), d.fields[i]? = some f → d'.fields[i]? = some f' →
        f.2.targs = [] → d.params[j]? = some f.2.name → t.targs[j]? = some a →
        f' = (f.1, (Spec.madeFor st.package a).withArgs f.2.args) := by
  cases fuel with
  | zero => cases h
  | succ fuel =>
    simp only [instantiateType, ht, if_false, hl, hfresh] at h
    split at h
    · cases h
    · obtain ⟨r, h1, h⟩ := Run.bind_ok h
      obtain ⟨fs, h2, h⟩ := Run.bind_ok h
      cases h
      refine ⟨_, if_pos ⟨rfl, rfl⟩, ?_⟩
      intro i j f f' a hf hf' hp hj ha
      rw [instFields_at _ _ _ _ _ _ i f f' h2 hf hf' hp, instArgs_made fuel _ _ _ _ h1]
      have hlook : substLookup (d.params.zip (t.targs.map (Spec.madeFor st.package))) f.2.name =
          some (Spec.madeFor st.package a) := by
        have hz : (d.params.zip (t.targs.map (Spec.madeFor st.package)))[j]? =
            some (f.2.name, Spec.madeFor st.package a) := by
          simp [List.getElem?_zip_eq_some, hj, ha]
        unfold substLookup
        cases hfind : (d.params.zip (t.targs.map (Spec.madeFor st.package))).reverse.find?
            (fun p => p.1 == f.2.name) with
        | none =>
          rw [List.find?_eq_none] at hfind
          have := hfind _ (List.mem_reverse.2 (List.mem_of_getElem? hz))
          simp at this
        | some p =>
          have hk := List.find?_some hfind
          have hm := List.mem_reverse.1 (List.mem_of_find?_eq_some hfind)
          obtain ⟨k, hk'⟩ := List.getElem?_of_mem hm
          have hkz := List.getElem?_zip_eq_some.1 hk'
          simp only [beq_iff_eq] at hk
          rw [hk] at hkz
          have hjk : k = j := by
            have h1 := hkz.1
            obtain ⟨hkl, hke⟩ := List.getElem?_eq_some_iff.1 h1
            obtain ⟨hjl, hje⟩ := List.getElem?_eq_some_iff.1 hj
            exact (List.getElem_inj hnd).1 (hke.trans hje.symm)
          subst hjk
          rw [hk'] at hz
          cases hz
          rfl
      rw [hlook]
      rfl

-- `Wrap<Box<int8>>`: the field of `Wrap` is a `Boxint8`
example : ∃ st' ref, instantiateType 3 templates (tInst "Wrap" [tInst "Box" [tName "int8"]]) "" =
      some (.ok (st', ref)) ∧ ref.name = "WrapBox" ∧
    Spec.madeFor "p" (tInst "Box" [tName "int8"]) = .mk false "p" "Boxint8" 0 [] [] :=
  ⟨_, _, rfl, by decide +kernel, by rfl⟩

end Zs
