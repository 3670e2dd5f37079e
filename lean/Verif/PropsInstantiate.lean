import Verif.InstanceLemmas
import Verif.PropsResolve

/-!
# C45 on the data structures of the visitor, and the scope of C65
-/

namespace Zs

open Ast Spec

variable {F : Type}

/-! ## C45: instances of templates -/

/-- C45, partially: an instance of a structure is the structure with its template parameters replaced, in all
fields, parameters and functions; nothing else about them is new.  The arguments have been made before, in order.
Missing: names that are taken (`C45_name_taken_violated`), replacement inside of the arguments of a template
argument (`C45_nested_violated`), template arguments in the types of parameters and functions
(`C45_parameter_violated`). -/
theorem C45_struct_partial {fuel : Nat} {st st' : InstState F} {t ref : Ast.TypeRef F} {given package : String}
    {d : Struct F} (h : instantiateRef (fuel + 1) st t given = some (.ok (st', ref))) (ht : t.targs ≠ [])
    (hd : st.scope.resolve fuel st.package none t.name true = some (.ok (.struct d, package)))
    (hnd : d.templates.Nodup) (hnew : st.structs (chosenName t given) = none) :
    d.templates.length = t.targs.length ∧ ref = .mk false [st.package] (chosenName t given) 0 [] t.args none ∧
    ∃ args fields params functions, All2 (ArgumentMade st.package) t.targs args ∧
      All2 (FieldTo (TypeReplaced st.package d.templates args)) d.fields fields ∧
      All2 (ParamTo (NameReplaced d.templates args)) d.params params ∧
      All2 (FuncTo (NameReplaced d.templates args)) d.functions functions ∧
      st'.structs (chosenName t given) = some
        { name := chosenName t given, templates := [], params := params, fields := fields,
          functions := functions } := by
  have hname : (if given = "" then refInstanceName t else given) = chosenName t given := rfl
  simp only [instantiateRef] at h
  rw [if_neg (by simpa using ht)] at h
  simp only [hd, hname, hnew, Run.bind, Option.isSome_none, Bool.false_eq_true, if_false] at h
  split at h
  · cases h
  · rename_i hlen
    obtain ⟨⟨st1, ts⟩, h1, h⟩ := Run.bind_ok h
    obtain ⟨⟨st2, fs⟩, h2, h⟩ := Run.bind_ok h
    cases h
    obtain ⟨ha, hp1⟩ := threadList_all2_inv _ (fun s : InstState F => s.package = st.package)
      (ArgumentMade st.package)
      (fun s a s' b hI h => ⟨hI ▸ instantiateRef_ref fuel s s' a b h,
        (instantiateRef_grows fuel s a "" s' b h).package.trans hI⟩) _ _ _ _ rfl h1
    obtain ⟨hf, _⟩ := threadList_all2_inv _ (fun s : InstState F => s.package = st.package)
      (FieldTo (TypeReplaced st.package d.templates ts))
      (fun s a s' b hI h => instantiateField_replaced fuel st.package hnd s s' a b hI h) _ _ _ _ hp1 h2
    exact ⟨(show ¬d.templates = [] ∧ d.templates.length = t.targs.length by simpa using hlen).2, rfl, ts, fs, _, _, ha, hf,
      Spec.All2.map _ _ fun p _ => instantiateParam_replaced hnd p,
      Spec.All2.map _ _ fun p _ => instantiateFunc_replaced hnd p, if_pos rfl⟩

/-- C45, partially: unions, likewise. -/
theorem C45_union_partial {fuel : Nat} {st st' : InstState F} {t ref : Ast.TypeRef F} {given package : String}
    {d : Ast.Union F} (h : instantiateRef (fuel + 1) st t given = some (.ok (st', ref))) (ht : t.targs ≠ [])
    (hd : st.scope.resolve fuel st.package none t.name true = some (.ok (.union d, package)))
    (hnd : d.templates.Nodup) (hnew : st.unions (chosenName t given) = none) :
    d.templates.length = t.targs.length ∧ ref = .mk false [st.package] (chosenName t given) 0 [] t.args none ∧
    ∃ args fields params functions, All2 (ArgumentMade st.package) t.targs args ∧
      All2 (FieldTo (TypeReplaced st.package d.templates args)) d.fields fields ∧
      All2 (ParamTo (NameReplaced d.templates args)) d.params params ∧
      All2 (FuncTo (NameReplaced d.templates args)) d.functions functions ∧
      st'.unions (chosenName t given) = some
        { name := chosenName t given, templates := [], params := params, fields := fields,
          functions := functions } := by
  have hname : (if given = "" then refInstanceName t else given) = chosenName t given := rfl
  simp only [instantiateRef] at h
  rw [if_neg (by simpa using ht)] at h
  simp only [hd, hname, hnew, Run.bind, Option.isSome_none, Bool.false_eq_true, if_false] at h
  split at h
  · cases h
  · rename_i hlen
    obtain ⟨⟨st1, ts⟩, h1, h⟩ := Run.bind_ok h
    obtain ⟨⟨st2, fs⟩, h2, h⟩ := Run.bind_ok h
    cases h
    obtain ⟨ha, hp1⟩ := threadList_all2_inv _ (fun s : InstState F => s.package = st.package)
      (ArgumentMade st.package)
      (fun s a s' b hI h => ⟨hI ▸ instantiateRef_ref fuel s s' a b h,
        (instantiateRef_grows fuel s a "" s' b h).package.trans hI⟩) _ _ _ _ rfl h1
    obtain ⟨hf, _⟩ := threadList_all2_inv _ (fun s : InstState F => s.package = st.package)
      (FieldTo (TypeReplaced st.package d.templates ts))
      (fun s a s' b hI h => instantiateField_replaced fuel st.package hnd s s' a b hI h) _ _ _ _ hp1 h2
    exact ⟨(show ¬d.templates = [] ∧ d.templates.length = t.targs.length by simpa using hlen).2, rfl, ts, fs, _, _, ha, hf,
      Spec.All2.map _ _ fun p _ => instantiateParam_replaced hnd p,
      Spec.All2.map _ _ fun p _ => instantiateFunc_replaced hnd p, if_pos rfl⟩

/-- C45, partially: choices, with the fields of all cases and of the default case.  Missing, besides what is
missing for structures: the types of parameters are not replaced (`C45_choice_parameter_violated`); the claim is
for parameters whose name is not that of a template parameter. -/
theorem C45_choice_partial {fuel : Nat} {st st' : InstState F} {t ref : Ast.TypeRef F} {given package : String}
    {d : Choice F} (h : instantiateRef (fuel + 1) st t given = some (.ok (st', ref))) (ht : t.targs ≠ [])
    (hd : st.scope.resolve fuel st.package none t.name true = some (.ok (.choice d, package)))
    (hnd : d.templates.Nodup) (hnew : st.choices (chosenName t given) = none)
    (hparams : ∀ p ∈ d.params, p.name ∉ d.templates) :
    d.templates.length = t.targs.length ∧ ref = .mk false [st.package] (chosenName t given) 0 [] t.args none ∧
    ∃ args cases default_ functions, All2 (ArgumentMade st.package) t.targs args ∧
      All2 (CaseTo (TypeReplaced st.package d.templates args)) d.cases cases ∧
      Opt2 (CaseTo (TypeReplaced st.package d.templates args)) d.default_ default_ ∧
      All2 (FuncTo (NameReplaced d.templates args)) d.functions functions ∧
      st'.choices (chosenName t given) = some
        { name := chosenName t given, templates := [], params := d.params, selector := d.selector, cases := cases,
          default_ := default_, functions := functions } := by
  have hname : (if given = "" then refInstanceName t else given) = chosenName t given := rfl
  simp only [instantiateRef] at h
  rw [if_neg (by simpa using ht)] at h
  simp only [hd, hname, hnew, Run.bind, Option.isSome_none, Bool.false_eq_true, if_false] at h
  split at h
  · cases h
  · rename_i hlen
    obtain ⟨⟨st1, ts⟩, h1, h⟩ := Run.bind_ok h
    obtain ⟨⟨st2, cs⟩, h2, h⟩ := Run.bind_ok h
    obtain ⟨⟨st3, df⟩, h3, h⟩ := Run.bind_ok h
    cases h
    obtain ⟨ha, hp1⟩ := threadList_all2_inv _ (fun s : InstState F => s.package = st.package)
      (ArgumentMade st.package)
      (fun s a s' b hI h => ⟨hI ▸ instantiateRef_ref fuel s s' a b h,
        (instantiateRef_grows fuel s a "" s' b h).package.trans hI⟩) _ _ _ _ rfl h1
    obtain ⟨hc, hp2⟩ := threadList_all2_inv _ (fun s : InstState F => s.package = st.package)
      (CaseTo (TypeReplaced st.package d.templates ts))
      (fun s a s' b hI h => instantiateCase_replaced fuel st.package hnd s s' a b hI h) _ _ _ _ hp1 h2
    obtain ⟨hdf, _⟩ := threadOption_opt2_inv _ (fun s : InstState F => s.package = st.package)
      (CaseTo (TypeReplaced st.package d.templates ts))
      (fun s a s' b hI h => instantiateCase_replaced fuel st.package hnd s s' a b hI h) _ _ _ _ hp2 h3
    have hpar : d.params.map (instantiateChoiceParam (templateMap d.templates ts)) = d.params := by
      have : ∀ p ∈ d.params, instantiateChoiceParam (templateMap d.templates ts) p = id p := fun p hp => by
        unfold instantiateChoiceParam
        rw [templateMap_none _ _ _ (hparams p hp)]
        rfl
      rw [List.map_congr_left this, List.map_id]
    refine ⟨(show ¬d.templates = [] ∧ d.templates.length = t.targs.length by simpa using hlen).2, rfl, ts, cs, df, _, ha, hc, hdf,
      Spec.All2.map _ _ fun p _ => instantiateFunc_replaced hnd p, ?_⟩
    simp only [InstState.addChoice, hpar]
    exact if_pos rfl

/-- C45: whatever is instantiated, the types that the package has stay as they are, and so do the other
packages. -/
theorem C45_others (fuel : Nat) (st st' : InstState F) (t ref : Ast.TypeRef F) (given : String)
    (h : instantiateRef fuel st t given = some (.ok (st', ref))) :
    (∀ n d, st.structs n = some d → st'.structs n = some d) ∧
    (∀ n d, st.choices n = some d → st'.choices n = some d) ∧
    (∀ n d, st.unions n = some d → st'.unions n = some d) ∧
    ∀ q, q ≠ st.package → st'.scope.packages q = st.scope.packages q :=
  let g := instantiateRef_grows fuel st t given st' ref h
  ⟨g.structs, g.choices, g.unions, g.others⟩

namespace Demo

/-- `T<..>`, of the type `t`. -/
def tref (name : String) (targs : List (Ast.TypeRef Unit) := []) : Ast.TypeRef Unit :=
  .mk false [] name 0 targs [] none

/-- `uint8`. -/
def u8ref : Ast.TypeRef Unit := .mk true [] "uint8" 8 [] [] none

/-- The expression `@index`. -/
def oneNode : Node Unit := .mk .index [] false .other false none []

/-- `struct Box<T>(T q) { T x; }`. -/
def boxTemplate : Struct Unit := ⟨"Box", ["T"], [⟨"q", tref "T"⟩], [bareField "x" (tref "T")], []⟩

/-- `struct Pair<A, B>(Box<A> p, B q) { A a; Box<B> b; uint8 c; function A f() { return @index; } }`. -/
def pairTemplate : Struct Unit :=
  ⟨"Pair", ["A", "B"], [⟨"p", tref "Box" [tref "A"]⟩, ⟨"q", tref "B"⟩],
    [bareField "a" (tref "A"), bareField "b" (tref "Box" [tref "B"]), bareField "c" u8ref],
    [⟨"f", oneNode, tref "A"⟩]⟩

/-- The package with the two templates. -/
def templatePackage : Package Unit :=
  { emptyPackage "app" with
    structs := fun n => if n = "Box" then some boxTemplate else if n = "Pair" then some pairTemplate else none }

/-- The state before instantiation. -/
def templateState : InstState Unit where
  package := "app"
  structs := templatePackage.structs
  choices := Map.empty
  unions := Map.empty
  scope := buildScope [templatePackage]

end Demo

-- `Pair<uint8, Box<uint8>>` is `PairUint8..` with all parameters replaced, except in the type of `p`.
example : ∃ st' ref box, instantiateRef 9 Demo.templateState
      (Demo.tref "Pair" [Demo.u8ref, Demo.tref "Box" [Demo.u8ref]]) "" = some (.ok (st', ref)) ∧
    Demo.templateState.scope.resolve 8 "app" none "Pair" true = some (.ok (.struct Demo.pairTemplate, "app")) ∧
    Demo.pairTemplate.templates.Nodup ∧
    Demo.templateState.structs (chosenName (Demo.tref "Pair" [Demo.u8ref, Demo.tref "Box" [Demo.u8ref]]) "") =
      none ∧
    box = .mk false ["app"] "Boxuint8" 0 [] [] none ∧
    st'.structs "Pairuint8Box" = some ⟨"Pairuint8Box", [], [⟨"p", Demo.tref "Box" [Demo.tref "A"]⟩, ⟨"q", box⟩],
      [bareField "a" Demo.u8ref, bareField "b" (.mk false ["app"] "BoxBoxuint8" 0 [] [] none),
        bareField "c" Demo.u8ref], [⟨"f", Demo.oneNode, Demo.u8ref⟩]⟩ :=
  ⟨_, _, _, rfl, rfl, by decide, rfl, rfl, rfl⟩

/-- C45 is violated by template arguments in the types of parameters and functions: an instance has the parameter
`Box<T> p` and the function `function Box<T> f()` of the template as they are, with the template parameter. -/
theorem C45_parameter_violated {fuel : Nat} {st st' : InstState F} {t ref : Ast.TypeRef F}
    {given package : String} {d : Struct F} (h : instantiateRef (fuel + 1) st t given = some (.ok (st', ref)))
    (ht : t.targs ≠ [])
    (hd : st.scope.resolve fuel st.package none t.name true = some (.ok (.struct d, package)))
    (hnd : d.templates.Nodup) (hnew : st.structs (chosenName t given) = none) :
    ∃ d', st'.structs (chosenName t given) = some d' ∧ d'.templates = [] ∧
      (∀ (i : Nat) (p : Param F), d.params[i]? = some p → p.type.name ∉ d.templates → d'.params[i]? = some p) ∧
      (∀ (i : Nat) (f : Func F), d.functions[i]? = some f → f.returnType.name ∉ d.templates →
        d'.functions[i]? = some f) := by
  obtain ⟨_, _, args, fields, params, functions, _, _, hp, hf, hs⟩ := C45_struct_partial h ht hd hnd hnew
  refine ⟨_, hs, rfl, fun i p hi hn => ?_, fun i f hi hn => ?_⟩
  · obtain ⟨p', hp', u, hu, rfl⟩ := hp.get i p hi
    rw [hp', hu.2 hn]
  · obtain ⟨f', hf', u, hu, rfl⟩ := hf.get i f hi
    rw [hf', hu.2 hn]

/-! ## C65: the scope -/

namespace Spec

/-- The parts of a name with dots between them. -/
def withDots : List String → String
  | [] => ""
  | [a] => a
  | a :: b :: rest => a ++ "." ++ withDots (b :: rest)

end Spec

theorem dotted_withDots (parts : List String) : dotted parts = withDots parts := by
  induction parts with
  | nil => exact String.intercalate_nil
  | cons a rest ih =>
    cases rest with
    | nil => exact String.intercalate_singleton
    | cons b rest =>
      show String.intercalate "." (a :: b :: rest) = _
      rw [String.intercalate_cons_cons]
      exact congrArg (a ++ "." ++ ·) ih

/-- C65: the scope that names are looked up in: of packages with different names, each is found under its full name,
with what it declares and with its imports in their order, and nothing else is found. -/
theorem C65_scope (ps : List (Package F)) (hd : (ps.map fun p => withDots p.name).Nodup) :
    (∀ p ∈ ps, ∃ sc, (buildScope ps).packages (withDots p.name) = some sc ∧ sc.file = fileSymbols p ∧
      sc.imports.map (fun i => (i.package, i.symbol)) = p.imports.map fun i => (withDots i.dir, i.symbol)) ∧
    ∀ q, (∀ p ∈ ps, withDots p.name ≠ q) → (buildScope ps).packages q = none := by
  constructor
  · intro p hp
    have hf : ps.find? (fun p' => dotted p'.name == withDots p.name) = some p := by
      have key : ∀ l : List (Package F), (l.map fun p => withDots p.name).Nodup → p ∈ l →
          l.find? (fun p' => dotted p'.name == withDots p.name) = some p := by
        intro l
        induction l with
        | nil => intro _ h; cases h
        | cons x l ih =>
          intro hn hm
          rw [List.map_cons, List.nodup_cons] at hn
          rcases List.mem_cons.mp hm with rfl | hm
          · simp [dotted_withDots]
          · have hx : withDots x.name ≠ withDots p.name := fun e => hn.1 (by
              rw [e]; exact List.mem_map_of_mem (f := fun p : Package F => withDots p.name) hm)
            rw [List.find?_cons_of_neg (by simpa [dotted_withDots] using hx)]
            exact ih hn.2 hm
      exact key ps hd hp
    refine ⟨packageScope p, by simp [buildScope, hf], rfl, ?_⟩
    simp [packageScope, dotted_withDots]
  · intro q h
    have : ps.find? (fun p' => dotted p'.name == q) = none := by
      rw [List.find?_eq_none]
      intro p hp
      simpa [dotted_withDots] using h p hp
    simp [buildScope, this]

-- `a.b`, which imports `a.c.*` and `d.e.f.X`, and `a.c`.
example : withDots ["a", "b"] = "a.b" ∧
    (([{ emptyPackage "" with name := ["a", "b"], imports := [⟨["a", "c"], none⟩, ⟨["d", "e", "f"], some "X"⟩] },
      { emptyPackage "" with name := ["a", "c"] }] : List (Package Unit)).map fun p => withDots p.name).Nodup := by
  decide +kernel

end Zs
