import Verif.ResolveLemmas

/-!
# Lemmas about the instantiation of templates in several packages
-/

namespace Zs

open Ast Spec

variable {F : Type}

theorem templateMap_none (params : List String) (types : List (Ast.TypeRef F)) (n : String) (hn : n ∉ params) :
    templateMap params types n = none := by
  have key : ∀ (l : List (String × Ast.TypeRef F)) (m : Map (Ast.TypeRef F)), (∀ p ∈ l, p.1 ≠ n) →
      (l.foldl (fun m p => m.insert p.1 p.2) m) n = m n := by
    intro l
    induction l with
    | nil => exact fun m _ => rfl
    | cons p l ih =>
      intro m h
      rw [List.foldl_cons, ih _ fun q hq => h q (by simp [hq])]
      have : ¬n = p.1 := fun e => h p (by simp) e.symm
      simp [Map.insert, this]
  refine (key _ _ fun p hp e => hn ?_).trans rfl
  exact e ▸ (List.of_mem_zip hp).1

theorem threadList_all2 {τ α β : Type} (f : τ → α → Run (τ × β)) (R : α → β → Prop)
    (hR : ∀ st a st' b, f st a = some (.ok (st', b)) → R a b) (as : List α) :
    ∀ st st' bs, threadList f st as = some (.ok (st', bs)) → All2 R as bs := by
  induction as with
  | nil =>
    intro st st' bs h
    cases h
    exact .nil
  | cons a as ih =>
    intro st st' bs h
    simp only [threadList] at h
    obtain ⟨⟨st1, b⟩, hb, h⟩ := Run.bind_ok h
    obtain ⟨⟨st2, bs'⟩, hbs, h⟩ := Run.bind_ok h
    cases h
    exact .cons (hR _ _ _ _ hb) (ih _ _ _ hbs)

theorem threadOption_opt2 {τ α β : Type} (f : τ → α → Run (τ × β)) (R : α → β → Prop)
    (hR : ∀ st a st' b, f st a = some (.ok (st', b)) → R a b) (a : Option α) (st st' : τ) (b : Option β)
    (h : threadOption f st a = some (.ok (st', b))) : Opt2 R a b := by
  cases a with
  | none =>
    cases h
    exact .none
  | some a =>
    simp only [threadOption] at h
    obtain ⟨⟨st1, b'⟩, hb, h⟩ := Run.bind_ok h
    cases h
    exact .some (hR _ _ _ _ hb)

/-- A field of a template whose type has no template arguments and is no template parameter stays as it is. -/
def Untouched (templates : List String) (f f' : Field F) : Prop :=
  f.type.targs = [] → f.type.name ∉ templates → f' = f

theorem instantiateField_untouched (inst : InstState F → Ast.TypeRef F → Run (InstState F × Ast.TypeRef F))
    (params : List String) (types : List (Ast.TypeRef F)) (st st' : InstState F) (f f' : Field F)
    (h : instantiateField inst (templateMap params types) st f = some (.ok (st', f'))) : Untouched params f f' := by
  intro ht hn
  simp only [instantiateField, ht, List.isEmpty_nil, if_true, templateMap_none params types _ hn] at h
  cases h
  rfl

theorem instantiateCase_untouched (inst : InstState F → Ast.TypeRef F → Run (InstState F × Ast.TypeRef F))
    (params : List String) (types : List (Ast.TypeRef F)) (st st' : InstState F) (c c' : Case F)
    (h : instantiateCase inst (templateMap params types) st c = some (.ok (st', c'))) :
    c'.conditions = c.conditions ∧ Opt2 (Untouched params) c.field c'.field := by
  obtain ⟨⟨st1, f⟩, hf, h⟩ := Run.bind_ok h
  cases h
  exact ⟨rfl, threadOption_opt2 _ (Untouched params)
    (fun st a st' b h => instantiateField_untouched inst params types st st' a b h) _ _ _ _ hf⟩

section

variable (fuel : Nat) (st st' : InstState F) (t ref : Ast.TypeRef F) (given package : String)

/-- The name of an instance. -/
def chosenName (t : Ast.TypeRef F) (given : String) : String := if given = "" then refInstanceName t else given

theorem instantiateRef_struct (h : instantiateRef (fuel + 1) st t given = some (.ok (st', ref))) (ht : t.targs ≠ [])
    (d : Struct F) (hd : st.scope.resolve fuel st.package none t.name true = some (.ok (.struct d, package)))
    (hnew : st.structs (chosenName t given) = none) :
    ∃ d', st'.structs (chosenName t given) = some d' ∧ d'.name = chosenName t given ∧ d'.templates = [] ∧
      All2 (Untouched d.templates) d.fields d'.fields := by
  have hte : t.targs.isEmpty = false := by simpa using ht
  have hname : (if given = "" then refInstanceName t else given) = chosenName t given := rfl
  simp only [instantiateRef, hte, Bool.false_eq_true, if_false, hd, hname, hnew] at h
  simp only [Run.bind, Option.isSome_none, Bool.false_eq_true, if_false] at h
  split at h
  · cases h
  · obtain ⟨⟨st1, ts⟩, _, h⟩ := Run.bind_ok h
    obtain ⟨⟨st2, fs⟩, hfs, h⟩ := Run.bind_ok h
    cases h
    refine ⟨_, if_pos rfl, rfl, rfl, ?_⟩
    exact threadList_all2 _ _ (fun _ _ _ _ => instantiateField_untouched _ _ _ _ _ _ _) _ _ _ _ hfs

theorem instantiateRef_union (h : instantiateRef (fuel + 1) st t given = some (.ok (st', ref))) (ht : t.targs ≠ [])
    (d : Ast.Union F) (hd : st.scope.resolve fuel st.package none t.name true = some (.ok (.union d, package)))
    (hnew : st.unions (chosenName t given) = none) :
    ∃ d', st'.unions (chosenName t given) = some d' ∧ d'.name = chosenName t given ∧ d'.templates = [] ∧
      All2 (Untouched d.templates) d.fields d'.fields := by
  have hte : t.targs.isEmpty = false := by simpa using ht
  have hname : (if given = "" then refInstanceName t else given) = chosenName t given := rfl
  simp only [instantiateRef, hte, Bool.false_eq_true, if_false, hd, hname, hnew] at h
  simp only [Run.bind, Option.isSome_none, Bool.false_eq_true, if_false] at h
  split at h
  · cases h
  · obtain ⟨⟨st1, ts⟩, _, h⟩ := Run.bind_ok h
    obtain ⟨⟨st2, fs⟩, hfs, h⟩ := Run.bind_ok h
    cases h
    refine ⟨_, if_pos rfl, rfl, rfl, ?_⟩
    exact threadList_all2 _ _ (fun _ _ _ _ => instantiateField_untouched _ _ _ _ _ _ _) _ _ _ _ hfs

theorem instantiateRef_choice (h : instantiateRef (fuel + 1) st t given = some (.ok (st', ref))) (ht : t.targs ≠ [])
    (d : Choice F) (hd : st.scope.resolve fuel st.package none t.name true = some (.ok (.choice d, package)))
    (hnew : st.choices (chosenName t given) = none) :
    ∃ d', st'.choices (chosenName t given) = some d' ∧ d'.name = chosenName t given ∧ d'.templates = [] ∧
      d'.selector = d.selector ∧
      All2 (fun c c' => c'.conditions = c.conditions ∧ Opt2 (Untouched d.templates) c.field c'.field)
        d.cases d'.cases := by
  have hte : t.targs.isEmpty = false := by simpa using ht
  have hname : (if given = "" then refInstanceName t else given) = chosenName t given := rfl
  simp only [instantiateRef, hte, Bool.false_eq_true, if_false, hd, hname, hnew] at h
  simp only [Run.bind, Option.isSome_none, Bool.false_eq_true, if_false] at h
  split at h
  · cases h
  · obtain ⟨⟨st1, ts⟩, _, h⟩ := Run.bind_ok h
    obtain ⟨⟨st2, cs⟩, hcs, h⟩ := Run.bind_ok h
    obtain ⟨⟨st3, df⟩, _, h⟩ := Run.bind_ok h
    cases h
    refine ⟨_, if_pos rfl, rfl, rfl, rfl, ?_⟩
    exact threadList_all2 _ _ (fun _ _ _ _ => instantiateCase_untouched _ _ _ _ _ _ _) _ _ _ _ hcs

end

theorem Spec.All2.get {α β : Type} {R : α → β → Prop} {as : List α} {bs : List β} (h : All2 R as bs) (i : Nat)
    (a : α) (ha : as[i]? = some a) : ∃ b, bs[i]? = some b ∧ R a b := by
  induction h generalizing i with
  | nil => simp at ha
  | cons hab _ ih =>
    cases i with
    | zero =>
      simp only [List.getElem?_cons_zero, Option.some.injEq] at ha
      subst ha
      exact ⟨_, by simp, hab⟩
    | succ i =>
      simp only [List.getElem?_cons_succ] at ha
      obtain ⟨b, hb, hr⟩ := ih i ha
      exact ⟨b, by simpa using hb, hr⟩

end Zs
