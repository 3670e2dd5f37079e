import Verif.InstanceSpec
import Verif.InstantiateLemmas

/-!
# Lemmas about instances of templates (C45)
-/

namespace Zs

open Ast Spec

variable {F : Type}

theorem templateMap_given (params : List String) (types : List (Ast.TypeRef F)) (hnd : params.Nodup) (n : String)
    (a : Ast.TypeRef F) (h : Given params types n a) : templateMap params types n = some a := by
  have key : ∀ (params : List String) (types : List (Ast.TypeRef F)) (m : Map (Ast.TypeRef F)), params.Nodup →
      ((∃ i : Nat, params[i]? = some n ∧ types[i]? = some a) →
        ((params.zip types).foldl (fun m p => m.insert p.1 p.2) m) n = some a) ∧
      (n ∉ params → ((params.zip types).foldl (fun m p => m.insert p.1 p.2) m) n = m n) := by
    intro params
    induction params with
    | nil => intro types m _; exact ⟨by simp, fun _ => by simp⟩
    | cons p ps ih =>
      intro types m hnd
      cases types with
      | nil => exact ⟨by simp, fun _ => by simp⟩
      | cons t ts =>
        obtain ⟨h1, h2⟩ := ih ts (m.insert p t) (List.nodup_cons.mp hnd).2
        simp only [List.zip_cons_cons, List.foldl_cons]
        constructor
        · rintro ⟨i, hp, ht⟩
          cases i with
          | zero =>
            simp only [List.getElem?_cons_zero, Option.some.injEq] at hp ht
            subst hp ht
            rw [h2 (List.nodup_cons.mp hnd).1]
            simp [Map.insert]
          | succ i => exact h1 ⟨i, by simpa using hp, by simpa using ht⟩
        · intro hn
          simp only [List.mem_cons, not_or] at hn
          rw [h2 hn.2]
          simp [Map.insert, hn.1]
  exact (key params types Map.empty hnd).1 h

theorem foldl_names (l : List (Ast.TypeRef F)) (s : String) :
    l.foldl (fun acc a => acc ++ a.name) s = s ++ String.join (l.map (·.name)) := by
  induction l generalizing s with
  | nil => simp [String.join]
  | cons a l ih =>
    rw [List.foldl_cons, ih, List.map_cons, String.join_cons, String.append_assoc]

theorem refInstanceName_joined (t : Ast.TypeRef F) (targs : List (Ast.TypeRef F)) :
    refInstanceName (t.withTargs targs) = joinedName t targs := by
  cases t
  exact foldl_names _ _

theorem withTargs_self (t : Ast.TypeRef F) : t.withTargs t.targs = t := by cases t; rfl

theorem instantiateRef_ref (fuel : Nat) (st st' : InstState F) (t ref : Ast.TypeRef F)
    (h : instantiateRef fuel st t "" = some (.ok (st', ref))) : ArgumentMade st.package t ref := by
  cases fuel with
  | zero => cases h
  | succ fuel =>
    simp only [instantiateRef] at h
    unfold ArgumentMade
    by_cases ht : t.targs = []
    · rw [if_pos ht]
      rw [if_pos (by simp [ht])] at h
      cases h
      rfl
    · rw [if_neg ht]
      rw [if_neg (by simpa using ht)] at h
      obtain ⟨⟨s, q⟩, hs, h⟩ := Run.bind_ok h
      have hname := refInstanceName_joined t t.targs
      rw [withTargs_self] at hname
      simp only [if_true, hname] at h
      revert h
      cases s with
      | struct d =>
        intro h
        simp only at h
        split at h
        · cases h
        · split at h
          · cases h; rfl
          · obtain ⟨r1, _, h⟩ := Run.bind_ok h
            obtain ⟨r2, _, h⟩ := Run.bind_ok h
            cases h; rfl
      | choice d =>
        intro h
        simp only at h
        split at h
        · cases h
        · split at h
          · cases h; rfl
          · obtain ⟨r1, _, h⟩ := Run.bind_ok h
            obtain ⟨r2, _, h⟩ := Run.bind_ok h
            obtain ⟨r3, _, h⟩ := Run.bind_ok h
            cases h; rfl
      | union d =>
        intro h
        simp only at h
        split at h
        · cases h
        · split at h
          · cases h; rfl
          · obtain ⟨r1, _, h⟩ := Run.bind_ok h
            obtain ⟨r2, _, h⟩ := Run.bind_ok h
            cases h; rfl
      | _ => intro h; cases h

/-! ## What stays -/

/-- Everything that is defined stays defined as it is; only new types are added, to the same package. -/
structure Grows (st st' : InstState F) : Prop where
  package : st'.package = st.package
  structs : ∀ n d, st.structs n = some d → st'.structs n = some d
  choices : ∀ n d, st.choices n = some d → st'.choices n = some d
  unions : ∀ n d, st.unions n = some d → st'.unions n = some d
  others : ∀ q, q ≠ st.package → st'.scope.packages q = st.scope.packages q

theorem Grows.refl (st : InstState F) : Grows st st :=
  ⟨rfl, fun _ _ h => h, fun _ _ h => h, fun _ _ h => h, fun _ _ => rfl⟩

theorem Grows.trans {a b c : InstState F} (h : Grows a b) (h' : Grows b c) : Grows a c :=
  ⟨h'.package.trans h.package, fun n d hd => h'.structs n d (h.structs n d hd),
    fun n d hd => h'.choices n d (h.choices n d hd), fun n d hd => h'.unions n d (h.unions n d hd),
    fun q hq => (h'.others q (by rw [h.package]; exact hq)).trans (h.others q hq)⟩

theorem threadList_grows {α β : Type} (f : InstState F → α → Run (InstState F × β))
    (hf : ∀ st a st' b, f st a = some (.ok (st', b)) → Grows st st') (as : List α) :
    ∀ st st' bs, threadList f st as = some (.ok (st', bs)) → Grows st st' := by
  induction as with
  | nil =>
    intro st st' bs h
    cases h
    exact Grows.refl _
  | cons a as ih =>
    intro st st' bs h
    simp only [threadList] at h
    obtain ⟨⟨st1, b⟩, hb, h⟩ := Run.bind_ok h
    obtain ⟨⟨st2, bs'⟩, hbs, h⟩ := Run.bind_ok h
    cases h
    exact (hf _ _ _ _ hb).trans (ih _ _ _ hbs)

theorem threadOption_grows {α β : Type} (f : InstState F → α → Run (InstState F × β))
    (hf : ∀ st a st' b, f st a = some (.ok (st', b)) → Grows st st') (a : Option α) (st st' : InstState F)
    (b : Option β) (h : threadOption f st a = some (.ok (st', b))) : Grows st st' := by
  cases a with
  | none => cases h; exact Grows.refl _
  | some a =>
    simp only [threadOption] at h
    obtain ⟨⟨st1, b'⟩, hb, h⟩ := Run.bind_ok h
    cases h
    exact hf _ _ _ _ hb

theorem instantiateField_grows (inst : InstState F → Ast.TypeRef F → Run (InstState F × Ast.TypeRef F))
    (hi : ∀ st a st' b, inst st a = some (.ok (st', b)) → Grows st st')
    (types : Map (Ast.TypeRef F)) (st : InstState F) (f : Field F) (st' : InstState F) (f' : Field F)
    (h : instantiateField inst types st f = some (.ok (st', f'))) : Grows st st' := by
  unfold instantiateField at h
  split at h
  · split at h <;> (cases h; exact Grows.refl _)
  · obtain ⟨⟨s, r⟩, hr, h⟩ := Run.bind_ok h
    cases h
    exact hi _ _ _ _ hr

theorem instantiateCase_grows (inst : InstState F → Ast.TypeRef F → Run (InstState F × Ast.TypeRef F))
    (hi : ∀ st a st' b, inst st a = some (.ok (st', b)) → Grows st st')
    (types : Map (Ast.TypeRef F)) (st : InstState F) (c : Case F) (st' : InstState F) (c' : Case F)
    (h : instantiateCase inst types st c = some (.ok (st', c'))) : Grows st st' := by
  obtain ⟨⟨s, r⟩, hr, h⟩ := Run.bind_ok h
  cases h
  exact threadOption_grows _ (instantiateField_grows inst hi types) _ _ _ _ hr

theorem addSymbol_others (m : ModelScope (Symbol F)) (p n : String) (s : Symbol F) (q : String) (h : q ≠ p) :
    (m.addSymbol p n s).packages q = m.packages q := by simp [ModelScope.addSymbol, h]

theorem instantiateRef_grows (fuel : Nat) : ∀ (st : InstState F) (t : Ast.TypeRef F) (given : String)
    (st' : InstState F) (ref : Ast.TypeRef F), instantiateRef fuel st t given = some (.ok (st', ref)) →
    Grows st st' := by
  induction fuel with
  | zero => intro st t given st' ref h; cases h
  | succ fuel ih =>
    intro st t given st' ref h
    have hi : ∀ st a st' b, (fun s a => instantiateRef fuel s a "") st a = some (.ok (st', b)) →
        Grows st st' := fun st a st' b h => ih st a "" st' b h
    simp only [instantiateRef] at h
    by_cases ht : t.targs.isEmpty
    · rw [if_pos ht] at h
      cases h
      exact Grows.refl _
    · rw [if_neg ht] at h
      generalize hname : (if given = "" then refInstanceName t else given) = name at h
      obtain ⟨⟨s, q⟩, hs, h⟩ := Run.bind_ok h
      revert h
      cases s with
      | struct d =>
        intro h
        simp only at h
        split at h
        · cases h
        · split at h
          · cases h; exact Grows.refl _
          · rename_i hfree
            obtain ⟨⟨st1, ts⟩, h1, h⟩ := Run.bind_ok h
            obtain ⟨⟨st2, fs⟩, h2, h⟩ := Run.bind_ok h
            cases h
            have g := (threadList_grows _ hi _ _ _ _ h1).trans
              (threadList_grows _ (instantiateField_grows _ hi _) _ _ _ _ h2)
            refine ⟨g.package, fun n d hd => ?_, g.choices, g.unions, fun q hq => ?_⟩
            · have : n ≠ name := by
                rintro rfl
                simp [hd] at hfree
              simpa [InstState.addStruct, Map.insert, this] using g.structs n d hd
            · exact (addSymbol_others _ _ _ _ q (by rw [g.package]; exact hq)).trans (g.others q hq)
      | choice d =>
        intro h
        simp only at h
        split at h
        · cases h
        · split at h
          · cases h; exact Grows.refl _
          · rename_i hfree
            obtain ⟨⟨st1, ts⟩, h1, h⟩ := Run.bind_ok h
            obtain ⟨⟨st2, fs⟩, h2, h⟩ := Run.bind_ok h
            obtain ⟨⟨st3, df⟩, h3, h⟩ := Run.bind_ok h
            cases h
            have g := ((threadList_grows _ hi _ _ _ _ h1).trans
              (threadList_grows _ (instantiateCase_grows _ hi _) _ _ _ _ h2)).trans
              (threadOption_grows _ (instantiateCase_grows _ hi _) _ _ _ _ h3)
            refine ⟨g.package, g.structs, fun n d hd => ?_, g.unions, fun q hq => ?_⟩
            · have : n ≠ name := by
                rintro rfl
                simp [hd] at hfree
              simpa [InstState.addChoice, Map.insert, this] using g.choices n d hd
            · exact (addSymbol_others _ _ _ _ q (by rw [g.package]; exact hq)).trans (g.others q hq)
      | union d =>
        intro h
        simp only at h
        split at h
        · cases h
        · split at h
          · cases h; exact Grows.refl _
          · rename_i hfree
            obtain ⟨⟨st1, ts⟩, h1, h⟩ := Run.bind_ok h
            obtain ⟨⟨st2, fs⟩, h2, h⟩ := Run.bind_ok h
            cases h
            have g := (threadList_grows _ hi _ _ _ _ h1).trans
              (threadList_grows _ (instantiateField_grows _ hi _) _ _ _ _ h2)
            refine ⟨g.package, g.structs, g.choices, fun n d hd => ?_, fun q hq => ?_⟩
            · have : n ≠ name := by
                rintro rfl
                simp [hd] at hfree
              simpa [InstState.addUnion, Map.insert, this] using g.unions n d hd
            · exact (addSymbol_others _ _ _ _ q (by rw [g.package]; exact hq)).trans (g.others q hq)
      | _ => intro h; cases h

/-! ## What is new -/

/-- The elements are related, if every step is and keeps an invariant of the state. -/
theorem threadList_all2_inv {τ α β : Type} (f : τ → α → Run (τ × β)) (I : τ → Prop) (R : α → β → Prop)
    (hR : ∀ st a st' b, I st → f st a = some (.ok (st', b)) → R a b ∧ I st') (as : List α) :
    ∀ st st' bs, I st → threadList f st as = some (.ok (st', bs)) → All2 R as bs ∧ I st' := by
  induction as with
  | nil =>
    intro st st' bs hI h
    cases h
    exact ⟨.nil, hI⟩
  | cons a as ih =>
    intro st st' bs hI h
    simp only [threadList] at h
    obtain ⟨⟨st1, b⟩, hb, h⟩ := Run.bind_ok h
    obtain ⟨⟨st2, bs'⟩, hbs, h⟩ := Run.bind_ok h
    cases h
    obtain ⟨hab, hI1⟩ := hR _ _ _ _ hI hb
    obtain ⟨hs, hI2⟩ := ih _ _ _ hI1 hbs
    exact ⟨.cons hab hs, hI2⟩

theorem threadOption_opt2_inv {τ α β : Type} (f : τ → α → Run (τ × β)) (I : τ → Prop) (R : α → β → Prop)
    (hR : ∀ st a st' b, I st → f st a = some (.ok (st', b)) → R a b ∧ I st') (a : Option α) (st st' : τ)
    (b : Option β) (hI : I st) (h : threadOption f st a = some (.ok (st', b))) : Opt2 R a b ∧ I st' := by
  cases a with
  | none => cases h; exact ⟨.none, hI⟩
  | some a =>
    simp only [threadOption] at h
    obtain ⟨⟨st1, b'⟩, hb, h⟩ := Run.bind_ok h
    cases h
    obtain ⟨hab, hI1⟩ := hR _ _ _ _ hI hb
    exact ⟨.some hab, hI1⟩

theorem Spec.All2.map {α β : Type} {R : α → β → Prop} (f : α → β) (as : List α) (h : ∀ a ∈ as, R a (f a)) :
    All2 R as (as.map f) := by
  induction as with
  | nil => exact .nil
  | cons a as ih => exact .cons (h a (by simp)) (ih fun b hb => h b (by simp [hb]))

section

variable {params : List String} {args : List (Ast.TypeRef F)}

theorem lookup_replaced (hnd : params.Nodup) (t : Ast.TypeRef F) :
    NameReplaced params args t ((templateMap params args t.name).getD t) :=
  ⟨fun a ha => by rw [templateMap_given params args hnd _ a ha]; rfl,
    fun hn => by rw [templateMap_none params args _ hn]; rfl⟩

theorem instantiateField_replaced (fuel : Nat) (package : String) (hnd : params.Nodup) (st st' : InstState F)
    (f f' : Field F) (hp : st.package = package)
    (h : instantiateField (fun s a => instantiateRef fuel s a "") (templateMap params args) st f =
      some (.ok (st', f'))) :
    FieldTo (TypeReplaced package params args) f f' ∧ st'.package = package := by
  refine ⟨?_, ((instantiateField_grows _ (fun st a st' b h => instantiateRef_grows fuel st a "" st' b h) _ _ _ _ _
    h).package).trans hp⟩
  unfold instantiateField at h
  by_cases ht : f.type.targs = []
  · rw [if_pos (by simp [ht])] at h
    refine ⟨f'.type, ?_, ?_⟩
    · unfold TypeReplaced
      rw [if_pos ht]
      refine ⟨fun a ha => ?_, fun hn => ?_⟩
      · rw [templateMap_given params args hnd _ a ha] at h
        cases h
        rfl
      · rw [templateMap_none params args _ hn] at h
        cases h
        rfl
    · split at h <;> (cases h; rfl)
  · rw [if_neg (by simpa using ht)] at h
    obtain ⟨⟨s, r⟩, hr, h⟩ := Run.bind_ok h
    cases h
    refine ⟨r, ?_, rfl⟩
    unfold TypeReplaced
    rw [if_neg ht]
    refine ⟨_, Spec.All2.map _ _ fun a _ => lookup_replaced hnd a, ?_⟩
    have := instantiateRef_ref fuel st _ _ r hr
    unfold ArgumentMade at this
    rw [if_neg (by
      have : (f.type.withTargs (f.type.targs.map fun a => (templateMap params args a.name).getD a)).targs =
        f.type.targs.map fun a => (templateMap params args a.name).getD a := by
          generalize f.type.targs.map _ = l
          cases f.type
          rfl
      rw [this]
      simpa using ht)] at this
    rw [this, hp]
    generalize f.type.targs.map (fun a => (templateMap params args a.name).getD a) = l
    cases f.type
    rfl

theorem instantiateCase_replaced (fuel : Nat) (package : String) (hnd : params.Nodup) (st st' : InstState F)
    (c c' : Case F) (hp : st.package = package)
    (h : instantiateCase (fun s a => instantiateRef fuel s a "") (templateMap params args) st c =
      some (.ok (st', c'))) :
    CaseTo (TypeReplaced package params args) c c' ∧ st'.package = package := by
  obtain ⟨⟨st1, f⟩, hf, h⟩ := Run.bind_ok h
  cases h
  obtain ⟨h1, h2⟩ := threadOption_opt2_inv _ (fun s : InstState F => s.package = package)
    (FieldTo (TypeReplaced package params args))
    (fun st a st' b hI h => instantiateField_replaced fuel package hnd st st' a b hI h) _ _ _ _ hp hf
  exact ⟨⟨f, h1, rfl⟩, h2⟩

theorem instantiateParam_replaced (hnd : params.Nodup) (p : Param F) :
    ParamTo (NameReplaced params args) p (instantiateParam (templateMap params args) p) := by
  refine ⟨_, lookup_replaced hnd p.type, ?_⟩
  unfold instantiateParam
  cases templateMap params args p.type.name <;> rfl

theorem instantiateFunc_replaced (hnd : params.Nodup) (f : Func F) :
    FuncTo (NameReplaced params args) f (instantiateFunc (templateMap params args) f) := by
  refine ⟨_, lookup_replaced hnd f.returnType, ?_⟩
  unfold instantiateFunc
  cases templateMap params args f.returnType.name <;> rfl

end

end Zs
