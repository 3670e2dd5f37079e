import Verif.ArgumentsSpec

/-!
# Lemmas about the passing of type arguments (C64)
-/

namespace Zs

open Spec

variable {α β : Type}

/-- The arguments with the names of their parameters. -/
def named (snake : String → String) (params : List String) (args : List (TypeArg α)) :
    List (String × TypeArg α) :=
  (params.map (memberName snake)).zip args

theorem passArgs_eq (snake : String → String) (select : TypeArg α → Bool) :
    ∀ (params : List String) (args : List (TypeArg α)), args.length ≤ params.length →
      passArgs snake select params args =
        .ok (((named snake params args).filter fun e => select e.2).map fun e => (e.1, e.2.text))
  | _, [], _ => by simp [passArgs, named]
  | [], a :: as, h => by simp at h
  | p :: ps, a :: as, h => by
    have ih := passArgs_eq snake select ps as (by simpa using h)
    cases hs : select a <;> simp [passArgs, hs, ih, named]

theorem passArgs_panic (snake : String → String) (select : TypeArg α → Bool) :
    ∀ (params : List String) (args : List (TypeArg α)),
      (∃ a ∈ args.drop params.length, select a = true) → passArgs snake select params args = .panic
  | _, [], h => by simp at h
  | [], a :: as, h => by
    cases hs : select a with
    | true => simp [passArgs, hs]
    | false =>
      have : ∃ a ∈ as.drop ([] : List String).length, select a = true := by
        obtain ⟨b, hb, h'⟩ := h
        simp only [List.length_nil, List.drop_zero, List.mem_cons] at hb ⊢
        rcases hb with rfl | hb
        · rw [hs] at h'; cases h'
        · exact ⟨b, hb, h'⟩
      simpa [passArgs, hs] using passArgs_panic snake select [] as this
  | p :: ps, a :: as, h => by
    have ih := passArgs_panic snake select ps as (by simpa using h)
    cases hs : select a <;> simp [passArgs, hs, ih]

theorem passArgs_not_err (snake : String → String) (select : TypeArg α → Bool) :
    ∀ (params : List String) (args : List (TypeArg α)) (e : Err), passArgs snake select params args ≠ .err e
  | _, [], e => by simp [passArgs]
  | [], a :: as, e => by
    have ih := passArgs_not_err snake select [] as e
    cases hs : select a <;> simp [passArgs, hs, ih]
  | p :: ps, a :: as, e => by
    have ih := passArgs_not_err snake select ps as
    cases hs : select a with
    | false => simpa [passArgs, hs] using ih e
    | true =>
      simp only [passArgs, hs, if_true]
      cases h : passArgs snake select ps as with
      | ok es => simp
      | panic => simp
      | err e' => exact absurd h (ih e')

theorem find_key {γ : Type} {l : List (String × γ)} (h : (l.map Prod.fst).Nodup) {e : String × γ}
    (he : e ∈ l) : l.find? (fun x => x.1 == e.1) = some e := by
  induction l with
  | nil => cases he
  | cons x xs ih =>
    simp only [List.map_cons, List.nodup_cons, List.mem_map, not_exists, not_and] at h
    rcases List.mem_cons.mp he with rfl | he
    · simp
    · have : x.1 ≠ e.1 := fun hx => h.1 e he hx.symm
      rw [List.find?_cons_of_neg (by simpa using this)]
      exact ih h.2 he

theorem find_no_key {γ : Type} {l : List (String × γ)} {m : String} (h : m ∉ l.map Prod.fst) :
    l.find? (fun x => x.1 == m) = none := by
  rw [List.find?_eq_none]
  intro x hx hm
  exact h (List.mem_map.mpr ⟨x, hx, by simpa using hm⟩)

theorem foldl_set_other (value : α → β) (m : String) : ∀ (sets : List (String × α)) (o : String → β),
    m ∉ sets.map Prod.fst → sets.foldl (fun o s => setMember o s.1 (value s.2)) o m = o m
  | [], _, _ => rfl
  | s :: ss, o, h => by
    simp only [List.map_cons, List.mem_cons, not_or] at h
    rw [List.foldl_cons, foldl_set_other value m ss _ h.2]
    simp [setMember, h.1]

theorem foldl_set (value : α → β) : ∀ (sets : List (String × α)) (o : String → β),
    (sets.map Prod.fst).Nodup → ∀ s ∈ sets,
      sets.foldl (fun o s => setMember o s.1 (value s.2)) o s.1 = value s.2
  | [], _, _, _, hs => by cases hs
  | x :: xs, o, h, s, hs => by
    simp only [List.map_cons, List.nodup_cons] at h
    rw [List.foldl_cons]
    rcases List.mem_cons.mp hs with rfl | hs
    · rw [foldl_set_other value s.1 xs _ h.1]
      simp [setMember]
    · exact foldl_set value xs _ h.2 s hs

theorem zip_fst_take {γ δ : Type} : ∀ (xs : List γ) (ys : List δ),
    (xs.zip ys).map Prod.fst = xs.take ys.length
  | [], _ => by simp
  | _ :: _, [] => by simp
  | x :: xs, y :: ys => by simp [zip_fst_take xs ys]

theorem named_fst_sublist (snake : String → String) (params : List String) (args : List (TypeArg α)) :
    List.Sublist ((named snake params args).map Prod.fst) (params.map (memberName snake)) := by
  unfold named
  rw [zip_fst_take]
  exact List.take_sublist _ _

theorem named_get (snake : String → String) (params : List String) (args : List (TypeArg α)) {i : Nat}
    {p : String} {a : TypeArg α} (hp : params[i]? = some p) (ha : args[i]? = some a) :
    (memberName snake p, a) ∈ named snake params args := by
  rw [List.mem_iff_getElem?]
  refine ⟨i, ?_⟩
  simp [named, List.getElem?_zip_eq_some, hp, ha]

theorem named_fst_of_drop (snake : String → String) (params : List String) (args : List (TypeArg α)) :
    (named snake params args).map Prod.fst = (params.map (memberName snake)).take args.length := by
  unfold named
  rw [zip_fst_take]

/-- The object made from a selection of the arguments in a literal and the others by assignment. -/
theorem object_named (snake : String → String) (params : List String) (args : List (TypeArg α))
    (hn : (params.map (memberName snake)).Nodup) (late : TypeArg α → Bool) (rest : Bool)
    (dflt : String → β) (value : α → β) :
    let made : Made α := .literal
      ⟨((named snake params args).filter fun e => !late e.2).map (fun e => (e.1, e.2.text)), rest⟩
      (((named snake params args).filter fun e => late e.2).map fun e => (e.1, e.2.text))
    (∀ e ∈ named snake params args, madeObject dflt value made e.1 = value e.2.text) ∧
    ∀ m, m ∉ (named snake params args).map Prod.fst → madeObject dflt value made m = dflt m := by
  intro made
  have hnd : ((named snake params args).map Prod.fst).Nodup := hn.sublist (named_fst_sublist snake params args)
  have hsub : ∀ sel : TypeArg α → Bool, List.Sublist
      ((((named snake params args).filter fun e => sel e.2).map fun e => (e.1, e.2.text)).map Prod.fst)
      ((named snake params args).map Prod.fst) := by
    intro sel
    rw [List.map_map]
    exact List.Sublist.map _ List.filter_sublist
  have hsets := hnd.sublist (hsub late)
  have hents := hnd.sublist (hsub fun a => !late a)
  constructor
  · intro e he
    cases hl : late e.2 with
    | true =>
      exact foldl_set value _ _ hsets (e.1, e.2.text)
        (List.mem_map.mpr ⟨e, List.mem_filter.mpr ⟨he, hl⟩, rfl⟩)
    | false =>
      have hnot : e.1 ∉ (((named snake params args).filter fun e => late e.2).map
          fun e => (e.1, e.2.text)).map Prod.fst := by
        intro h
        simp only [List.map_map, List.mem_map, List.mem_filter, Function.comp] at h
        obtain ⟨f, ⟨hf, hlf⟩, hfe⟩ := h
        have h1 := find_key hnd he
        have h2 := find_key hnd hf
        rw [hfe, h1] at h2
        cases h2
        rw [hl] at hlf; cases hlf
      simp only [made, madeObject]
      rw [foldl_set_other value e.1 _ _ hnot]
      have := find_key hents (e := (e.1, e.2.text))
        (List.mem_map.mpr ⟨e, List.mem_filter.mpr ⟨he, by simp [hl]⟩, rfl⟩)
      simp only [litObject, this]
  · intro m hm
    simp only [made, madeObject]
    rw [foldl_set_other value m _ _ fun h => hm ((hsub late).subset h)]
    simp only [litObject, find_no_key fun h => hm ((hsub fun a => !late a).subset h)]

/-- When a literal with a selection of the arguments is accepted. -/
theorem builds_named (snake : String → String) (params data : List String) (args : List (TypeArg α))
    (hn : (params.map (memberName snake)).Nodup) (late : TypeArg α → Bool) (rest : Bool) :
    MadeBuilds (params.map (memberName snake) ++ data)
      (.literal
        ⟨((named snake params args).filter fun e => !late e.2).map (fun e => (e.1, e.2.text)), rest⟩
        (((named snake params args).filter fun e => late e.2).map fun e => (e.1, e.2.text))) ↔
    (rest = true ∨ ∀ m ∈ params.map (memberName snake) ++ data,
      ∃ e ∈ named snake params args, late e.2 = false ∧ e.1 = m) := by
  have hnd : ((named snake params args).map Prod.fst).Nodup := hn.sublist (named_fst_sublist snake params args)
  have hmem : ∀ e ∈ named snake params args, e.1 ∈ params.map (memberName snake) ++ data := fun e he =>
    List.mem_append_left _ ((named_fst_sublist snake params args).subset (List.mem_map.mpr ⟨e, he, rfl⟩))
  constructor
  · rintro ⟨⟨_, _, h⟩, _⟩
    refine h.imp id fun h m hm => ?_
    obtain ⟨e, he, rfl⟩ := h m hm
    simp only [List.mem_map, List.mem_filter] at he
    obtain ⟨f, ⟨hf, hl⟩, rfl⟩ := he
    exact ⟨f, hf, by simpa using hl, rfl⟩
  · intro h
    refine ⟨⟨?_, ?_, h.imp id fun h m hm => ?_⟩, ?_⟩
    · show ((List.map _ (List.filter _ _)).map Prod.fst).Nodup
      rw [List.map_map]
      exact hnd.sublist (List.Sublist.map _ List.filter_sublist)
    · intro e he
      simp only [List.mem_map, List.mem_filter] at he
      obtain ⟨f, ⟨hf, _⟩, rfl⟩ := he
      exact hmem f hf
    · obtain ⟨e, he, hl, rfl⟩ := h m hm
      exact ⟨(e.1, e.2.text), List.mem_map.mpr ⟨e, List.mem_filter.mpr ⟨he, by simp [hl]⟩, rfl⟩, rfl⟩
    · intro e he
      simp only [List.mem_map, List.mem_filter] at he
      obtain ⟨f, ⟨hf, _⟩, rfl⟩ := he
      exact hmem f hf

/-- The literal of a field. -/
theorem makeValue_eq (snake : String → String) (params : List String) (count : Nat)
    (args : List (TypeArg α)) (hne : args ≠ []) (hlen : args.length ≤ params.length) :
    makeValue snake params count args = .ok (.literal
      ⟨((named snake params args).filter fun e => !(fun _ => false) e.2).map (fun e => (e.1, e.2.text)), true⟩
      (((named snake params args).filter fun e => (fun _ => false) e.2).map fun e => (e.1, e.2.text))) := by
  have h0 : 0 < args.length := List.length_pos_iff.mpr hne
  have h1 : args.isEmpty = false := by simpa using hne
  have h2 : 0 < count + params.length := by omega
  simp [makeValue, h1, passArgs_eq snake _ params args hlen, h2]

/-- The literal and the assignments of an element. -/
theorem makeItem_eq (snake : String → String) (params : List String) (count : Nat)
    (args : List (TypeArg α)) (hne : args ≠ []) (hlen : args.length ≤ params.length) :
    makeItem snake params count args = .ok (.literal
      ⟨((named snake params args).filter fun e => !e.2.usesIndex).map (fun e => (e.1, e.2.text)),
        decide (0 < count) || args.any TypeArg.usesIndex⟩
      (((named snake params args).filter fun e => e.2.usesIndex).map fun e => (e.1, e.2.text))) := by
  have h1 : args.isEmpty = false := by simpa using hne
  have h2 : args.any TypeArg.usesIndex = false →
      ((named snake params args).filter fun e => e.2.usesIndex) = [] := by
    intro h
    rw [List.filter_eq_nil_iff]
    intro e he
    rw [List.any_eq_false] at h
    exact h e.2 (List.of_mem_zip he).2
  cases h3 : args.any TypeArg.usesIndex with
  | true => simp [makeItem, h1, passArgs_eq snake _ params args hlen, h3]
  | false => simp [makeItem, h1, passArgs_eq snake _ params args hlen, h3, h2 h3]

end Zs
