import Verif.ArgumentsLemmas

/-!
# Arguments of parameterised types (C64)

The statements are in English in `properties.jsonl`; each theorem below repeats what it says.

`params` are the parameters of a type in the order of their declaration, `data` the other members of its Rust
type, `count` the number of its fields or cases; `value` gives the values of the generated expressions (for one
index, in an array), `dflt` the default values of the members.  That the members have different names is what
makes the Rust type itself correct.
-/

namespace Zs

open Spec

variable {α β : Type}

/-- C64: a field of a parameterised type with as many arguments as parameters.  The code that makes the object
is accepted, every parameter gets the value of its argument, and all other members get their default. -/
theorem C64_value (snake : String → String) (params data : List String) (count : Nat)
    (args : List (TypeArg α)) (hlen : args.length = params.length)
    (hn : (params.map (memberName snake) ++ data).Nodup) (dflt : String → β) (value : α → β) :
    ∃ made, makeValue snake params count args = .ok made ∧
      MadeBuilds (params.map (memberName snake) ++ data) made ∧
      (∀ (i : Nat) (p : String) (a : TypeArg α), params[i]? = some p → args[i]? = some a →
        madeObject dflt value made (memberName snake p) = value a.text) ∧
      ∀ d ∈ data, madeObject dflt value made d = dflt d := by
  rw [List.nodup_append] at hn
  cases args with
  | nil =>
    refine ⟨.default, rfl, trivial, fun i p a _ h => by simp at h, fun d _ => rfl⟩
  | cons a as =>
    refine ⟨_, makeValue_eq snake params count (a :: as) (by simp) (by omega), ?_, ?_, ?_⟩
    · rw [builds_named snake params data _ hn.1 (fun _ => false)]
      exact .inl rfl
    · intro i p b hp hb
      exact (object_named snake params (a :: as) hn.1 (fun _ => false) _ dflt value).1 _ (named_get snake _ _ hp hb)
    · intro d hd
      refine (object_named snake params (a :: as) hn.1 (fun _ => false) _ dflt value).2 d fun h => ?_
      exact hn.2.2 d ((named_fst_sublist snake _ _).subset h) d hd rfl

-- `struct S(uint8 n, bool flag) { .. }` with a field `S(3, 4) s;`.
example : ∃ made, makeValue id ["n", "flag"] 1 [⟨3, false⟩, ⟨4, false⟩] = .ok made ∧
    madeObject (fun _ => 0) (fun x => x) made "flag" = 4 ∧
    madeObject (fun _ => 0) (fun x => x) made "data" = 0 := ⟨_, rfl, by decide +kernel, by decide +kernel⟩

/-- C64: an element of an array of a parameterised type with as many arguments as parameters, of which some may
use `@index`. -/
theorem C64_item (snake : String → String) (params data : List String) (count : Nat)
    (args : List (TypeArg α)) (hlen : args.length = params.length)
    (hn : (params.map (memberName snake) ++ data).Nodup) (hcount : data ≠ [] → 0 < count)
    (dflt : String → β) (value : α → β) :
    ∃ made, makeItem snake params count args = .ok made ∧
      MadeBuilds (params.map (memberName snake) ++ data) made ∧
      (∀ (i : Nat) (p : String) (a : TypeArg α), params[i]? = some p → args[i]? = some a →
        madeObject dflt value made (memberName snake p) = value a.text) ∧
      ∀ d ∈ data, madeObject dflt value made d = dflt d := by
  rw [List.nodup_append] at hn
  by_cases hne : args = []
  · subst hne
    exact ⟨.default, rfl, trivial, fun i p a _ h => by simp at h, fun d _ => rfl⟩
  · refine ⟨_, makeItem_eq snake params count args hne (by omega), ?_, ?_, ?_⟩
    · rw [builds_named snake params data _ hn.1]
      by_cases hd : data = []
      · cases hu : args.any TypeArg.usesIndex with
        | true => simp
        | false =>
          right
          subst hd
          intro m hm
          simp only [List.append_nil] at hm
          have : (named snake params args).map Prod.fst = params.map (memberName snake) := by
            rw [named_fst_of_drop, hlen]
            exact List.take_of_length_le (by simp)
          rw [← this] at hm
          obtain ⟨e, he, rfl⟩ := List.mem_map.mp hm
          refine ⟨e, he, ?_, rfl⟩
          rw [List.any_eq_false] at hu
          simpa using hu e.2 (List.of_mem_zip he).2
      · left; simp [hcount hd]
    · intro i p b hp hb
      exact (object_named snake params args hn.1 _ _ dflt value).1 _ (named_get snake _ _ hp hb)
    · intro d hd
      refine (object_named snake params args hn.1 _ _ dflt value).2 d fun h => ?_
      exact hn.2.2 d ((named_fst_sublist snake _ _).subset h) d hd rfl

-- `S(3, @index) s[];`: the element with the index 7.
example : ∃ made, makeItem id ["n", "k"] 0 [⟨some 3, false⟩, ⟨none, true⟩] = .ok made ∧
    madeObject (fun _ => 0) (fun x => x.getD 7) made "n" = 3 ∧
    madeObject (fun _ => 0) (fun x => x.getD 7) made "k" = 7 := ⟨_, rfl, by decide +kernel, by decide +kernel⟩

/-- C64: what is written is read with the same parameters.  If the object `o` passes the assertions before it is
written, every parameter has the same value in `o` and in the object that the reader starts with. -/
theorem C64_agree (snake : String → String) (params data : List String) (count : Nat)
    (args : List (TypeArg α)) (hlen : args.length = params.length)
    (hn : (params.map (memberName snake) ++ data).Nodup) (dflt : String → β) (value : α → β)
    (o : String → β) :
    ∃ made item checks, makeValue snake params count args = .ok made ∧
      makeItem snake params count args = .ok item ∧
      checkedArgs snake params args = .ok checks ∧
      (ChecksHold value o checks ↔
        ∀ p ∈ params, o (memberName snake p) = madeObject dflt value made (memberName snake p)) ∧
      (ChecksHold value o checks ↔
        ∀ p ∈ params, o (memberName snake p) = madeObject dflt value item (memberName snake p)) := by
  rw [List.nodup_append] at hn
  by_cases hne : args = []
  · subst hne
    have : params = [] := List.length_eq_zero_iff.mp hlen.symm
    subst this
    refine ⟨_, _, _, rfl, rfl, rfl, ?_, ?_⟩ <;> simp [ChecksHold]
  · have hiff : ∀ obj : String → β, (∀ e ∈ named snake params args, obj e.1 = value e.2.text) →
        (ChecksHold value o ((named snake params args).map fun e => (e.1, e.2.text)) ↔
          ∀ p ∈ params, o (memberName snake p) = obj (memberName snake p)) := by
      intro obj hobj
      constructor
      · intro h p hp
        obtain ⟨i, hi, rfl⟩ := List.mem_iff_getElem.mp hp
        have hp' : params[i]? = some params[i] := List.getElem?_eq_getElem hi
        have ha' : args[i]? = some (args[i]'(by omega)) := List.getElem?_eq_getElem _
        have hm := named_get snake params args hp' ha'
        rw [hobj _ hm]
        exact h (memberName snake params[i], (args[i]'(by omega)).text) (List.mem_map.mpr ⟨_, hm, rfl⟩)
      · intro h c hc
        obtain ⟨e, he, rfl⟩ := List.mem_map.mp hc
        have h1 := (List.of_mem_zip he).1
        obtain ⟨p, hp, hpe⟩ := List.mem_map.mp h1
        have := h p hp
        rw [hpe, hobj e he] at this
        exact this
    have h1 : args.isEmpty = false := by simpa using hne
    refine ⟨_, _, (named snake params args).map fun e => (e.1, e.2.text),
      makeValue_eq snake params count args hne (by omega), makeItem_eq snake params count args hne (by omega),
      by
        simp only [checkedArgs, h1, passArgs_eq snake _ params args (Nat.le_of_eq hlen), Bool.false_eq_true, if_false]
        rw [List.filter_eq_self.mpr fun _ _ => rfl], ?_, ?_⟩
    · exact hiff _ (object_named snake params args hn.1 (fun _ => false) _ dflt value).1
    · exact hiff _ (object_named snake params args hn.1 _ _ dflt value).1

example : checkedArgs id ["n", "k"] [⟨3, false⟩, ⟨4, true⟩] = .ok [("n", 3), ("k", 4)] := by
  have h : ∀ s ∈ ["n", "k"], removeReserved s = s := by decide +kernel
  simp [checkedArgs, passArgs, memberName, h]

/-- C64 is violated for too few arguments: they are accepted, and the other parameters get their default,
whatever they are used for. -/
theorem C64_few_violated (snake : String → String) (params data : List String) (count : Nat)
    (args : List (TypeArg α)) (hlen : args.length < params.length)
    (hn : (params.map (memberName snake) ++ data).Nodup) (dflt : String → β) (value : α → β) :
    ∃ made, makeValue snake params count args = .ok made ∧
      MadeBuilds (params.map (memberName snake) ++ data) made ∧
      ∀ (i : Nat) (p : String), args.length ≤ i → params[i]? = some p →
        madeObject dflt value made (memberName snake p) = dflt (memberName snake p) := by
  rw [List.nodup_append] at hn
  by_cases hne : args = []
  · subst hne
    exact ⟨.default, rfl, trivial, fun i p _ _ => rfl⟩
  · refine ⟨_, makeValue_eq snake params count args hne (by omega), ?_, ?_⟩
    · rw [builds_named snake params data _ hn.1 (fun _ => false)]
      exact .inl rfl
    · intro i p hi hp
      refine (object_named snake params args hn.1 (fun _ => false) _ dflt value).2 _ fun h => ?_
      rw [named_fst_of_drop] at h
      obtain ⟨j, hj, he⟩ := List.mem_iff_getElem.mp h
      simp only [List.length_take, List.length_map] at hj
      rw [List.getElem_take] at he
      have hi' : i < params.length := (List.getElem?_eq_some_iff.mp hp).1
      have hp' : (params.map (memberName snake))[i]'(by simpa using hi') = memberName snake p := by
        simp [(List.getElem?_eq_some_iff.mp hp).2]
      have := (List.getElem_inj hn.1).mp (he.trans hp'.symm)
      omega

-- `struct S(uint8 n, uint8 k)` with a field `S(3) s;`: `k` is 0.
example : ∃ made, makeValue id ["n", "k"] 1 [⟨3, false⟩] = .ok made ∧
    madeObject (fun _ => 0) (fun x => x) made "k" = 0 := ⟨_, rfl, by decide +kernel⟩

/-- C64 is violated: an object is written with one parameter and read with another one.  A parameter without an
argument is not checked before writing, while the reader takes the default. -/
theorem C64_unchecked_violated : ∃ made checks,
    makeValue id ["n", "k"] 1 [⟨3, false⟩] = .ok made ∧
    checkedArgs id ["n", "k"] [(⟨3, false⟩ : TypeArg Nat)] = .ok checks ∧
    ∃ o : String → Nat, ChecksHold (fun x => x) o checks ∧
      o "k" ≠ madeObject (fun _ => 0) (fun x => x) made "k" :=
  ⟨_, _, rfl, rfl, fun m => if m = "n" then 3 else 5,
    fun c hc => by
      simp only [List.mem_singleton] at hc
      subst hc
      exact (by decide +kernel : (if memberName id "n" = "n" then 3 else 5) = 3),
    by decide +kernel⟩

/-- C64: elements of arrays with too few arguments.  They are accepted exactly if the type has fields or one of
the arguments uses `@index`; otherwise the emitted literal lacks a member. -/
theorem C64_few_items_iff (snake : String → String) (params data : List String) (count : Nat)
    (args : List (TypeArg α)) (hne : args ≠ []) (hlen : args.length < params.length)
    (hn : (params.map (memberName snake) ++ data).Nodup) :
    ∃ made, makeItem snake params count args = .ok made ∧
      (MadeBuilds (params.map (memberName snake) ++ data) made ↔
        0 < count ∨ ∃ a ∈ args, a.usesIndex = true) := by
  rw [List.nodup_append] at hn
  refine ⟨_, makeItem_eq snake params count args hne (by omega), ?_⟩
  rw [builds_named snake params data _ hn.1]
  simp only [Bool.or_eq_true, decide_eq_true_eq, List.any_eq_true]
  constructor
  · rintro (h | h)
    · exact h
    · exfalso
      have hi : args.length < (params.map (memberName snake)).length := by simpa using hlen
      obtain ⟨e, he, _, hm⟩ := h ((params.map (memberName snake))[args.length])
        (List.mem_append_left _ (List.getElem_mem _))
      have h1 : e.1 ∈ (named snake params args).map Prod.fst := List.mem_map.mpr ⟨e, he, rfl⟩
      rw [named_fst_of_drop] at h1
      obtain ⟨j, hj, he'⟩ := List.mem_iff_getElem.mp h1
      simp only [List.length_take, List.length_map] at hj
      rw [List.getElem_take, hm] at he'
      have := (List.getElem_inj hn.1).mp he'
      omega
  · exact .inl

-- `S(3) s[];` where `S` has the parameters `n` and `k` and no fields.
example : ∃ made, makeItem id ["n", "k"] 0 [(⟨3, false⟩ : TypeArg Nat)] = .ok made ∧
    ¬ MadeBuilds (["n", "k"].map (memberName id) ++ []) made := by
  obtain ⟨made, h, hiff⟩ := C64_few_items_iff id ["n", "k"] [] 0 [(⟨3, false⟩ : TypeArg Nat)] (by simp)
    (by decide) (by decide +kernel)
  exact ⟨made, h, fun hb => by simpa using hiff.mp hb⟩

/-- C64 is violated for too many arguments: the compiler panics instead of reporting an error. -/
theorem C64_many_violated (snake : String → String) (params : List String) (count : Nat)
    (args : List (TypeArg α)) (hlen : params.length < args.length) :
    makeValue snake params count args = .panic ∧ makeItem snake params count args = .panic ∧
      checkedArgs snake params args = .panic := by
  have h1 : args.isEmpty = false := by
    cases args with
    | nil => simp at hlen
    | cons => rfl
  have hlast : args.getLast (by rintro rfl; simp at hlen) ∈ args.drop params.length := by
    have : args.drop params.length ≠ [] := by simpa using hlen
    rw [← List.getLast_drop (h := this)]
    exact List.getLast_mem this
  have hall := passArgs_panic snake (fun _ => true) params args ⟨_, hlast, rfl⟩
  refine ⟨by simp [makeValue, h1, hall], ?_, by simp [checkedArgs, h1, hall]⟩
  simp only [makeItem, h1, Bool.false_eq_true, if_false]
  cases hu : (args.getLast (by rintro rfl; simp at hlen)).usesIndex with
  | false =>
    rw [passArgs_panic snake (fun a => !a.usesIndex) params args ⟨_, hlast, by simp [hu]⟩]
    rfl
  | true =>
    have hany : args.any TypeArg.usesIndex = true :=
      List.any_eq_true.mpr ⟨_, List.mem_of_mem_drop hlast, hu⟩
    rw [passArgs_panic snake TypeArg.usesIndex params args ⟨_, hlast, hu⟩, hany]
    cases h : passArgs snake (fun a => !a.usesIndex) params args with
    | ok es => rfl
    | panic => rfl
    | err e => exact absurd h (passArgs_not_err snake _ params args e)

example : (["n"] : List String).length < [(⟨1, false⟩ : TypeArg Nat), ⟨2, false⟩].length := by decide

/-- C64 is violated by the conversion of names: whatever `to_snake_case_with_nums_as_word` does, parameters with
the names `type` and `z_type` become the same member, and the literal is not Rust. -/
theorem C64_names_violated (snake : String → String) (a b : TypeArg α) (data : List String) (count : Nat) :
    ∃ made, makeValue snake ["type", "z_type"] count [a, b] = .ok made ∧
      ¬ MadeBuilds ((["type", "z_type"] : List String).map (memberName snake) ++ data) made := by
  refine ⟨_, rfl, ?_⟩
  rintro ⟨⟨h, _, _⟩, _⟩
  simp [memberName, show removeReserved "type" = "z_type" by decide +kernel,
    show removeReserved "z_type" = "z_type" by decide +kernel] at h

end Zs
