import Verif.LexerSpec

/-!
# Lemmas on the lexer
-/

namespace Zs.Src

open Spec

/-! ## Characters and ranges -/

abbrev Ranges := List (Char × Char)

theorem inRanges_iff {neg : Bool} {rs : Ranges} {c : Char} :
    inRanges neg rs c = true ↔ ((∃ r ∈ rs, r.1 ≤ c ∧ c ≤ r.2) ↔ neg = false) := by
  have : (rs.any fun r => decide (r.1 ≤ c) && decide (c ≤ r.2)) = true ↔ ∃ r ∈ rs, r.1 ≤ c ∧ c ≤ r.2 := by simp
  unfold inRanges
  rw [← this]
  cases neg <;> cases (rs.any fun r => decide (r.1 ≤ c) && decide (c ≤ r.2)) <;> simp

/-- The character is in the ranges. -/
abbrev InR (rs : Ranges) (c : Char) : Prop := ∃ r ∈ rs, r.1 ≤ c ∧ c ≤ r.2

/-- A set of characters, as in `Rx.chars`. -/
abbrev CharSet := Bool × Ranges

/-- The character is in the set. -/
def CharSet.Has (s : CharSet) (c : Char) : Prop := InR s.2 c ↔ s.1 = false

/-- Every character of the set is in the ranges. -/
def CharSet.within (s : CharSet) (t : Ranges) : Bool :=
  !s.1 && s.2.all fun r => t.any fun q => decide (q.1 ≤ r.1) && decide (r.2 ≤ q.2)

/-- No character of the set is in the ranges. -/
def CharSet.apart (s : CharSet) (t : Ranges) : Bool :=
  if s.1 then t.all fun q => s.2.any fun r => decide (r.1 ≤ q.1) && decide (q.2 ≤ r.2)
  else s.2.all fun r => t.all fun q => decide (r.2 < q.1) || decide (q.2 < r.1)

theorem CharSet.within_sound {s : CharSet} {t : Ranges} (h : s.within t = true) {c : Char} (hc : s.Has c) : InR t c := by
  simp only [within, Bool.and_eq_true, Bool.not_eq_true', List.all_eq_true, List.any_eq_true, decide_eq_true_eq] at h
  obtain ⟨r, hr, h1, h2⟩ := hc.2 h.1
  obtain ⟨q, hq, h3, h4⟩ := h.2 r hr
  exact ⟨q, hq, Char.le_trans h3 h1, Char.le_trans h2 h4⟩

theorem CharSet.apart_sound {s : CharSet} {t : Ranges} (h : s.apart t = true) {c : Char} (hc : s.Has c) : ¬InR t c := by
  intro ⟨q, hq, h1, h2⟩
  unfold apart at h
  split at h
  next hn =>
    simp only [List.all_eq_true, List.any_eq_true, Bool.and_eq_true, decide_eq_true_eq] at h
    obtain ⟨r, hr, h3, h4⟩ := h q hq
    have := hc.1 ⟨r, hr, Char.le_trans h3 h1, Char.le_trans h2 h4⟩
    simp [hn] at this
  next hn =>
    simp only [List.all_eq_true, Bool.or_eq_true, decide_eq_true_eq] at h
    obtain ⟨r, hr, h3, h4⟩ := hc.2 (by simpa using hn)
    cases h r hr q hq with
    | inl h5 => exact (Char.not_le.2 h5) (Char.le_trans h1 h4)
    | inr h5 => exact (Char.not_le.2 h5) (Char.le_trans h3 h2)

/-! ## Matching, step by step -/

theorem matches_none {w : List Char} : ¬Matches .none w := by
  intro h; cases h

theorem matches_empty {w : List Char} : Matches .empty w ↔ w = [] :=
  ⟨fun h => by cases h; rfl, fun h => h ▸ .empty⟩

theorem matches_chars {neg : Bool} {rs : Ranges} {w : List Char} :
    Matches (.chars neg rs) w ↔ ∃ c, w = [c] ∧ CharSet.Has (neg, rs) c :=
  ⟨fun h => by cases h with | chars h => exact ⟨_, rfl, h⟩, fun ⟨c, hw, h⟩ => hw ▸ .chars h⟩

theorem matches_seq {a b : Rx} {w : List Char} :
    Matches (.seq a b) w ↔ ∃ u v, w = u ++ v ∧ Matches a u ∧ Matches b v :=
  ⟨fun h => by cases h with | seq h1 h2 => exact ⟨_, _, rfl, h1, h2⟩, fun ⟨u, v, hw, h1, h2⟩ => hw ▸ .seq h1 h2⟩

theorem matches_alt {a b : Rx} {w : List Char} : Matches (.alt a b) w ↔ Matches a w ∨ Matches b w :=
  ⟨fun h => by cases h with | left h => exact .inl h | right h => exact .inr h,
   fun h => h.elim .left .right⟩

/-- A repetition with at least one character begins with a part that is not empty. -/
theorem matches_star_cons {a : Rx} {c : Char} {w : List Char} :
    Matches (.star a) (c :: w) ↔ ∃ u v, w = u ++ v ∧ Matches a (c :: u) ∧ Matches (.star a) v := by
  constructor
  · intro h
    generalize hx : Rx.star a = x at h
    generalize hw : c :: w = cw at h
    induction h generalizing c w with
    | empty => cases hx
    | chars _ => cases hx
    | seq _ _ => cases hx
    | left _ => cases hx
    | right _ => cases hx
    | stop => cases hw
    | @more b u v h1 h2 _ ih =>
      cases hx
      cases u with
      | nil => exact ih rfl hw
      | cons d u =>
        cases hw
        exact ⟨u, v, rfl, h1, h2⟩
  · intro ⟨u, v, hw, h1, h2⟩
    subst hw
    exact Matches.more h1 h2

theorem nullable_iff (x : Rx) : x.nullable = true ↔ Matches x [] := by
  induction x with
  | none => simp [Rx.nullable, matches_none]
  | empty => simp [Rx.nullable, matches_empty]
  | chars => simp [Rx.nullable, matches_chars]
  | seq a b iha ihb =>
    simp only [Rx.nullable, Bool.and_eq_true, iha, ihb, matches_seq]
    constructor
    · exact fun ⟨h1, h2⟩ => ⟨[], [], rfl, h1, h2⟩
    · intro ⟨u, v, h, h1, h2⟩
      obtain ⟨rfl, rfl⟩ := List.append_eq_nil_iff.1 h.symm
      exact ⟨h1, h2⟩
  | alt a b iha ihb => simp only [Rx.nullable, Bool.or_eq_true, iha, ihb, matches_alt]
  | star a => simp [Rx.nullable, Matches.stop]

theorem step_iff (c : Char) (x : Rx) (w : List Char) : Matches (x.step c) w ↔ Matches x (c :: w) := by
  induction x generalizing w with
  | none => simp [Rx.step, matches_none]
  | empty => simp [Rx.step, matches_none, matches_empty]
  | chars neg rs =>
    simp only [Rx.step, matches_chars]
    split
    next h =>
      rw [inRanges_iff] at h
      simp only [matches_empty, List.cons.injEq]
      exact ⟨fun hw => ⟨c, ⟨rfl, hw⟩, h⟩, fun ⟨_, ⟨_, hw⟩, _⟩ => hw⟩
    next h =>
      rw [inRanges_iff] at h
      refine ⟨fun h => absurd h matches_none, ?_⟩
      intro ⟨d, hd, h1⟩
      cases hd
      exact absurd h1 h
  | seq a b iha ihb =>
    have split : Matches (.seq a b) (c :: w) ↔
        (∃ u v, w = u ++ v ∧ Matches a (c :: u) ∧ Matches b v) ∨ (Matches a [] ∧ Matches b (c :: w)) := by
      rw [matches_seq]
      constructor
      · intro ⟨u, v, h, h1, h2⟩
        cases u with
        | nil => exact .inr ⟨h1, h ▸ h2⟩
        | cons d u => cases h; exact .inl ⟨u, v, rfl, h1, h2⟩
      · intro h
        cases h with
        | inl h => obtain ⟨u, v, h, h1, h2⟩ := h; exact ⟨c :: u, v, by rw [h]; rfl, h1, h2⟩
        | inr h => exact ⟨[], _, rfl, h.1, h.2⟩
    rw [split]
    simp only [Rx.step]
    split
    next hn =>
      rw [matches_alt, matches_seq, ihb]
      simp only [iha, (nullable_iff a).1 hn, true_and]
    next hn =>
      rw [matches_seq]
      simp only [iha]
      rw [nullable_iff] at hn
      simp [hn]
  | alt a b iha ihb => simp only [Rx.step, matches_alt, iha, ihb]
  | star a ih =>
    simp only [Rx.step, matches_seq, ih, matches_star_cons]

/-! ## The longest match -/

theorem findFirst_iff {rs : List (Rule × Rx)} {r : Rule} {w : List Char}
    (p : Rule × Rx → Bool) (hp : ∀ q ∈ rs, p q = true ↔ Matches q.2 w) :
    ((rs.find? p).map (·.1) = some r ↔
      ∃ before x behind, rs = before ++ (r, x) :: behind ∧ Matches x w ∧ ∀ q ∈ before, ¬Matches q.2 w) := by
  simp only [Option.map_eq_some_iff, List.find?_eq_some_iff_append]
  constructor
  · intro ⟨a, ⟨ha, as, bs, h, hb⟩, hr⟩
    subst hr
    refine ⟨as, a.2, bs, h, (hp a (by simp [h])).1 ha, fun q hq hm => ?_⟩
    have := (hp q (by simp [h, hq])).2 hm
    simpa [this] using hb q hq
  · intro ⟨as, x, bs, h, hx, hb⟩
    refine ⟨(r, x), ⟨(hp _ (by simp [h])).2 hx, as, bs, h, fun q hq => ?_⟩, rfl⟩
    have := hb q hq
    rw [← hp q (by simp [h, hq])] at this
    simpa using this

theorem findFirst_none {rs : List (Rule × Rx)} : (rs.find? fun r => r.2.nullable) = none ↔ ∀ q ∈ rs, ¬Matches q.2 [] := by
  simp [List.find?_eq_none, ← nullable_iff]

theorem longest_step {rs : List (Rule × Rx)} {c : Char} {cs w rest : List Char} {r : Rule} :
    Longest (rs.map fun r => (r.1, r.2.step c)) cs r w rest ↔ Longest rs (c :: cs) r (c :: w) rest := by
  constructor
  · intro ⟨h1, ⟨as, x, bs, h2, h3, h4⟩, h5⟩
    obtain ⟨as', bs', rfl, rfl, h6⟩ := List.map_eq_append_iff.1 h2
    obtain ⟨⟨r', x'⟩, bs'', rfl, h7, rfl⟩ := List.map_eq_cons_iff.1 h6
    cases h7
    refine ⟨by rw [h1]; rfl, ⟨as', x', bs'', rfl, (step_iff ..).1 h3, fun q hq => ?_⟩, ?_⟩
    · rw [← step_iff]; exact h4 _ (List.mem_map_of_mem (f := fun r => (r.1, r.2.step c)) hq)
    · intro q hq u v hu hm
      cases u with
      | nil => simp
      | cons d u =>
        cases hu
        have := h5 _ (List.mem_map_of_mem (f := fun r => (r.1, r.2.step c)) hq) u v rfl ((step_iff ..).2 hm)
        simpa using this
  · intro ⟨h1, ⟨as, x, bs, h2, h3, h4⟩, h5⟩
    refine ⟨by simpa using h1, ⟨as.map fun r => (r.1, r.2.step c), x.step c, bs.map fun r => (r.1, r.2.step c), by simp [h2],
      (step_iff ..).2 h3, fun q hq => ?_⟩, ?_⟩
    · obtain ⟨q', hq', rfl⟩ := List.mem_map.1 hq
      rw [step_iff]; exact h4 _ hq'
    · intro q hq u v hu hm
      obtain ⟨q', hq', rfl⟩ := List.mem_map.1 hq
      have := h5 q' hq' (c :: u) v (by rw [hu]; rfl) ((step_iff ..).1 hm)
      simpa using this

theorem munch_none {rs : List (Rule × Rx)} {cs : List Char} (h : munch rs cs = none) :
    ∀ q ∈ rs, ∀ u v, cs = u ++ v → ¬Matches q.2 u := by
  induction cs generalizing rs with
  | nil =>
    simp only [munch, Option.map_eq_none_iff, findFirst_none] at h
    intro q hq u v hu
    obtain ⟨rfl, _⟩ := List.append_eq_nil_iff.1 hu.symm
    exact h q hq
  | cons c cs ih =>
    simp only [munch] at h
    split at h
    next => cases h
    next hn =>
      simp only [Option.map_eq_none_iff, findFirst_none] at h
      intro q hq u v hu
      cases u with
      | nil => exact h q hq
      | cons d u =>
        cases hu
        rw [← step_iff]
        exact ih hn _ (List.mem_map_of_mem (f := fun r => (r.1, r.2.step c)) hq) u v rfl

theorem munch_sound {rs : List (Rule × Rx)} {cs w rest : List Char} {r : Rule} (h : munch rs cs = some (r, w, rest)) :
    Longest rs cs r w rest := by
  induction cs generalizing rs w with
  | nil =>
    simp only [munch] at h
    have h' : (rs.find? fun r => r.2.nullable).map (·.1) = some r ∧ w = [] ∧ rest = [] := by
      revert h; cases rs.find? fun r => r.2.nullable <;> simp +contextual [eq_comm]
    obtain ⟨h1, rfl, rfl⟩ := h'
    refine ⟨rfl, (findFirst_iff (w := []) _ fun q _ => nullable_iff q.2).1 h1, fun q _ u v hu _ => ?_⟩
    obtain ⟨rfl, _⟩ := List.append_eq_nil_iff.1 hu.symm
    simp
  | cons c cs ih =>
    simp only [munch] at h
    split at h
    next r' w' rest' hm =>
      cases h
      exact longest_step.1 (ih hm)
    next hn =>
      have h' : (rs.find? fun r => r.2.nullable).map (·.1) = some r ∧ w = [] ∧ rest = c :: cs := by
        revert h; cases rs.find? fun r => r.2.nullable <;> simp +contextual [eq_comm]
      obtain ⟨h1, rfl, rfl⟩ := h'
      refine ⟨rfl, (findFirst_iff (w := []) _ fun q _ => nullable_iff q.2).1 h1, fun q hq u v hu hq' => ?_⟩
      cases u with
      | nil => simp
      | cons d u =>
        cases hu
        exact absurd ((step_iff ..).2 hq') (munch_none hn _ (List.mem_map_of_mem (f := fun r => (r.1, r.2.step c)) hq) u v rfl)

theorem first_unique {rs : List (Rule × Rx)} {w : List Char} {r r' : Rule}
    (h : ∃ before x behind, rs = before ++ (r, x) :: behind ∧ Matches x w ∧ ∀ q ∈ before, ¬Matches q.2 w)
    (h' : ∃ before x behind, rs = before ++ (r', x) :: behind ∧ Matches x w ∧ ∀ q ∈ before, ¬Matches q.2 w) : r = r' := by
  classical
  have hp : ∀ q ∈ rs, decide (Matches q.2 w) = true ↔ Matches q.2 w := fun q _ => decide_eq_true_iff
  have h1 := (findFirst_iff (r := r) _ hp).2 h
  have h2 := (findFirst_iff (r := r') _ hp).2 h'
  rw [h1] at h2
  exact Option.some.inj h2

theorem longest_unique {rs : List (Rule × Rx)} {cs w rest w' rest' : List Char} {r r' : Rule}
    (h : Longest rs cs r w rest) (h' : Longest rs cs r' w' rest') : r = r' ∧ w = w' ∧ rest = rest' := by
  obtain ⟨as, x, bs, e1, m1, _⟩ := h.first
  obtain ⟨as', x', bs', e2, m2, _⟩ := h'.first
  have l1 := h.longest (r', x') (by simp [e2]) w' rest' h'.text m2
  have l2 := h'.longest (r, x) (by simp [e1]) w rest h.text m1
  have e : w ++ rest = w' ++ rest' := h.text.symm.trans h'.text
  obtain ⟨rfl, rfl⟩ := List.append_inj e (by omega)
  exact ⟨first_unique h.first h'.first, rfl, rfl⟩

theorem munch_iff {rs : List (Rule × Rx)} {cs w rest : List Char} {r : Rule} :
    munch rs cs = some (r, w, rest) ↔ Longest rs cs r w rest := by
  refine ⟨munch_sound, fun h => ?_⟩
  cases hm : munch rs cs with
  | none =>
    obtain ⟨as, x, bs, e1, m1, _⟩ := h.first
    exact absurd m1 (munch_none hm (r, x) (by simp [e1]) w rest h.text)
  | some p =>
    obtain ⟨r', w', rest'⟩ := p
    obtain ⟨rfl, rfl, rfl⟩ := longest_unique h (munch_sound hm)
    rfl

end Zs.Src
