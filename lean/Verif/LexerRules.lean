import Verif.LexerLemmas

/-!
# Lemmas on the rules of the lexer
-/

namespace Zs.Src

open Spec
open Rx hiding none

/-! ## Which characters a rule reads -/

/-- The sets of characters in the expression. -/
def Rx.leaves : Rx → List CharSet
  | .none | .empty => []
  | .chars neg rs => [(neg, rs)]
  | .seq a b | .alt a b => a.leaves ++ b.leaves
  | .star a => a.leaves

/-- The sets of characters a match may begin with. -/
def Rx.firsts : Rx → List CharSet
  | .none | .empty => []
  | .chars neg rs => [(neg, rs)]
  | .seq a b => if a.nullable then a.firsts ++ b.firsts else a.firsts
  | .alt a b => a.firsts ++ b.firsts
  | .star a => a.firsts

/-- The sets of characters a match may end with. -/
def Rx.lasts : Rx → List CharSet
  | .none | .empty => []
  | .chars neg rs => [(neg, rs)]
  | .seq a b => if b.nullable then a.lasts ++ b.lasts else b.lasts
  | .alt a b => a.lasts ++ b.lasts
  | .star a => a.lasts

/-- Every match has a character in the ranges. -/
def Rx.needs (t : Ranges) : Rx → Bool
  | .none => true
  | .empty | .star _ => false
  | .chars neg rs => CharSet.within (neg, rs) t
  | .seq a b => a.needs t || b.needs t
  | .alt a b => a.needs t && b.needs t

theorem leaves_sound {x : Rx} {w : List Char} (h : Matches x w) {c : Char} (hc : c ∈ w) : ∃ s ∈ x.leaves, s.Has c := by
  induction h with
  | empty => cases hc
  | chars h => cases List.mem_singleton.1 hc; exact ⟨_, List.mem_singleton.2 rfl, h⟩
  | seq _ _ iha ihb =>
    simp only [leaves, List.mem_append]
    cases List.mem_append.1 hc with
    | inl h => obtain ⟨s, hs, h⟩ := iha h; exact ⟨s, .inl hs, h⟩
    | inr h => obtain ⟨s, hs, h⟩ := ihb h; exact ⟨s, .inr hs, h⟩
  | left _ ih => obtain ⟨s, hs, h⟩ := ih hc; exact ⟨s, List.mem_append.2 (.inl hs), h⟩
  | right _ ih => obtain ⟨s, hs, h⟩ := ih hc; exact ⟨s, List.mem_append.2 (.inr hs), h⟩
  | stop => cases hc
  | more _ _ iha ihb =>
    cases List.mem_append.1 hc with
    | inl h => exact iha h
    | inr h => exact ihb h

theorem firsts_sound {x : Rx} {w : List Char} (h : Matches x w) {c : Char} (hc : w.head? = some c) :
    ∃ s ∈ x.firsts, s.Has c := by
  induction h with
  | empty => cases hc
  | chars h => cases hc; exact ⟨_, List.mem_singleton.2 rfl, h⟩
  | @seq a b u v ha hb iha ihb =>
    cases u with
    | nil =>
      obtain ⟨s, hs, h⟩ := ihb hc
      refine ⟨s, ?_, h⟩
      simp only [firsts, (nullable_iff a).2 ha, if_true]
      exact List.mem_append.2 (.inr hs)
    | cons d u =>
      obtain ⟨s, hs, h⟩ := iha hc
      refine ⟨s, ?_, h⟩
      simp only [firsts]
      split
      · exact List.mem_append.2 (.inl hs)
      · exact hs
  | left _ ih => obtain ⟨s, hs, h⟩ := ih hc; exact ⟨s, List.mem_append.2 (.inl hs), h⟩
  | right _ ih => obtain ⟨s, hs, h⟩ := ih hc; exact ⟨s, List.mem_append.2 (.inr hs), h⟩
  | stop => cases hc
  | @more a u v ha hb iha ihb =>
    cases u with
    | nil => exact ihb hc
    | cons d u => exact iha hc

theorem getLast?_append_cons (u v : List Char) (d : Char) : (u ++ d :: v).getLast? = (d :: v).getLast? := by
  rw [List.getLast?_append]
  cases h : (d :: v).getLast? with
  | none => simp at h
  | some a => rfl

theorem lasts_sound {x : Rx} {w : List Char} (h : Matches x w) {c : Char} (hc : w.getLast? = some c) :
    ∃ s ∈ x.lasts, s.Has c := by
  induction h with
  | empty => cases hc
  | chars h => cases hc; exact ⟨_, List.mem_singleton.2 rfl, h⟩
  | @seq a b u v ha hb iha ihb =>
    cases v with
    | nil =>
      rw [List.append_nil] at hc
      obtain ⟨s, hs, h⟩ := iha hc
      refine ⟨s, ?_, h⟩
      simp only [lasts, (nullable_iff b).2 hb, if_true]
      exact List.mem_append.2 (.inl hs)
    | cons d v =>
      rw [getLast?_append_cons] at hc
      obtain ⟨s, hs, h⟩ := ihb hc
      refine ⟨s, ?_, h⟩
      simp only [lasts]
      split
      · exact List.mem_append.2 (.inr hs)
      · exact hs
  | left _ ih => obtain ⟨s, hs, h⟩ := ih hc; exact ⟨s, List.mem_append.2 (.inl hs), h⟩
  | right _ ih => obtain ⟨s, hs, h⟩ := ih hc; exact ⟨s, List.mem_append.2 (.inr hs), h⟩
  | stop => cases hc
  | @more a u v ha hb iha ihb =>
    cases v with
    | nil => rw [List.append_nil] at hc; exact iha hc
    | cons d v => rw [getLast?_append_cons] at hc; exact ihb hc

theorem needs_sound {t : Ranges} {x : Rx} (hn : x.needs t = true) {w : List Char} (h : Matches x w) : ∃ c ∈ w, InR t c := by
  induction h with
  | empty => cases hn
  | chars h => exact ⟨_, List.mem_singleton.2 rfl, CharSet.within_sound hn h⟩
  | seq _ _ iha ihb =>
    simp only [needs, Bool.or_eq_true] at hn
    cases hn with
    | inl hn => obtain ⟨c, hc, h⟩ := iha hn; exact ⟨c, List.mem_append.2 (.inl hc), h⟩
    | inr hn => obtain ⟨c, hc, h⟩ := ihb hn; exact ⟨c, List.mem_append.2 (.inr hc), h⟩
  | left _ ih => simp only [needs, Bool.and_eq_true] at hn; exact ih hn.1
  | right _ ih => simp only [needs, Bool.and_eq_true] at hn; exact ih hn.2
  | stop => cases hn
  | more => cases hn

/-- All characters of the expression are in the ranges. -/
def Rx.within (x : Rx) (t : Ranges) : Bool := x.leaves.all fun s => s.within t
/-- No character of the expression is in the ranges. -/
def Rx.avoids (x : Rx) (t : Ranges) : Bool := x.leaves.all fun s => s.apart t
/-- No match begins with a character in the ranges. -/
def Rx.elsewhere (x : Rx) (t : Ranges) : Bool := x.firsts.all fun s => s.apart t

theorem within_sound {x : Rx} {t : Ranges} (hx : x.within t = true) {w : List Char} (h : Matches x w) :
    ∀ c ∈ w, InR t c := fun c hc =>
  have ⟨s, hs, h⟩ := leaves_sound h hc
  CharSet.within_sound (List.all_eq_true.1 hx s hs) h

theorem avoids_sound {x : Rx} {t : Ranges} (hx : x.avoids t = true) {w : List Char} (h : Matches x w) :
    ∀ c ∈ w, ¬InR t c := fun c hc =>
  have ⟨s, hs, h⟩ := leaves_sound h hc
  CharSet.apart_sound (List.all_eq_true.1 hx s hs) h

theorem elsewhere_sound {x : Rx} {t : Ranges} (hx : x.elsewhere t = true) {c : Char} {w : List Char}
    (h : Matches x (c :: w)) : ¬InR t c :=
  have ⟨s, hs, h⟩ := firsts_sound h rfl
  CharSet.apart_sound (List.all_eq_true.1 hx s hs) h

/-- Several steps. -/
def Rx.steps (x : Rx) : List Char → Rx
  | [] => x
  | c :: cs => (x.step c).steps cs

theorem steps_iff (x : Rx) (u w : List Char) : Matches (x.steps u) w ↔ Matches x (u ++ w) := by
  induction u generalizing x with
  | nil => rfl
  | cons c cs ih => rw [steps, ih, step_iff]; rfl

/-! ## Single expressions -/

theorem has_one {c d : Char} : CharSet.Has (false, [(c, c)]) d ↔ d = c := by
  simp only [CharSet.Has, InR, List.mem_singleton]
  constructor
  · intro h
    obtain ⟨r, rfl, h1, h2⟩ := h.2 trivial
    exact Char.le_antisymm h2 h1
  · intro h
    subst h
    exact ⟨fun _ => trivial, fun _ => ⟨_, rfl, Char.le_refl _, Char.le_refl _⟩⟩

theorem inR_among {cs : List Char} {d : Char} : InR (cs.map fun c => (c, c)) d ↔ d ∈ cs := by
  simp only [InR, List.mem_map]
  constructor
  · intro ⟨r, ⟨c, hc, hr⟩, h1, h2⟩
    subst hr
    exact (Char.le_antisymm h2 h1) ▸ hc
  · exact fun h => ⟨_, ⟨d, h, rfl⟩, Char.le_refl _, Char.le_refl _⟩

theorem matches_one {c : Char} {w : List Char} : Matches (one c) w ↔ w = [c] := by
  rw [one, matches_chars]
  constructor
  · intro ⟨d, hw, h⟩; rw [hw, has_one.1 h]
  · intro h; exact ⟨c, h, has_one.2 rfl⟩

theorem matches_among {cs : List Char} {w : List Char} : Matches (among cs) w ↔ ∃ d ∈ cs, w = [d] := by
  rw [among, matches_chars]
  simp only [CharSet.Has, inR_among, iff_true]
  exact ⟨fun ⟨d, h1, h2⟩ => ⟨d, h2, h1⟩, fun ⟨d, h1, h2⟩ => ⟨d, h2, h1⟩⟩

theorem matches_except {cs : List Char} {w : List Char} : Matches (except cs) w ↔ ∃ d, d ∉ cs ∧ w = [d] := by
  rw [except, matches_chars]
  simp only [CharSet.Has, inR_among, Bool.true_eq_false, iff_false]
  exact ⟨fun ⟨d, h1, h2⟩ => ⟨d, h2, h1⟩, fun ⟨d, h1, h2⟩ => ⟨d, h2, h1⟩⟩

theorem matches_lits {s w : List Char} : Matches (lits s) w ↔ w = s := by
  induction s generalizing w with
  | nil => exact matches_empty
  | cons c cs ih =>
    cases cs with
    | nil => exact matches_one
    | cons d ds =>
      rw [lits, matches_seq]
      · simp only [matches_one, ih]
        constructor
        · intro ⟨u, v, h, h1, h2⟩; rw [h, h1, h2]; rfl
        · intro h; exact ⟨[c], _, h, rfl, rfl⟩
      · simp

theorem matches_opt {a : Rx} {w : List Char} : Matches (opt a) w ↔ Matches a w ∨ w = [] := by
  rw [opt, matches_alt, matches_empty]

/-- Repetitions of single characters. -/
theorem matches_star_chars {neg : Bool} {rs : Ranges} {w : List Char} :
    Matches (.star (.chars neg rs)) w ↔ ∀ c ∈ w, CharSet.Has (neg, rs) c := by
  induction w with
  | nil => simp [Matches.stop]
  | cons c cs ih =>
    rw [matches_star_cons]
    simp only [matches_chars, List.cons.injEq, List.forall_mem_cons]
    constructor
    · intro ⟨u, v, h, ⟨d, ⟨hd, hu⟩, hh⟩, hv⟩
      subst hd hu
      cases h
      exact ⟨hh, ih.1 hv⟩
    · intro ⟨h1, h2⟩
      exact ⟨[], cs, rfl, ⟨c, ⟨rfl, rfl⟩, h1⟩, ih.2 h2⟩

theorem matches_plus_chars {neg : Bool} {rs : Ranges} {w : List Char} :
    Matches (plus (.chars neg rs)) w ↔ w ≠ [] ∧ ∀ c ∈ w, CharSet.Has (neg, rs) c := by
  rw [plus, matches_seq]
  simp only [matches_chars, matches_star_chars]
  constructor
  · intro ⟨u, v, h, ⟨d, hd, hh⟩, hv⟩
    subst hd h
    exact ⟨by simp, fun c hc => by
      cases hc with
      | head => exact hh
      | tail _ hc => exact hv c hc⟩
  · intro ⟨h1, h2⟩
    cases w with
    | nil => exact absurd rfl h1
    | cons c cs => exact ⟨[c], cs, rfl, ⟨c, rfl, h2 c (by simp)⟩, fun d hd => h2 d (by simp [hd])⟩

/-! ## Digits -/

theorem has_false {rs : Ranges} {c : Char} : CharSet.Has (false, rs) c ↔ InR rs c := by simp [CharSet.Has]

theorem char_le {a b : Char} : a ≤ b ↔ a.toNat ≤ b.toNat := by
  rw [Char.le_def, UInt32.le_iff_toNat_le]; rfl

theorem char_eq {a b : Char} (h : a.toNat = b.toNat) : a = b := by
  apply Char.ext; exact UInt32.toNat.inj h

theorem toNat_digitChar {u : Bool} {d : Nat} (h : d < 16) :
    (digitChar u d).toNat = if d < 10 then 48 + d else if u then 55 + d else 87 + d := by
  have : ∀ u : Bool, ∀ d : Fin 16, (digitChar u d.1).toNat = if d.1 < 10 then 48 + d.1 else if u then 55 + d.1 else 87 + d.1 := by
    decide
  exact this u ⟨d, h⟩

/-- The characters from `0` on. -/
theorem digit_iff {n : Nat} (hn : n ≤ 10) (hi : Char) (hh : hi.toNat + 1 = 48 + n) {c : Char} :
    InR [('0', hi)] c ↔ ∃ d < n, c = digitChar false d := by
  have h0 : '0'.toNat = 48 := rfl
  simp only [InR, List.mem_singleton, exists_eq_left, char_le]
  constructor
  · intro ⟨h1, h2⟩
    rw [h0] at h1
    refine ⟨c.toNat - 48, by omega, char_eq ?_⟩
    rw [toNat_digitChar (by omega), if_pos (by omega)]
    omega
  · intro ⟨d, hd, hc⟩
    have : c.toNat = 48 + d := by rw [hc, toNat_digitChar (by omega), if_pos (by omega)]
    rw [h0]
    omega

theorem hex_iff {c : Char} : InR [('0', '9'), ('a', 'f'), ('A', 'F')] c ↔ ∃ d : Nat × Bool, d.1 < 16 ∧ c = digitChar d.2 d.1 := by
  have e1 : '0'.toNat = 48 := rfl
  have e2 : '9'.toNat = 57 := rfl
  have e3 : 'a'.toNat = 97 := rfl
  have e4 : 'f'.toNat = 102 := rfl
  have e5 : 'A'.toNat = 65 := rfl
  have e6 : 'F'.toNat = 70 := rfl
  constructor
  · intro ⟨r, hr, h1, h2⟩
    rw [char_le] at h1 h2
    simp only [List.mem_cons, List.not_mem_nil, or_false] at hr
    rcases hr with rfl | rfl | rfl <;> simp only [e1, e2, e3, e4, e5, e6] at h1 h2
    · exact ⟨(c.toNat - 48, false), by simp only; omega, char_eq (by
        rw [toNat_digitChar (by simp only; omega), if_pos (by simp only; omega)]; simp only; omega)⟩
    · exact ⟨(c.toNat - 87, false), by simp only; omega, char_eq (by
        rw [toNat_digitChar (by simp only; omega), if_neg (by simp only; omega), if_neg (by simp)]; simp only; omega)⟩
    · exact ⟨(c.toNat - 55, true), by simp only; omega, char_eq (by
        rw [toNat_digitChar (by simp only; omega), if_neg (by simp only; omega), if_pos rfl]; simp only; omega)⟩
  · intro ⟨⟨d, u⟩, hd, hc⟩
    have := toNat_digitChar (u := u) hd
    subst hc
    simp only [InR, List.mem_cons, List.not_mem_nil, or_false, exists_eq_or_imp, exists_eq_left, char_le, e1, e2, e3, e4,
      e5, e6]
    simp only at hd this ⊢
    split at this
    · omega
    · split at this <;> omega

/-- Texts of digits. -/
theorem map_iff {α : Type} {f : α → Char} {P : α → Prop} {Q : Char → Prop} (h : ∀ c, Q c ↔ ∃ a, P a ∧ c = f a)
    {w : List Char} : (∀ c ∈ w, Q c) ↔ ∃ ds : List α, (∀ d ∈ ds, P d) ∧ w = ds.map f := by
  constructor
  · intro hw
    induction w with
    | nil => exact ⟨[], by simp, rfl⟩
    | cons c cs ih =>
      obtain ⟨d, hd, hc⟩ := (h c).1 (hw c (by simp))
      obtain ⟨ds, hds, hcs⟩ := ih fun c hc => hw c (by simp [hc])
      exact ⟨d :: ds, by simpa using ⟨hd, hds⟩, by simp [hc, hcs]⟩
  · intro ⟨ds, hds, hw⟩ c hc
    subst hw
    obtain ⟨d, hd, rfl⟩ := List.mem_map.1 hc
    exact (h _).2 ⟨d, hds d hd, rfl⟩

theorem digits_iff {n : Nat} (hn : n ≤ 10) (hi : Char) (hh : hi.toNat + 1 = 48 + n) {w : List Char} :
    (∀ c ∈ w, CharSet.Has (false, [('0', hi)]) c) ↔ ∃ ds : List Nat, (∀ d ∈ ds, d < n) ∧ w = ds.map (digitChar false) :=
  map_iff fun c => has_false.trans (digit_iff hn hi hh)

theorem hexes_iff {w : List Char} : (∀ c ∈ w, CharSet.Has (false, [('0', '9'), ('a', 'f'), ('A', 'F')]) c) ↔
    ∃ ds : List (Nat × Bool), (∀ d ∈ ds, d.1 < 16) ∧ w = ds.map fun d => digitChar d.2 d.1 :=
  map_iff fun _ => has_false.trans hex_iff

/-! ## Literals -/

/-- The expression of a kind of literals. -/
def litRx : LitKind → Rx
  | .bool => .alt (lits ['t', 'r', 'u', 'e']) (lits ['f', 'a', 'l', 's', 'e'])
  | .string => .seq (one '"') (.seq (.star stringCharacter) (one '"'))
  | .binary => .seq (plus (.chars false [('0', '1')])) (among ['b', 'B'])
  | .octal => .seq (one '0') (plus octalRx)
  | .hexadecimal => .seq (one '0') (.seq (among ['x', 'X']) (plus hexRx))
  | .double => doubleRx
  | .float => .seq doubleRx (among ['f', 'F'])
  | .decimal => .alt (.seq (.chars false [('1', '9')]) (.star digitRx)) (one '0')

theorem plusDigits {n : Nat} (hn : n ≤ 10) (hi : Char) (hh : hi.toNat + 1 = 48 + n) {w : List Char} :
    Matches (plus (.chars false [('0', hi)])) w ↔
      ∃ ds : List Nat, ds ≠ [] ∧ (∀ d ∈ ds, d < n) ∧ w = ds.map (digitChar false) := by
  rw [matches_plus_chars, digits_iff hn hi hh]
  constructor
  · intro ⟨h1, ds, h2, h3⟩
    exact ⟨ds, fun h => h1 (by rw [h3, h]; rfl), h2, h3⟩
  · intro ⟨ds, h1, h2, h3⟩
    exact ⟨by rw [h3]; simpa using h1, ds, h2, h3⟩

theorem literal_binary {w : List Char} : Matches (litRx .binary) w ↔ Lexed .binary w := by
  simp only [litRx, matches_seq, plusDigits (n := 2) (by decide) '1' rfl, matches_among, Lexed]
  constructor
  · rintro ⟨u, v, rfl, ⟨ds, h1, h2, rfl⟩, d, hd, rfl⟩
    simp only [List.mem_cons, List.not_mem_nil, or_false] at hd
    rcases hd with rfl | rfl
    · exact ⟨.binary false ds, ⟨h1, h2⟩, rfl, rfl⟩
    · exact ⟨.binary true ds, ⟨h1, h2⟩, rfl, rfl⟩
  · rintro ⟨l, hl, hk, rfl⟩
    cases l with
    | binary u ds => exact ⟨_, _, rfl, ⟨ds, hl.1, hl.2, rfl⟩, _, by cases u <;> simp, rfl⟩
    | _ => cases hk

theorem literal_octal {w : List Char} : Matches (litRx .octal) w ↔ Lexed .octal w := by
  simp only [litRx, octalRx, matches_seq, plusDigits (n := 8) (by decide) '7' rfl, matches_one, Lexed]
  constructor
  · rintro ⟨u, v, rfl, rfl, ds, h1, h2, rfl⟩
    exact ⟨.octal ds, ⟨h1, h2⟩, rfl, rfl⟩
  · rintro ⟨l, hl, hk, rfl⟩
    cases l with
    | octal ds => exact ⟨['0'], _, rfl, rfl, ds, hl.1, hl.2, rfl⟩
    | _ => cases hk

theorem literal_hexadecimal {w : List Char} : Matches (litRx .hexadecimal) w ↔ Lexed .hexadecimal w := by
  simp only [litRx, hexRx, matches_seq, matches_plus_chars, hexes_iff, matches_one, matches_among, Lexed]
  constructor
  · rintro ⟨u, v, rfl, rfl, u', v', rfl, ⟨d, hd, rfl⟩, hv, ds, h2, rfl⟩
    have hv' : ds ≠ [] := by simpa using hv
    simp only [List.mem_cons, List.not_mem_nil, or_false] at hd
    rcases hd with rfl | rfl
    · exact ⟨.hexadecimal false ds, ⟨hv', h2⟩, rfl, rfl⟩
    · exact ⟨.hexadecimal true ds, ⟨hv', h2⟩, rfl, rfl⟩
  · rintro ⟨l, hl, hk, rfl⟩
    cases l with
    | hexadecimal u ds =>
      exact ⟨['0'], _, rfl, rfl, [if u then 'X' else 'x'], _, rfl, ⟨_, by cases u <;> simp, rfl⟩, by simpa using hl.1, ds,
        hl.2, rfl⟩
    | _ => cases hk

theorem digit19_iff {c : Char} : InR [('1', '9')] c ↔ ∃ d, 0 < d ∧ d < 10 ∧ c = digitChar false d := by
  have h0 : '1'.toNat = 49 := rfl
  have h9 : '9'.toNat = 57 := rfl
  simp only [InR, List.mem_singleton, exists_eq_left, char_le]
  constructor
  · intro ⟨h1, h2⟩
    rw [h0] at h1
    rw [h9] at h2
    refine ⟨c.toNat - 48, by omega, by omega, char_eq ?_⟩
    rw [toNat_digitChar (by omega), if_pos (by omega)]
    omega
  · intro ⟨d, hd, hd', hc⟩
    have : c.toNat = 48 + d := by rw [hc, toNat_digitChar (by omega), if_pos (by omega)]
    rw [h0, h9]
    omega

theorem literal_decimal {w : List Char} : Matches (litRx .decimal) w ↔ Lexed .decimal w := by
  simp only [litRx, digitRx, matches_alt, matches_seq, matches_chars, has_false, digit19_iff, matches_star_chars]
  simp only [← has_false, digits_iff (n := 10) (by decide) '9' rfl, matches_one, Lexed]
  constructor
  · rintro (⟨u, v, rfl, ⟨c, rfl, d, h0, h1, rfl⟩, ds, h2, rfl⟩ | rfl)
    · refine ⟨.decimal (d :: ds), ⟨by simp, by simpa using ⟨h1, h2⟩, ?_⟩, rfl, rfl⟩
      intro h
      simp only [List.head?_cons, Option.some.injEq] at h
      omega
    · exact ⟨.decimal [0], ⟨by simp, by simp, fun _ => rfl⟩, rfl, rfl⟩
  · rintro ⟨l, hl, hk, rfl⟩
    cases l with
    | decimal ds =>
      obtain ⟨h1, h2, h3⟩ := hl
      cases ds with
      | nil => exact absurd rfl h1
      | cons d ds =>
        by_cases hd : d = 0
        · subst hd
          have := h3 rfl
          cases this
          exact .inr rfl
        · exact .inl ⟨[digitChar false d], _, rfl, ⟨_, rfl, d, by omega, h2 d (by simp), rfl⟩, ds,
            fun e he => h2 e (by simp [he]), rfl⟩
    | _ => cases hk

theorem exponent_iff {w : List Char} :
    Matches exponentRx w ↔ ∃ e : Exponent, (e.digits ≠ [] ∧ ∀ d ∈ e.digits, d < 10) ∧ w = e.text := by
  simp only [exponentRx, digitRx, matches_seq, matches_among, matches_opt, plusDigits (n := 10) (by decide) '9' rfl]
  constructor
  · rintro ⟨u, v, rfl, ⟨d, hd, rfl⟩, u', v', rfl, hs, ds, h1, h2, rfl⟩
    simp only [List.mem_cons, List.not_mem_nil, or_false] at hd
    have hu : ∃ upper : Bool, d = if upper then 'E' else 'e' := by
      rcases hd with rfl | rfl
      · exact ⟨false, rfl⟩
      · exact ⟨true, rfl⟩
    obtain ⟨upper, rfl⟩ := hu
    have hs' : ∃ s : Option Bool, u' = match s with | none => [] | some true => ['-'] | some false => ['+'] := by
      rcases hs with ⟨c, hc, rfl⟩ | rfl
      · simp only [List.mem_cons, List.not_mem_nil, or_false] at hc
        rcases hc with rfl | rfl
        · exact ⟨some false, rfl⟩
        · exact ⟨some true, rfl⟩
      · exact ⟨none, rfl⟩
    obtain ⟨s, rfl⟩ := hs'
    exact ⟨⟨upper, s, ds⟩, ⟨h1, h2⟩, rfl⟩
  · rintro ⟨⟨upper, s, ds⟩, ⟨h1, h2⟩, rfl⟩
    refine ⟨[if upper then 'E' else 'e'], _, rfl, ⟨_, by cases upper <;> simp, rfl⟩, _, _, rfl, ?_, ds, h1, h2, rfl⟩
    cases s with
    | none => exact .inr rfl
    | some b => cases b <;> exact .inl ⟨_, by simp, rfl⟩

theorem literal_double {w : List Char} : Matches (litRx .double) w ↔ Lexed .double w := by
  have hopt : ∀ v, Matches (opt exponentRx) v ↔ ∃ e : Option Exponent,
      (∀ x, e = some x → x.digits ≠ [] ∧ ∀ d ∈ x.digits, d < 10) ∧ v = match e with | none => [] | some e => e.text := by
    intro v
    rw [matches_opt, exponent_iff]
    constructor
    · rintro (⟨e, he, rfl⟩ | rfl)
      · exact ⟨some e, fun x hx => by cases hx; exact he, rfl⟩
      · exact ⟨none, by simp, rfl⟩
    · rintro ⟨e, he, rfl⟩
      cases e with
      | none => exact .inr rfl
      | some e => exact .inl ⟨e, he e rfl, rfl⟩
  simp only [litRx, doubleRx, digitRx, matches_alt, matches_seq, plusDigits (n := 10) (by decide) '9' rfl, matches_one,
    matches_star_chars, digits_iff (n := 10) (by decide) '9' rfl, hopt, exponent_iff, Lexed]
  constructor
  · rintro (⟨u, v, rfl, ⟨ds, h1, h2, rfl⟩, e, he, rfl⟩ |
      ⟨u, v, rfl, ⟨ds, h1, h2, rfl⟩, u', v', rfl, rfl, u'', v'', rfl, ⟨fs, h3, rfl⟩, e, he, rfl⟩ |
      ⟨u, v, rfl, rfl, u', v', rfl, ⟨fs, h1, h3, rfl⟩, e, he, rfl⟩)
    · exact ⟨⟨ds, none, some e⟩, ⟨h2, by simp, fun x hx => by cases hx; exact he, h1, by simp⟩, by simp [FloatLit.text]⟩
    · exact ⟨⟨ds, some fs, e⟩, ⟨h2, fun f hf => by cases hf; exact h3, he, .inl h1⟩, by cases e <;> simp [FloatLit.text]⟩
    · exact ⟨⟨[], some fs, e⟩, ⟨by simp, fun f hf => by cases hf; exact h3, he, .inr h1⟩, by cases e <;> simp [FloatLit.text]⟩
  · rintro ⟨⟨ds, f, e⟩, ⟨h1, h2, h3, h4⟩, rfl⟩
    simp only at h1 h2 h3 h4
    cases f with
    | none =>
      simp only at h4
      cases e with
      | none => exact absurd rfl h4.2
      | some e => exact .inl ⟨_, _, by simp [FloatLit.text], ⟨ds, h4.1, h1, rfl⟩, e, h3 e rfl, rfl⟩
    | some fs =>
      by_cases hd : ds = []
      · subst hd
        have hf : fs ≠ [] := by simpa using h4
        exact .inr (.inr ⟨['.'], _, by
          simp only [FloatLit.text, List.map_nil, List.nil_append]; rfl, rfl, _, _, rfl, ⟨fs, hf, h2 fs rfl, rfl⟩, e, h3, rfl⟩)
      · exact .inr (.inl ⟨_, _, by simp only [FloatLit.text, List.append_assoc]; rfl, ⟨ds, hd, h1, rfl⟩, ['.'], _, rfl, rfl, _, _, rfl,
          ⟨fs, h2 fs rfl, rfl⟩, e, h3, rfl⟩)

theorem literal_float {w : List Char} : Matches (litRx .float) w ↔ Lexed .float w := by
  have hd : ∀ u, Matches doubleRx u ↔ ∃ l : FloatLit, l.WellFormed ∧ l.text = u := fun u => literal_double
  simp only [litRx, matches_seq, hd, matches_among, Lexed]
  constructor
  · rintro ⟨u, v, rfl, ⟨l, hl, rfl⟩, d, h, rfl⟩
    exact ⟨l, d, hl, by simpa using h, rfl⟩
  · rintro ⟨l, f, hl, hf, rfl⟩
    exact ⟨_, _, rfl, ⟨l, hl, rfl⟩, f, by simpa using hf, rfl⟩

theorem literal_bool {w : List Char} : Matches (litRx .bool) w ↔ Lexed .bool w := by
  simp only [litRx, matches_alt, matches_lits, Lexed]
  exact Iff.rfl

theorem matches_hex {w : List Char} : Matches hexRx w ↔ ∃ d : Nat × Bool, d.1 < 16 ∧ w = [digitChar d.2 d.1] := by
  rw [hexRx, matches_chars]
  simp only [has_false, hex_iff]
  constructor
  · rintro ⟨c, rfl, d, hd, rfl⟩; exact ⟨d, hd, rfl⟩
  · rintro ⟨d, hd, rfl⟩; exact ⟨_, rfl, d, hd, rfl⟩

theorem matches_digit {n : Nat} (hn : n ≤ 10) (hi : Char) (hh : hi.toNat + 1 = 48 + n) {w : List Char} :
    Matches (.chars false [('0', hi)]) w ↔ ∃ d < n, w = [digitChar false d] := by
  rw [matches_chars]
  simp only [has_false, digit_iff hn hi hh]
  constructor
  · rintro ⟨c, rfl, d, hd, rfl⟩; exact ⟨d, hd, rfl⟩
  · rintro ⟨d, hd, rfl⟩; exact ⟨_, rfl, d, hd, rfl⟩

theorem stringCharacter_iff {w : List Char} :
    Matches stringCharacter w ↔ ∃ e : StrElem, e.WellFormed ∧ w = e.text := by
  simp only [stringCharacter, octalRx, matches_alt, matches_seq, matches_except, matches_one, matches_among, matches_lits,
    matches_opt, matches_hex, matches_digit (n := 4) (by decide) '3' rfl, matches_digit (n := 8) (by decide) '7' rfl]
  constructor
  · rintro (⟨d, hd, rfl⟩ | ⟨u, v, rfl, rfl, d, hd, rfl⟩ |
      ⟨u, v, rfl, rfl, u1, v1, rfl, ⟨a, ha, rfl⟩, u2, v2, rfl, ⟨b, hb, rfl⟩, u3, v3, rfl, ⟨c, hc, rfl⟩, ⟨d, hd, rfl⟩⟩ |
      ⟨u, v, rfl, rfl, u1, v1, rfl, ⟨a, ha, rfl⟩, ⟨b, hb, rfl⟩⟩ |
      ⟨u, v, rfl, rfl, u1, v1, rfl, h1, u2, v2, rfl, ⟨b, hb, rfl⟩, h3⟩)
    · exact ⟨.plain d, by simpa [StrElem.WellFormed] using hd, rfl⟩
    · exact ⟨.escape d, hd, rfl⟩
    · exact ⟨.unicode [a, b, c, d], ⟨rfl, by simpa using ⟨ha, hb, hc, hd⟩⟩, rfl⟩
    · exact ⟨.hex a b, ⟨ha, hb⟩, rfl⟩
    · rcases h1 with ⟨a, ha, rfl⟩ | rfl <;> rcases h3 with ⟨c, hc, rfl⟩ | rfl
      · exact ⟨.octal [a, b, c], ⟨⟨by simp, by simp, by simpa using ⟨by omega, hb, hc⟩⟩, fun _ => ha⟩, rfl⟩
      · exact ⟨.octal [a, b], ⟨⟨by simp, by simp, by simpa using ⟨by omega, hb⟩⟩, by simp⟩, rfl⟩
      · exact ⟨.octal [b, c], ⟨⟨by simp, by simp, by simpa using ⟨hb, hc⟩⟩, by simp⟩, rfl⟩
      · exact ⟨.octal [b], ⟨⟨by simp, by simp, by simpa using hb⟩, by simp⟩, rfl⟩
  · rintro ⟨e, he, rfl⟩
    cases e with
    | plain c => exact .inl ⟨c, by simpa [StrElem.WellFormed] using he, rfl⟩
    | escape c => exact .inr (.inl ⟨['\\'], [c], rfl, rfl, c, he, rfl⟩)
    | unicode ds =>
      obtain ⟨hl, hd⟩ := he
      match ds, hl with
      | [a, b, c, d], _ =>
        simp only [List.forall_mem_cons] at hd
        exact .inr (.inr (.inl ⟨['\\', 'u'], _, rfl, rfl, [_], _, rfl, ⟨a, hd.1, rfl⟩, [_], _, rfl, ⟨b, hd.2.1, rfl⟩,
          [_], [_], rfl, ⟨c, hd.2.2.1, rfl⟩, ⟨d, hd.2.2.2.1, rfl⟩⟩))
    | hex a b =>
      exact .inr (.inr (.inr (.inl ⟨['\\', 'x'], _, rfl, rfl, [_], [_], rfl, ⟨a, he.1, rfl⟩, ⟨b, he.2, rfl⟩⟩)))
    | octal ds =>
      obtain ⟨⟨h0, h1, hd⟩, h3⟩ := he
      refine .inr (.inr (.inr (.inr ?_)))
      match ds, h0, h1 with
      | [a], _, _ =>
        exact ⟨['\\', '0'], _, rfl, rfl, [], _, rfl, .inr rfl, [_], [], rfl, ⟨a, hd a (by simp), rfl⟩, .inr rfl⟩
      | [a, b], _, _ =>
        exact ⟨['\\', '0'], _, rfl, rfl, [], _, rfl, .inr rfl, [_], [_], rfl, ⟨a, hd a (by simp), rfl⟩,
          .inl ⟨b, hd b (by simp), rfl⟩⟩
      | [a, b, c], _, _ =>
        exact ⟨['\\', '0'], _, rfl, rfl, [_], _, rfl, .inl ⟨a, h3 rfl, rfl⟩, [_], [_], rfl, ⟨b, hd b (by simp), rfl⟩,
          .inl ⟨c, hd c (by simp), rfl⟩⟩

theorem text_ne_nil (e : StrElem) : e.text ≠ [] := by cases e <;> simp [StrElem.text]

theorem stringBody_iff {w : List Char} :
    Matches (.star stringCharacter) w ↔ ∃ es : List StrElem, (∀ e ∈ es, e.WellFormed) ∧ w = es.flatMap StrElem.text := by
  constructor
  · intro h
    generalize hx : Rx.star stringCharacter = x at h
    induction h with
    | empty => cases hx
    | chars _ => cases hx
    | seq _ _ => cases hx
    | left _ => cases hx
    | right _ => cases hx
    | stop => exact ⟨[], by simp, rfl⟩
    | more h1 _ _ ih =>
      cases hx
      obtain ⟨e, he, rfl⟩ := stringCharacter_iff.1 h1
      obtain ⟨es, hes, rfl⟩ := ih rfl
      exact ⟨e :: es, by simpa using ⟨he, hes⟩, by simp⟩
  · rintro ⟨es, hes, rfl⟩
    induction es with
    | nil => exact .stop
    | cons e es ih =>
      simp only [List.flatMap_cons]
      exact .more (stringCharacter_iff.2 ⟨e, hes e (by simp), rfl⟩) (ih fun x hx => hes x (by simp [hx]))

theorem literal_string {w : List Char} : Matches (litRx .string) w ↔ Lexed .string w := by
  simp only [litRx, matches_seq, matches_one, stringBody_iff, Lexed]
  constructor
  · rintro ⟨u, v, rfl, rfl, u', v', rfl, ⟨es, hes, rfl⟩, rfl⟩
    exact ⟨es, hes, by simp [strText]⟩
  · rintro ⟨es, hes, rfl⟩
    exact ⟨['"'], _, by simp [strText], rfl, _, _, rfl, ⟨es, hes, rfl⟩, rfl⟩

/-- A rule for literals describes what the language calls a literal of that kind. -/
theorem literal_iff (k : LitKind) {w : List Char} : Matches (litRx k) w ↔ Lexed k w := by
  cases k
  · exact literal_bool
  · exact literal_decimal
  · exact literal_hexadecimal
  · exact literal_octal
  · exact literal_binary
  · exact literal_string
  · exact literal_float
  · exact literal_double

end Zs.Src
