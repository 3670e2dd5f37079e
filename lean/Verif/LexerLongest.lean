import Verif.LexerTokens

/-!
# Lemmas on the longest match of names, literals and comments
-/

namespace Zs.Src

open Spec
open Rx hiding none

/-! ## Names -/

/-- The rules in front of those for names. -/
def beforeId : List (Rule × Rx) :=
  [(.ws, among ['\r', '\n', Char.ofNat 12, '\t', ' ']),
   (.doc, .seq (lits ['/', '*', '*']) untilEnd),
   (.markdown, .seq (lits ['/', '*', '!']) untilEnd),
   (.block, .seq (lits ['/', '*']) untilEnd),
   (.line, .seq (lits ['/', '/']) (.star (except lineEnds))),
   (.lit .bool, litRx .bool), (.lit .string, litRx .string), (.lit .binary, litRx .binary), (.lit .octal, litRx .octal),
   (.lit .hexadecimal, litRx .hexadecimal), (.lit .double, litRx .double), (.lit .float, litRx .float),
   (.lit .decimal, litRx .decimal)]

/-- The rules behind. -/
def behindId : List (Rule × Rx) :=
  [(.invalidString, .seq (one '"') (.seq (.star (except ['"'])) (opt (one '"')))),
   (.invalidToken, plus wordRx)]

theorem otherRules_eq : otherRules = beforeId ++ (.id, .seq letterRx (.star wordRx)) :: behindId := rfl

theorem id_iff {w : List Char} : Matches (.seq letterRx (.star wordRx)) w ↔
    ∃ c cs, w = c :: cs ∧ IsLetter c ∧ ∀ d ∈ cs, IsWordChar d := by
  have hl : ∀ c, CharSet.Has (false, [('a', 'z'), ('A', 'Z'), ('_', '_')]) c ↔ IsLetter c :=
    fun c => has_false.trans inR_letter
  have hw : ∀ c, CharSet.Has (false, [('a', 'z'), ('A', 'Z'), ('_', '_'), ('0', '9')]) c ↔ IsWordChar c :=
    fun c => has_false.trans inR_word
  simp only [letterRx, wordRx, matches_seq, matches_chars, matches_star_chars, hl, hw]
  constructor
  · rintro ⟨u, v, rfl, ⟨c, rfl, h1⟩, h2⟩
    exact ⟨c, v, rfl, h1, h2⟩
  · rintro ⟨c, cs, rfl, h1, h2⟩
    exact ⟨[c], cs, rfl, ⟨c, rfl, h1⟩, h2⟩

theorem beforeId_letter : ∀ q ∈ beforeId, q.2.elsewhere letterR = true ∨ q = (.lit .bool, litRx .bool) := by
  decide +kernel

theorem all_words : ∀ s ∈ operatorTexts ++ keywordTexts, (∃ p ∈ signTexts, s = p.2) ∨ s ∈ otherWords := by
  decide +kernel

theorem words_all : (∀ p ∈ signTexts, p.2 ∈ operatorTexts ++ keywordTexts) ∧
    ∀ s ∈ otherWords, s ∈ operatorTexts ++ keywordTexts := by
  decide +kernel

theorem name_first {w : List Char} (h : IsName w) :
    ∃ before x behind, lexRules = before ++ (Rule.id, x) :: behind ∧ Matches x w ∧ ∀ q ∈ before, ¬Matches q.2 w := by
  obtain ⟨hw, h1, h2, h3, h4⟩ := h
  refine first_other otherRules_eq (id_iff.2 hw) (fun s hs e => ?_) fun q hq hm => ?_
  · cases all_words s hs with
    | inl h => obtain ⟨p, hp, rfl⟩ := h; exact h1 p hp e
    | inr h => exact h2 s h e
  · cases beforeId_letter q hq with
    | inl h =>
      obtain ⟨c, cs, rfl, hc, _⟩ := hw
      exact elsewhere_sound h hm (inR_letter.2 hc)
    | inr h =>
      subst h
      cases literal_bool.1 hm with
      | inl h => exact h3 h
      | inr h => exact h4 h

theorem word_last {w : List Char} {c : Char} (hc : w ≠ []) (h : ∀ d ∈ w, IsWordChar d) (hg : ¬Glues w c) :
    ¬IsWordChar c := by
  intro hw
  refine hg (.inl ⟨?_, ⟨w.getLast hc, List.getLast?_eq_some_getLast hc, .inl (h _ (List.getLast_mem hc))⟩, hw⟩)
  rintro rfl
  have := h '.' (by simp)
  revert this
  simp only [IsWordChar, IsLetter, IsDigit]
  decide

theorem isLetter_word {c : Char} (h : IsLetter c) : IsWordChar c := .inl h

theorem name_longest {w rest : List Char} (h : IsName w) (ha : Apart w rest) : Longest lexRules (w ++ rest) .id w rest := by
  refine longest_of (name_first h) fun q hq c rest' v hr hm => ?_
  subst hr
  obtain ⟨⟨a, cs, rfl, hl, hcs⟩, _⟩ := h
  have hc : ¬IsWordChar c := by
    refine word_last (w := a :: cs) (by simp) (fun d hd => ?_) ha
    cases hd with
    | head => exact isLetter_word hl
    | tail _ hd => exact hcs d hd
  cases letter_rules q hq with
  | inl h => exact elsewhere_sound h hm (inR_letter.2 hl)
  | inr h => exact hc (inR_word.1 (within_sound h hm c (by simp)))

/-! ## Numbers -/

/-- The kinds of numbers. -/
def isNumber : LitKind → Bool
  | .bool | .string => false
  | _ => true

theorem number_shape : ∀ k ∈ [LitKind.decimal, .hexadecimal, .octal, .binary, .float, .double],
    ((litRx k).firsts.all fun s => s.within numR) = true ∧
    ((litRx k).lasts.all fun s => s.within (wordR ++ [('.', '.')])) = true ∧
    (litRx k).needs digitR = true ∧ (litRx k).nullable = false ∧
    (k ≠ .hexadecimal → ((litRx k).lasts.all fun s => s.apart [('e', 'e'), ('E', 'E')]) = true) := by
  decide +kernel

theorem double_chars : (litRx .double).within (wordR ++ [('.', '.'), ('+', '+'), ('-', '-')]) = true ∧
    (litRx .float).within (wordR ++ [('.', '.'), ('+', '+'), ('-', '-')]) = true ∧
    (litRx .double).avoids [('x', 'x'), ('X', 'X')] = true ∧ (litRx .float).avoids [('x', 'x'), ('X', 'X')] = true ∧
    (litRx .hexadecimal).needs [('x', 'x'), ('X', 'X')] = true := by
  decide +kernel

theorem digitChar_ne {d : Nat} (h : d < 10) {c : Char} (hc : c.toNat < 48 ∨ 57 < c.toNat) : digitChar false d ≠ c := by
  intro e
  have := toNat_digitChar (u := false) (d := d) (by omega)
  rw [e, if_pos h] at this
  omega

theorem not_mem_digits {ds : List Nat} (h : ∀ d ∈ ds, d < 10) {c : Char} (hc : c.toNat < 48 ∨ 57 < c.toNat) :
    c ∉ ds.map (digitChar false) := by
  intro hm
  obtain ⟨d, hd, e⟩ := List.mem_map.1 hm
  exact digitChar_ne (h d hd) hc e

theorem exponent_sign {e : Exponent} (he : ∀ d ∈ e.digits, d < 10) {a v : List Char} {c : Char}
    (hc : c = '+' ∨ c = '-') (h : e.text = a ++ c :: v) : a = [if e.upper then 'E' else 'e'] := by
  have hcn : c.toNat < 48 ∨ 57 < c.toNat := by rcases hc with rfl | rfl <;> decide
  cases a with
  | nil =>
    simp only [Exponent.text, List.nil_append, List.cons.injEq] at h
    rcases hc with rfl | rfl <;> cases hu : e.upper <;> simp [hu] at h
  | cons x a =>
    simp only [Exponent.text, List.cons_append, List.cons.injEq] at h
    obtain ⟨rfl, h⟩ := h
    cases a with
    | nil => rfl
    | cons y a =>
      exfalso
      have hm : c ∈ e.digits.map (digitChar false) := by
        rcases hs : e.sign with _ | b
        · rw [hs] at h
          simp only [List.nil_append] at h
          rw [h]; simp
        · cases b <;> rw [hs] at h <;> simp only [List.cons_append, List.nil_append, List.cons.injEq] at h <;> rw [h.2] <;> simp
      exact not_mem_digits he hcn hm

/-- A sign in a number stands behind the `e` of the exponent. -/
theorem double_sign {w v : List Char} {c : Char} (hc : c = '+' ∨ c = '-') (h : Matches (litRx .double) (w ++ c :: v)) :
    w.getLast? = some 'e' ∨ w.getLast? = some 'E' := by
  obtain ⟨l, ⟨h1, h2, h3, h4⟩, ht⟩ := literal_double.1 h
  have hcn : c.toNat < 48 ∨ 57 < c.toNat := by rcases hc with rfl | rfl <;> decide
  obtain ⟨p, hp, hq⟩ : ∃ p, c ∉ p ∧ (p ++ (match l.exponent with | none => [] | some e => e.text)) = w ++ c :: v := by
    refine ⟨_, ?_, ht⟩
    intro hm
    cases List.mem_append.1 hm with
    | inl hm => exact not_mem_digits h1 hcn hm
    | inr hm =>
      cases hf : l.fraction with
      | none => rw [hf] at hm; cases hm
      | some f =>
        rw [hf] at hm
        cases hm with
        | head => rcases hc with h | h <;> cases h
        | tail _ hm => exact not_mem_digits (h2 f hf) hcn hm
  cases he : l.exponent with
  | none => rw [he] at hq; simp only [List.append_nil] at hq; exact absurd (hq ▸ by simp) hp
  | some e =>
    rw [he] at hq
    cases List.append_eq_append_iff.1 hq with
    | inl h =>
      obtain ⟨a, hw, ha⟩ := h
      have := exponent_sign (h3 e he).2 hc ha
      rw [hw, this]
      cases e.upper <;> simp
    | inr h =>
      obtain ⟨a, hw, ha⟩ := h
      cases a with
      | nil =>
        have := exponent_sign (a := []) (h3 e he).2 hc (by simpa using ha.symm)
        cases this
      | cons x a =>
        simp only [List.cons_append, List.cons.injEq] at ha
        exact absurd (by rw [hw, ← ha.1]; simp) hp

theorem float_sign {w v : List Char} {c : Char} (hc : c = '+' ∨ c = '-') (h : Matches (litRx .float) (w ++ c :: v)) :
    w.getLast? = some 'e' ∨ w.getLast? = some 'E' := by
  simp only [litRx, matches_seq] at h
  obtain ⟨u, f, e, h1, h2⟩ := h
  obtain ⟨d, hd, rfl⟩ := matches_among.1 h2
  cases List.eq_nil_or_concat v with
  | inl hv =>
    subst hv
    have := List.append_inj_right' e rfl
    cases this
    rcases hc with rfl | rfl <;> exact absurd hd (by decide)
  | inr hv =>
    obtain ⟨v', x, rfl⟩ := hv
    have e' : (w ++ c :: v') ++ [x] = u ++ [d] := by simpa using e
    have := List.append_inj_left' e' rfl
    exact double_sign hc (this ▸ h1)

theorem number_end {k : LitKind} (hk : isNumber k = true) {w : List Char} (h : Matches (litRx k) w) :
    (∃ a, w.head? = some a ∧ InR numR a) ∧ (∃ a, w.getLast? = some a ∧ (IsWordChar a ∨ a = '.') ∧
      (k ≠ .hexadecimal → a ≠ 'e' ∧ a ≠ 'E')) ∧ w ≠ ['.'] ∧ w ≠ [] := by
  have hm : k ∈ [LitKind.decimal, .hexadecimal, .octal, .binary, .float, .double] := by
    cases k <;> first | (cases hk; done) | simp
  obtain ⟨h1, h2, h3, h4, h5⟩ := number_shape k hm
  have hn : w ≠ [] := by
    rintro rfl
    rw [(nullable_iff _).2 h] at h4
    cases h4
  refine ⟨?_, ?_, ?_, hn⟩
  · cases w with
    | nil => exact absurd rfl hn
    | cons a w =>
      obtain ⟨s, hs, hh⟩ := firsts_sound h rfl
      exact ⟨a, rfl, CharSet.within_sound (List.all_eq_true.1 h1 s hs) hh⟩
  · have hl := List.getLast?_eq_some_getLast hn
    obtain ⟨s, hs, hh⟩ := lasts_sound h hl
    refine ⟨_, hl, ?_, fun hx => ?_⟩
    · obtain ⟨r, hr, h6⟩ := CharSet.within_sound (List.all_eq_true.1 h2 s hs) hh
      cases List.mem_append.1 hr with
      | inl hr => exact .inl (inR_word.1 ⟨r, hr, h6⟩)
      | inr hr => exact .inr (inR_one.1 ⟨r, hr, h6⟩)
    · have := CharSet.apart_sound (List.all_eq_true.1 (h5 hx) s hs) hh
      constructor
      · intro e; rw [e] at this; exact this ⟨('e', 'e'), by simp, Char.le_refl _, Char.le_refl _⟩
      · intro e; rw [e] at this; exact this ⟨('E', 'E'), by simp, Char.le_refl _, Char.le_refl _⟩
  · rintro rfl
    obtain ⟨c, hc, hd⟩ := needs_sound h3 h
    cases List.mem_singleton.1 hc
    exact absurd (inR_digit.1 hd) (by simp only [IsDigit]; decide)

theorem number_words : ∀ s ∈ operatorTexts ++ keywordTexts, s = "." ∨ (lits s.toList).elsewhere numR = true := by
  decide +kernel

theorem clash {x y : Rx} (t : Ranges) (h1 : x.needs t = true) (h2 : y.avoids t = true) {w : List Char}
    (hx : Matches x w) (hy : Matches y w) : False :=
  have ⟨c, hc, h⟩ := needs_sound h1 hx
  avoids_sound h2 hy c hc h

theorem decimal_octal {w : List Char} (h1 : Lexed .decimal w) (h2 : Lexed .octal w) : False := by
  obtain ⟨l, hl, hk, rfl⟩ := h1
  obtain ⟨l', hl', hk', e⟩ := h2
  cases l <;> cases hk
  cases l' <;> cases hk'
  rename_i ds ds'
  obtain ⟨h1, h2, h3⟩ := hl
  cases ds with
  | nil => exact h1 rfl
  | cons d ds =>
    simp only [IntLit.text, List.map_cons, List.cons.injEq] at e
    have hd : d = 0 := by
      have h0 := toNat_digitChar (u := false) (d := d) (by have := h2 d (by simp); omega)
      rw [← e.1, if_pos (h2 d (by simp))] at h0
      have : '0'.toNat = 48 := rfl
      omega
    subst hd
    cases h3 rfl
    exact hl'.1 (List.map_eq_nil_iff.1 e.2)

theorem number_before {k : LitKind} (hk : isNumber k = true) {w : List Char} (h : Matches (litRx k) w)
    {before behind : List (Rule × Rx)} (e : otherRules = before ++ (.lit k, litRx k) :: behind)
    (hb : ∀ q ∈ before, q.2.elsewhere numR = true ∨ ∃ t ∈ [[('b', 'b'), ('B', 'B')], [('x', 'x'), ('X', 'X')],
        [('e', 'e'), ('E', 'E'), ('.', '.')], [('f', 'f'), ('F', 'F')]],
      ((q.2.needs t && (litRx k).avoids t) || ((litRx k).needs t && q.2.avoids t)) = true) :
    ∃ before x behind, lexRules = before ++ (Rule.lit k, x) :: behind ∧ Matches x w ∧ ∀ q ∈ before, ¬Matches q.2 w := by
  obtain ⟨⟨a, ha, hr⟩, _, hd, hn⟩ := number_end hk h
  refine first_other e h (fun s hs e => ?_) fun q hq hm => ?_
  · cases number_words s hs with
    | inl h => subst h; exact hd e
    | inr hs' =>
      cases w with
      | nil => exact hn rfl
      | cons b w => cases ha; exact elsewhere_sound hs' (matches_lits.2 e) hr
  · cases hb q hq with
    | inl h' =>
      cases w with
      | nil => exact hn rfl
      | cons b w => cases ha; exact elsewhere_sound h' hm hr
    | inr h' =>
      obtain ⟨t, _, ht⟩ := h'
      simp only [Bool.or_eq_true, Bool.and_eq_true] at ht
      cases ht with
      | inl ht => exact clash t ht.1 ht.2 hm h
      | inr ht => exact clash t ht.1 ht.2 h hm

theorem number_first {k : LitKind} (hk : isNumber k = true) {w : List Char} (h : Matches (litRx k) w) :
    ∃ before x behind, lexRules = before ++ (Rule.lit k, x) :: behind ∧ Matches x w ∧ ∀ q ∈ before, ¬Matches q.2 w := by
  cases k with
  | bool => cases hk
  | string => cases hk
  | binary => exact number_before hk h (before := beforeId.take 7) rfl (by decide +kernel)
  | octal => exact number_before hk h (before := beforeId.take 8) rfl (by decide +kernel)
  | hexadecimal => exact number_before hk h (before := beforeId.take 9) rfl (by decide +kernel)
  | double => exact number_before hk h (before := beforeId.take 10) rfl (by decide +kernel)
  | float => exact number_before hk h (before := beforeId.take 11) rfl (by decide +kernel)
  | decimal =>
    obtain ⟨⟨a, ha, hr⟩, _, hd, hn⟩ := number_end hk h
    refine first_other (before := beforeId.take 12) (behind := (.id, .seq letterRx (.star wordRx)) :: behindId) rfl h
      (fun s hs e => ?_) fun q hq hm => ?_
    · cases number_words s hs with
      | inl h => subst h; exact hd e
      | inr hs' =>
        cases w with
        | nil => exact hn rfl
        | cons b w => cases ha; exact elsewhere_sound hs' (matches_lits.2 e) hr
    · have hb : ∀ q ∈ beforeId.take 12, q = (.lit .octal, litRx .octal) ∨ q.2.elsewhere numR = true ∨
          ∃ t ∈ [[('b', 'b'), ('B', 'B')], [('x', 'x'), ('X', 'X')],
            [('e', 'e'), ('E', 'E'), ('.', '.')], [('f', 'f'), ('F', 'F')]],
          (q.2.needs t && (litRx .decimal).avoids t) = true := by decide +kernel
      rcases hb q hq with h' | h' | h'
      · subst h'
        exact decimal_octal (literal_decimal.1 h) (literal_octal.1 hm)
      · cases w with
        | nil => exact hn rfl
        | cons b w => cases ha; exact elsewhere_sound h' hm hr
      · obtain ⟨t, _, ht⟩ := h'
        simp only [Bool.and_eq_true] at ht
        exact clash t ht.1 ht.2 hm h

theorem number_longest {k : LitKind} (hk : isNumber k = true) {w rest : List Char} (h : Matches (litRx k) w)
    (ha : Apart w rest) : Longest lexRules (w ++ rest) (.lit k) w rest := by
  refine longest_of (number_first hk h) fun q hq c rest' v hr hm => ?_
  subst hr
  obtain ⟨⟨a, hw, hr⟩, ⟨z, hz, hzw, hze⟩, hd, hn⟩ := number_end hk h
  have h1 : ¬IsWordChar c := fun hc => ha (.inl ⟨hd, ⟨z, hz, hzw⟩, hc⟩)
  have h2 : c ≠ '.' := fun hc => ha (.inr (.inr (.inl ⟨⟨a, hw, inR_num.1 hr⟩, hc⟩)))
  have sign : (q.2).within (wordR ++ [('.', '.'), ('+', '+'), ('-', '-')]) = true → c = '+' ∨ c = '-' := by
    intro hx
    obtain ⟨r, hr, h3⟩ := within_sound hx hm c (by simp)
    cases List.mem_append.1 hr with
    | inl hr => exact absurd (inR_word.1 ⟨r, hr, h3⟩) h1
    | inr hr =>
      simp only [List.mem_cons, List.not_mem_nil, or_false] at hr
      rcases hr with rfl | rfl | rfl
      · exact absurd (Char.le_antisymm h3.2 h3.1) h2
      · exact .inl (Char.le_antisymm h3.2 h3.1)
      · exact .inr (Char.le_antisymm h3.2 h3.1)
  obtain ⟨d1, d2, d3, d4, d5⟩ := double_chars
  have last : (q.2).avoids [('x', 'x'), ('X', 'X')] = true → (w.getLast? = some 'e' ∨ w.getLast? = some 'E') → False := by
    intro hx hl
    by_cases hk' : k = .hexadecimal
    · subst hk'
      obtain ⟨x, hx', hi⟩ := needs_sound d5 h
      exact avoids_sound hx hm x (by simp [hx']) hi
    · have := hze hk'
      rw [hz] at hl
      rcases hl with hl | hl
      · exact this.1 (Option.some.inj hl)
      · exact this.2 (Option.some.inj hl)
  rcases number_rules q hq with h' | h' | h' | h' | h'
  · cases w with
    | nil => exact hn rfl
    | cons b w => cases hw; exact elsewhere_sound h' hm hr
  · exact h1 (inR_word.1 (within_sound h' hm c (by simp)))
  · rw [h', matches_lits] at hm
    cases w with
    | nil => exact hn rfl
    | cons b w => simp at hm
  · rw [h'] at sign last hm
    exact last d3 (double_sign (sign d1) hm)
  · rw [h'] at sign last hm
    exact last d4 (float_sign (sign d2) hm)

/-! ## Strings -/

/-- What is behind the quote that ends a string; `esc`: behind a backslash. -/
def behindString : Bool → List Char → Option (List Char)
  | _, [] => none
  | true, _ :: cs => behindString false cs
  | false, c :: cs => if c = '"' then some cs else behindString (c == '\\') cs

theorem behindString_plain {l rest : List Char} (h : ∀ c ∈ l, c ≠ '"' ∧ c ≠ '\\') :
    behindString false (l ++ rest) = behindString false rest := by
  induction l with
  | nil => rfl
  | cons c l ih =>
    have := h c (by simp)
    rw [List.cons_append, behindString, if_neg this.1, show (c == '\\') = false by simpa using this.2]
    exact ih fun d hd => h d (by simp [hd])

theorem digitChar_plain {u : Bool} {d : Nat} (h : d < 16) : digitChar u d ≠ '"' ∧ digitChar u d ≠ '\\' := by
  have : ∀ u : Bool, ∀ d : Fin 16, digitChar u d.1 ≠ '"' ∧ digitChar u d.1 ≠ '\\' := by decide
  exact this u ⟨d, h⟩

theorem behindString_elem {e : StrElem} (he : e.WellFormed) (rest : List Char) :
    behindString false (e.text ++ rest) = behindString false rest := by
  have esc : ∀ (c : Char) (l : List Char), (∀ d ∈ l, d ≠ '"' ∧ d ≠ '\\') →
      behindString false ('\\' :: c :: l ++ rest) = behindString false rest := by
    intro c l hl
    simp only [List.cons_append, behindString, show ('\\' == '\\') = true from rfl,
      if_neg (show '\\' ≠ '"' by decide)]
    exact behindString_plain hl
  cases e with
  | plain c =>
    exact behindString_plain (l := [c]) fun d hd => by cases List.mem_singleton.1 hd; exact ⟨he.1, he.2.1⟩
  | escape c => exact esc c [] (by simp)
  | unicode ds =>
    refine esc 'u' _ fun d hd => ?_
    obtain ⟨x, hx, rfl⟩ := List.mem_map.1 hd
    exact digitChar_plain (he.2 x hx)
  | hex a b =>
    refine esc 'x' [_, _] fun d hd => ?_
    simp only [List.mem_cons, List.not_mem_nil, or_false] at hd
    rcases hd with rfl | rfl
    · exact digitChar_plain he.1
    · exact digitChar_plain he.2
  | octal ds =>
    refine esc '0' _ fun d hd => ?_
    obtain ⟨x, hx, rfl⟩ := List.mem_map.1 hd
    exact digitChar_plain (by have := he.1.2.2 x hx; omega)

theorem behindString_body {es : List StrElem} (h : ∀ e ∈ es, e.WellFormed) (rest : List Char) :
    behindString false (es.flatMap StrElem.text ++ '"' :: rest) = some rest := by
  induction es with
  | nil => rfl
  | cons e es ih =>
    rw [List.flatMap_cons, List.append_assoc, behindString_elem (h e (by simp))]
    exact ih fun x hx => h x (by simp [hx])

/-- A string literal is no beginning of another one. -/
theorem string_prefix {es es' : List StrElem} (h : ∀ e ∈ es, e.WellFormed) (h' : ∀ e ∈ es', e.WellFormed)
    {v : List Char} (e : strText es ++ v = strText es') : v = [] := by
  simp only [strText, List.cons_append, List.cons.injEq, true_and, List.append_assoc, List.nil_append] at e
  have h1 := behindString_body h v
  have h2 := behindString_body h' []
  rw [e, h2] at h1
  exact (Option.some.inj h1).symm

theorem string_words : ∀ s ∈ operatorTexts ++ keywordTexts, (lits s.toList).elsewhere [('"', '"')] = true := by
  decide +kernel

theorem string_before : ∀ q ∈ beforeId.take 6, q.2.elsewhere [('"', '"')] = true := by decide +kernel

theorem string_longest {w rest : List Char} (h : Matches (litRx .string) w) :
    Longest lexRules (w ++ rest) (.lit .string) w rest := by
  obtain ⟨es, hes, ht⟩ := literal_string.1 h
  have hw : ∃ w', w = '"' :: w' := ⟨_, ht.symm⟩
  have hq : InR [('"', '"')] '"' := inR_one.2 rfl
  refine longest_of (first_other (before := beforeId.take 6) rfl h (fun s hs e => ?_) fun q hq' hm => ?_)
    fun q hq' c rest' v hr hm => ?_
  · obtain ⟨w', rfl⟩ := hw
    exact elsewhere_sound (string_words s hs) (matches_lits.2 e) hq
  · obtain ⟨w', rfl⟩ := hw
    exact elsewhere_sound (string_before q hq') hm hq
  · rcases string_rules q hq' with h' | h' | h'
    · obtain ⟨w', rfl⟩ := hw
      exact elsewhere_sound h' hm hq
    · rw [h'] at hm
      obtain ⟨es', hes', ht'⟩ := literal_string.1 hm
      rw [← ht] at ht'
      cases string_prefix hes hes' ht'.symm
    · rw [h'] at hm
      obtain ⟨u1, v1, e1, m1, m2⟩ := matches_seq.1 hm
      obtain ⟨u2, v2, e2, m3, m4⟩ := matches_seq.1 m2
      cases matches_one.1 m1
      have hnq : '"' ∉ u2 := by
        intro hc
        rw [except, matches_star_chars] at m3
        have := (m3 _ hc)
        simp only [CharSet.Has, inR_among] at this
        simp at this
      rw [← ht, e2] at e1
      simp only [strText, List.cons_append, List.cons.injEq, true_and, List.append_assoc, List.nil_append] at e1
      -- the quote at the end of the literal lies in front of the last character
      have hv2 : v2.length ≤ 1 := by
        rcases matches_opt.1 m4 with m | m
        · rw [matches_one.1 m]; simp
        · rw [m]; simp
      have hm : '"' ∈ u2 := by
        cases List.append_eq_append_iff.1 e1 with
        | inl h6 =>
          obtain ⟨a, h7, h8⟩ := h6
          cases a with
          | nil =>
            have := congrArg List.length h8
            simp at this
            omega
          | cons x a =>
            simp only [List.cons_append, List.cons.injEq] at h8
            rw [h7, ← h8.1]
            simp
        | inr h6 =>
          obtain ⟨a, h7, h8⟩ := h6
          have := congrArg List.length h8
          simp at this
          omega
      exact hnq hm

/-! ## Comments -/

theorem comment_rules {q : Rule × Rx} (hq : q ∈ lexRules) {d : Char} {u : List Char} (h : Matches q.2 ('/' :: d :: u)) :
    (q.1 ∈ [.doc, .markdown, .block] ∧ d = '*' ∧ ((∃ body, NoEnd body ∧ u = body ++ ['*', '/']) ∨
      ∃ c body, NoEnd body ∧ u = c :: body ++ ['*', '/'])) ∨
    (q.1 = .line ∧ d = '/' ∧ ∀ c ∈ u, c ∉ lineEnds) := by
  have two : ∀ {x : Rx} {c : Char}, Matches (.seq (lits ['/', '*', c]) x) ('/' :: d :: u) →
      d = '*' ∧ ∃ v, u = c :: v ∧ Matches x v := by
    intro x c hm
    obtain ⟨u1, v1, e1, m1, m2⟩ := matches_seq.1 hm
    rw [matches_lits.1 m1] at e1
    simp only [List.cons_append, List.nil_append, List.cons.injEq, true_and] at e1
    exact ⟨e1.1, v1, e1.2, m2⟩
  rcases slash_rules q hq with h' | h' | h' | h' | h' | h'
  · exact absurd (inR_one.2 rfl) (elsewhere_sound h' h)
  · rw [h'] at h; cases matches_lits.1 h
  · rw [h'] at h
    obtain ⟨hd, v, hv, m⟩ := two h
    obtain ⟨body, hb, e⟩ := untilEnd_iff.1 m
    exact .inl ⟨by simp [h'], hd, .inr ⟨'*', body, hb, by rw [hv, e]; rfl⟩⟩
  · rw [h'] at h
    obtain ⟨hd, v, hv, m⟩ := two h
    obtain ⟨body, hb, e⟩ := untilEnd_iff.1 m
    exact .inl ⟨by simp [h'], hd, .inr ⟨'!', body, hb, by rw [hv, e]; rfl⟩⟩
  · rw [h'] at h
    obtain ⟨u1, v1, e1, m1, m2⟩ := matches_seq.1 h
    rw [matches_lits.1 m1] at e1
    simp only [List.cons_append, List.nil_append, List.cons.injEq, true_and] at e1
    obtain ⟨body, hb, e⟩ := untilEnd_iff.1 m2
    exact .inl ⟨by simp [h'], e1.1, .inl ⟨body, hb, by rw [e1.2, e]⟩⟩
  · rw [h'] at h
    obtain ⟨u1, v1, e1, m1, m2⟩ := matches_seq.1 h
    rw [matches_lits.1 m1] at e1
    simp only [List.cons_append, List.nil_append, List.cons.injEq, true_and] at e1
    refine .inr ⟨by rw [h'], e1.1, fun c hc => ?_⟩
    rw [except, matches_star_chars] at m2
    have := m2 c (e1.2 ▸ hc)
    simpa only [CharSet.Has, inR_among, Bool.true_eq_false, iff_false] using this

theorem noEnd_tail {c : Char} {body : List Char} (h : NoEnd (c :: body)) : NoEnd body :=
  (endless_cons.1 (show Endless (c :: (body ++ ['*'])) from h)).2

theorem block_mem : (Rule.block, Rx.seq (lits ['/', '*']) untilEnd) ∈ lexRules := by
  rw [lexRules_eq]; exact List.mem_append.2 (.inr (by decide +kernel))

theorem doc_mem : (Rule.doc, Rx.seq (lits ['/', '*', '*']) untilEnd) ∈ lexRules := by
  rw [lexRules_eq]; exact List.mem_append.2 (.inr (by decide +kernel))

theorem line_mem : (Rule.line, Rx.seq (lits ['/', '/']) (.star (except lineEnds))) ∈ lexRules := by
  rw [lexRules_eq]; exact List.mem_append.2 (.inr (by decide +kernel))

/-- The first of the rules that match a text, if there is one. -/
theorem first_exists {q : Rule × Rx} {w : List Char} (hq : q ∈ lexRules) (hm : Matches q.2 w) :
    ∃ r ∈ lexRules, Matches r.2 w ∧
      ∃ before x behind, lexRules = before ++ (r.1, x) :: behind ∧ Matches x w ∧ ∀ q ∈ before, ¬Matches q.2 w := by
  cases hf : lexRules.find? fun q => (q.2.steps w).nullable with
  | none =>
    rw [List.find?_eq_none] at hf
    exact absurd ((nullable_iff _).2 ((steps_iff ..).2 (by simpa using hm))) (hf q hq)
  | some r =>
    obtain ⟨h1, as, bs, h2, h3⟩ := List.find?_eq_some_iff_append.1 hf
    have m : ∀ x : Rx, (x.steps w).nullable = true ↔ Matches x w := fun x => by
      rw [nullable_iff, steps_iff, List.append_nil]
    refine ⟨r, by simp [h2], (m _).1 h1, as, r.2, bs, h2, (m _).1 h1, fun q hq hm => ?_⟩
    have := h3 q hq
    rw [(m _).2 hm] at this
    cases this

theorem comment_longest {body rest : List Char} (hb : NoEnd body) (hne : body ≠ []) :
    ∃ r, r ∈ [Rule.doc, .markdown, .block] ∧
      Longest lexRules (('/' :: '*' :: body ++ ['*', '/']) ++ rest) r ('/' :: '*' :: body ++ ['*', '/']) rest := by
  have hm : Matches (.seq (lits ['/', '*']) untilEnd) ('/' :: '*' :: body ++ ['*', '/']) :=
    Matches.seq (u := ['/', '*']) (matches_lits.2 rfl) (untilEnd_iff.2 ⟨body, hb, rfl⟩)
  obtain ⟨r, hr, hrm, hf⟩ := first_exists block_mem hm
  refine ⟨r.1, ?_, longest_of hf fun q hq c rest' v hc hm => ?_⟩
  · cases comment_rules hr hrm with
    | inl h => exact h.1
    | inr h => exact absurd h.2.1 (by decide)
  · cases comment_rules (d := '*') (u := body ++ ['*', '/'] ++ c :: v) hq (by simpa using hm) with
    | inr h => exact absurd h.2.1 (by decide)
    | inl h =>
      rcases h.2.2 with ⟨b, hb', e⟩ | ⟨d, b, hb', e⟩
      · cases noEnd_unique hb hb' e
      · cases body with
        | nil => exact hne rfl
        | cons x body =>
          simp only [List.cons_append, List.cons.injEq] at e
          cases noEnd_unique (noEnd_tail hb) hb' (by simpa using e.2)

/-- `/**/` is not the end of a comment. -/
theorem doc_longest {body rest : List Char} (hb : NoEnd body) :
    ∃ r, r ∈ [Rule.doc, .markdown, .block] ∧
      Longest lexRules (('/' :: '*' :: '*' :: '/' :: body ++ ['*', '/']) ++ rest) r
        ('/' :: '*' :: '*' :: '/' :: body ++ ['*', '/']) rest := by
  have hb' : NoEnd ('/' :: body) := endless_cons.2 ⟨fun h => absurd h.1 (by decide), hb⟩
  have hm : Matches (.seq (lits ['/', '*', '*']) untilEnd) ('/' :: '*' :: '*' :: '/' :: body ++ ['*', '/']) :=
    Matches.seq (u := ['/', '*', '*']) (matches_lits.2 rfl) (untilEnd_iff.2 ⟨'/' :: body, hb', rfl⟩)
  obtain ⟨r, hr, hrm, hf⟩ := first_exists doc_mem hm
  refine ⟨r.1, ?_, longest_of hf fun q hq c rest' v hc hm => ?_⟩
  · cases comment_rules hr hrm with
    | inl h => exact h.1
    | inr h => exact absurd h.2.1 (by decide)
  · cases comment_rules (d := '*') (u := '*' :: '/' :: body ++ ['*', '/'] ++ c :: v) hq (by simpa using hm) with
    | inr h => exact absurd h.2.1 (by decide)
    | inl h =>
      rcases h.2.2 with ⟨b, hb2, e⟩ | ⟨d, b, hb2, e⟩
      · have h0 : NoEnd [] := by rw [noEnd_iff]; exact endless_stars 1
        have := noEnd_unique (a := []) (v := body ++ ['*', '/'] ++ c :: v) h0 hb2 (by simpa using e)
        simp at this
      · simp only [List.cons_append, List.cons.injEq] at e
        cases noEnd_unique hb' hb2 (by simpa using e.2)

theorem line_longest {body rest : List Char} (hb : ∀ c ∈ body, c ∉ lineEnds) (hr : LineEnds rest) :
    Longest lexRules (('/' :: '/' :: body) ++ rest) .line ('/' :: '/' :: body) rest := by
  have hm : Matches (.seq (lits ['/', '/']) (.star (except lineEnds))) ('/' :: '/' :: body) := by
    refine Matches.seq (u := ['/', '/']) (matches_lits.2 rfl) ?_
    rw [except, matches_star_chars]
    intro c hc
    simpa only [CharSet.Has, inR_among, Bool.true_eq_false, iff_false] using hb c hc
  obtain ⟨r, hr', hrm, hf⟩ := first_exists line_mem hm
  have hrl : r.1 = .line := by
    cases comment_rules hr' hrm with
    | inl h => exact absurd h.2.1 (by decide)
    | inr h => exact h.1
  rw [hrl] at hf
  refine longest_of hf fun q hq c rest' v hc hm => ?_
  subst hc
  cases comment_rules (d := '/') (u := body ++ c :: v) hq (by simpa using hm) with
  | inl h => exact absurd h.2.1 (by decide)
  | inr h => exact h.2.2 c (by simp) hr

end Zs.Src
