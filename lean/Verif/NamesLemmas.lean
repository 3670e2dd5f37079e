import Verif.NamesSpec

/-!
# Lemmas about names
-/

namespace Zs

open Spec

/-! ## Characters -/

theorem ascii_cases {P : Char → Prop} (h : ∀ n : Fin 128, P (Char.ofNat n)) (c : Char) (hc : c.toNat < 128) : P c := by
  have := h ⟨c.toNat, hc⟩
  rwa [Char.ofNat_toNat] at this

theorem inWord_ascii {c : Char} (h : inWord c = true) : c.toNat < 128 := by
  simp only [inWord, Char.isUpper, Char.isLower, Char.isDigit, Bool.or_eq_true, Bool.and_eq_true, decide_eq_true_eq,
    ge_iff_le, UInt32.le_iff_toNat_le] at h
  have e : c.toNat = c.val.toNat := rfl
  rw [e]
  rcases h with (⟨_, h⟩ | ⟨_, h⟩) | ⟨_, h⟩
  · exact Nat.lt_of_le_of_lt h (by decide)
  · exact Nat.lt_of_le_of_lt h (by decide)
  · exact Nat.lt_of_le_of_lt h (by decide)

/-- What is needed about letters and digits. -/
structure CharFacts (c : Char) : Prop where
  lowerInWord : inWord c = true → inWord c.toLower = true
  lowerNotUpper : inWord c = true → c.toLower.isUpper = false
  lowerDigit : inWord c = true → c.toLower.isDigit = c.isDigit
  lowerNot : inWord c = true → c.toLower ≠ '_'
  lowerAlnum : inWord c = true → c.toLower.isAlphanum = true
  lowerAlpha : inWord c = true → c.toLower.isAlpha = !c.isDigit
  upper : c.isUpper = true → c.isLower = false ∧ c.isDigit = false ∧ c.toLower.isLower = true ∧ c.toLower.toUpper = c
  lower : c.isLower = true → c.isUpper = false ∧ c.isDigit = false ∧ c.toLower = c ∧ c.toUpper.isUpper = true ∧
    c.toUpper.toLower = c
  digit : c.isDigit = true → c.isUpper = false ∧ c.isLower = false ∧ c.toLower = c ∧ c.toUpper = c
  upperAlnum : inWord c = true → c.toUpper.isAlphanum = true
  upperAlpha : inWord c = true → c.toUpper.isAlpha = !c.isDigit

instance (c : Char) : Decidable (CharFacts c) :=
  decidable_of_iff
    ((inWord c = true → inWord c.toLower = true) ∧ (inWord c = true → c.toLower.isUpper = false) ∧
      (inWord c = true → c.toLower.isDigit = c.isDigit) ∧ (inWord c = true → c.toLower ≠ '_') ∧
      (inWord c = true → c.toLower.isAlphanum = true) ∧ (inWord c = true → c.toLower.isAlpha = !c.isDigit) ∧
      (c.isUpper = true → c.isLower = false ∧ c.isDigit = false ∧ c.toLower.isLower = true ∧ c.toLower.toUpper = c) ∧
      (c.isLower = true → c.isUpper = false ∧ c.isDigit = false ∧ c.toLower = c ∧ c.toUpper.isUpper = true ∧
        c.toUpper.toLower = c) ∧
      (c.isDigit = true → c.isUpper = false ∧ c.isLower = false ∧ c.toLower = c ∧ c.toUpper = c) ∧
      (inWord c = true → c.toUpper.isAlphanum = true) ∧ (inWord c = true → c.toUpper.isAlpha = !c.isDigit))
    ⟨fun ⟨a, b, c, d, e, f, g, h, i, j, k⟩ => ⟨a, b, c, d, e, f, g, h, i, j, k⟩,
      fun ⟨a, b, c, d, e, f, g, h, i, j, k⟩ => ⟨a, b, c, d, e, f, g, h, i, j, k⟩⟩

theorem charFacts_ascii : ∀ n : Fin 128, CharFacts (Char.ofNat n) := by decide +kernel

theorem charFacts (c : Char) : CharFacts c := by
  by_cases h : c.toNat < 128
  · exact ascii_cases charFacts_ascii c h
  · have hw : inWord c = false := by
      cases hc : inWord c with
      | false => rfl
      | true => exact absurd (inWord_ascii hc) h
    have : c.isUpper = false ∧ c.isLower = false ∧ c.isDigit = false := by
      simp only [inWord, Bool.or_eq_false_iff] at hw
      exact ⟨hw.1.1, hw.1.2, hw.2⟩
    constructor <;> simp [hw, this]

theorem inWord_upper {c : Char} (h : c.isUpper = true) : inWord c = true := by simp [inWord, h]
theorem inWord_lower {c : Char} (h : c.isLower = true) : inWord c = true := by simp [inWord, h]
theorem inWord_digit {c : Char} (h : c.isDigit = true) : inWord c = true := by simp [inWord, h]

/-! ## The loops -/

/-- What is written for the characters behind `p`, if words are separated by `_`. -/
def snakeTail (nums : Bool) : Char → List Char → List Char
  | _, [] => []
  | p, c :: cs =>
    if inWord c then
      (if inWord p && goesOn nums p c cs.head? then [] else ['_']) ++ c.toLower :: snakeTail nums c cs
    else snakeTail nums c cs

/-- What is written for a name. -/
def snakeFirst (nums : Bool) : List Char → List Char
  | [] => []
  | c :: cs => if inWord c then c.toLower :: snakeTail nums c cs else snakeFirst nums cs

/-- The last character, as far as the loops remember it. -/
def LastIs (p : Char) : LastChar → Prop
  | .firstOfStr => False
  | .nextOfUpper => p.isUpper = true
  | .nextOfContdUpper => False
  | .nextOfSepMark => inWord p = false
  | .nextOfKeptMark => p.isDigit = true
  | .others => p.isLower = true

theorem snakeRun_tail (nums : Bool) : ∀ (cs : List Char),
    (∀ (p : Char) (acc : List Char) (flag : LastChar), LastIs p flag →
      snakeRun nums acc flag cs = acc.reverse ++ snakeTail nums p cs) ∧
    (∀ (p : Char) (acc : List Char) (l : Char), p.isUpper = true →
      snakeRun nums (l :: acc) .nextOfContdUpper cs =
        acc.reverse ++ (if cs.head?.any Char.isLower then ['_', l] else [l]) ++ snakeTail nums p cs)
  | [] => by
    refine ⟨fun p acc flag _ => by simp [snakeRun, snakeTail], fun p acc l _ => by simp [snakeRun, snakeTail]⟩
  | c :: cs => by
    obtain ⟨ih1, ih2⟩ := snakeRun_tail nums cs
    have fc := charFacts c
    by_cases hu : c.isUpper = true
    · obtain ⟨hl, hd, -, -⟩ := fc.upper hu
      have hw := inWord_upper hu
      refine ⟨fun p acc flag hp => ?_, fun p acc l hp => ?_⟩
      · have fp := charFacts p
        cases flag with
        | firstOfStr => exact hp.elim
        | nextOfContdUpper => exact hp.elim
        | nextOfUpper =>
          have hp : p.isUpper = true := hp
          obtain ⟨_, hpd, -, -⟩ := fp.upper hp
          simp only [snakeRun, snakeStep, snakeUpper, snakeLower, snakeDigitWord, snakeDigit, dropMark, markLast, hu, if_true]
          rw [ih2 c acc _ hu]
          simp [snakeTail, hw, goesOn, hd, hpd, hu, hp, inWord_upper hp]
          cases cs.head?.any Char.isLower <;> simp
        | nextOfSepMark =>
          have hp : inWord p = false := hp
          simp only [snakeRun, snakeStep, snakeUpper, snakeLower, snakeDigitWord, snakeDigit, dropMark, markLast, hu, if_true]
          rw [ih1 c _ .nextOfUpper hu]
          simp [snakeTail, hw, hp]
        | nextOfKeptMark =>
          have hp : p.isDigit = true := hp
          simp only [snakeRun, snakeStep, snakeUpper, snakeLower, snakeDigitWord, snakeDigit, dropMark, markLast, hu, if_true]
          rw [ih1 c _ .nextOfUpper hu]
          simp [snakeTail, hw, goesOn, hd, hp]
        | others =>
          have hp : p.isLower = true := hp
          obtain ⟨hpu, hpd, -⟩ := fp.lower hp
          simp only [snakeRun, snakeStep, snakeUpper, snakeLower, snakeDigitWord, snakeDigit, dropMark, markLast, hu, if_true]
          rw [ih1 c _ .nextOfUpper hu]
          simp [snakeTail, hw, goesOn, hd, hu, hpd, hpu]
      · obtain ⟨_, hpd, -, -⟩ := (charFacts p).upper hp
        simp only [snakeRun, snakeStep, snakeUpper, snakeLower, snakeDigitWord, snakeDigit, dropMark, markLast, hu, if_true]
        rw [ih2 c _ _ hu]
        simp [snakeTail, hw, goesOn, hd, hpd, hu, hp, inWord_upper hp, hl]
        cases cs.head?.any Char.isLower <;> simp
    · have hu : c.isUpper = false := by simpa using hu
      by_cases hl : c.isLower = true
      · obtain ⟨-, hd, he, -⟩ := fc.lower hl
        have hw := inWord_lower hl
        refine ⟨fun p acc flag hp => ?_, fun p acc l hp => ?_⟩
        · have fp := charFacts p
          cases flag with
          | firstOfStr => exact hp.elim
          | nextOfContdUpper => exact hp.elim
          | nextOfUpper =>
            have hp : p.isUpper = true := hp
            obtain ⟨_, hpd, -, -⟩ := fp.upper hp
            simp only [snakeRun, snakeStep, snakeUpper, snakeLower, snakeDigitWord, snakeDigit, dropMark, markLast, hu, hl, if_true, Bool.false_eq_true, if_false]
            rw [ih1 c _ .others hl]
            simp [snakeTail, hw, goesOn, hd, hpd, hu, inWord_upper hp, he]
          | nextOfSepMark =>
            have hp : inWord p = false := hp
            simp only [snakeRun, snakeStep, snakeUpper, snakeLower, snakeDigitWord, snakeDigit, dropMark, markLast, hu, hl, if_true, Bool.false_eq_true, if_false]
            rw [ih1 c _ .others hl]
            simp [snakeTail, hw, hp, he]
          | nextOfKeptMark =>
            have hp : p.isDigit = true := hp
            simp only [snakeRun, snakeStep, snakeUpper, snakeLower, snakeDigitWord, snakeDigit, dropMark, markLast, hu, hl, if_true, Bool.false_eq_true, if_false]
            rw [ih1 c _ .others hl]
            simp [snakeTail, hw, goesOn, hd, hp, he]
          | others =>
            have hp : p.isLower = true := hp
            obtain ⟨hpu, hpd, -⟩ := fp.lower hp
            simp only [snakeRun, snakeStep, snakeUpper, snakeLower, snakeDigitWord, snakeDigit, dropMark, markLast, hu, hl, if_true, Bool.false_eq_true, if_false]
            rw [ih1 c _ .others hl]
            simp [snakeTail, hw, goesOn, hd, hu, hpd, inWord_lower hp, he]
        · obtain ⟨_, hpd, -, -⟩ := (charFacts p).upper hp
          simp only [snakeRun, snakeStep, snakeUpper, snakeLower, snakeDigitWord, snakeDigit, dropMark, markLast, hu, hl, if_true, Bool.false_eq_true, if_false]
          rw [ih1 c _ .others hl]
          simp [snakeTail, hw, goesOn, hd, hpd, hu, inWord_upper hp, hl, he]
      · have hl : c.isLower = false := by simpa using hl
        by_cases hd : c.isDigit = true
        · obtain ⟨-, -, he, -⟩ := fc.digit hd
          have hw := inWord_digit hd
          refine ⟨fun p acc flag hp => ?_, fun p acc l hp => ?_⟩
          · have fp := charFacts p
            cases flag with
            | firstOfStr => exact hp.elim
            | nextOfContdUpper => exact hp.elim
            | nextOfUpper =>
              have hp : p.isUpper = true := hp
              obtain ⟨_, hpd, -, -⟩ := fp.upper hp
              cases nums <;> simp only [snakeRun, snakeStep, snakeUpper, snakeLower, snakeDigitWord, snakeDigit, dropMark, markLast, hu, hl, hd, if_true, Bool.false_eq_true, if_false] <;>
                rw [ih1 c _ .nextOfKeptMark hd] <;>
                simp [snakeTail, hw, goesOn, hd, hpd, inWord_upper hp, he]
            | nextOfSepMark =>
              have hp : inWord p = false := hp
              cases nums <;> simp only [snakeRun, snakeStep, snakeUpper, snakeLower, snakeDigitWord, snakeDigit, dropMark, markLast, hu, hl, hd, if_true, Bool.false_eq_true, if_false] <;>
                rw [ih1 c _ .nextOfKeptMark hd] <;> simp [snakeTail, hw, hp, he]
            | nextOfKeptMark =>
              have hp : p.isDigit = true := hp
              cases nums <;> simp only [snakeRun, snakeStep, snakeUpper, snakeLower, snakeDigitWord, snakeDigit, dropMark, markLast, hu, hl, hd, if_true, Bool.false_eq_true, if_false] <;>
                rw [ih1 c _ .nextOfKeptMark hd] <;> simp [snakeTail, hw, goesOn, hd, hp, inWord_digit hp, he]
            | others =>
              have hp : p.isLower = true := hp
              obtain ⟨hpu, hpd, -⟩ := fp.lower hp
              cases nums <;> simp only [snakeRun, snakeStep, snakeUpper, snakeLower, snakeDigitWord, snakeDigit, dropMark, markLast, hu, hl, hd, if_true, Bool.false_eq_true, if_false] <;>
                rw [ih1 c _ .nextOfKeptMark hd] <;>
                simp [snakeTail, hw, goesOn, hd, hpd, inWord_lower hp, he]
          · obtain ⟨_, hpd, -, -⟩ := (charFacts p).upper hp
            cases nums <;> simp only [snakeRun, snakeStep, snakeUpper, snakeLower, snakeDigitWord, snakeDigit, dropMark, markLast, hu, hl, hd, if_true, Bool.false_eq_true, if_false] <;>
              rw [ih1 c _ .nextOfKeptMark hd] <;>
              simp [snakeTail, hw, goesOn, hd, hpd, inWord_upper hp, hl, he]
        · have hd : c.isDigit = false := by simpa using hd
          have hw : inWord c = false := by simp [inWord, hu, hl, hd]
          refine ⟨fun p acc flag hp => ?_, fun p acc l hp => ?_⟩
          · have e : snakeStep nums acc flag c = (acc, .nextOfSepMark) := by
              cases flag <;> first | exact hp.elim | simp [snakeStep, dropMark, hu, hl, hd]
            simp only [snakeRun, e]
            rw [ih1 c _ .nextOfSepMark hw]
            simp [snakeTail, hw]
          · simp only [snakeRun, snakeStep, snakeUpper, snakeLower, snakeDigitWord, snakeDigit, dropMark, markLast, hu, hl, hd]
            simp only [Bool.false_eq_true, if_false]
            rw [ih1 c _ .nextOfSepMark hw]
            simp [snakeTail, hw, hl]

theorem snakeRun_first (nums : Bool) : ∀ (cs : List Char),
    snakeRun nums [] .firstOfStr cs = snakeFirst nums cs
  | [] => rfl
  | c :: cs => by
    obtain ⟨ih1, -⟩ := snakeRun_tail nums cs
    have fc := charFacts c
    by_cases hu : c.isUpper = true
    · simp only [snakeRun, snakeStep, snakeUpper, snakeLower, snakeDigitWord, snakeDigit, dropMark, markLast, hu, if_true]
      rw [ih1 c _ .nextOfUpper hu]
      simp [snakeFirst, inWord_upper hu]
    · have hu : c.isUpper = false := by simpa using hu
      by_cases hl : c.isLower = true
      · simp only [snakeRun, snakeStep, snakeUpper, snakeLower, snakeDigitWord, snakeDigit, dropMark, markLast, hu, hl, if_true, Bool.false_eq_true, if_false]
        rw [ih1 c _ .others hl]
        simp [snakeFirst, inWord_lower hl, (fc.lower hl).2.2.1]
      · have hl : c.isLower = false := by simpa using hl
        by_cases hd : c.isDigit = true
        · cases nums <;> simp only [snakeRun, snakeStep, snakeUpper, snakeLower, snakeDigitWord, snakeDigit, dropMark, markLast, hu, hl, hd, if_true, Bool.false_eq_true, if_false] <;>
            rw [ih1 c _ .nextOfKeptMark hd] <;> simp [snakeFirst, inWord_digit hd, (fc.digit hd).2.2.1]
        · have hd : c.isDigit = false := by simpa using hd
          have hw : inWord c = false := by simp [inWord, hu, hl, hd]
          simp only [snakeRun, snakeStep, snakeUpper, snakeLower, snakeDigitWord, snakeDigit, dropMark, markLast, hu, hl, hd, snakeFirst, hw]
          simp only [Bool.false_eq_true, if_false]
          exact snakeRun_first nums cs

/-! ## Words -/

/-- Every word is preceded by an underscore. -/
def marked : List (List Char) → List Char
  | [] => []
  | w :: ws => '_' :: w ++ marked ws

theorem underscored_cons (w : List Char) : ∀ ws, underscored (w :: ws) = w ++ marked ws
  | [] => by simp [underscored, marked]
  | v :: ws => by rw [underscored, underscored_cons v ws, marked]; · simp
                  · simp

/-- Does the word of `c` go on with the next character? -/
def runsOn (nums : Bool) (c : Char) : List Char → Bool
  | [] => false
  | d :: ds => goesOn nums c d ds.head?

theorem words_cons (nums : Bool) (c : Char) (cs : List Char) (h : inWord c = true) :
    words nums (c :: cs) = if runsOn nums c cs then
      (match words nums cs with
        | w :: ws => (c.toLower :: w) :: ws
        | [] => [[c.toLower]])
    else [c.toLower] :: words nums cs := by
  cases cs with
  | nil => simp [words, h, runsOn]
  | cons d ds => rw [words]; simp only [h, if_true, runsOn]; cases words nums (d :: ds) <;> rfl

theorem words_skip (nums : Bool) (c : Char) (cs : List Char) (h : inWord c = false) :
    words nums (c :: cs) = words nums cs := by
  rw [words.eq_def]; simp [h]

/-- The text of the characters behind `p`, in terms of their words. -/
theorem snakeTail_words (nums : Bool) : ∀ (cs : List Char) (p : Char),
    snakeTail nums p cs = if inWord p && runsOn nums p cs then
      (match words nums cs with
        | w :: ws => w ++ marked ws
        | [] => [])
    else marked (words nums cs)
  | [], p => by simp [snakeTail, runsOn, words, marked]
  | c :: cs, p => by
    have ih := snakeTail_words nums cs c
    by_cases hc : inWord c = true
    · have e : runsOn nums p (c :: cs) = goesOn nums p c cs.head? := rfl
      rw [snakeTail, if_pos hc, ih, words_cons nums c cs hc, hc, e]
      simp only [Bool.true_and]
      cases runsOn nums c cs <;> cases inWord p && goesOn nums p c cs.head? <;> cases words nums cs <;>
        simp [marked]
    · have hc : inWord c = false := by simpa using hc
      have e : runsOn nums p (c :: cs) = false := by simp [runsOn, goesOn, hc]
      rw [snakeTail, hc, e, words_skip nums c cs hc, ih, hc]
      simp

theorem snakeFirst_words (nums : Bool) : ∀ cs, snakeFirst nums cs = underscored (words nums cs)
  | [] => rfl
  | c :: cs => by
    by_cases hc : inWord c = true
    · rw [snakeFirst, if_pos hc, snakeTail_words, words_cons nums c cs hc, hc]
      cases runsOn nums c cs <;> cases words nums cs <;> simp [underscored_cons, marked]
    · have hc : inWord c = false := by simpa using hc
      rw [snakeFirst, hc, words_skip nums c cs hc]
      simpa using snakeFirst_words nums cs

theorem snakeNums_words (s : String) : snakeNums s = String.ofList (underscored (words true s.toList)) := by
  rw [snakeNums, snakeRun_first, snakeFirst_words]

theorem snakePlain_words (s : String) : snakePlain s = String.ofList (underscored (words false s.toList)) := by
  rw [snakePlain, snakeRun_first, snakeFirst_words]

/-- What words consist of. -/
structure IsWord (w : List Char) : Prop where
  ne : w ≠ []
  chars : ∀ c ∈ w, ∃ d, inWord d = true ∧ c = d.toLower

theorem words_isWord (nums : Bool) : ∀ cs, ∀ w ∈ words nums cs, IsWord w
  | [], w, h => by cases h
  | c :: cs, w, h => by
    have ih := words_isWord nums cs
    by_cases hc : inWord c = true
    · rw [words_cons nums c cs hc] at h
      have single : IsWord [c.toLower] := ⟨by simp, fun x hx => ⟨c, hc, by simpa using hx⟩⟩
      split at h
      · split at h
        · rename_i v vs hv
          rcases List.mem_cons.mp h with rfl | h
          · refine ⟨by simp, fun x hx => ?_⟩
            rcases List.mem_cons.mp hx with rfl | hx
            · exact ⟨c, hc, rfl⟩
            · exact (ih v (by rw [hv]; exact List.mem_cons_self)).chars x hx
          · exact ih w (by rw [hv]; exact List.mem_cons_of_mem _ h)
        · cases List.mem_singleton.mp h; exact single
      · rcases List.mem_cons.mp h with rfl | h
        · exact single
        · exact ih w h
    · rw [words_skip nums c cs (by simpa using hc)] at h
      exact ih w h

theorem IsWord.no_mark {w : List Char} (h : IsWord w) : '_' ∉ w := by
  intro hm
  obtain ⟨d, hd, e⟩ := h.chars _ hm
  exact (charFacts d).lowerNot hd e.symm

theorem append_mark_inj {a b : List Char} {x y : List Char} (ha : '_' ∉ a) (hb : '_' ∉ b)
    (h : a ++ '_' :: x = b ++ '_' :: y) : a = b ∧ x = y := by
  induction a generalizing b with
  | nil =>
    cases b with
    | nil => simpa using h
    | cons c b => simp at h; exact absurd h.1 (fun e => hb (by simp [← e]))
  | cons c a ih =>
    cases b with
    | nil => simp at h; exact absurd h.1 (fun e => ha (by simp [e]))
    | cons d b =>
      simp only [List.cons_append, List.cons.injEq] at h
      simp only [List.mem_cons, not_or] at ha hb
      obtain ⟨e, e'⟩ := ih ha.2 hb.2 h.2
      exact ⟨by rw [h.1, e], e'⟩

theorem underscored_inj : ∀ (a b : List (List Char)), (∀ w ∈ a, IsWord w) → (∀ w ∈ b, IsWord w) →
    underscored a = underscored b → a = b
  | [], [], _, _, _ => rfl
  | [], w :: b, _, hb, h => by
    rw [underscored_cons] at h
    have := (hb w List.mem_cons_self).ne
    cases w with
    | nil => exact absurd rfl this
    | cons c w => simp [underscored] at h
  | w :: a, [], ha, _, h => by
    rw [underscored_cons] at h
    have := (ha w List.mem_cons_self).ne
    cases w with
    | nil => exact absurd rfl this
    | cons c w => simp [underscored] at h
  | w :: a, v :: b, ha, hb, h => by
    have hw := (ha w List.mem_cons_self).no_mark
    have hv := (hb v List.mem_cons_self).no_mark
    rw [underscored_cons, underscored_cons] at h
    cases a with
    | nil =>
      cases b with
      | nil => simpa [marked] using h
      | cons u b =>
        simp only [marked, List.append_nil, List.cons_append] at h
        exact absurd (h ▸ List.mem_append_right v List.mem_cons_self) hw
    | cons u a =>
      cases b with
      | nil =>
        simp only [marked, List.append_nil, List.cons_append] at h
        exact absurd (h ▸ List.mem_append_right w List.mem_cons_self) hv
      | cons t b =>
        simp only [marked, List.cons_append] at h
        obtain ⟨e, e'⟩ := append_mark_inj hw hv h
        rw [← underscored_cons, ← underscored_cons] at e'
        rw [e, underscored_inj (u :: a) (t :: b) (fun x hx => ha x (List.mem_cons_of_mem _ hx))
          (fun x hx => hb x (List.mem_cons_of_mem _ hx)) e']

/-! ## Capitalised words -/

/-- What `pascal_case` writes for the characters behind `p`. -/
def pascalTail : Char → List Char → List Char
  | _, [] => []
  | p, c :: cs =>
    if inWord c then
      (if inWord p && goesOn false p c cs.head? then c.toLower else c.toUpper) :: pascalTail c cs
    else pascalTail c cs

/-- What `pascal_case` writes for a name. -/
def pascalFirst : List Char → List Char
  | [] => []
  | c :: cs => if inWord c then c.toUpper :: pascalTail c cs else pascalFirst cs

theorem toUpper_of_upper {c : Char} (h : c.isUpper = true) : c.toUpper = c := by
  obtain ⟨hl, -⟩ := (charFacts c).upper h
  have e := ((charFacts c).upper h).2.2.2
  have h2 := ((charFacts c.toLower).lower ((charFacts c).upper h).2.2.1)
  rw [Char.toUpper]
  simp only [Char.isLower, Bool.and_eq_false_iff, decide_eq_false_iff_not] at hl
  split
  · rename_i h'
    rcases hl with hl | hl
    · exact absurd h'.1 hl
    · exact absurd h'.2 hl
  · rfl

theorem pascalRun_tail : ∀ (cs : List Char),
    (∀ (p : Char) (acc : List Char) (flag : LastChar), LastIs p flag →
      pascalRun acc flag cs = acc.reverse ++ pascalTail p cs) ∧
    (∀ (p : Char) (acc : List Char) (l : Char), p.isUpper = true →
      pascalRun (l :: acc) .nextOfContdUpper cs =
        acc.reverse ++ (if cs.head?.any Char.isLower then l.toUpper else l) :: pascalTail p cs)
  | [] => by
    refine ⟨fun p acc flag _ => by simp [pascalRun, pascalTail], fun p acc l _ => by simp [pascalRun, pascalTail]⟩
  | c :: cs => by
    obtain ⟨ih1, ih2⟩ := pascalRun_tail cs
    have fc := charFacts c
    by_cases hu : c.isUpper = true
    · obtain ⟨hl, hd, -, hr⟩ := fc.upper hu
      have hw := inWord_upper hu
      have ht := toUpper_of_upper hu
      refine ⟨fun p acc flag hp => ?_, fun p acc l hp => ?_⟩
      · have fp := charFacts p
        cases flag with
        | firstOfStr => exact hp.elim
        | nextOfContdUpper => exact hp.elim
        | nextOfUpper =>
          have hp : p.isUpper = true := hp
          obtain ⟨_, hpd, -, -⟩ := fp.upper hp
          simp only [pascalRun, pascalStep, pascalUpper, hu, if_true]
          rw [ih2 c acc _ hu]
          simp [pascalTail, hw, goesOn, hd, hpd, hu, hp, inWord_upper hp, hr, ht]
          cases cs.head?.any Char.isLower <;> simp
        | nextOfSepMark =>
          have hp : inWord p = false := hp
          simp only [pascalRun, pascalStep, pascalUpper, hu, if_true]
          rw [ih1 c _ .nextOfUpper hu]
          simp [pascalTail, hw, hp, ht]
        | nextOfKeptMark =>
          have hp : p.isDigit = true := hp
          simp only [pascalRun, pascalStep, pascalUpper, hu, if_true]
          rw [ih1 c _ .nextOfUpper hu]
          simp [pascalTail, hw, goesOn, hd, hp, ht]
        | others =>
          have hp : p.isLower = true := hp
          obtain ⟨hpu, hpd, -⟩ := fp.lower hp
          simp only [pascalRun, pascalStep, pascalUpper, hu, if_true]
          rw [ih1 c _ .nextOfUpper hu]
          simp [pascalTail, hw, goesOn, hd, hu, hpd, hpu, ht]
      · obtain ⟨_, hpd, -, -⟩ := (charFacts p).upper hp
        simp only [pascalRun, pascalStep, pascalUpper, hu, if_true]
        rw [ih2 c _ _ hu]
        simp [pascalTail, hw, goesOn, hd, hpd, hu, hp, inWord_upper hp, hl, hr, ht]
        cases cs.head?.any Char.isLower <;> simp
    · have hu : c.isUpper = false := by simpa using hu
      by_cases hl : c.isLower = true
      · obtain ⟨-, hd, he, -⟩ := fc.lower hl
        have hw := inWord_lower hl
        refine ⟨fun p acc flag hp => ?_, fun p acc l hp => ?_⟩
        · have fp := charFacts p
          cases flag with
          | firstOfStr => exact hp.elim
          | nextOfContdUpper => exact hp.elim
          | nextOfUpper =>
            have hp : p.isUpper = true := hp
            obtain ⟨_, hpd, -, -⟩ := fp.upper hp
            simp only [pascalRun, pascalStep, pascalLower, hu, hl, if_true, Bool.false_eq_true, if_false]
            rw [ih1 c _ .others hl]
            simp [pascalTail, hw, goesOn, hd, hpd, hu, inWord_upper hp, he]
          | nextOfSepMark =>
            have hp : inWord p = false := hp
            simp only [pascalRun, pascalStep, pascalLower, hu, hl, if_true, Bool.false_eq_true, if_false]
            rw [ih1 c _ .others hl]
            simp [pascalTail, hw, hp]
          | nextOfKeptMark =>
            have hp : p.isDigit = true := hp
            simp only [pascalRun, pascalStep, pascalLower, hu, hl, if_true, Bool.false_eq_true, if_false]
            rw [ih1 c _ .others hl]
            simp [pascalTail, hw, goesOn, hd, hp]
          | others =>
            have hp : p.isLower = true := hp
            obtain ⟨hpu, hpd, -⟩ := fp.lower hp
            simp only [pascalRun, pascalStep, pascalLower, hu, hl, if_true, Bool.false_eq_true, if_false]
            rw [ih1 c _ .others hl]
            simp [pascalTail, hw, goesOn, hd, hu, hpd, inWord_lower hp, he]
        · obtain ⟨_, hpd, -, -⟩ := (charFacts p).upper hp
          simp only [pascalRun, pascalStep, pascalLower, raiseLast, hu, hl, if_true, Bool.false_eq_true, if_false]
          rw [ih1 c _ .others hl]
          simp [pascalTail, hw, goesOn, hd, hpd, hu, inWord_upper hp, hl, he]
      · have hl : c.isLower = false := by simpa using hl
        by_cases hd : c.isDigit = true
        · obtain ⟨-, -, he, he'⟩ := fc.digit hd
          have hw := inWord_digit hd
          refine ⟨fun p acc flag hp => ?_, fun p acc l hp => ?_⟩
          · simp only [pascalRun, pascalStep, hu, hl, hd, if_true, Bool.false_eq_true, if_false]
            rw [ih1 c _ .nextOfKeptMark hd]
            simp [pascalTail, hw, he, he']
          · simp only [pascalRun, pascalStep, hu, hl, hd, if_true, Bool.false_eq_true, if_false]
            rw [ih1 c _ .nextOfKeptMark hd]
            simp [pascalTail, hw, he, he', hl]
        · have hd : c.isDigit = false := by simpa using hd
          have hw : inWord c = false := by simp [inWord, hu, hl, hd]
          refine ⟨fun p acc flag hp => ?_, fun p acc l hp => ?_⟩
          · have e : pascalStep acc flag c = (acc, .nextOfSepMark) := by
              cases flag <;> first | exact hp.elim | simp [pascalStep, dropMark, hu, hl, hd]
            simp only [pascalRun, e]
            rw [ih1 c _ .nextOfSepMark hw]
            simp [pascalTail, hw]
          · simp only [pascalRun, pascalStep, dropMark, hu, hl, hd, Bool.false_eq_true, if_false]
            rw [ih1 c _ .nextOfSepMark hw]
            simp [pascalTail, hw, hl]

theorem pascalRun_first : ∀ (cs : List Char), pascalRun [] .firstOfStr cs = pascalFirst cs
  | [] => rfl
  | c :: cs => by
    obtain ⟨ih1, -⟩ := pascalRun_tail cs
    have fc := charFacts c
    by_cases hu : c.isUpper = true
    · simp only [pascalRun, pascalStep, pascalUpper, hu, if_true]
      rw [ih1 c _ .nextOfUpper hu]
      simp [pascalFirst, inWord_upper hu, toUpper_of_upper hu]
    · have hu : c.isUpper = false := by simpa using hu
      by_cases hl : c.isLower = true
      · simp only [pascalRun, pascalStep, pascalLower, hu, hl, if_true, Bool.false_eq_true, if_false]
        rw [ih1 c _ .others hl]
        simp [pascalFirst, inWord_lower hl]
      · have hl : c.isLower = false := by simpa using hl
        by_cases hd : c.isDigit = true
        · simp only [pascalRun, pascalStep, hu, hl, hd, if_true, Bool.false_eq_true, if_false]
          rw [ih1 c _ .nextOfKeptMark hd]
          simp [pascalFirst, inWord_digit hd, (fc.digit hd).2.2.2]
        · have hd : c.isDigit = false := by simpa using hd
          have hw : inWord c = false := by simp [inWord, hu, hl, hd]
          simp only [pascalRun, pascalStep, dropMark, hu, hl, hd, pascalFirst, hw, Bool.false_eq_true, if_false]
          exact pascalRun_first cs

theorem capitalised_lower {c : Char} (h : inWord c = true) (w : List Char) :
    capitalised (c.toLower :: w) = c.toUpper :: w := by
  have fc := charFacts c
  simp only [capitalised, List.cons.injEq, and_true]
  by_cases hu : c.isUpper = true
  · rw [(fc.upper hu).2.2.2, toUpper_of_upper hu]
  · by_cases hl : c.isLower = true
    · rw [(fc.lower hl).2.2.1]
    · have hd : c.isDigit = true := by simpa [inWord, hu, hl] using h
      rw [(fc.digit hd).2.2.1]

theorem pascalTail_words : ∀ (cs : List Char) (p : Char),
    pascalTail p cs = if inWord p && runsOn false p cs then
      (match words false cs with
        | w :: ws => w ++ (ws.map capitalised).flatten
        | [] => [])
    else ((words false cs).map capitalised).flatten
  | [], p => by simp [pascalTail, runsOn, words]
  | c :: cs, p => by
    have ih := pascalTail_words cs c
    by_cases hc : inWord c = true
    · have e : runsOn false p (c :: cs) = goesOn false p c cs.head? := rfl
      rw [pascalTail, if_pos hc, ih, words_cons false c cs hc, hc, e]
      simp only [Bool.true_and]
      cases runsOn false c cs <;> cases inWord p && goesOn false p c cs.head? <;> cases words false cs <;>
        simp [capitalised_lower hc]
    · have hc : inWord c = false := by simpa using hc
      have e : runsOn false p (c :: cs) = false := by simp [runsOn, goesOn, hc]
      rw [pascalTail, hc, e, words_skip false c cs hc, ih, hc]
      simp

theorem pascalFirst_words : ∀ cs, pascalFirst cs = ((words false cs).map capitalised).flatten
  | [] => rfl
  | c :: cs => by
    by_cases hc : inWord c = true
    · rw [pascalFirst, if_pos hc, pascalTail_words, words_cons false c cs hc, hc]
      cases runsOn false c cs <;> cases words false cs <;> simp [capitalised_lower hc]
    · have hc : inWord c = false := by simpa using hc
      rw [pascalFirst, hc, words_skip false c cs hc]
      simpa using pascalFirst_words cs

theorem pascal_words (s : String) : pascal s = String.ofList ((words false s.toList).map capitalised).flatten := by
  rw [pascal, pascalRun_first, pascalFirst_words]

end Zs
