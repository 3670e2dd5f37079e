import Verif.LexerRules

/-!
# Lemmas on the tokens the lexer finds
-/

namespace Zs.Src

open Spec
open Rx hiding none

/-! ## Comments -/

/-- No `*/` in the text. -/
def Endless (l : List Char) : Prop := ∀ u v, l ≠ u ++ '*' :: '/' :: v

theorem endless_cons {c : Char} {l : List Char} : Endless (c :: l) ↔ ¬(c = '*' ∧ l.head? = some '/') ∧ Endless l := by
  constructor
  · intro h
    refine ⟨fun ⟨h1, h2⟩ => ?_, fun u v hl => h (c :: u) v (by rw [hl]; rfl)⟩
    cases l with
    | nil => cases h2
    | cons d l => cases h2; subst h1; exact h [] l rfl
  · intro ⟨h1, h2⟩ u v hl
    cases u with
    | nil => cases hl; exact h1 ⟨rfl, rfl⟩
    | cons d u => cases hl; exact h2 u v rfl

theorem endless_nil : Endless [] := by
  intro u v h; cases u <;> cases h

theorem endless_stars (n : Nat) : Endless (List.replicate n '*') := by
  induction n with
  | zero => exact endless_nil
  | succ n ih =>
    rw [List.replicate_succ, endless_cons]
    refine ⟨fun ⟨_, h⟩ => ?_, ih⟩
    cases n with
    | zero => cases h
    | succ n => rw [List.replicate_succ] at h; exact absurd (Option.some.inj h) (by decide)

theorem endless_stars_append {n : Nat} {d : Char} {l : List Char} (h1 : d ≠ '/') (h2 : Endless (d :: l)) :
    Endless (List.replicate n '*' ++ d :: l) := by
  induction n with
  | zero => exact h2
  | succ n ih =>
    rw [List.replicate_succ, List.cons_append, endless_cons]
    refine ⟨fun ⟨_, h⟩ => ?_, ih⟩
    cases n with
    | zero => simp at h; exact h1 h
    | succ n => rw [List.replicate_succ] at h; exact absurd (Option.some.inj h) (by decide)

theorem noEnd_iff {body : List Char} : NoEnd body ↔ Endless (body ++ ['*']) := Iff.rfl

theorem stars_iff {w : List Char} : Matches (plus (one '*')) w ↔ ∃ n, w = List.replicate (n + 1) '*' := by
  rw [one, matches_plus_chars]
  simp only [has_one]
  constructor
  · intro ⟨h1, h2⟩
    have := List.eq_replicate_iff.2 ⟨rfl, h2⟩
    cases w with
    | nil => exact absurd rfl h1
    | cons c cs => exact ⟨cs.length, this⟩
  · rintro ⟨n, rfl⟩
    exact ⟨by simp, fun c hc => (List.mem_replicate.1 hc).2⟩

theorem untilEnd_iff {w : List Char} : Matches untilEnd w ↔ ∃ body, NoEnd body ∧ w = body ++ ['*', '/'] := by
  constructor
  · intro h
    obtain ⟨u, v, rfl, h1, h2⟩ := matches_seq.1 h
    obtain ⟨v1, v2, rfl, h3, h4⟩ := matches_seq.1 h2
    obtain ⟨n, rfl⟩ := stars_iff.1 h3
    rw [matches_one.1 h4]
    generalize hx : Rx.star _ = x at h1
    have base : ∃ body, NoEnd body ∧ List.replicate (n + 1) '*' ++ ['/'] = body ++ ['*', '/'] := by
      refine ⟨List.replicate n '*', ?_, by rw [List.replicate_succ', List.append_assoc]; rfl⟩
      rw [noEnd_iff, ← List.replicate_succ']
      exact endless_stars _
    clear h h2 h3 h4
    induction h1 with
    | empty => cases hx
    | chars _ => cases hx
    | seq _ _ => cases hx
    | left _ => cases hx
    | right _ => cases hx
    | stop => exact base
    | @more a u v h1 _ _ ih =>
      cases hx
      obtain ⟨body, hb, e⟩ := ih rfl
      rw [List.append_assoc, e]
      cases matches_alt.1 h1 with
      | inl h =>
        obtain ⟨d, hd, rfl⟩ := matches_except.1 h
        refine ⟨d :: body, ?_, rfl⟩
        rw [noEnd_iff, List.cons_append, endless_cons]
        exact ⟨fun h => hd (by simp [h.1]), hb⟩
      | inr h =>
        obtain ⟨u1, u2, rfl, h5, h6⟩ := matches_seq.1 h
        obtain ⟨m, rfl⟩ := stars_iff.1 h5
        obtain ⟨d, hd, rfl⟩ := matches_except.1 h6
        refine ⟨List.replicate (m + 1) '*' ++ d :: body, ?_, by simp⟩
        simp only [List.mem_cons, List.not_mem_nil, or_false, not_or] at hd
        rw [noEnd_iff, List.append_assoc]
        refine endless_stars_append hd.2 ?_
        exact endless_cons.2 ⟨fun h => hd.1 h.1, hb⟩
  · rintro ⟨body, hb, rfl⟩
    have key : ∀ n, Endless (List.replicate n '*' ++ body ++ ['*']) →
        Matches untilEnd (List.replicate n '*' ++ body ++ ['*', '/']) := by
      clear hb
      induction body with
      | nil =>
        intro n _
        have : List.replicate n '*' ++ [] ++ ['*', '/'] = [] ++ (List.replicate (n + 1) '*' ++ ['/']) := by
          rw [List.replicate_succ']; simp
        rw [this]
        exact .seq .stop (.seq (stars_iff.2 ⟨n, rfl⟩) (matches_one.2 rfl))
      | cons d body ih =>
        intro n he
        by_cases hd : d = '*'
        · subst hd
          have e : ∀ l : List Char, List.replicate n '*' ++ '*' :: body ++ l = List.replicate (n + 1) '*' ++ body ++ l := by
            intro l; rw [List.replicate_succ']; simp
          rw [e] at he ⊢
          exact ih _ he
        · have hb : Endless (body ++ ['*']) := by
            intro u v hu
            refine he (List.replicate n '*' ++ d :: u) v ?_
            rw [List.append_assoc, List.cons_append, hu]; simp
          obtain ⟨u, v, e, m1, m2⟩ := matches_seq.1 (ih 0 (by simpa using hb))
          have e' : body ++ ['*', '/'] = u ++ v := by simpa using e
          cases n with
          | zero =>
            have : List.replicate 0 '*' ++ d :: body ++ ['*', '/'] = ([d] ++ u) ++ v := by simp [e']
            rw [this]
            exact .seq (.more (.left (matches_except.2 ⟨d, by simpa using hd, rfl⟩)) m1) m2
          | succ n =>
            have hs : d ≠ '/' := by
              intro h
              subst h
              refine he (List.replicate n '*') (body ++ ['*']) ?_
              rw [List.replicate_succ']; simp
            have : List.replicate (n + 1) '*' ++ d :: body ++ ['*', '/'] =
                ((List.replicate (n + 1) '*' ++ [d]) ++ u) ++ v := by simp [e']
            rw [this]
            exact .seq (.more (.right (.seq (stars_iff.2 ⟨n, rfl⟩) (matches_except.2 ⟨d, by simp [hd, hs], rfl⟩))) m1) m2
    exact key 0 (by simpa [noEnd_iff] using hb)

/-- A comment has only one end. -/
theorem noEnd_unique {a b v : List Char} (ha : NoEnd a) (hb : NoEnd b) (h : a ++ ['*', '/'] ++ v = b ++ ['*', '/']) :
    v = [] := by
  cases v with
  | nil => rfl
  | cons c v =>
    exfalso
    have hlen := congrArg List.length h
    simp only [List.length_append, List.length_cons, List.length_nil] at hlen
    -- `a ++ */` lies within `b ++ *`
    have h1 : b ++ ['*'] = (a ++ ['*', '/'] ++ (c :: v)).dropLast := by
      rw [h]
      have : b ++ ['*', '/'] = (b ++ ['*']) ++ ['/'] := by simp
      rw [this, List.dropLast_concat]
    rw [List.dropLast_append_of_ne_nil (by simp)] at h1
    exact hb a (c :: v).dropLast (by rw [h1]; simp)

/-! ## Rules by their first characters -/

def digitR : Ranges := [('0', '9')]
def letterR : Ranges := [('a', 'z'), ('A', 'Z'), ('_', '_')]
def wordR : Ranges := [('a', 'z'), ('A', 'Z'), ('_', '_'), ('0', '9')]
def numR : Ranges := [('0', '9'), ('.', '.')]

theorem inR_digit {c : Char} : InR digitR c ↔ IsDigit c := by simp [InR, digitR, IsDigit]

theorem inR_letter {c : Char} : InR letterR c ↔ IsLetter c := by
  simp only [InR, letterR, IsLetter, List.mem_cons, List.not_mem_nil, or_false, exists_eq_or_imp, exists_eq_left]
  have : ('_' ≤ c ∧ c ≤ '_') ↔ c = '_' := ⟨fun h => Char.le_antisymm h.2 h.1, fun h => h ▸ ⟨Char.le_refl _, Char.le_refl _⟩⟩
  rw [this]

theorem inR_word {c : Char} : InR wordR c ↔ IsWordChar c := by
  rw [IsWordChar, ← inR_letter, ← inR_digit]
  simp only [InR, letterR, wordR, digitR, List.mem_cons, List.not_mem_nil, or_false, exists_eq_or_imp, exists_eq_left]
  simp only [or_assoc]

theorem inR_num {c : Char} : InR numR c ↔ IsDigit c ∨ c = '.' := by
  rw [← inR_digit]
  simp only [InR, numR, digitR, List.mem_cons, List.not_mem_nil, or_false, exists_eq_or_imp, exists_eq_left]
  have : ('.' ≤ c ∧ c ≤ '.') ↔ c = '.' := ⟨fun h => Char.le_antisymm h.2 h.1, fun h => h ▸ ⟨Char.le_refl _, Char.le_refl _⟩⟩
  rw [this]

theorem inR_one {c d : Char} : InR [(d, d)] c ↔ c = d := by
  have := has_one (c := d) (d := c)
  rwa [has_false] at this

theorem letter_rules : ∀ q ∈ lexRules, q.2.elsewhere letterR = true ∨ q.2.within wordR = true := by decide +kernel

theorem number_rules : ∀ q ∈ lexRules, q.2.elsewhere numR = true ∨ q.2.within wordR = true ∨ q.2 = lits ['.'] ∨
    q.2 = litRx .double ∨ q.2 = litRx .float := by decide +kernel

theorem string_rules : ∀ q ∈ lexRules, q.2.elsewhere [('"', '"')] = true ∨ q.2 = litRx .string ∨
    q.2 = .seq (one '"') (.seq (.star (except ['"'])) (opt (one '"'))) := by decide +kernel

theorem slash_rules : ∀ q ∈ lexRules, q.2.elsewhere [('/', '/')] = true ∨ q = (.word "/", lits ['/']) ∨
    q = (.doc, .seq (lits ['/', '*', '*']) untilEnd) ∨ q = (.markdown, .seq (lits ['/', '*', '!']) untilEnd) ∨
    q = (.block, .seq (lits ['/', '*']) untilEnd) ∨ q = (.line, .seq (lits ['/', '/']) (.star (except lineEnds))) := by
  decide +kernel

/-! ## The longest match -/

theorem longest_of {r : Rule} {w rest : List Char}
    (hf : ∃ before x behind, lexRules = before ++ (r, x) :: behind ∧ Matches x w ∧ ∀ q ∈ before, ¬Matches q.2 w)
    (hl : ∀ q ∈ lexRules, ∀ c rest' v, rest = c :: rest' → ¬Matches q.2 (w ++ c :: v)) :
    Longest lexRules (w ++ rest) r w rest := by
  refine ⟨rfl, hf, fun q hq u v hu hm => ?_⟩
  apply Nat.le_of_not_lt
  intro hlt
  cases List.append_eq_append_iff.1 hu with
  | inl h =>
    obtain ⟨a, h1, h2⟩ := h
    cases a with
    | nil => rw [h1] at hlt; simp at hlt
    | cons c a => exact hl q hq c (a ++ v) a h2 (h1 ▸ hm)
  | inr h =>
    obtain ⟨a, h1, h2⟩ := h
    rw [h1, List.length_append] at hlt
    omega

/-- The rules for words. -/
def wordRules : List (Rule × Rx) := (operatorTexts ++ keywordTexts).map fun s => (Rule.word s, lits s.toList)

theorem lexRules_eq : lexRules = wordRules ++ otherRules := rfl

theorem mem_wordRules {q : Rule × Rx} (h : q ∈ wordRules) :
    ∃ s ∈ operatorTexts ++ keywordTexts, q = (.word s, lits s.toList) := by
  obtain ⟨s, hs, rfl⟩ := List.mem_map.1 h
  exact ⟨s, hs, rfl⟩

theorem first_other {r : Rule} {x : Rx} {w : List Char} {before behind : List (Rule × Rx)}
    (ho : otherRules = before ++ (r, x) :: behind) (hx : Matches x w)
    (hw : ∀ s ∈ operatorTexts ++ keywordTexts, w ≠ s.toList) (hb : ∀ q ∈ before, ¬Matches q.2 w) :
    ∃ before x behind, lexRules = before ++ (r, x) :: behind ∧ Matches x w ∧ ∀ q ∈ before, ¬Matches q.2 w := by
  refine ⟨wordRules ++ before, x, behind, by rw [lexRules_eq, ho, List.append_assoc], hx, fun q hq => ?_⟩
  cases List.mem_append.1 hq with
  | inl h =>
    obtain ⟨s, hs, rfl⟩ := mem_wordRules h
    exact fun hm => hw s hs (matches_lits.1 hm)
  | inr h => exact hb q h

/-! ## Fixed texts -/

/-- The characters that are read together with a fixed text. -/
def glueRanges (w : List Char) : Ranges :=
  (if w ≠ ['.'] ∧ (w.getLast?.any fun a => inRanges false wordR a) = true then wordR else []) ++
  (if w = ['.'] then digitR else []) ++
  (signTexts.filterMap fun p => if p.2.toList.dropLast = w then p.2.toList.getLast?.map fun c => (c, c) else none) ++
  (if w = ['/'] then [('/', '/'), ('*', '*')] else [])

theorem glueRanges_sound {w : List Char} {c : Char} (h : InR (glueRanges w) c) : Glues w c := by
  obtain ⟨r, hr, h1, h2⟩ := h
  simp only [glueRanges, List.mem_append] at hr
  rcases hr with ((hr | hr) | hr) | hr
  · split at hr
    next hw =>
      refine .inl ⟨hw.1, ?_, inR_word.1 ⟨r, hr, h1, h2⟩⟩
      have h3 := hw.2
      cases ha : w.getLast? with
      | none => rw [ha] at h3; cases h3
      | some a =>
        rw [ha, Option.any_some] at h3
        exact ⟨a, rfl, .inl (inR_word.1 (has_false.1 (inRanges_iff.1 h3)))⟩
    next => cases hr
  · split at hr
    next hw => exact .inr (.inl ⟨hw, inR_digit.1 ⟨r, hr, h1, h2⟩⟩)
    next => cases hr
  · obtain ⟨p, hp, hq⟩ := List.mem_filterMap.1 hr
    split at hq
    next hd =>
      obtain ⟨d, hd', rfl⟩ := Option.map_eq_some_iff.1 hq
      have hc : c = d := Char.le_antisymm h2 h1
      subst hc
      refine .inr (.inr (.inr (.inl ⟨p, hp, ?_⟩)))
      rw [← hd]
      have hn : p.2.toList ≠ [] := by intro h; rw [h] at hd'; cases hd'
      rw [List.getLast?_eq_some_getLast hn] at hd'
      rw [← Option.some.inj hd']
      exact List.dropLast_concat_getLast hn
    next => cases hq
  · split at hr
    next hw =>
      subst hw
      simp only [List.mem_cons, List.not_mem_nil, or_false] at hr
      rcases hr with rfl | rfl
      · have hc : c = '/' := Char.le_antisymm h2 h1
        subst hc
        exact .inr (.inr (.inr (.inr (.inl rfl))))
      · have hc : c = '*' := Char.le_antisymm h2 h1
        subst hc
        exact .inr (.inr (.inr (.inr (.inr rfl))))
    next => cases hr

/-- What is checked for fixed texts. -/
def fixedOk (r : Rule) (w : List Char) (glue : Ranges) : Bool :=
  decide ((lexRules.find? fun q => (q.2.steps w).nullable).map (·.1) = some r) &&
    lexRules.all fun q => (q.2.steps w).firsts.all fun s => s.within glue

theorem fixed_longest {r : Rule} {w rest : List Char} {glue : Ranges} (h : fixedOk r w glue = true)
    (hr : ∀ c rest', rest = c :: rest' → ¬InR glue c) : Longest lexRules (w ++ rest) r w rest := by
  simp only [fixedOk, Bool.and_eq_true, decide_eq_true_eq] at h
  refine longest_of ((findFirst_iff (w := w) _ fun q _ => ?_).1 h.1) fun q hq c rest' v hc hm => ?_
  · rw [nullable_iff, steps_iff, List.append_nil]
  · obtain ⟨s, hs, hh⟩ := firsts_sound ((steps_iff q.2 w (c :: v)).2 hm) rfl
    exact hr c rest' hc (CharSet.within_sound (List.all_eq_true.1 (List.all_eq_true.1 h.2 q hq) s hs) hh)

theorem signs_fixed : ∀ p ∈ signTexts, fixedOk (.word p.2) p.2.toList (glueRanges p.2.toList) = true := by
  decide +kernel

theorem words_fixed : ∀ s ∈ otherWords, fixedOk (.word s) s.toList (glueRanges s.toList) = true := by
  decide +kernel

theorem bools_fixed : ∀ s ∈ ["true", "false"], fixedOk (.lit .bool) s.toList (glueRanges s.toList) = true := by
  decide +kernel

theorem blanks_fixed : ∀ c ∈ ['\r', '\n', Char.ofNat 12, '\t', ' '], fixedOk .ws [c] [] = true := by
  decide +kernel

theorem signs_token : ∀ p ∈ signTexts, tokenOf (.word p.2) p.2.toList = some p.1 := by decide +kernel

theorem words_token : ∀ s ∈ otherWords, tokenOf (.word s) s.toList = some (.other s) := by decide +kernel

end Zs.Src
