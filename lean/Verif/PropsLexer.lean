import Verif.LexerLongest
import Verif.PropsParser

/-!
# C83: from characters to tokens
-/

namespace Zs

open Src Spec

/-! ## Reading piece by piece -/

theorem lexAll_step {n : Nat} {cs w rest : List Char} {r : Rule} (h : Longest lexRules cs r w rest) (hw : w ≠ []) :
    lexAll (n + 1) cs = (lexAll n rest).map fun ts => (tokenOf r w).toList ++ ts := by
  cases w with
  | nil => exact absurd rfl hw
  | cons c w =>
    have hc : ∃ d ds, cs = d :: ds := ⟨c, w ++ rest, h.text⟩
    obtain ⟨d, ds, rfl⟩ := hc
    simp only [lexAll, munch_iff.2 h]
    congr 1
    funext ts
    cases tokenOf r (c :: w) <;> rfl

theorem longest_length {cs w rest : List Char} {r : Rule} (h : Longest lexRules cs r w rest) (hw : w ≠ []) :
    rest.length < cs.length := by
  rw [h.text, List.length_append]
  have := List.length_pos_iff.2 hw
  omega

theorem lexAll_divided {n : Nat} {cs : List Char} {ps : List (Rule × List Char)} (h : Divided cs ps)
    (hn : cs.length ≤ n) : lexAll n cs = some (ps.filterMap fun p => tokenOf p.1 p.2) := by
  induction h generalizing n with
  | nil => cases n <;> rfl
  | @piece cs r w rest ps hl hw _ ih =>
    have := longest_length hl hw
    cases n with
    | zero => omega
    | succ n =>
      rw [lexAll_step hl hw, ih (by omega)]
      simp only [Option.map_some, List.filterMap_cons]
      cases tokenOf r w <;> rfl

theorem divided_of_lexAll {n : Nat} {cs : List Char} {ts : List Token} (h : lexAll n cs = some ts) :
    ∃ ps, Divided cs ps := by
  induction n generalizing cs ts with
  | zero =>
    cases cs with
    | nil => exact ⟨[], .nil⟩
    | cons c cs => cases h
  | succ n ih =>
    cases cs with
    | nil => exact ⟨[], .nil⟩
    | cons c cs =>
      cases hm : munch lexRules (c :: cs) with
      | none => simp [lexAll, hm] at h
      | some p =>
        obtain ⟨r, w, rest⟩ := p
        have hl := munch_sound hm
        have hw : w ≠ [] := by
          rintro rfl
          simp [lexAll, hm] at h
        rw [lexAll_step hl hw] at h
        obtain ⟨ts', hts, _⟩ := Option.map_eq_some_iff.1 h
        obtain ⟨ps, hps⟩ := ih hts
        exact ⟨_, .piece hl hw hps⟩

/-- **C83** The lexer divides a text as it should: every piece is the longest that a rule of the grammar describes, and
is read by the first rule that describes it.  There is at most one way to do so, and if there is none, the text has no
tokens. -/
theorem C83_divided (cs : List Char) (ts : List Token) :
    lexText cs = some ts ↔ ∃ ps, Divided cs ps ∧ ts = ps.filterMap fun p => tokenOf p.1 p.2 := by
  constructor
  · intro h
    obtain ⟨ps, hps⟩ := divided_of_lexAll h
    have := lexAll_divided hps (Nat.le_refl _)
    exact ⟨ps, hps, Option.some.inj (h.symm.trans this)⟩
  · rintro ⟨ps, hps, rfl⟩
    exact lexAll_divided hps (Nat.le_refl _)

/-! ## Tokens as they are written -/

theorem signs_ne : ∀ p ∈ signTexts, p.2.toList ≠ [] := by decide +kernel

theorem words_ne : ∀ s ∈ otherWords, s.toList ≠ [] := by decide +kernel

theorem spells_longest {t : Token} {w rest : List Char} (h : Spells t w) (ha : Apart w rest) :
    ∃ r, Longest lexRules (w ++ rest) r w rest ∧ tokenOf r w = some t ∧ w ≠ [] := by
  have glue : ∀ c rest', rest = c :: rest' → ¬InR (glueRanges w) c := by
    rintro c rest' rfl hc
    exact ha (glueRanges_sound hc)
  cases h with
  | @sign t s hs =>
    have hl := fixed_longest (r := .word s) (w := s.toList) (rest := rest) (glue := glueRanges s.toList)
      (signs_fixed (t, s) hs) glue
    have ht : tokenOf (.word s) s.toList = some t := signs_token (t, s) hs
    exact ⟨.word s, hl, ht, signs_ne (t, s) hs⟩
  | @word s hs =>
    have hl := fixed_longest (r := .word s) (w := s.toList) (rest := rest) (glue := glueRanges s.toList)
      (words_fixed s hs) glue
    exact ⟨.word s, hl, words_token s hs, words_ne s hs⟩
  | name hn =>
    refine ⟨.id, name_longest hn ha, rfl, ?_⟩
    obtain ⟨⟨c, cs, rfl, _⟩, _⟩ := hn
    simp
  | @lit k w hl =>
    by_cases hk : isNumber k = true
    · exact ⟨.lit k, number_longest hk ((literal_iff k).2 hl) ha, rfl, (number_end hk ((literal_iff k).2 hl)).2.2.2⟩
    · cases k with
      | bool =>
        refine ⟨.lit .bool, ?_, rfl, by rcases hl with rfl | rfl <;> decide⟩
        rcases hl with rfl | rfl
        · exact fixed_longest (bools_fixed "true" (by decide)) glue
        · exact fixed_longest (bools_fixed "false" (by decide)) glue
      | string =>
        refine ⟨.lit .string, string_longest ((literal_iff .string).2 hl), rfl, ?_⟩
        obtain ⟨es, _, rfl⟩ := hl
        simp [strText]
      | _ => exact absurd rfl hk

theorem tokens_divided {cs : List Char} {ts : List Token} (h : Tokens cs ts) :
    ∃ ps, Divided cs ps ∧ ts = ps.filterMap fun p => tokenOf p.1 p.2 := by
  have hidden : ∀ r w, r ∈ [Rule.doc, .markdown, .block] → tokenOf r w = none := by
    intro r w hr
    simp only [List.mem_cons, List.not_mem_nil, or_false] at hr
    rcases hr with rfl | rfl | rfl <;> rfl
  induction h with
  | nil => exact ⟨[], .nil, rfl⟩
  | token hs ha _ ih =>
    obtain ⟨ps, hps, rfl⟩ := ih
    obtain ⟨r, hl, ht, hw⟩ := spells_longest hs ha
    exact ⟨_, .piece hl hw hps, by simp [ht]⟩
  | @blank c rest ts hc _ ih =>
    obtain ⟨ps, hps, rfl⟩ := ih
    have hl := fixed_longest (rest := rest) (blanks_fixed c hc) (by simp [InR])
    exact ⟨_, .piece hl (by simp) hps, by simp [tokenOf]⟩
  | @comment body rest ts hne hb _ ih =>
    obtain ⟨ps, hps, rfl⟩ := ih
    obtain ⟨r, hr, hl⟩ := comment_longest (rest := rest) hb hne
    refine ⟨_, .piece (by simpa using hl) (by simp) hps, ?_⟩
    simp [hidden r _ hr]
  | @line body rest ts hb hr _ ih =>
    obtain ⟨ps, hps, rfl⟩ := ih
    have hl := line_longest (rest := rest) (body := body) hb hr
    exact ⟨_, .piece (by simpa using hl) (by simp) hps, by simp [tokenOf]⟩

/-- **C83** Tokens that are written one behind the other, where needed with blanks or comments between them, are read as
these tokens.  Missing: comments `/**/`, see `C83_comment_violated`. -/
theorem C83_tokens_partial (cs : List Char) (ts : List Token) (h : Tokens cs ts) : lexText cs = some ts :=
  (C83_divided cs ts).2 (tokens_divided h)

/-- **C83** Two ways to write the same tokens, or different tokens that are written in the same way: the text decides. -/
theorem C83_unambiguous (cs : List Char) (ts ts' : List Token) (h : Tokens cs ts) (h' : Tokens cs ts') : ts = ts' :=
  Option.some.inj ((C83_tokens_partial cs ts h).symm.trans (C83_tokens_partial cs ts' h'))

/-- **C83** The code violates this for the comment `/**/`: it does not end there, but where the next comment ends.
Everything in between is not read. -/
theorem C83_comment_violated (body rest : List Char) (ts : List Token) (hb : NoEnd body) (h : Tokens rest ts) :
    lexText ('/' :: '*' :: '*' :: '/' :: body ++ '*' :: '/' :: rest) = some ts := by
  obtain ⟨ps, hps, rfl⟩ := tokens_divided h
  obtain ⟨r, hr, hl⟩ := doc_longest (rest := rest) hb
  refine (C83_divided _ _).2 ⟨_, .piece (by simpa using hl) (by simp) hps, ?_⟩
  simp only [List.mem_cons, List.not_mem_nil, or_false] at hr
  rcases hr with rfl | rfl | rfl <;> rfl

/-! ## What the tokens are -/

theorem divided_first {cs : List Char} {ps : List (Rule × List Char)} (h : Divided cs ps) {p : Rule × List Char} (hp : p ∈ ps) :
    ∃ before x behind, lexRules = before ++ (p.1, x) :: behind ∧ Matches x p.2 ∧ ∀ q ∈ before, ¬Matches q.2 p.2 := by
  induction h with
  | nil => cases hp
  | piece hl _ _ ih =>
    cases hp with
    | head => exact hl.first
    | tail _ hp => exact ih hp

theorem lit_rule : ∀ q ∈ lexRules, ∀ k ∈ [LitKind.bool, .decimal, .hexadecimal, .octal, .binary, .string, .float, .double],
    q.1 = .lit k → q.2 = litRx k := by decide +kernel

theorem id_rule : ∀ q ∈ lexRules, q.1 = .id → q.2 = .seq letterRx (.star wordRx) := by decide +kernel

theorem token_kinds (r : Rule) (w : List Char) (t : Token) (h : tokenOf r w = some t) :
    (∀ k x, t = .lit k x → r = .lit k ∧ x = w) ∧ (∀ s, t = .id s → r = .id ∧ s = String.ofList w) := by
  unfold tokenOf at h
  split at h <;> first
    | (cases h; done)
    | (cases h; exact ⟨fun k x e => by cases e <;> exact ⟨rfl, rfl⟩, fun s e => by cases e <;> exact ⟨rfl, rfl⟩⟩)

/-- **C83** Every literal that the lexer finds is one of the language. -/
theorem C83_literals (cs : List Char) (ts : List Token) (h : lexText cs = some ts) (k : LitKind) (x : List Char)
    (ht : Token.lit k x ∈ ts) : Lexed k x := by
  obtain ⟨ps, hps, rfl⟩ := (C83_divided cs ts).1 h
  obtain ⟨p, hp, hpt⟩ := List.mem_filterMap.1 ht
  obtain ⟨hr, rfl⟩ := (token_kinds _ _ _ hpt).1 k x rfl
  obtain ⟨before, y, behind, e, hm, _⟩ := divided_first hps hp
  have := lit_rule (p.1, y) (by rw [e]; simp) k (by cases k <;> simp) hr
  simp only at this
  exact (literal_iff k).1 (this ▸ hm)

theorem divided_name {cs : List Char} {ps : List (Rule × List Char)} (hps : Divided cs ps) {p : Rule × List Char}
    (hp : p ∈ ps) (hr : p.1 = .id) : IsName p.2 := by
  obtain ⟨before, y, behind, e, hm, hb⟩ := divided_first hps hp
  have hy := id_rule (p.1, y) (by rw [e]; simp) hr
  simp only at hy
  have hid := id_iff.1 (hy ▸ hm)
  -- a rule that is in front of the rule for names does not match
  have none : ∀ q ∈ lexRules, q.1 ≠ .id → q.1 ≠ .invalidString → q.1 ≠ .invalidToken → ¬Matches q.2 p.2 := by
    have split : ∀ before x behind, lexRules = before ++ (Rule.id, x) :: behind →
        ∀ q ∈ lexRules, q.1 ≠ .id → q.1 ≠ .invalidString → q.1 ≠ .invalidToken → q ∈ before := by
      intro before x behind e q hq h1 h2 h3
      rw [e] at hq
      have len : before.length = 113 := by
        have h1 : lexRules.findIdx (fun q => decide (q.1 = Rule.id)) = 113 := by decide +kernel
        have h2 : ∀ i, (lexRules[i]?.map (·.1)) = some Rule.id → i = 113 := by
          intro i hi
          have hlt : i < lexRules.length := by
            apply Nat.lt_of_not_le
            intro hle
            rw [List.getElem?_eq_none hle] at hi
            cases hi
          have hall : ∀ i < lexRules.length, (lexRules[i]?.map (·.1)) = some Rule.id → i = 113 := by decide +kernel
          exact hall i hlt hi
        exact h2 _ (by rw [e]; simp)
      cases List.mem_append.1 hq with
      | inl h => exact h
      | inr h =>
        exfalso
        cases h with
        | head => exact h1 rfl
        | tail _ h =>
          have hd : lexRules.drop 114 = behind := by
            rw [e, List.drop_append]
            simp [len]
          have hb : ∀ q ∈ lexRules.drop 114, q.1 = .invalidString ∨ q.1 = .invalidToken := by decide +kernel
          rcases hb q (hd ▸ h) with h | h
          · exact h2 h
          · exact h3 h
    intro q hq h1 h2 h3
    exact hb q (split before y behind (hr ▸ e) q hq h1 h2 h3)
  have word : ∀ s ∈ operatorTexts ++ keywordTexts, p.2 ≠ s.toList := by
    intro s hs he
    refine none (.word s, Rx.lits s.toList) ?_ (by simp) (by simp) (by simp) (matches_lits.2 he)
    rw [lexRules_eq]
    exact List.mem_append.2 (.inl (List.mem_map_of_mem hs))
  have bool : ¬Lexed .bool p.2 := by
    intro hl
    refine none (.lit .bool, litRx .bool) ?_ (by simp) (by simp) (by simp) ((literal_iff .bool).2 hl)
    rw [lexRules_eq, otherRules_eq]
    simp [beforeId]
  exact ⟨hid, fun q hq => word _ (words_all.1 q hq), fun s hs => word _ (words_all.2 s hs), fun h => bool (.inl h),
    fun h => bool (.inr h)⟩

/-- **C83** Every name that the lexer finds is one of the language, and no keyword. -/
theorem C83_names (cs : List Char) (ts : List Token) (h : lexText cs = some ts) (s : String) (ht : Token.id s ∈ ts) :
    IsName s.toList := by
  obtain ⟨ps, hps, rfl⟩ := (C83_divided cs ts).1 h
  obtain ⟨p, hp, hpt⟩ := List.mem_filterMap.1 ht
  obtain ⟨hr, rfl⟩ := (token_kinds _ _ _ hpt).2 s rfl
  rw [String.toList_ofList]
  exact divided_name hps hp hr

theorem word_rule : ∀ q ∈ lexRules, ∀ s ∈ operatorTexts ++ keywordTexts, q.1 = .word s → q.2 = Rx.lits s.toList := by
  decide +kernel

theorem word_known {q : Rule × Rx} (h : q ∈ lexRules) {s : String} (hs : q.1 = .word s) :
    s ∈ operatorTexts ++ keywordTexts := by
  cases List.mem_append.1 h with
  | inl h =>
    obtain ⟨x, hx, rfl⟩ := List.mem_map.1 h
    cases hs
    exact hx
  | inr h =>
    have : ∀ q ∈ otherRules, q.1 ∈ [Rule.ws, .doc, .markdown, .block, .line, .lit .bool, .lit .string, .lit .binary,
      .lit .octal, .lit .hexadecimal, .lit .double, .lit .float, .lit .decimal, .id, .invalidString, .invalidToken] := by
      decide +kernel
    have := this q h
    rw [hs] at this
    simp at this

theorem word_spelled : ∀ s ∈ operatorTexts ++ keywordTexts, (∃ p ∈ signTexts, p.2 = s) ∨ s ∈ otherWords := by
  decide +kernel

theorem skipped_rule : ∀ q ∈ lexRules, q.1 ∈ [.ws, .doc, .markdown, .block, .line] →
    q.2 = Rx.among ['\r', '\n', Char.ofNat 12, '\t', ' '] ∨ (∃ x ∈ [Rx.seq (Rx.lits ['/', '*', '*']) untilEnd,
      .seq (Rx.lits ['/', '*', '!']) untilEnd, .seq (Rx.lits ['/', '*']) untilEnd,
      .seq (Rx.lits ['/', '/']) (.star (Rx.except lineEnds))],
      q.2 = x) := by
  decide +kernel

theorem tokenOf_none {r : Rule} {w : List Char} (h : tokenOf r w = none) : r ∈ [Rule.ws, .doc, .markdown, .block, .line] := by
  unfold tokenOf at h
  split at h <;> first | (cases h; done) | decide

theorem divided_skipped {cs : List Char} {ps : List (Rule × List Char)} (hps : Divided cs ps) {p : Rule × List Char}
    (hp : p ∈ ps) (h : tokenOf p.1 p.2 = none) : Skipped p.2 := by
  obtain ⟨before, y, behind, e, hm, _⟩ := divided_first hps hp
  have := skipped_rule (p.1, y) (by rw [e]; simp) (tokenOf_none h)
  simp only at this
  rcases this with rfl | ⟨x, hx, rfl⟩
  · obtain ⟨c, hc, hw⟩ := matches_among.1 hm
    exact .inl ⟨c, hc, hw⟩
  · simp only [List.mem_cons, List.not_mem_nil, or_false] at hx
    rcases hx with rfl | rfl | rfl | rfl <;> obtain ⟨u, v, hw, hu, _⟩ := matches_seq.1 hm <;>
      rw [hw, matches_lits.1 hu]
    · exact .inr (.inr ⟨_, rfl⟩)
    · exact .inr (.inr ⟨_, rfl⟩)
    · exact .inr (.inr ⟨_, rfl⟩)
    · exact .inr (.inl ⟨_, rfl⟩)

theorem divided_spelled {cs : List Char} {ps : List (Rule × List Char)} (hps : Divided cs ps) {p : Rule × List Char}
    (hp : p ∈ ps) {t : Token} (h : tokenOf p.1 p.2 = some t) :
    Spells t p.2 ∨ t = .other (String.ofList p.2) ∧ ∀ t', ¬Spells t' p.2 := by
  have first := divided_first hps hp
  have one : ∀ t', Spells t' p.2 → t' = t := by
    intro t' ht'
    obtain ⟨r, hl, hr, _⟩ := spells_longest (rest := []) ht' trivial
    have : p.1 = r := first_unique first (by simpa using hl.first)
    rw [← this, h] at hr
    exact (Option.some.inj hr).symm
  by_cases hs : ∃ t', Spells t' p.2
  · obtain ⟨t', ht'⟩ := hs
    exact .inl (one t' ht' ▸ ht')
  refine .inr ⟨?_, fun t' h => hs ⟨t', h⟩⟩
  obtain ⟨before, y, behind, e, hm, _⟩ := first
  have mem : (p.1, y) ∈ lexRules := by rw [e]; simp
  cases hr : p.1 with
  | word s =>
    exfalso
    have hk := word_known mem hr
    have hy := word_rule _ mem s hk hr
    simp only at hy
    have hw := matches_lits.1 (hy ▸ hm)
    rcases word_spelled s hk with ⟨q, hq, rfl⟩ | ho
    · exact hs ⟨q.1, by rw [hw]; exact .sign hq⟩
    · exact hs ⟨.other s, by rw [hw]; exact .word ho⟩
  | lit k =>
    exfalso
    have := lit_rule _ mem k (by cases k <;> simp) hr
    simp only at this
    exact hs ⟨_, .lit ((literal_iff k).1 (this ▸ hm))⟩
  | id => exact absurd ⟨_, .name (divided_name hps hp hr)⟩ hs
  | invalidString => rw [hr] at h; exact (Option.some.inj h).symm
  | invalidToken => rw [hr] at h; exact (Option.some.inj h).symm
  | _ => rw [hr] at h; cases h

theorem divided_text {cs : List Char} {ps : List (Rule × List Char)} (h : Divided cs ps) :
    (ps.map Prod.snd).flatten = cs := by
  induction h with
  | nil => rfl
  | piece hl _ _ ih => rw [List.map_cons, List.flatten_cons, ih, hl.text]

/-- **C83** Nothing gets lost: a text that has tokens consists of blanks and comments and of the tokens, each as it is
written; what is neither is a token that no rule of the grammar asks for. -/
theorem C83_whole (cs : List Char) (ts : List Token) (h : lexText cs = some ts) :
    ∃ ps : List (List Char × Option Token), (ps.map Prod.fst).flatten = cs ∧ ts = ps.filterMap Prod.snd ∧
      ∀ p ∈ ps, (p.2 = none → Skipped p.1) ∧
        ∀ t, p.2 = some t → Spells t p.1 ∨ t = .other (String.ofList p.1) ∧ ∀ t', ¬Spells t' p.1 := by
  obtain ⟨ps, hps, rfl⟩ := (C83_divided cs ts).1 h
  refine ⟨ps.map fun p => (p.2, tokenOf p.1 p.2), ?_, ?_, ?_⟩
  · rw [List.map_map]
    exact divided_text hps
  · rw [List.filterMap_map]
    rfl
  · intro q hq
    obtain ⟨p, hp, rfl⟩ := List.mem_map.1 hq
    exact ⟨fun h => divided_skipped hps hp h, fun t ht => divided_spelled hps hp ht⟩

/-! ## From characters to expressions -/

/-- **C83** The text of an expression is read as this expression, up to the first token that is no operator. -/
theorem C83_expression_partial (cs : List Char) (e : Exp) (rest : List Token) (he : Bracketed e) (hr : NoOperator rest)
    (h : Tokens cs (written e ++ rest)) : (lexText cs).bind parseExpression = some (e, rest) := by
  rw [C83_tokens_partial cs _ h]
  exact C79_reads e he rest hr

/-- **C83** The literals of an expression that is read from a text are literals of the language: what C62 supposes. -/
theorem C83_demands (cs : List Char) (e : Exp) (rest : List Token) (h : (lexText cs).bind parseExpression = some (e, rest)) :
    ∀ d ∈ expDemands e, d.Lexed := by
  obtain ⟨ts, hts, hp⟩ := Option.bind_eq_some_iff.1 h
  obtain ⟨e1, _⟩ := C79_only ts e rest hp
  have key : ∀ e : Exp, (∀ k x, Token.lit k x ∈ written e → Lexed k x) → ∀ d ∈ expDemands e, d.Lexed := by
    intro e
    induction e with
    | lit k x => intro hl d hd; cases List.mem_singleton.1 hd; exact hl k x (by simp [written])
    | index => intro _ d hd; cases hd
    | id x => intro _ d hd; cases hd
    | paren e ih | call e ih | dot e x ih | lengthof e ih | valueof e ih | numbits e ih | unary op e ih =>
      intro hl
      exact ih fun k x hx => hl k x (by simp [written, hx])
    | elem a b iha ihb | isset a b iha ihb | binary op a b iha ihb =>
      intro hl d hd
      cases List.mem_append.1 hd with
      | inl hd => exact iha (fun k x hx => hl k x (by simp [written, hx])) d hd
      | inr hd => exact ihb (fun k x hx => hl k x (by simp [written, hx])) d hd
    | ternary a b c iha ihb ihc =>
      intro hl d hd
      cases List.mem_append.1 hd with
      | inr hd => exact ihc (fun k x hx => hl k x (by simp [written, hx])) d hd
      | inl hd =>
        cases List.mem_append.1 hd with
        | inl hd => exact iha (fun k x hx => hl k x (by simp [written, hx])) d hd
        | inr hd => exact ihb (fun k x hx => hl k x (by simp [written, hx])) d hd
  exact key e fun k x hx => C83_literals cs ts hts k x (e1 ▸ List.mem_append.2 (.inl hx))

/-! ## Examples -/

/-- Longest matches, blanks and comments. -/
example : lexText "a<<0x1F // shift\n\t>= 1e-5f /* of */ x1".toList =
    some [.id "a", .lshift, .lit .hexadecimal "0x1F".toList, .ge, .lit .float "1e-5f".toList, .id "x1"] := by
  decide +kernel

/-- The hypotheses of `C83_tokens_partial` hold for `a+1`. -/
example : Tokens "a+1".toList [.id "a", .plus, .lit .decimal "1".toList] := by
  have h1 : Tokens "1".toList [.lit .decimal "1".toList] :=
    .token (w := "1".toList) (rest := []) (.lit ⟨.decimal [1], by simp [IntLit.WellFormed], rfl, rfl⟩) trivial .nil
  have h2 : Tokens "+1".toList [.plus, .lit .decimal "1".toList] := by
    refine .token (w := "+".toList) (rest := "1".toList) (.sign (by decide)) ?_ h1
    rintro (⟨_, ⟨a, ha, hw⟩, _⟩ | ⟨h, _⟩ | ⟨_, h⟩ | ⟨p, hp, h⟩ | h | h)
    · cases ha; revert hw; simp only [IsWordChar, IsLetter, IsDigit]; decide
    · exact absurd h (by decide)
    · exact absurd h (by decide)
    · have : ∀ p ∈ signTexts, "+".toList ++ ['1'] ≠ p.2.toList := by decide +kernel
      exact this p hp h
    · exact absurd h (by decide)
    · exact absurd h (by decide)
  refine .token (w := "a".toList) (rest := "+1".toList) (.name (w := "a".toList) ?_) ?_ h2
  · exact ⟨⟨'a', [], rfl, by simp only [IsLetter]; decide, by simp⟩, by decide +kernel, by decide +kernel, by decide, by decide⟩
  · rintro (⟨_, _, h⟩ | ⟨h, _⟩ | ⟨_, h⟩ | ⟨p, hp, h⟩ | h | h)
    · revert h; simp only [IsWordChar, IsLetter, IsDigit]; decide
    · exact absurd h (by decide)
    · exact absurd h (by decide)
    · have : ∀ p ∈ signTexts, "a".toList ++ ['+'] ≠ p.2.toList := by decide +kernel
      exact this p hp h
    · exact absurd h (by decide)
    · exact absurd h (by decide)

/-- `C83_comment_violated`: the name in between is lost. -/
example : lexText "/**/ a /* */ b".toList = some [.id "b"] ∧ lexText "/* */ a /* */ b".toList = some [.id "a", .id "b"] ∧
    NoEnd " a /* ".toList := by
  refine ⟨by decide +kernel, by decide +kernel, ?_⟩
  have : ∀ l : List Char, ((l.zip l.tail).any fun p => p.1 == '*' && p.2 == '/') = false → Endless l := by
    intro l
    induction l with
    | nil => exact fun _ => endless_nil
    | cons c l ih =>
      intro h
      cases l with
      | nil => exact endless_cons.2 ⟨fun h => (by cases h.2), endless_nil⟩
      | cons d l =>
        simp only [List.tail_cons, List.zip_cons_cons, List.any_cons, Bool.or_eq_false_iff] at h
        refine endless_cons.2 ⟨?_, ih (by simpa using h.2)⟩
        rintro ⟨rfl, h2⟩
        have h3 := h.1
        simp only [List.head?_cons, Option.some.injEq] at h2
        subst h2
        cases h3
  exact this _ (by decide)

/-- A number and a word without blank are neither; a keyword is no name. -/
example : lexText "0 09 12b".toList = some [.lit .decimal "0".toList, .other "09", .other "12b"] ∧
    lexText "structs struct".toList = some [.id "structs", .other "struct"] := by
  decide +kernel

/-- `C83_whole`: what is no word and no string of the language, is not skipped. -/
example : lexText "a /* b */ 0x \"c".toList = some [.id "a", .other "0x", .other "\"c"] ∧
    lexText "a # b".toList = none := by
  decide +kernel

/-- `C83_expression_partial`: from characters to the tree. -/
example : (lexText "a+b*2;".toList).bind parseExpression =
    some (.binary .add (.id "a") (.binary .mul (.id "b") (.lit .decimal "2".toList)), [.other ";"]) := by
  decide +kernel

end Zs
