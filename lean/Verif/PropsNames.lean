import Verif.NamesLemmas

/-!
# C69: names of generated members, variants, functions and types
-/

namespace Zs

open Spec

/-! ## Words of names -/

theorem nameWords_eq (nums : Bool) (n : String) : nameWords nums n = words nums (removeReserved n).toList := by
  unfold nameWords removeReserved
  by_cases h1 : n.toLower = "type"
  · rw [h1, if_pos (.inl rfl), if_pos rfl]; cases nums <;> decide +kernel
  · by_cases h2 : n.toLower = "struct"
    · rw [h2, if_pos (.inr (.inl rfl)), if_neg (by decide), if_pos rfl]; cases nums <;> decide +kernel
    · by_cases h3 : n.toLower = "self"
      · rw [h3, if_pos (.inr (.inr rfl)), if_neg (by decide), if_neg (by decide), if_pos rfl]
        cases nums <;> decide +kernel
      · simp [h1, h2, h3]

theorem nameWords_isWord (nums : Bool) (n : String) : ∀ w ∈ nameWords nums n, IsWord w := by
  rw [nameWords_eq]
  exact words_isWord nums _

/-- **C69**: the Rust name of a field, parameter or function consists of the words of its name, in lower case, with
underscores in between. -/
theorem C69_member (n : String) : memberName snakeNums n = String.ofList (underscored (nameWords true n)) := by
  rw [memberName, snakeNums_words, nameWords_eq]

/-- **C69**: the Rust name of a type or of an item of an enumeration consists of the capitalised words of its name. -/
theorem C69_variant (n : String) :
    variantName n = String.ofList ((nameWords false n).map capitalised).flatten := by
  rw [variantName, pascal_words, nameWords_eq]

/-- **C69**: two names get the same Rust name exactly if they have the same words. -/
theorem C69_same_iff (a b : String) :
    memberName snakeNums a = memberName snakeNums b ↔ nameWords true a = nameWords true b := by
  rw [C69_member, C69_member]
  constructor
  · intro h
    have h := congrArg String.toList h
    rw [String.toList_ofList, String.toList_ofList] at h
    exact underscored_inj _ _ (nameWords_isWord true a) (nameWords_isWord true b) h
  · intro h; rw [h]

/-! ## Identifiers -/

theorem isRustIdent_ofList (cs : List Char) : isRustIdent (String.ofList cs) = true ↔
    (∃ c, cs.head? = some c ∧ (c.isAlpha || c == '_') = true) ∧ (∀ c ∈ cs.tail, (c.isAlphanum || c == '_') = true) ∧
    String.ofList cs ∉ rustKeywords := by
  unfold isRustIdent
  rw [String.toList_ofList]
  cases cs with
  | nil => simp
  | cons c cs => simp [and_assoc]

theorem IsWord.alnum {w : List Char} (h : IsWord w) : ∀ c ∈ w, c.isAlphanum = true := by
  intro c hc
  obtain ⟨d, hd, rfl⟩ := h.chars c hc
  exact (charFacts d).lowerAlnum hd

theorem underscored_chars : ∀ ws : List (List Char), (∀ w ∈ ws, IsWord w) →
    ∀ c ∈ underscored ws, (c.isAlphanum || c == '_') = true
  | [], _, c, hc => by cases hc
  | w :: ws, h, c, hc => by
    rw [underscored_cons] at hc
    rcases List.mem_append.mp hc with hc | hc
    · simp [(h w List.mem_cons_self).alnum c hc]
    · cases ws with
      | nil => cases hc
      | cons v ws =>
        have ih := underscored_chars (v :: ws) fun x hx => h x (List.mem_cons_of_mem _ hx)
        rw [underscored_cons] at ih
        rw [marked] at hc
        rcases List.mem_cons.mp hc with rfl | hc
        · rfl
        · exact ih c hc

/-- No keyword but `_` contains an underscore. -/
theorem keywords_no_mark : ∀ k ∈ rustKeywords, k ≠ "_" → '_' ∉ k.toList := by decide +kernel

theorem underscored_single {ws : List (List Char)} (h : ∀ w ∈ ws, IsWord w) (hm : '_' ∉ underscored ws) (hne : ws ≠ []) :
    ∃ w, ws = [w] := by
  cases ws with
  | nil => exact absurd rfl hne
  | cons w ws =>
    cases ws with
    | nil => exact ⟨w, rfl⟩
    | cons v ws =>
      rw [underscored_cons, marked] at hm
      exact absurd (List.mem_append_right w List.mem_cons_self) hm

/-- **C69**: the Rust name of a field, parameter or function is an identifier exactly if its first word begins with a
letter, and it is not a keyword as its only word. -/
theorem C69_ident_iff (n : String) : isRustIdent (memberName snakeNums n) = true ↔
    ∃ c w ws, nameWords true n = (c :: w) :: ws ∧ c.isAlpha = true ∧
      (ws = [] → String.ofList (c :: w) ∉ rustKeywords) := by
  have hw := nameWords_isWord true n
  rw [C69_member]
  generalize nameWords true n = ws at hw
  rw [isRustIdent_ofList]
  have hc := underscored_chars ws hw
  constructor
  · rintro ⟨⟨c, h1, h2⟩, h3, h4⟩
    cases ws with
    | nil => simp [underscored] at h1
    | cons w ws =>
      have hww := hw w List.mem_cons_self
      cases w with
      | nil => exact absurd rfl hww.ne
      | cons a w =>
        rw [underscored_cons] at h1
        cases h1
        have hne : c ≠ '_' := fun e => hww.no_mark (by simp [e])
        refine ⟨c, w, ws, rfl, by simpa [hne] using h2, ?_⟩
        rintro rfl
        simpa [underscored] using h4
  · rintro ⟨c, w, ws, rfl, h2, h3⟩
    refine ⟨⟨c, by rw [underscored_cons]; rfl, by simp [h2]⟩, fun x hx => hc x (List.mem_of_mem_tail hx), fun hk => ?_⟩
    have hm : '_' ∉ underscored ((c :: w) :: ws) := by
      have := keywords_no_mark _ hk
      rw [String.toList_ofList] at this
      refine this fun e => ?_
      have e' := congrArg String.toList e
      rw [String.toList_ofList, underscored_cons] at e'
      have e1 : c :: (w ++ marked ws) = ['_'] := e'
      have : c = '_' := (List.cons.inj e1).1
      exact (hw _ List.mem_cons_self).no_mark (by simp [this])
    obtain ⟨v, hv⟩ := underscored_single hw hm (by simp)
    cases hv
    exact h3 rfl (by simpa [underscored] using hk)

/-! ## Members -/

theorem nodup_member_iff (names : List String) :
    (names.map (memberName snakeNums)).Nodup ↔ (names.map (nameWords true)).Nodup := by
  simp only [List.nodup_iff_pairwise_ne, List.pairwise_map, ne_eq, C69_same_iff]

/-- **C69**: Rust accepts the members generated for a structure or a choice exactly if the names of its parameters and
fields are accepted as identifiers, and no two of them have the same words. -/
theorem C69_struct_iff (params fields : List String) : RustNames (structMembers params fields) ↔
    (∀ n ∈ params ++ fields, ∃ c w ws, nameWords true n = (c :: w) :: ws ∧ c.isAlpha = true ∧
      (ws = [] → String.ofList (c :: w) ∉ rustKeywords)) ∧
    ((params ++ fields).map (nameWords true)).Nodup := by
  have e : structMembers params fields = (params ++ fields).map (memberName snakeNums) := by simp [structMembers]
  rw [e, RustNames, nodup_member_iff]
  simp only [List.mem_map, forall_exists_index, and_imp, forall_apply_eq_imp_iff₂, C69_ident_iff]

/-- **C69** for the methods generated for functions: the same. -/
theorem C69_functions_iff (functions : List String) : RustNames (methods functions) ↔
    (∀ n ∈ functions, ∃ c w ws, nameWords true n = (c :: w) :: ws ∧ c.isAlpha = true ∧
      (ws = [] → String.ofList (c :: w) ∉ rustKeywords)) ∧
    (functions.map (nameWords true)).Nodup := by
  have e : methods functions = structMembers [] functions := rfl
  rw [e, C69_struct_iff, List.nil_append]

/-- **C69**: Rust accepts the members generated for a union exactly if it would accept those of a structure, and no
parameter or field consists of the words `union` and `selector`. -/
theorem C69_union_iff (params fields : List String) : RustNames (unionMembers params fields) ↔
    RustNames (structMembers params fields) ∧
    ∀ n ∈ params ++ fields, nameWords true n ≠ ["union".toList, "selector".toList] := by
  have hsel : memberName snakeNums "unionSelector" = "union_selector" := by decide +kernel
  have hwords : nameWords true "unionSelector" = ["union".toList, "selector".toList] := by decide +kernel
  have hid : isRustIdent "union_selector" = true := by decide +kernel
  have hne : ∀ n, nameWords true n ≠ ["union".toList, "selector".toList] ↔ memberName snakeNums n ≠ "union_selector" := by
    intro n
    rw [← hwords, ← hsel, ne_eq, ne_eq, C69_same_iff]
  simp only [hne, RustNames, unionMembers, structMembers]
  have hperm : (params.map (memberName snakeNums) ++ "union_selector" :: fields.map (memberName snakeNums)).Perm
      ("union_selector" :: (params.map (memberName snakeNums) ++ fields.map (memberName snakeNums))) :=
    List.perm_middle
  rw [hperm.nodup_iff, List.nodup_cons]
  have hm : ∀ n, n ∈ params.map (memberName snakeNums) ++ "union_selector" :: fields.map (memberName snakeNums) ↔
      n = "union_selector" ∨ n ∈ params.map (memberName snakeNums) ++ fields.map (memberName snakeNums) := by
    intro n; rw [hperm.mem_iff, List.mem_cons]
  simp only [hm]
  constructor
  · rintro ⟨h1, h2, h3⟩
    refine ⟨⟨fun n hn => h1 n (.inr hn), h3⟩, fun n hn e => h2 ?_⟩
    rw [← e, ← List.map_append]
    exact List.mem_map_of_mem hn
  · rintro ⟨⟨h1, h2⟩, h3⟩
    refine ⟨?_, ?_, h2⟩
    · rintro n (rfl | hn)
      · exact hid
      · exact h1 n hn
    · rw [← List.map_append]
      intro hmem
      obtain ⟨n, hn, e⟩ := List.mem_map.mp hmem
      exact h3 n hn e

example : RustNames (structMembers ["numItems"] ["boValue1", "positions2D"]) ∧
    RustNames (unionMembers [] ["unionSelector2", "selector"]) := by
  refine ⟨?_, (C69_union_iff _ _).mpr ⟨?_, by decide +kernel⟩⟩ <;>
    exact ⟨by decide +kernel, by decide +kernel⟩

/-! ## Names in the usual style -/

/-- Lower camel case from words with underscores. -/
def camelOf (raise : Bool) : List Char → List Char
  | [] => []
  | c :: cs => if c = '_' then camelOf true cs else (if raise then c.toUpper else c) :: camelOf false cs

theorem camelOf_tail : ∀ (cs : List Char) (p : Char), inWord p = true → lowerCamel.camelTail p cs = true →
    camelOf false (snakeTail true p cs) = cs
  | [], _, _, _ => rfl
  | c :: cs, p, hp, h => by
    simp only [lowerCamel.camelTail, Bool.and_eq_true, Bool.not_eq_true', Bool.and_eq_false_iff] at h
    obtain ⟨⟨⟨hc, h1⟩, h2⟩, h3⟩ := h
    have ih := camelOf_tail cs c hc h3
    have fc := charFacts c
    have hne := fc.lowerNot hc
    rw [snakeTail, if_pos hc, hp, Bool.true_and]
    cases hg : goesOn true p c cs.head? with
    | true =>
      simp only [if_true, List.nil_append]
      rw [camelOf, if_neg hne, ih, if_neg Bool.false_ne_true]
      congr 1
      by_cases hu : c.isUpper = true
      · obtain ⟨-, hd, -⟩ := fc.upper hu
        have hpu : p.isUpper = false := by simpa [hu] using h1
        simp [goesOn, hc, hd, hu, hpu] at hg
      · by_cases hl : c.isLower = true
        · exact (fc.lower hl).2.2.1
        · have hd : c.isDigit = true := by simpa [inWord, hu, hl] using hc
          exact (fc.digit hd).2.2.1
    | false =>
      simp only [Bool.false_eq_true, if_false, List.singleton_append]
      rw [camelOf, if_pos rfl, camelOf, if_neg hne]
      simp only [if_true, ih, List.cons.injEq, and_true]
      by_cases hu : c.isUpper = true
      · exact (fc.upper hu).2.2.2
      · have hu : c.isUpper = false := by simpa using hu
        by_cases hl : c.isLower = true
        · obtain ⟨-, hd, -⟩ := fc.lower hl
          have hpd : p.isDigit = false := by simpa [hl] using h2
          simp [goesOn, hc, hd, hu, hpd] at hg
        · have hd : c.isDigit = true := by simpa [inWord, hu, hl] using hc
          rw [(fc.digit hd).2.2.1, (fc.digit hd).2.2.2]

theorem camelOf_first (cs : List Char) (h : lowerCamel cs = true) : camelOf false (snakeFirst true cs) = cs := by
  cases cs with
  | nil => rfl
  | cons c cs =>
    simp only [lowerCamel, Bool.and_eq_true] at h
    have hc := inWord_lower h.1
    have fc := charFacts c
    rw [snakeFirst, if_pos hc, camelOf, if_neg (fc.lowerNot hc), camelOf_tail cs c hc h.2, if_neg Bool.false_ne_true, (fc.lower h.1).2.2.1]

theorem reserved_keywords : ∀ k ∈ ["type", "struct", "self"], k ∈ rustKeywords := by decide +kernel

theorem removeReserved_id {n : String} (h : n.toLower ∉ rustKeywords) : removeReserved n = n := by
  have h1 : n.toLower ≠ "type" := fun e => h (by rw [e]; exact reserved_keywords _ (by decide))
  have h2 : n.toLower ≠ "struct" := fun e => h (by rw [e]; exact reserved_keywords _ (by decide))
  have h3 : n.toLower ≠ "self" := fun e => h (by rw [e]; exact reserved_keywords _ (by decide))
  unfold removeReserved
  rw [if_neg h1, if_neg h2, if_neg h3]

theorem snakeNums_first (s : String) : (snakeNums s).toList = snakeFirst true s.toList := by
  rw [snakeNums, snakeRun_first, String.toList_ofList]

theorem toLower_toList (s : String) : s.toLower.toList = s.toList.map Char.toLower := by
  simp [String.toLower]

/-- Without underscores, a name is written in lower case. -/
theorem snakeTail_no_mark : ∀ (cs : List Char) (p : Char), lowerCamel.camelTail p cs = true →
    '_' ∉ snakeTail true p cs → snakeTail true p cs = cs.map Char.toLower
  | [], _, _, _ => rfl
  | c :: cs, p, h, hm => by
    simp only [lowerCamel.camelTail, Bool.and_eq_true] at h
    obtain ⟨⟨⟨hc, -⟩, -⟩, h3⟩ := h
    rw [snakeTail, if_pos hc] at hm ⊢
    cases hg : inWord p && goesOn true p c cs.head? with
    | true =>
      simp only [hg, if_true, List.nil_append, List.mem_cons, not_or] at hm ⊢
      rw [snakeTail_no_mark cs c h3 hm.2]; rfl
    | false => simp [hg] at hm

/-- **C69**, what holds: if the parameters and fields of a structure or a choice have different names in lower camel case
that are no keywords of Rust, Rust accepts the generated members. -/
theorem C69_struct_partial (params fields : List String) (hn : (params ++ fields).Nodup)
    (hs : ∀ n ∈ params ++ fields, lowerCamel n.toList = true ∧ n.toLower ∉ rustKeywords) :
    RustNames (structMembers params fields) := by
  have e : structMembers params fields = (params ++ fields).map (memberName snakeNums) := by simp [structMembers]
  rw [e]
  generalize params ++ fields = names at hn hs
  have hback : ∀ n ∈ names, camelOf false (memberName snakeNums n).toList = n.toList := by
    intro n hm
    rw [memberName, removeReserved_id (hs n hm).2, snakeNums_first, camelOf_first _ (hs n hm).1]
  refine ⟨fun m hm => ?_, ?_⟩
  · obtain ⟨n, hnm, rfl⟩ := List.mem_map.mp hm
    obtain ⟨hc, hk⟩ := hs n hnm
    have hme : memberName snakeNums n = snakeNums n := by rw [memberName, removeReserved_id hk]
    have hwords : nameWords true n = words true n.toList := by rw [nameWords_eq, removeReserved_id hk]
    rw [C69_ident_iff]
    have htext := snakeFirst_words true n.toList
    cases hl : n.toList with
    | nil => rw [hl] at hc; cases hc
    | cons c cs =>
      rw [hl] at hc
      simp only [lowerCamel, Bool.and_eq_true] at hc
      have hcw := inWord_lower hc.1
      rw [hl, snakeFirst, if_pos hcw] at htext
      rw [hwords, hl]
      have hws := words_isWord true (c :: cs)
      cases hw : words true (c :: cs) with
      | nil => rw [hw] at htext; cases htext
      | cons w ws =>
        rw [hw] at htext hws
        cases w with
        | nil => exact absurd rfl (hws _ List.mem_cons_self).ne
        | cons a w =>
          rw [underscored_cons] at htext
          have ha : c.toLower = a := (List.cons.inj htext).1
          refine ⟨a, w, ws, rfl, ?_, fun hws0 hkw => hk ?_⟩
          · rw [← ha, (charFacts c).lowerAlpha hcw, ((charFacts c).lower hc.1).2.1]; rfl
          · subst hws0
            have ht : snakeTail true c cs = w := by simpa [marked] using (List.cons.inj htext).2
            have hmk : '_' ∉ a :: w := (hws _ List.mem_cons_self).no_mark
            have hlow := snakeTail_no_mark cs c hc.2 (by rw [ht]; exact fun h => hmk (List.mem_cons_of_mem _ h))
            have : n.toLower = String.ofList (a :: w) := by
              rw [← String.toList_inj, toLower_toList, hl, String.toList_ofList, List.map_cons, ha, ← hlow, ht]
            rw [this]; exact hkw
  · rw [List.nodup_iff_pairwise_ne, List.pairwise_map]
    refine List.Pairwise.imp_of_mem ?_ (List.nodup_iff_pairwise_ne.mp hn)
    intro a b ha hb hab he
    exact hab (String.toList_inj.mp (by rw [← hback a ha, ← hback b hb, he]))

example : (["numItems"] ++ ["boValue1", "positions2D"]).Nodup ∧
    ∀ n ∈ ["numItems"] ++ ["boValue1", "positions2D"], lowerCamel n.toList = true ∧ n.toLower ∉ rustKeywords := by
  decide +kernel

/-- Upper case from capitalised words. -/
def upperOf : List Char → List Char
  | [] => []
  | c :: cs => (if c.isUpper then ['_', c] else [c.toUpper]) ++ upperOf cs

theorem upperTail_head : ∀ (p : Char) (cs : List Char), upperCase.upperTail p cs = true → cs.head?.any Char.isLower = false
  | _, [], _ => rfl
  | p, c :: cs, h => by
    simp only [upperCase.upperTail, Bool.and_eq_true, Bool.or_eq_true] at h
    have fc := charFacts c
    simp only [List.head?_cons, Option.any_some]
    rcases h.1 with (h' | h') | h'
    · exact (fc.upper h'.1).1
    · exact (fc.digit h'.1).2.1
    · have : c = '_' := by simpa using h'.1
      rw [this]; decide

theorem upperOf_tail : ∀ (cs : List Char) (p : Char), upperCase.upperTail p cs = true →
    (inWord p = true → p.isLower = false → upperOf (pascalTail p cs) = cs) ∧
    (p = '_' → upperOf (pascalTail p cs) = '_' :: cs)
  | [], p, h => by
    refine ⟨fun _ _ => rfl, fun hp => ?_⟩
    subst hp; simp [upperCase.upperTail] at h
  | c :: cs, p, h => by
    have hnext := h
    simp only [upperCase.upperTail, Bool.and_eq_true, Bool.or_eq_true] at h
    obtain ⟨h1, h2⟩ := h
    have hlow := upperTail_head c cs h2
    have fc := charFacts c
    obtain ⟨ih1, ih2⟩ := upperOf_tail cs c h2
    rcases h1 with (h1 | h1) | h1
    · -- an upper case letter
      obtain ⟨hu, hpd⟩ := h1
      have hpd : p.isDigit = false := by simpa using hpd
      have hw := inWord_upper hu
      obtain ⟨hl, hd, hll, hr⟩ := fc.upper hu
      have ih1 := ih1 hw hl
      refine ⟨fun hp hpl => ?_, fun hp => ?_⟩
      · have hpu : p.isUpper = true := by simpa [inWord, hpd, hpl] using hp
        have hg : goesOn false p c cs.head? = true := by
          simp [goesOn, hw, hd, hpd, hu, hpu, hlow]
        rw [pascalTail, if_pos hw, hp, hg]
        simp only [Bool.and_self, if_true]
        rw [upperOf, (charFacts c).lowerNotUpper hw, ih1, hr]
        rfl
      · have hp' : inWord p = false := by rw [hp]; decide
        rw [pascalTail, if_pos hw, hp']
        simp only [Bool.false_and, Bool.false_eq_true, if_false]
        rw [upperOf, toUpper_of_upper hu, hu, ih1]
        rfl
    · -- a digit
      obtain ⟨hd, hp_⟩ := h1
      have hw := inWord_digit hd
      obtain ⟨hu, hl, he, he'⟩ := fc.digit hd
      refine ⟨fun hp hpl => ?_, fun hp => ?_⟩
      · rw [pascalTail, if_pos hw, he, he', ite_self, upperOf, hu, ih1 hw hl, he']
        rfl
      · simp [hp] at hp_
    · -- an underscore
      obtain ⟨hc, hp_⟩ := h1
      have hc : c = '_' := by simpa using hc
      have hw : inWord c = false := by rw [hc]; decide
      refine ⟨fun hp hpl => ?_, fun hp => ?_⟩
      · rw [pascalTail, hw]
        simp only [Bool.false_eq_true, if_false]
        rw [ih2 hc, hc]
      · simp [hp] at hp_

theorem upperOf_first (cs : List Char) (h : upperCase cs = true) : upperOf (pascalFirst cs) = '_' :: cs := by
  cases cs with
  | nil => cases h
  | cons c cs =>
    simp only [upperCase, Bool.and_eq_true] at h
    have hc := inWord_upper h.1
    rw [pascalFirst, if_pos hc, upperOf, toUpper_of_upper h.1, h.1,
      (upperOf_tail cs c h.2).1 hc ((charFacts c).upper h.1).1]
    rfl

theorem pascalTail_alnum : ∀ (cs : List Char) (p : Char), ∀ x ∈ pascalTail p cs, x.isAlphanum = true
  | [], _, x, hx => by cases hx
  | c :: cs, p, x, hx => by
    rw [pascalTail] at hx
    split at hx
    · rename_i hc
      rcases List.mem_cons.mp hx with rfl | hx
      · split
        · exact (charFacts c).lowerAlnum hc
        · exact (charFacts c).upperAlnum hc
      · exact pascalTail_alnum cs c x hx
    · exact pascalTail_alnum cs c x hx

theorem pascal_first (s : String) : (pascal s).toList = pascalFirst s.toList := by
  rw [pascal, pascalRun_first, String.toList_ofList]

/-- The only keyword that begins with an upper case letter is `Self`. -/
theorem keywords_upper : ∀ k ∈ rustKeywords, k.toList.head?.any Char.isUpper = true → k = "Self" := by decide +kernel

/-- **C69**, what holds: if the items of an enumeration or a bitmask have different names in upper case that are no
keywords of Rust, Rust accepts the generated variants. -/
theorem C69_items_partial (items : List String) (hn : items.Nodup)
    (hs : ∀ n ∈ items, upperCase n.toList = true ∧ n.toLower ∉ rustKeywords) : RustNames (variants items) := by
  have hback : ∀ n ∈ items, upperOf (variantName n).toList = '_' :: n.toList := by
    intro n hm
    rw [variantName, removeReserved_id (hs n hm).2, pascal_first, upperOf_first _ (hs n hm).1]
  refine ⟨fun m hm => ?_, ?_⟩
  · obtain ⟨n, hnm, rfl⟩ := List.mem_map.mp hm
    obtain ⟨hc, hk⟩ := hs n hnm
    have hb := hback n hnm
    have hv : variantName n = String.ofList (pascalFirst n.toList) := by
      rw [variantName, removeReserved_id hk, pascal, pascalRun_first]
    cases hl : n.toList with
    | nil => rw [hl] at hc; cases hc
    | cons c cs =>
      rw [hl] at hc hv
      simp only [upperCase, Bool.and_eq_true] at hc
      have hcw := inWord_upper hc.1
      rw [pascalFirst, if_pos hcw, toUpper_of_upper hc.1] at hv
      rw [hv, isRustIdent_ofList]
      refine ⟨⟨c, rfl, by simp [Char.isAlpha, hc.1]⟩, fun x hx => by simp [pascalTail_alnum cs c x hx], fun hkw => ?_⟩
      have hself := keywords_upper _ hkw (by rw [String.toList_ofList]; simpa using hc.1)
      rw [hv, hself, hl] at hb
      have hb' : "SELF".toList = c :: cs := by
        have : upperOf "Self".toList = '_' :: "SELF".toList := by decide +kernel
        rw [this] at hb
        exact (List.cons.inj hb).2
      have hn' : n = "SELF" := String.toList_inj.mp (by rw [hl, hb'])
      exact hk (by rw [hn']; decide +kernel)
  · rw [variants, List.nodup_iff_pairwise_ne, List.pairwise_map]
    refine List.Pairwise.imp_of_mem ?_ (List.nodup_iff_pairwise_ne.mp hn)
    intro a b ha hb hab he
    have := hback a ha
    rw [he, hback b hb] at this
    exact hab (String.toList_inj.mp (List.cons.inj this).2.symm)

example : ["UNKNOWN", "MORE_THAN_TOWARDS_CURB2"].Nodup ∧
    ∀ n ∈ ["UNKNOWN", "MORE_THAN_TOWARDS_CURB2"], upperCase n.toList = true ∧ n.toLower ∉ rustKeywords := by
  decide +kernel

/-! ## Violations -/

/-- **C69 is violated** by keywords: all but three keywords of Rust stay as they are as the name of a field (zserio
has none of `match`, `loop`, `fn`, `use`, ... as keywords). -/
theorem C69_keyword_violated : ∀ k ∈ rustKeywords, k ∉ ["_", "Self", "type", "struct", "self"] →
    structMembers [] [k] = [k] ∧ ¬RustNames (structMembers [] [k]) := by
  have h1 : ∀ k ∈ rustKeywords, k ∉ ["_", "Self", "type", "struct", "self"] → structMembers [] [k] = [k] := by
    decide +kernel
  have h2 : ∀ k ∈ rustKeywords, isRustIdent k = false := by decide +kernel
  intro k hk hn
  refine ⟨h1 k hk hn, fun h => ?_⟩
  rw [h1 k hk hn] at h
  have := h.1 k (by simp)
  rw [h2 k hk] at this
  cases this

example : "match" ∈ rustKeywords ∧ "match" ∉ ["_", "Self", "type", "struct", "self"] := by decide +kernel

/-- **C69 is violated** by an underscore in front of a keyword, of digits, or alone. -/
theorem C69_underscore_violated : memberName snakeNums "_type" = "type" ∧ memberName snakeNums "_1" = "1" ∧
    memberName snakeNums "_" = "" ∧ variantName "_SELF" = "Self" ∧
    ∀ n ∈ ["type", "1", "", "Self"], isRustIdent n = false := by
  decide +kernel

/-- **C69 is violated** by different names with the same words: two members, variants or functions have the same
name. -/
theorem C69_same_violated : memberName snakeNums "fooBar" = memberName snakeNums "foo_bar" ∧
    memberName snakeNums "a1" = memberName snakeNums "a_1" ∧
    memberName snakeNums "XMLFile" = memberName snakeNums "xmlFile" ∧
    memberName snakeNums "type" = memberName snakeNums "zType" ∧
    variantName "A1" = variantName "A_1" ∧ variantName "FOO" = variantName "Foo" ∧
    variantName "TYPE" = variantName "Z_TYPE" ∧
    ¬RustNames (structMembers ["fooBar"] ["foo_bar"]) ∧ ¬RustNames (variants ["A1", "A_1"]) := by
  refine ⟨by decide +kernel, by decide +kernel, by decide +kernel, by decide +kernel, by decide +kernel,
    by decide +kernel, by decide +kernel, fun h => ?_, fun h => ?_⟩
  · exact absurd h.2 (by decide +kernel)
  · exact absurd h.2 (by decide +kernel)

/-- **C69 is violated** by a field `unionSelector` of a union, which becomes a second member `union_selector`. -/
theorem C69_selector_violated : RustNames (structMembers [] ["unionSelector"]) ∧
    ¬RustNames (unionMembers [] ["unionSelector"]) := by
  refine ⟨⟨by decide +kernel, by decide +kernel⟩, fun h => ?_⟩
  exact absurd h.2 (by decide +kernel)

/-- **C69 is violated** by functions with names of the methods that generated code calls: `zserioRead`, `clone`. -/
theorem C69_function_violated : RustNames (methods ["zserioRead", "clone"]) ∧
    ∀ m ∈ methods ["zserioRead", "clone"], m ∈ calledMethods := by
  refine ⟨⟨by decide +kernel, by decide +kernel⟩, by decide +kernel⟩

/-- **C69 is violated** by types with the names of imports: `Result`, `BitReader`, `delta_context`. -/
theorem C69_type_violated : ∀ n ∈ ["Result", "BitReader", "BitWriter", "ZserioPackableObject", "PackingContextNode",
    "delta_context"], ∀ u, ¬FileNames standardImports (fileTypes u n) := by
  have : ∀ n ∈ ["Result", "BitReader", "BitWriter", "ZserioPackableObject", "PackingContextNode",
      "delta_context"], variantName n ∈ standardImports := by decide +kernel
  intro n hn u h
  have h1 := this n hn
  have h2 := (List.nodup_append.mp h.2).2.2 _ h1 (variantName n) (by cases u <;> simp [fileTypes])
  exact h2 rfl

end Zs
