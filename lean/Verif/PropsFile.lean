import Verif.FileDemands
import Verif.PropsAccept
import Verif.PropsPackage

/-!
# C84: the parser reads files as they are written
-/

namespace Zs

open Src Spec

/-- **C84 (partial)** A file that is written down is read as this file.  Missing: SQL, services, pubsub and rules, which
are not modelled, and what `C84_offset_violated` and `C84_length_violated` are about. -/
theorem C84_reads_partial (p : Package) (hp : FileOk true p) (ts : List Token) (ht : FileText p ts) :
    parseFile ts = some p := file_read p hp ts ht

/-- **C84** What is read is a file of the language, and its text is the one that was read, up to the last token. -/
theorem C84_only (ts : List Token) (p : Package) (h : parseFile ts = some p)
    (hl : ∀ x, Token.lit .decimal x ∈ ts → Lexed .decimal x) : FileText p ts ∧ FileOk false p :=
  ⟨file_sound (canon_of_lexed hl) h, file_yields h⟩

/-- **C84 (partial)** A text is the text of at most one file.  Missing: as above. -/
theorem C84_unambiguous_partial (p q : Package) (hp : FileOk true p) (hq : FileOk true q) (ts : List Token)
    (h1 : FileText p ts) (h2 : FileText q ts) : p = q :=
  Option.some.inj ((C84_reads_partial p hp ts h1).symm.trans (C84_reads_partial q hq ts h2))

/-! ## From characters -/

/-- **C84 (partial)** The characters of a file, with blanks and comments as one likes, are read as this file.  Missing:
as above, and comments `/**/` (`C83_comment_violated`). -/
theorem C84_characters_partial (p : Package) (hp : FileOk true p) (cs : List Char) (h : FileWritten p cs) :
    fileOfText cs = some p := by
  obtain ⟨ts, h1, h2⟩ := h
  rw [fileOfText, C83_tokens_partial cs ts h1]
  exact C84_reads_partial p hp ts h2

/-- **C84** If characters are read as a file, then they can be divided into tokens that are the text of the file. -/
theorem C84_characters_only (cs : List Char) (p : Package) (h : fileOfText cs = some p) :
    FileOk false p ∧ ∃ ps, Divided cs ps ∧ FileText p (ps.filterMap fun q => tokenOf q.1 q.2) := by
  obtain ⟨ts, h1, h2⟩ := Option.bind_eq_some_iff.1 h
  obtain ⟨h3, h4⟩ := C84_only ts p h2 fun x hx => C83_literals cs ts h1 .decimal x hx
  obtain ⟨ps, h5, rfl⟩ := (C83_divided cs ts).1 h1
  exact ⟨h4, ps, h5, h3⟩

/-- **C84** The literals of a file that is read from characters are literals of the language. -/
theorem C84_lexed (cs : List Char) (p : Package) (h : fileOfText cs = some p) : FileLexed p := by
  obtain ⟨ts, h1, h2⟩ := Option.bind_eq_some_iff.1 h
  obtain ⟨h3, _⟩ := C84_only ts p h2 fun x hx => C83_literals cs ts h1 .decimal x hx
  exact fun d hd => (file_stood h3 d hd).lexed fun k x hx => C83_literals cs ts h1 k x hx

/-- **C84** A file that is read from characters is represented exactly if the package has a name, integers are below
`2^31` and without capital `X` or `B`, floats have no suffix, widths are below 256, and alignments are decimal numbers
below 256 (C62); otherwise the compiler panics. -/
theorem C84_accepted_iff (fl : FloatText) (cs : List Char) (p : Package) (h : fileOfText cs = some p) :
    ((∃ q, visitPackage fl p = .ok q) ↔ p.name ≠ none ∧ ∀ d ∈ p.directives, ∀ x ∈ demands d, x.Met) ∧
    ((∃ q, visitPackage fl p = .ok q) ∨ visitPackage fl p = .panic) :=
  ⟨C62_accepted_iff p (C84_lexed cs p h), C62_panics_violated p (C84_lexed cs p h)⟩

/-! ## Two readings of one text -/

/-- A file with one structure. -/
def oneField (s : String) (f : StructField) : Package := ⟨none, none, [], [.struct ⟨s, [], [], [f], []⟩]⟩

theorem oneField_text (s : String) (f : StructField) : FileText (oneField s f)
    ([.other "struct", .id s, .other "{"] ++ writtenField f ++ [.other "}", .other ";"]) :=
  ⟨_, .cons (.plain _ (by simp)) .nil, by
    simp [oneField, writtenVersion, writtenName, writtenDirective, writtenTemplates, writtenParams, writtenEnd]⟩

theorem oneField_ok {apart : Bool} (s : String) (f : StructField) (hf : FieldOk apart f) : FileOk apart (oneField s f) := by
  refine ⟨nofun, nofun, ?_⟩
  intro d hd
  cases List.mem_singleton.1 hd
  exact ⟨nofun, by simpa using hf, nofun⟩

/-- A field without modifiers. -/
def plainField (t : Inst) (x : String) (offset constraint : Option Exp) : StructField :=
  ⟨none, offset, false, false, ⟨false, false, t, x, none⟩, none, none, constraint⟩

/-- **C84** The claim is false without the restriction: the field `A<B> x : a < b > c;` with a constraint is read as a
field `c` of the type `a<b>` at the offset `A < B > x`. -/
theorem C84_offset_violated (s A B x a b c : String) :
    ∃ p q ts, p = oneField s (plainField ⟨.named A [] [.named B [] []], .none⟩ x none
        (some (.binary .gt (.binary .lt (.id a) (.id b)) (.id c)))) ∧
      q = oneField s (plainField ⟨.named a [] [.named b [] []], .none⟩ c
        (some (.binary .gt (.binary .lt (.id A) (.id B)) (.id x))) none) ∧
      FileOk false p ∧ FileText p ts ∧ parseFile ts = some q ∧ p ≠ q := by
  have hb : ∀ u v w : String, Bracketed (.binary .gt (.binary .lt (.id u) (.id v)) (.id w)) := by
    intro u v w
    exact ⟨(by decide : 3 + group .lt ≤ 3 + group .gt), (by decide : 0 < 3 + group .gt),
      ⟨(by decide : 0 ≤ 3 + group .lt), (by decide : 0 < 3 + group .lt), trivial, trivial⟩, trivial⟩
  have ho : ∀ u v w : String, OptionOk (some (.binary .gt (.binary .lt (.id u) (.id v)) (.id w))) := by
    intro u v w _ h; cases h; exact hb u v w
  have hn : OptionOk none := fun _ h => by cases h
  have ht : ∀ u v : String, TypeOk (.named u [] [.named v [] []]) := by intro u v; simp [TypeOk, TypesOk]
  refine ⟨_, _, _, rfl, rfl, oneField_ok s _ ?_, oneField_text s _, ?_, by simp [oneField, plainField]⟩
  · exact ⟨hn, hn, ⟨⟨ht A B, trivial⟩, nofun⟩, hn, hn, ho a b c, nofun⟩
  · refine C84_reads_partial _ (oneField_ok s _ ?_) _ ?_
    · exact ⟨hn, ho A B x, ⟨⟨ht a b, trivial⟩, nofun⟩, hn, hn, hn, fun _ h => by cases h⟩
    · have := oneField_text s (plainField ⟨.named a [] [.named b [] []], .none⟩ c
        (some (.binary .gt (.binary .lt (.id A) (.id B)) (.id x))) none)
      simpa [plainField, writtenField, writtenAlign, writtenOffset, writtenBody, writtenFlag, writtenTypeId, writtenInst,
        writtenType, writtenTypes, writtenArgs, separated, dotted, writtenArray, writtenBehind, written, binarySigns] using this

/-- **C84** The claim is false without the restriction: a length behind the name of a type is read as a template
argument. -/
theorem C84_length_violated (s A n x : String) :
    ∃ p q ts, p = oneField s (plainField ⟨.named A [] [], .length (.id n)⟩ x none none) ∧
      q = oneField s (plainField ⟨.named A [] [.named n [] []], .none⟩ x none none) ∧
      FileOk false p ∧ FileText p ts ∧ parseFile ts = some q ∧ p ≠ q := by
  have hn : OptionOk none := fun _ h => by cases h
  refine ⟨_, _, _, rfl, rfl, oneField_ok s _ ?_, oneField_text s _, ?_, by simp [oneField, plainField]⟩
  · exact ⟨hn, hn, ⟨⟨by simp [plainField, TypeOk, TypesOk], by simp [plainField, Bracketed]⟩, nofun⟩, hn, hn, hn, nofun⟩
  · refine C84_reads_partial _ (oneField_ok s _ ?_) _ ?_
    · exact ⟨hn, hn, ⟨⟨by simp [plainField, TypeOk, TypesOk], trivial⟩, nofun⟩, hn, hn, hn, fun _ _ _ e h => by cases h⟩
    · have := oneField_text s (plainField ⟨.named A [] [.named n [] []], .none⟩ x none none)
      simpa [plainField, writtenField, writtenAlign, writtenOffset, writtenBody, writtenFlag, writtenTypeId, writtenInst,
        writtenType, writtenTypes, writtenArgs, separated, dotted, writtenArray, writtenBehind, written] using this

/-! ## Examples -/

instance (c : Char) : Decidable (IsDigit c) := by unfold IsDigit; infer_instance
instance (c : Char) : Decidable (IsLetter c) := by unfold IsLetter; infer_instance
instance (c : Char) : Decidable (IsWordChar c) := by unfold IsWordChar; infer_instance

/-- `IsName`, to be evaluated. -/
def nameCheck (w : List Char) : Bool :=
  (match w with
    | [] => false
    | c :: cs => decide (IsLetter c) && cs.all fun d => decide (IsWordChar d)) &&
  signTexts.all (fun p => w != p.2.toList) && otherWords.all (fun s => w != s.toList) &&
  w != "true".toList && w != "false".toList

theorem name_of_check {w : List Char} (h : nameCheck w = true) : IsName w := by
  simp only [nameCheck, Bool.and_eq_true, List.all_eq_true, bne_iff_ne, ne_eq] at h
  obtain ⟨⟨⟨⟨h1, h2⟩, h3⟩, h4⟩, h5⟩ := h
  refine ⟨?_, h2, h3, h4, h5⟩
  cases w with
  | nil => cases h1
  | cons c cs =>
    simp only [Bool.and_eq_true, decide_eq_true_eq, List.all_eq_true] at h1
    exact ⟨c, cs, rfl, h1⟩

/-- `Spells` for signs, words, names and numbers of one digit or `10`, to be evaluated. -/
def spellCheck (p : Token × List Char) : Bool :=
  signTexts.any (fun q => decide (q.1 = p.1 ∧ q.2.toList = p.2)) ||
  otherWords.any (fun s => decide (p.1 = .other s ∧ s.toList = p.2)) ||
  (decide (p.1 = .id (String.ofList p.2)) && nameCheck p.2) ||
  [[0], [1], [2], [3], [4], [5], [6], [7], [8], [9], [1, 0]].any fun ds =>
    decide (p.1 = .lit .decimal p.2 ∧ ds.map (digitChar false) = p.2)

theorem spells_of_check {p : Token × List Char} (h : spellCheck p = true) : Spells p.1 p.2 := by
  obtain ⟨t, w⟩ := p
  simp only [spellCheck, Bool.or_eq_true, List.any_eq_true, decide_eq_true_eq, Bool.and_eq_true] at h
  rcases h with ((⟨q, hq, rfl, rfl⟩ | ⟨s, hs, rfl, rfl⟩) | ⟨rfl, h⟩) | ⟨ds, hds, rfl, rfl⟩
  · exact .sign hq
  · exact .word hs
  · exact .name (name_of_check h)
  · refine .lit ⟨.decimal ds, ?_, rfl, rfl⟩
    have : ∀ ds ∈ [[0], [1], [2], [3], [4], [5], [6], [7], [8], [9], [1, 0]],
        ds ≠ [] ∧ (∀ d ∈ ds, d < 10) ∧ (ds.head? = some 0 → ds = [0]) := by decide
    exact this ds hds

/-- No token goes on with a blank. -/
theorem apart_blank (w rest : List Char) : Apart w (' ' :: rest) := by
  have blank : ¬IsWordChar ' ' ∧ ¬IsDigit ' ' := by decide
  rintro (⟨_, _, h⟩ | ⟨_, h⟩ | ⟨_, h⟩ | ⟨p, hp, h⟩ | h | h)
  · exact blank.1 h
  · exact blank.2 h
  · cases h
  · have : ∀ p ∈ signTexts, p.2.toList.getLast? ≠ some ' ' := by decide +kernel
    refine this p hp ?_
    rw [← h]
    simp
  · have := congrArg List.getLast? h; simp at this
  · have := congrArg List.getLast? h; simp at this

/-- Tokens with a blank behind each of them. -/
theorem tokens_spaced (ps : List (Token × List Char)) (h : ∀ p ∈ ps, Spells p.1 p.2) :
    Tokens (ps.flatMap fun p => p.2 ++ [' ']) (ps.map Prod.fst) := by
  induction ps with
  | nil => exact .nil
  | cons p ps ih =>
    have hp := h p (by simp)
    simp only [List.flatMap_cons, List.map_cons, List.append_assoc]
    exact .token hp (apart_blank _ _) (.blank (by simp) (ih fun q hq => h q (by simp [hq])))

/-- The text of the package of the example of C78. -/
def packChars : List Char :=
  "package demo ; ".toList ++
  "struct Outer { uint8 a ; Inner ( a ) items [ a ] ; Color color ; Pick ( a ) pick ; bit < a > d if a < 10 ; } ; ".toList ++
  "choice Pick ( uint8 k ) on k { case 1 : uint8 x ; case 2 : case 3 : Inner ( k ) y ; } ; ".toList ++
  "enum uint8 Color { RED , BLUE = 5 } ; ".toList ++
  "struct Inner ( uint8 n ) { uint16 c [ n ] ; } ; ".toList

/-- The characters of a token. -/
def tokenChars : Token → List Char
  | .id s | .other s => s.toList
  | .lit _ w => w
  | t => ((signTexts.find? fun p => p.1 = t).map (·.2.toList)).getD []

/-- The tokens of `packChars`. -/
def packTokens : List Token :=
  writtenName packText.name ++ packText.directives.flatMap writtenDirective

theorem pack_written : FileWritten packText packChars := by
  refine ⟨packTokens, ?_, ?_⟩
  · have h := tokens_spaced (packTokens.map fun t => (t, tokenChars t)) (fun p hp => spells_of_check (by
      revert p; decide +kernel))
    have e1 : (packTokens.map fun t => (t, tokenChars t)).flatMap (fun p => p.2 ++ [' ']) = packChars := by
      decide +kernel
    have e2 : (packTokens.map fun t => (t, tokenChars t)).map Prod.fst = packTokens := by simp [Function.comp_def]
    rwa [e1, e2] at h
  · refine ⟨_, .cons (.plain _ (by simp)) (.cons (.plain _ (by simp)) (.cons (.plain _ (by simp))
      (.cons (.plain _ (by simp)) .nil))), ?_⟩
    simp [packTokens, packText, writtenVersion]

theorem pack_fileOk : FileOk true packText := by
  have hn : OptionOk none := fun _ h => by cases h
  have h8 : TypeOk (.builtin "uint8") := by simp [TypeOk, builtinNames]
  have hN : ∀ x, TypeOk (.named x [] []) := by simp [TypeOk, TypesOk]
  have plain : ∀ t x, InstOk true t → ¬Templated t.type → FieldOk true (textField t x) := fun t x ht _ =>
    ⟨hn, hn, ⟨ht, nofun⟩, hn, hn, hn, fun _ _ _ e h => by cases h⟩
  refine ⟨nofun, nofun, ?_⟩
  intro d hd
  simp only [packText, List.mem_cons, List.not_mem_nil, or_false] at hd
  rcases hd with rfl | rfl | rfl | rfl
  · refine ⟨nofun, ?_, nofun⟩
    intro f hf
    simp only [packOuter, List.mem_cons, List.not_mem_nil, or_false] at hf
    rcases hf with rfl | rfl | rfl | rfl | rfl
    · exact plain _ _ ⟨h8, trivial⟩ id
    · refine ⟨hn, hn, ⟨⟨hN _, trivial, nofun⟩, ?_⟩, hn, hn, hn, fun _ _ _ e h => by cases h⟩
      intro e he
      cases he
      trivial
    · exact plain _ _ ⟨hN _, trivial⟩ id
    · exact plain _ _ ⟨hN _, trivial, nofun⟩ id
    · refine ⟨hn, hn, ⟨⟨(by simp [TypeOk, builtinNames] : TypeOk (.builtin "bit")), trivial, fun _ => ⟨_, rfl⟩⟩, nofun⟩, hn, ?_, hn,
        fun _ _ _ e h => by cases h⟩
      intro e he
      cases he
      exact ⟨(by decide : 0 ≤ 3 + group .lt), (by decide : 0 < 3 + group .lt), trivial, trivial⟩
  · refine ⟨by simp [packPick], ?_, trivial, ?_, nofun, nofun⟩
    · intro p hp
      cases List.mem_singleton.1 hp
      exact h8
    · intro c hc
      simp only [packPick, List.mem_cons, List.not_mem_nil, or_false] at hc
      rcases hc with rfl | rfl
      · refine ⟨by simp, by simp [Bracketed], ?_⟩
        intro f hf
        cases hf
        exact ⟨⟨⟨h8, trivial⟩, nofun⟩, hn⟩
      · refine ⟨by simp, by simp [Bracketed], ?_⟩
        intro f hf
        cases hf
        exact ⟨⟨⟨hN _, trivial, nofun⟩, nofun⟩, hn⟩
  · refine ⟨⟨h8, trivial⟩, by simp [packColor], ?_⟩
    intro i hi
    simp only [packColor, List.mem_cons, List.not_mem_nil, or_false] at hi
    rcases hi with rfl | rfl
    · exact hn
    · intro e he
      cases he
      trivial
  · refine ⟨?_, ?_, nofun⟩
    · intro p hp
      cases List.mem_singleton.1 hp
      exact h8
    · intro f hf
      cases List.mem_singleton.1 hf
      refine ⟨hn, hn, ⟨⟨by simp [packArray, TypeOk, builtinNames], trivial⟩, ?_⟩, hn, hn, hn, fun _ _ _ e h => by cases h⟩
      intro e he
      cases he
      trivial

/-- The hypotheses of `C84_characters_partial` hold for a file with structures, a choice and an enumeration. -/
example : fileOfText packChars = some packText := C84_characters_partial packText pack_fileOk _ pack_written

/-- `package a.b; import c.*; struct S<T> { T x[]; };` -/
example : parseFile [.other "package", .id "a", .dot, .id "b", .other ";", .other "import", .id "c", .dot, .multiply,
      .other ";", .other "struct", .id "S", .lt, .id "T", .gt, .other "{", .id "T", .id "x", .lbracket, .rbracket,
      .other ";", .other "}", .other ";"] =
    some ⟨none, some ["a", "b"], [⟨"c", [], true⟩], [.struct ⟨"S", ["T"], [],
      [⟨none, none, false, false, ⟨false, false, ⟨.named "T" [] [], .none⟩, "x", some none⟩, none, none, none⟩], []⟩]⟩ := rfl

end Zs
