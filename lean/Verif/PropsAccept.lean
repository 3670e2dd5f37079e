import Verif.AcceptLemmas
import Verif.PropsVisit

/-!
# C62: which files are represented

`C62`: every file that the grammar accepts is represented by the compiler, or refused with an error.
-/

namespace Zs

open Ast Spec

variable {fl : FloatText}

/-- The texts of all literals in the file come from the lexer. -/
def FileLexed (p : Src.Package) : Prop := ∀ d ∈ p.directives.flatMap demands, d.Lexed

/-- **C62.**  Exactly these files are represented: the package has a name, integers are below `2^31` and without
capital `X` or `B`, floats have no suffix, widths are below 256, alignments are decimal numbers below 256. -/
theorem C62_accepted_iff (p : Src.Package) (hl : FileLexed p) :
    (∃ q, visitPackage fl p = .ok q) ↔
      p.name ≠ none ∧ ∀ d ∈ p.directives, ∀ x ∈ demands d, x.Met := by
  cases hn : p.name with
  | none => simp [visitPackage, hn]
  | some n =>
    have h := decided_directives (fl := fl) p.directives
      { name := n, imports := p.imports.map visitImport, structs := Map.empty, choices := Map.empty,
        unions := Map.empty, enums := [], consts := [], subtypes := [], instantiated := [], bitmasks := [] } hl
    simp only [visitPackage, hn]
    rcases h with ⟨⟨q, hq⟩, hm⟩ | ⟨hp, d, hd, hnm⟩
    · simp only [hq, ne_eq, reduceCtorEq, not_false_eq_true, true_and]
      refine ⟨fun _ d hd x hx => hm x (List.mem_flatMap.2 ⟨d, hd, hx⟩), fun _ => ⟨q, rfl⟩⟩
    · simp only [hp, reduceCtorEq, exists_false, ne_eq, not_false_eq_true, true_and, false_iff]
      intro hall
      obtain ⟨a, ha, hda⟩ := List.mem_flatMap.1 hd
      exact hnm (hall a ha d hda)

/-- **C62.**  Every other file makes the compiler panic; none is refused with an error. -/
theorem C62_panics_violated (p : Src.Package) (hl : FileLexed p) :
    (∃ q, visitPackage fl p = .ok q) ∨ visitPackage fl p = .panic := by
  cases hn : p.name with
  | none => exact .inr (by simp [visitPackage, hn])
  | some n =>
    simp only [visitPackage, hn]
    rcases decided_directives (fl := fl) p.directives
      { name := n, imports := p.imports.map visitImport, structs := Map.empty, choices := Map.empty,
        unions := Map.empty, enums := [], consts := [], subtypes := [], instantiated := [], bitmasks := [] } hl with
      ⟨h, _⟩ | ⟨h, _⟩
    · exact .inl h
    · exact .inr h

/-- **C62.**  Whether a file is represented does not depend on the order of its declarations, nor on its imports. -/
theorem C62_order (p p' : Src.Package) (hl : FileLexed p) (hn : p.name = p'.name)
    (hp : p.directives.Perm p'.directives) :
    (∃ q, visitPackage fl p = .ok q) ↔ ∃ q, visitPackage fl p' = .ok q := by
  have hl' : FileLexed p' := by
    intro d hd
    obtain ⟨a, ha, hda⟩ := List.mem_flatMap.1 hd
    exact hl d (List.mem_flatMap.2 ⟨a, hp.mem_iff.2 ha, hda⟩)
  rw [C62_accepted_iff p hl, C62_accepted_iff p' hl', hn]
  refine and_congr_right fun _ => ⟨fun h d hd => h d (hp.mem_iff.2 hd), fun h d hd => h d (hp.mem_iff.1 hd)⟩

/-- **C62.**  A directory is loaded exactly if each of its files is represented. -/
theorem C62_directory_iff (ps : List Src.Package) (m : List String → Option (Ast.Package fl.F)) :
    (∃ m', loadModel fl m ps = .ok m') ↔ ∀ p ∈ ps, ∃ q, visitPackage fl p = .ok q := by
  induction ps generalizing m with
  | nil => simp [loadModel]
  | cons p ps ih =>
    simp only [loadModel, Res.bind_eq_ok, List.mem_cons, forall_eq_or_imp]
    constructor
    · rintro ⟨m', q, hq, h⟩
      exact ⟨⟨q, hq⟩, (ih _).1 ⟨m', h⟩⟩
    · rintro ⟨⟨q, hq⟩, h⟩
      obtain ⟨m', hm⟩ := (ih _).2 h
      exact ⟨m', q, hq, hm⟩

/-- **C62** (partial): a file in which the package has a name, every number is a decimal number below 256 and there
is no other literal than strings and booleans is represented.  Missing: other literals, see
`C62_accepted_iff`. -/
theorem C62_plain_partial (p : Src.Package) (n : List String) (hn : p.name = some n)
    (h : ∀ d ∈ p.directives, ∀ x ∈ demands d, match x with
      | .literal kind text | .align (.lit kind text) =>
        kind = .decimal ∧ (∃ l : IntLit, l.WellFormed ∧ l.kind = .decimal ∧ l.text = text ∧ l.value < 256)
      | .align _ => False
      | .width bits => bits < 256) :
    ∃ q, visitPackage fl p = .ok q := by
  have key : ∀ d ∈ p.directives, ∀ x ∈ demands d, x.Lexed ∧ x.Met := by
    intro d hd x hx
    have := h d hd x hx
    cases x with
    | literal kind text =>
      obtain ⟨rfl, l, hw, hk, ht, hv⟩ := this
      refine ⟨⟨l, hw, hk, ht⟩, l, hw, hk, ht, by omega, ?_⟩
      cases l <;> first | trivial | cases hk
    | width bits => exact ⟨trivial, this⟩
    | align e =>
      cases e with
      | lit kind text =>
        obtain ⟨rfl, l, hw, hk, rfl, hv⟩ := this
        exact ⟨⟨l, hw, hk, rfl⟩, l, hw, hk, rfl, hv⟩
      | _ => exact this.elim
  refine (C62_accepted_iff p ?_).2 ⟨by simp [hn], fun d hd x hx => (key d hd x hx).2⟩
  intro x hx
  obtain ⟨d, hd, hxd⟩ := List.mem_flatMap.1 hx
  exact (key d hd x hxd).1

/-- A file with a number in an alignment, one in an expression and one in a width. -/
def plainFile : Src.Package :=
  exampleFile ["a"] [.struct exampleStruct, .subtype ⟨.fixedBits false 12, "B"⟩]

theorem decimal_literal (n : Nat) (h : n < 10) : (IntLit.decimal [n]).WellFormed ∧
    (IntLit.decimal [n]).text = [digitChar false n] ∧ (IntLit.decimal [n]).value = n := by
  refine ⟨⟨by simp, by simpa using h, ?_⟩, rfl, by simp [IntLit.value, digitsValue]⟩
  intro h0
  simp only [List.head?_cons, Option.some.injEq] at h0
  rw [h0]

example : (∃ q, visitPackage noFloat plainFile = .ok q) ∧ FileLexed plainFile ∧
    (plainFile.directives.flatMap demands).length = 3 := by
  have hd : plainFile.directives.flatMap demands =
      [.align (.lit .decimal "8".toList), .literal .decimal "1".toList, .width 12] := by
    with_unfolding_all rfl
  have h8 := decimal_literal 8 (by omega)
  have h1 := decimal_literal 1 (by omega)
  refine ⟨C62_plain_partial plainFile ["a"] rfl ?_, ?_, by rw [hd]; rfl⟩
  · intro d hm x hx
    have := List.mem_flatMap.2 ⟨d, hm, hx⟩
    rw [hd] at this
    simp only [List.mem_cons, List.not_mem_nil, or_false] at this
    rcases this with rfl | rfl | rfl
    · exact ⟨rfl, _, h8.1, rfl, h8.2.1, by rw [h8.2.2]; omega⟩
    · exact ⟨rfl, _, h1.1, rfl, h1.2.1, by rw [h1.2.2]; omega⟩
    · show 12 < 256; omega
  · intro x hx
    rw [hd] at hx
    simp only [List.mem_cons, List.not_mem_nil, or_false] at hx
    rcases hx with rfl | rfl | rfl
    · exact ⟨_, h8.1, rfl, h8.2.1⟩
    · exact ⟨_, h1.1, rfl, h1.2.1⟩
    · trivial

/-- A file with one constant. -/
def constFile (kind : LitKind) (text : String) : Src.Package :=
  exampleFile ["a"] [.const ⟨⟨.builtin "uint32", .none⟩, "N", .lit kind text.toList⟩]

/-- A file with one field that has an alignment. -/
def alignFile (e : Src.Exp) : Src.Package :=
  exampleFile ["a"] [.struct ⟨"S", [], [], [{ exampleField with align := some e }], []⟩]

/-- **C62 is violated** by files that are correct: the compiler panics for `4294967295`, `0XFF` and `1.5f`, for
`align(0x8)`, `align((8))` and `align(N)`, whatever the constant `N` is, and for a file without package name. -/
theorem C62_accepted_violated :
    visitPackage fl (constFile .decimal "4294967295") = .panic ∧
    visitPackage fl (constFile .hexadecimal "0XFF") = .panic ∧
    visitPackage fl (constFile .float "1.5f") = .panic ∧
    (∀ e, (¬∃ text, e = .lit .decimal text) → visitPackage fl (alignFile e) = .panic) ∧
    (∀ p : Src.Package, p.name = none → visitPackage fl p = .panic) := by
  have const : ∀ kind text, literalValue fl kind text.toList = .panic →
      visitPackage fl (constFile kind text) = .panic := by
    intro kind text h
    have hv : visitExp fl (.lit kind text.toList) = .panic := by simp only [visitExp, h]; rfl
    have hi : visitInst fl ⟨.builtin "uint32", .none⟩ = .ok (.mk true [] "uint32" 0 [] [] none) := rfl
    simp only [visitPackage, constFile, exampleFile, addDirectives, addDirective, visitConst, hv, hi, Res.ok_bind]
    rfl
  have int : ∀ l : IntLit, l.WellFormed → ¬l.Understood → literalValue fl l.kind l.text = .panic := by
    intro l hw hu
    rw [integer_value fl l hw, if_neg hu]
  refine ⟨const _ _ ?_, const _ _ ?_, const _ _ ?_, ?_, fun p h => by simp [visitPackage, h]⟩
  · exact int (.decimal [4, 2, 9, 4, 9, 6, 7, 2, 9, 5]) ⟨by simp, by decide, by decide⟩ (by decide)
  · exact int (.hexadecimal true [(15, true), (15, true)]) ⟨by simp, by decide⟩ (by decide)
  · rcases decided_literal (fl := fl) .float "1.5f".toList (by
      intro d hd
      rw [List.mem_singleton.1 hd]
      exact ⟨⟨[1], some [5], none⟩, 'f', by simp [FloatLit.WellFormed], .inl rfl, by decide⟩) with ⟨_, h⟩ | ⟨h, _⟩
    · exact (h _ (List.mem_singleton.2 rfl)).elim
    · exact h
  · intro e he
    have ha := visitAlignment_other (fl := fl) he
    have hf : ∃ x, visitFieldTypeId fl exampleField.typeId = .ok x := ⟨_, rfl⟩
    obtain ⟨x, hx⟩ := hf
    simp only [visitPackage, alignFile, exampleFile, addDirectives, addDirective, visitStruct, visitList,
      visitStructField, hx, Res.ok_bind, visitOption, ha]
    rfl

end Zs
