import Verif.ParserLemmas

/-!
# C79: the parser reads expressions as they are written
-/

namespace Zs

open Src Spec

/-- **C79** The parser reads every expression that is written with parentheses around operands that bind more loosely,
up to the first token that is no operator, and the tree is that of the expression. -/
theorem C79_reads (e : Exp) (he : Bracketed e) (rest : List Token) (hr : NoOperator rest) :
    parseExpression (written e ++ rest) = some (e, rest) := by
  have hs : ∀ p, Stops p rest := fun p => stops_of_none (by
    cases rest with
    | nil => rfl
    | cons t ts => cases t <;> first | rfl | exact hr.elim)
  exact (written_parses e he 0 rest (e, rest) (by omega) (hs _) (.stop (hs _))).enough (Nat.le_refl _)

/-- **C79** The parser reads nothing else: the tree has the tokens that were read, and operators bind as in C. -/
theorem C79_only (ts : List Token) (e : Exp) (rest : List Token) (h : parseExpression ts = some (e, rest)) :
    ts = written e ++ rest ∧ Bracketed e := by
  obtain ⟨h1, h2, _⟩ := (read_sound _).1 0 ts e rest (by omega) h
  exact ⟨h1, h2⟩

/-- **C79** Tokens are the text of at most one expression. -/
theorem C79_unambiguous (a b : Exp) (ha : Bracketed a) (hb : Bracketed b) (h : written a = written b) : a = b := by
  have h1 := C79_reads a ha [] trivial
  have h2 := C79_reads b hb [] trivial
  simp only [List.append_nil] at h1 h2
  rw [h, h2] at h1
  simp only [Option.some.injEq, Prod.mk.injEq, and_true] at h1
  exact h1.symm

/-- **C79** The bound on nested calls in the model is no restriction. -/
theorem C79_calls (n : Nat) (ts : List Token) (r : Exp × List Token) (h : expressionRec n 0 ts = some r) :
    parseExpression ts = some r :=
  ((calls n).1 0 ts r h).2 _ (Nat.le_refl _)

/-- `a + b * -c.d >> 2 < x ? y : f() ? 1 : v[3] ;` -/
def exampleExp : Exp :=
  .ternary
    (.binary .lt
      (.binary .shr (.binary .add (.id "a") (.binary .mul (.id "b") (.unary .minus (.dot (.id "c") "d"))))
        (.lit .decimal ['2']))
      (.id "x"))
    (.id "y")
    (.ternary (.call (.id "f")) (.lit .decimal ['1']) (.elem (.id "v") (.lit .decimal ['3'])))

theorem exampleExp_bracketed : Bracketed exampleExp := by
  simp only [exampleExp, Bracketed, and_true, true_and]
  decide

example : parseExpression (written exampleExp ++ [.other ";"]) = some (exampleExp, [.other ";"]) :=
  C79_reads _ exampleExp_bracketed _ trivial

example : written exampleExp = [.id "a", .plus, .id "b", .multiply, .minus, .id "c", .dot, .id "d", .gt, .gt,
    .lit .decimal ['2'], .lt, .id "x", .question, .id "y", .colon, .id "f", .lparen, .rparen, .question,
    .lit .decimal ['1'], .colon, .id "v", .lbracket, .lit .decimal ['3'], .rbracket] := rfl

end Zs
