import Verif.Shared

/-! # Expressions depend on nothing but the names in them (used by C66) -/

namespace Zs

variable {fo : FloatOps}

namespace Spec

/-- The names that occur in an expression. -/
def names {F : Type} : Expr F → List String
  | .intLit _ | .boolLit _ | .strLit _ | .floatLit _ | .index => []
  | .ident name => [name]
  | .paren e | .call e | .dot e _ | .lengthof e | .valueof e | .numbits e | .plus e | .neg e | .not e
  | .compl e => names e
  | .elem a b | .isset a b | .cmp _ a b | .arith _ a b | .bit _ a b | .logic _ a b => names a ++ names b
  | .tern c a b => names c ++ (names a ++ names b)

/-- The scopes of two instances agree about an expression: every name in it means the same in both.
(What the members of a type are does not depend on the instance.) -/
structure AgreeOn {F : Type} (e : Expr F) (s s' : TScope) : Prop where
  ident : ∀ name ∈ names e, s.ident name = s'.ident name
  member : s.member = s'.member
  hasItem : s.hasItem = s'.hasItem

end Spec

open Spec

variable {s s' : TScope}

theorem Spec.AgreeOn.of {F : Type} {e e' : Expr F} (h : AgreeOn e s s')
    (hn : ∀ n ∈ names e', n ∈ names e) : AgreeOn e' s s' :=
  ⟨fun n hn' => h.ident n (hn n hn'), h.member, h.hasItem⟩

theorem symbol_agree {F : Type} {e : Expr F} (h : AgreeOn e s s') : e.symbol s = e.symbol s' := by
  induction e with
  | ident name => exact h.ident name (by simp [names])
  | dot e name ih =>
    simp only [Expr.symbol]
    rw [ih (h.of (by simp [names])), h.member]
  | _ => rfl

theorem erase_ident {name : String} (h : s.ident name = s'.ident name) :
    (s.erase (F := fo.F)).ident name = (s'.erase (F := fo.F)).ident name := by simp [TScope.erase, h]

theorem erase_member {e : Expr fo.F} (h : AgreeOn e s s') (name : String) :
    s.erase.member e name = s'.erase.member e name := by
  simp only [TScope.erase]
  rw [symbol_agree (e := .dot e name) (h.of (by simp [names]))]

theorem erase_result {e : Expr fo.F} (h : AgreeOn e s s') : s.erase.result e = s'.erase.result e := by
  simp only [TScope.erase]
  rw [symbol_agree h]

theorem erase_hasItem {e : Expr fo.F} (h : AgreeOn e s s') (name : String) :
    s.erase.hasItem e name = s'.erase.hasItem e name := by
  simp only [TScope.erase]
  rw [symbol_agree h, h.hasItem]

theorem evaluate_agree {md : Mode} {e : Expr fo.F} (h : AgreeOn e s s') :
    e.evaluate md s.erase = e.evaluate md s'.erase := by
  induction e with
  | intLit n => rfl
  | boolLit n => rfl
  | strLit n => rfl
  | floatLit n => rfl
  | index => rfl
  | ident name =>
    simp only [Expr.evaluate]; rw [erase_ident (h.ident name (by simp [names]))]
  | dot e name ih =>
    have he : AgreeOn e s s' := h.of (by simp [names])
    simp only [Expr.evaluate]; rw [ih he, erase_hasItem he, erase_member he]
  | call e ih =>
    have he : AgreeOn e s s' := h.of (by simp [names])
    simp only [Expr.evaluate]; rw [ih he, erase_result he]
  | tern c a b ihc iha ihb =>
    simp only [Expr.evaluate]
    rw [ihc (h.of (by simp +contextual [names])), iha (h.of (by simp +contextual [names])),
      ihb (h.of (by simp +contextual [names]))]
  | paren e ih | lengthof e ih | valueof e ih | numbits e ih | plus e ih | neg e ih | not e ih
  | compl e ih =>
    simp only [Expr.evaluate]; rw [ih (h.of (by simp [names]))]
  | elem a b iha ihb | isset a b iha ihb | cmp op a b iha ihb | arith op a b iha ihb
  | bit op a b iha ihb | logic op a b iha ihb =>
    simp only [Expr.evaluate]
    rw [iha (h.of (by simp +contextual [names])), ihb (h.of (by simp +contextual [names]))]

theorem resultType_agree {md : Mode} {e : Expr fo.F} (h : AgreeOn e s s') :
    e.resultType md s = e.resultType md s' := by
  induction e with
  | ident name => simp only [Expr.resultType]; rw [h.ident name (by simp [names])]
  | dot e name ih => simp only [Expr.resultType]; rw [symbol_agree h]
  | call e ih =>
    simp only [Expr.resultType]; rw [symbol_agree (e := e) (h.of (by simp [names]))]
  | paren e ih => simp only [Expr.resultType]; rw [ih (h.of (by simp [names]))]
  | tern c a b ihc iha ihb =>
    simp only [Expr.resultType]
    rw [evaluate_agree (e := c) (h.of (by simp +contextual [names])),
      iha (h.of (by simp +contextual [names])), ihb (h.of (by simp +contextual [names]))]
  | _ => rfl

theorem native_agree {md : Mode} {e : Expr fo.F} (h : AgreeOn e s s') :
    e.native md s = e.native md s' := by
  induction e with
  | intLit n => rfl
  | boolLit n => rfl
  | strLit n => rfl
  | floatLit n => rfl
  | index => rfl
  | ident name => simp only [Expr.native]; rw [h.ident name (by simp [names])]
  | dot e name ih =>
    simp only [Expr.native]
    rw [ih (h.of (by simp [names])), evaluate_agree (e := e) (h.of (by simp [names])), symbol_agree h]
  | call e ih =>
    have he : AgreeOn e s s' := h.of (by simp [names])
    simp only [Expr.native]; rw [ih he, symbol_agree he]
  | valueof e ih =>
    have he : AgreeOn e s s' := h.of (by simp [names])
    simp only [Expr.native]; rw [ih he, resultType_agree he]
  | tern c a b ihc iha ihb =>
    simp only [Expr.native]
    rw [ihc (h.of (by simp +contextual [names])), iha (h.of (by simp +contextual [names])),
      ihb (h.of (by simp +contextual [names]))]
  | paren e ih | lengthof e ih | numbits e ih | plus e ih | neg e ih | not e ih | compl e ih =>
    simp only [Expr.native]; rw [ih (h.of (by simp [names]))]
  | elem a b iha ihb | isset a b iha ihb | cmp op a b iha ihb
  | bit op a b iha ihb | logic op a b iha ihb =>
    simp only [Expr.native]
    rw [iha (h.of (by simp +contextual [names])), ihb (h.of (by simp +contextual [names]))]
  | arith op a b iha ihb =>
    have ha : AgreeOn a s s' := h.of (by simp +contextual [names])
    have hb : AgreeOn b s s' := h.of (by simp +contextual [names])
    simp only [Expr.native]
    rw [iha ha, ihb hb, evaluate_agree ha, evaluate_agree hb]

theorem symbolOf_agree {md : Mode} {e : Expr fo.F} (h : AgreeOn e s s') :
    e.symbolOf md s = e.symbolOf md s' := by
  induction e with
  | tern c a b ihc iha ihb =>
    simp only [Expr.symbolOf]
    rw [evaluate_agree (e := c) (h.of (by simp +contextual [names])),
      iha (h.of (by simp +contextual [names])), ihb (h.of (by simp +contextual [names]))]
  | _ => simp only [Expr.symbolOf]; exact symbol_agree h

theorem nativeOf_agree {md : Mode} {e : Expr fo.F} (h : AgreeOn e s s') :
    e.nativeOf md s = e.nativeOf md s' := by
  unfold Expr.nativeOf; rw [native_agree h]

theorem castTarget_agree {md : Mode} {e : Expr fo.F} (h : AgreeOn e s s') :
    e.castTarget md s = e.castTarget md s' := by
  unfold Expr.castTarget; rw [native_agree h, evaluate_agree h]

theorem text_agree {md : Mode} {e : Expr fo.F} (h : AgreeOn e s s') :
    e.text md s.erase (textInfo md s) = e.text md s'.erase (textInfo md s') := by
  induction e with
  | intLit n => rfl
  | boolLit n => rfl
  | strLit n => rfl
  | floatLit n => rfl
  | index => rfl
  | ident name => rfl
  | dot e name ih =>
    have he : AgreeOn e s s' := h.of (by simp [names])
    simp only [Expr.text]; rw [ih he, evaluate_agree he]
  | valueof e ih =>
    have he : AgreeOn e s s' := h.of (by simp [names])
    have h1 : (textInfo (fo := fo) md s).isBitmask e = (textInfo md s').isBitmask e := by
      simp only [textInfo, Expr.isBitmaskField]; rw [symbolOf_agree he]
    have h2 : (textInfo (fo := fo) md s).valueType e = (textInfo md s').valueType e := by
      simp only [textInfo]; rw [nativeOf_agree h]
    simp only [Expr.text]; rw [ih he, h1, h2]
  | tern c a b ihc iha ihb =>
    simp only [Expr.text]
    rw [ihc (h.of (by simp +contextual [names])), iha (h.of (by simp +contextual [names])),
      ihb (h.of (by simp +contextual [names]))]
  | paren e ih | call e ih | lengthof e ih | numbits e ih | plus e ih | neg e ih | not e ih
  | compl e ih =>
    simp only [Expr.text]; rw [ih (h.of (by simp [names]))]
  | elem a b iha ihb | isset a b iha ihb | cmp op a b iha ihb
  | bit op a b iha ihb | logic op a b iha ihb =>
    simp only [Expr.text]
    rw [iha (h.of (by simp +contextual [names])), ihb (h.of (by simp +contextual [names]))]
  | arith op a b iha ihb =>
    have ha : AgreeOn a s s' := h.of (by simp +contextual [names])
    have hb : AgreeOn b s s' := h.of (by simp +contextual [names])
    have h1 : (textInfo (fo := fo) md s).castLeft (.arith op a b) =
        (textInfo md s').castLeft (.arith op a b) := by
      simp only [textInfo]; rw [castTarget_agree h, nativeOf_agree ha]
    have h2 : (textInfo (fo := fo) md s).castRight (.arith op a b) =
        (textInfo md s').castRight (.arith op a b) := by
      simp only [textInfo]; rw [castTarget_agree h, nativeOf_agree hb]
    simp only [Expr.text]
    rw [iha ha, ihb hb, evaluate_agree h, h1, h2]

/-! ## Evaluation in several scopes -/

theorem evaluateInstances_some (md : Mode) (scopes : Nat → TScope) (e : Expr fo.F) (order : List Nat)
    (j : Nat) : evaluateInstances md scopes e order (some j) = .ok (some j) := by
  induction order with
  | nil => rfl
  | cons i rest ih => exact ih

theorem evaluateIn_none (md : Mode) (scopes : Nat → TScope) (e : Expr fo.F) (i : Nat) (c : Evaluated) :
    evaluateIn md scopes e i none = .ok c ↔
      ((∃ r, e.evaluate md (scopes i).erase = .ok r) ∧ ∃ n, e.native md (scopes i) = .ok n) ∧
        c = some i := by
  simp only [evaluateIn]
  cases h1 : e.evaluate md (scopes i).erase with
  | ok r =>
    cases h2 : e.native md (scopes i) with
    | ok n => simp [bind, Res.bind, eq_comm]
    | err x => simp [bind, Res.bind]
    | panic => simp [bind, Res.bind]
  | err x => simp [bind, Res.bind]
  | panic => simp [bind, Res.bind]

theorem evaluateOffsets_some (md : Mode) (scopes : Nat → TScope) (fields : List String) (e : Expr fo.F)
    (name : String) (hname : offsetName e = some name) (hf : name ∈ fields) (order : List Nat) (j : Nat)
    (marks : List (Nat × String)) :
    ∃ more, evaluateOffsets md scopes fields e order (some j, marks) = .ok (some j, more ++ marks) ∧
      ∀ m ∈ more, m = (j, name) := by
  induction order generalizing marks with
  | nil => exact ⟨[], rfl, by simp⟩
  | cons i rest ih =>
    obtain ⟨more, hm, hall⟩ := ih ((j, name) :: marks)
    refine ⟨more ++ [(j, name)], ?_, ?_⟩
    · have : evaluateOffset md scopes fields e i (some j, marks) = .ok (some j, (j, name) :: marks) := by
        simp [evaluateOffset, evaluateIn, bind, Res.bind, hname, hf]
      simp only [evaluateOffsets, this, bind, Res.bind, hm]
      simp
    · intro m hm'
      rcases List.mem_append.mp hm' with h | h
      · exact hall m h
      · simpa using h

end Zs
