import Verif.PlaceText
import Verif.PropsText
import Verif.SourceSpec
import Verif.TextSpec
import Verif.ParserSpec
import Verif.PropsSource

/-!
# Properties of the texts that are emitted for the expressions of a field (C90)

The proofs of C71 to C89 run the Rust expressions `conditionCode`, `lengthCode`, `bitsCode` and `argumentCode`, which are
trees.  The generator emits texts.  Here: Rust reads these texts as these trees.
-/

namespace Zs

open Src Spec

variable {fo : FloatOps}

/-! ## Trees from the parser -/

theorem group_level (op : Src.BinOp) (x y : Expr fo.F) :
    (binaryMeans op x y).level = 10 - group op ∧ group op ≤ 9 := by
  cases op <;> exact ⟨rfl, by decide⟩

theorem stands_level {round : List Char → fo.F} {known : List String} {e : Exp} {x : Expr fo.F}
    (h : Stands round known e x) : x.level = min 12 (13 - looseness e) := by
  cases h with
  | @unary op => cases op <;> rfl
  | @binary op a b x y =>
    have := group_level op x y
    simp only [this.1, looseness]
    omega
  | _ => rfl

/-- **C90** What the parser reads and the compiler translates is grouped by the levels of the operators: the hypothesis of
C47. -/
theorem C90_parsed (round : List Char → fo.F) (known : List String) (e : Exp) (x : Expr fo.F) (hb : Bracketed e)
    (h : Stands round known e x) : x.Parsed := by
  induction h with
  | paren _ ih | lengthof _ ih | valueof _ ih | numbits _ ih => exact ih hb
  | elem h1 _ ih1 ih2 =>
    refine ⟨ih1 hb.2.1, ?_, ih2 hb.2.2⟩
    have := hb.1
    rw [stands_level h1]
    omega
  | isset _ _ ih1 ih2 => exact ⟨ih1 hb.1, ih2 hb.2⟩
  | @unary op e x h1 ih =>
    have h2 : 11 ≤ x.level := by
      have := hb.1
      rw [stands_level h1]
      omega
    cases op <;> exact ⟨ih hb.2, h2⟩
  | @binary op a b x y h1 h2 ih1 ih2 =>
    obtain ⟨b1, b2, b3, b4⟩ := hb
    have hl := group_level op x y
    have l1 : (binaryMeans op x y).level ≤ x.level := by
      rw [stands_level h1, hl.1]
      omega
    have l2 : (binaryMeans op x y).level < y.level := by
      rw [stands_level h2, hl.1]
      omega
    cases op <;> exact ⟨ih1 b3, ih2 b4, l1, l2⟩
  | ternary h1 _ _ ih1 ih2 ih3 =>
    refine ⟨ih1 hb.2.1, ih2 hb.2.2.1, ih3 hb.2.2.2, ?_⟩
    have := hb.1
    rw [stands_level h1]
    simp only [groups, List.length_cons, List.length_nil] at this
    omega
  | dot h1 ih =>
    refine ⟨ih hb.2, ?_⟩
    have := hb.1
    rw [stands_level h1]
    omega
  | call _ => exact ⟨trivial, by simp [Expr.level]⟩
  | method h1 ih =>
    refine ⟨⟨ih hb.2.2, ?_⟩, by simp [Expr.level]⟩
    have := hb.2.1
    rw [stands_level h1]
    omega
  | _ => trivial

/-! ## The places of expressions -/

/-- The expression has passed the type check of the compiler. -/
abbrev Checked (md : Mode) (sc : TScope) (e : Expr fo.F) : Prop := ∃ c r, e.evaluate md sc.erase = .ok (c, r)

/-- **C90** The condition of a field is read as it is meant. -/
theorem C90_condition (md : Mode) (sc : TScope) (f : Written fo.F) (hacc : f.Accepts md sc) (e : Expr fo.F)
    (he : f.clause = some e) (hp : e.Parsed) (hc : Checked md sc e) (ts : List (Tok fo.F))
    (ht : conditionText md sc e = some ts) : ReadsAs ts (conditionCode md sc e) := by
  obtain ⟨c, r, hev⟩ := hc
  have hs := hacc.separable e (.inl he)
  obtain ⟨us, hu, rfl⟩ := Option.map_eq_some_iff.1 ht
  have plain := C47_grouping_partial md sc.erase (textInfo md sc) e hp hs _ hev us hu
  unfold conditionCode
  rw [hev]
  cases c with
  | int n => exact C47_conditions_partial md sc.erase (textInfo md sc) e hp hs _ r hev rfl us hu
  | bitmask => exact C47_conditions_partial md sc.erase (textInfo md sc) e hp hs _ r hev rfl us hu
  | _ => exact plain

theorem reads_paren_cast {md : Mode} {sc : TScope} {e : Expr fo.F} (hp : e.Parsed) (hs : e.Separable (textInfo md sc))
    (hc : Checked md sc e) {us : List (Tok fo.F)} (hu : e.text md sc.erase (textInfo md sc) = some us) (ty : String) :
    ReadsAs ([.lpar] ++ us ++ [.rpar] ++ [.as ty]) (.cast (.paren (code md sc e)) ty) := by
  obtain ⟨c, r, hev⟩ := hc
  have hg := good_cast (readsPost_paren (text_good md sc.erase (textInfo md sc) e us _ hp hs hev hu)).unary ty
  obtain ⟨n, hn⟩ := hg.closed [] trivial
  exact ⟨n, fun m hm => by simpa using hn m hm⟩

/-- **C90** The length of an array is read as it is meant. -/
theorem C90_length (md : Mode) (sc : TScope) (f : Written fo.F) (hacc : f.Accepts md sc) (p : Bool) (e : Expr fo.F)
    (he : f.array = some (p, some e)) (hp : e.Parsed) (hc : Checked md sc e) (ts : List (Tok fo.F))
    (ht : lengthText md sc e = some ts) : ReadsAs ts (lengthCode md sc e) := by
  obtain ⟨us, hu, rfl⟩ := Option.map_eq_some_iff.1 ht
  exact reads_paren_cast hp (hacc.separable e (.inr (.inl ⟨p, he⟩))) hc hu "usize"

/-- **C90** The number of bits of `bit<e>` and `int<e>` is read as it is meant. -/
theorem C90_bits (md : Mode) (sc : TScope) (f : Written fo.F) (hacc : f.Accepts md sc) (e : Expr fo.F)
    (he : f.ty = .bit e ∨ f.ty = .int e) (hp : e.Parsed) (hc : Checked md sc e) (ts : List (Tok fo.F))
    (ht : bitsText md sc e = some ts) : ReadsAs ts (bitsCode md sc e) := by
  have hs := hacc.separable e (.inr (.inr (.inl he)))
  obtain ⟨us, hu, rfl⟩ := Option.map_eq_some_iff.1 ht
  have cast := reads_paren_cast hp hs hc hu "u8"
  obtain ⟨c, r, hev⟩ := hc
  have plain := C47_grouping_partial md sc.erase (textInfo md sc) e hp hs _ hev us hu
  unfold bitsCode
  cases e.nativeOf md sc with
  | none => exact plain
  | some r =>
    by_cases h : r.name = .uint8
    · simpa only [if_pos h] using plain
    · simpa only [if_neg h] using cast

/-- **C90** An argument, with `.clone()` and `as T` behind it, is read by the reader as it is meant. -/
theorem C90_argument (md : Mode) (sc : TScope) (f : Written fo.F) (hacc : f.Accepts md sc) (p : ParamTy) (e : Expr fo.F)
    (he : (p, e) ∈ f.args) (hp : e.Parsed) (hc : Checked md sc e) (ts : List (Tok fo.F))
    (ht : argumentText md sc.erase (textInfo md sc) (argumentCast md sc p.ty e) e = some ts) :
    ReadsAs ts (argumentCode md sc p.ty e) := by
  obtain ⟨c, r, hev⟩ := hc
  obtain ⟨u1, u2, u3⟩ := hacc.units p e he
  have reads := fun cast ht => C47_arguments_partial md sc.erase (textInfo md sc) cast e hp
    (hacc.separable e (.inr (.inr (.inr ⟨p, he⟩)))) c r hev u1 u2 u3 ts ht
  unfold argumentCode
  unfold argumentCast at ht
  rw [hev]
  cases hcast : e.castTarget md sc with
  | none =>
    rw [hcast] at ht
    have := reads _ ht
    cases r <;> exact this
  | some t =>
    rw [hcast] at ht
    simp only at ht ⊢
    by_cases h : p.ty.rustName ≠ t.name.rustName
    · rw [if_pos h] at ht ⊢
      have := reads _ ht
      cases r <;> exact this
    · rw [if_neg h] at ht ⊢
      have := reads _ ht
      cases r <;> exact this

/-- **C90** The assertion of the writer compares the parameter with the value of the argument. -/
theorem C90_assertion (md : Mode) (sc : TScope) (f : Written fo.F) (hacc : f.Accepts md sc) (p : ParamTy) (e : Expr fo.F)
    (he : (p, e) ∈ f.args) (hp : e.Parsed) (hc : Checked md sc e) (place name : String) (ts : List (Tok fo.F))
    (ht : assertText md sc p.ty place name e = some ts) :
    ReadsAs ts (.bin (.cmp .eq) (.field (.atom (.name place)) name) (match argumentCast md sc p.ty e with
      | none => code md sc e
      | some ty => .cast (code md sc e) ty)) := by
  obtain ⟨c, r, hev⟩ := hc
  obtain ⟨u1, u2, u3⟩ := hacc.units p e he
  obtain ⟨us, hu, rfl⟩ := Option.map_eq_some_iff.1 ht
  have hg := text_good md sc.erase (textInfo md sc) e us _ hp (hacc.separable e (.inr (.inr (.inr ⟨p, he⟩)))) hev hu
  have h13 := rustLevel_atom e u1 u2 u3
  have left : Good [.atom (.name place), .dot name] (.field (.atom (.name place)) name : RExpr fo.F) 13 false :=
    ((readsPost_atom (.name place)).field name).good _ _
  have read : ∀ (vs : List (Tok fo.F)) v L ec, 4 < L → Good vs v L ec →
      ReadsAs ([.atom (.name place), .dot name] ++ [.op (.cmp .eq)] ++ vs)
        (.bin (.cmp .eq) (.field (.atom (.name place)) name) v) := by
    intro vs v L ec hL h
    obtain ⟨n, hn⟩ := (good_bin (.cmp .eq) left h (by decide) hL (by simp) (by simp)).closed [] trivial
    exact ⟨n, fun m hm => by simpa using hn m hm⟩
  cases argumentCast md sc p.ty e with
  | none => simpa using read us _ _ _ (by omega) hg
  | some ty => exact read _ _ _ _ (by decide) (good_cast (hg.unary (by omega)) ty)

/-- `uint16 c[a + b]` and `bit<a> d if a < 10`. -/
example : ∃ f ∈ sourceStruct.fields, ∃ g ∈ sourceStruct.fields, f.Accepts .debug sourceScope ∧ g.Accepts .debug sourceScope ∧
    f.array = some (false, some (.arith .add (.ident "a") (.ident "b"))) ∧
    lengthText .debug sourceScope (.arith .add (.ident "a") (.ident "b") : Expr tenths.F) =
      some [.lpar, .atom (.name "a"), .op (.arith .add), .atom (.name "b"), .rpar, .as "usize"] ∧
    Checked .debug sourceScope (.arith .add (.ident "a") (.ident "b") : Expr tenths.F) ∧
    g.clause = some (.cmp .lt (.ident "a") (.intLit 10)) ∧ g.ty = .bit (.ident "a") ∧
    conditionText .debug sourceScope (.cmp .lt (.ident "a") (.intLit 10) : Expr tenths.F) =
      some [.atom (.name "a"), .op (.cmp .lt), .atom (.int 10)] ∧
    Checked .debug sourceScope (.cmp .lt (.ident "a") (.intLit 10) : Expr tenths.F) ∧
    bitsText .debug sourceScope (.ident "a" : Expr tenths.F) = some [.atom (.name "a")] :=
  ⟨sourceStruct.fields[2], by simp [sourceStruct, WrittenType.fields], sourceStruct.fields[3],
    by simp [sourceStruct, WrittenType.fields], sourceStruct_accepts _ (by simp [sourceStruct, WrittenType.fields]),
    sourceStruct_accepts _ (by simp [sourceStruct, WrittenType.fields]), rfl, rfl, ⟨_, _, rfl⟩, rfl, rfl, rfl, ⟨_, _, rfl⟩, rfl⟩

/-- A field with the argument `a`, for a parameter `uint32`. -/
def passField : Written tenths.F := { ty := .plain (.scalar (.uint 8)), args := [(.num .uint32, .ident "a")] }

example : passField.Accepts .debug sourceScope ∧ Checked .debug sourceScope (.ident "a" : Expr tenths.F) ∧
    argumentText .debug sourceScope.erase (textInfo .debug sourceScope)
      (argumentCast .debug sourceScope (.num .uint32) (.ident "a" : Expr tenths.F)) (.ident "a" : Expr tenths.F) =
      some [.atom (.name "a"), .dot "clone", .lpar, .rpar, .as "u32"] ∧
    assertText .debug sourceScope (.num .uint32) "element" "n" (.ident "a" : Expr tenths.F) =
      some [.atom (.name "element"), .dot "n", .op (.cmp .eq), .atom (.name "a"), .as "u32"] := by
  refine ⟨?_, ⟨_, _, rfl⟩, rfl, rfl⟩
  constructor <;> simp [passField, Written.Mentions, Expr.Separable, Expr.Unit, Expr.level, Expr.isIsset, Expr.isValueof]
  exact ⟨rfl, .int ⟨false, 8⟩, ⟨.int ⟨false, 8⟩, rfl, rfl⟩, .inr (.inl ⟨trivial, trivial⟩)⟩

/-! ## Violations -/

/-- A scope with the booleans `x` and `y`, and with an object `e` that has the parameter `b`. -/
def boolScope : TScope where
  ident := fun n => if n = "x" ∨ n = "y" then some ⟨.bool, .plain⟩ else if n = "e" then some ⟨.compound "E", .plain⟩ else none
  member := fun id n => if id = "E" ∧ n = "b" then some ⟨.bool, .plain⟩ else none
  hasItem := fun _ _ => false
  index := false

/-- All of them are `false`. -/
def boolWorld (F : Type) : World F Unit where
  name := fun n => if n = "x" ∨ n = "y" then some (.bool false) else if n = "e" then some (.object ()) else none
  func := fun _ => none
  member := fun _ n => if n = "b" then some (.bool false) else none
  method := fun _ _ => none
  item := fun _ _ => none
  index := none
  isA := fun _ id => id = "E"

/-- **C90** The code violates this where an argument is no unit: for the parameter `b` and the argument `x && y`, the
assertion is read as `(e.b == x) && y`.  If `x`, `y` and `b` are `false`, the parameter has the value of the argument,
but the assertion does not hold. -/
theorem C90_assertion_violated (md build : Mode) :
    ∃ ts t, assertText md boolScope .bool "e" "b" (.logic .and (.ident "x") (.ident "y") : Expr fo.F) = some ts ∧
      ReadsAs ts t ∧ (boolWorld fo.F).member () "b" = means (boolWorld fo.F) (.logic .and (.ident "x") (.ident "y")) ∧
      Evals (boolWorld fo.F) (rscope boolScope) build t .bool (.ok (.bool false)) := by
  refine ⟨_, .bin (.logic .and) (.bin (.cmp .eq) (.field (.atom (.name "e")) "b") (.atom (.name "x")))
    (.atom (.name "y")), rfl, ⟨20, fun m hm => ?_⟩, rfl, ?_⟩
  · obtain ⟨k, rfl⟩ : ∃ k, m = k + 20 := ⟨m - 20, by omega⟩
    rfl
  · refine ⟨.ok (.bool true), ⟨.bool, .bool, ⟨⟨"E", rfl, rfl⟩, rfl, by simp [RTy.Comparable], fun h => ?_⟩, .ok (.bool false),
      ⟨"E", rfl, .ok (.object ()), ⟨_, rfl, rfl⟩, (), _, rfl, rfl, rfl⟩, .ok (.bool false), ⟨_, rfl, rfl⟩, true, rfl, ?_⟩,
      true, rfl, ⟨_, rfl, rfl⟩⟩
    · obtain ⟨id, h1, h2⟩ := h
      cases h1
      cases h2
    · intro c hc
      cases hc
      rfl

/-- **C90** ... and for the argument `x == y` the assertion is no Rust: comparisons cannot be chained. -/
theorem C90_comparison_violated (md : Mode) :
    ∃ ts, assertText md boolScope .bool "e" "b" (.cmp .eq (.ident "x") (.ident "y") : Expr fo.F) = some ts ∧ Rejected ts := by
  refine ⟨_, rfl, fun n t => ?_⟩
  match n with
  | 0 | 1 | 2 | 3 | 4 | 5 | 6 | 7 | 8 => intro h; cases h
  | n + 9 => intro h; cases h

end Zs
