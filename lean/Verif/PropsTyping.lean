import Verif.ExprTypeMain
import Verif.PropsText

/-!
# Properties of the types of generated expressions (C58, C59)

The statements are in English in `properties.jsonl`; each theorem below repeats what it says.
-/

namespace Zs

open Spec

variable {fo : FloatOps} {md : Mode} {sc : TScope}

/-- The compiler accepts the expression: neither its evaluation nor the computation of its native type
panics. -/
def Accepted (md : Mode) (sc : TScope) (e : Expr fo.F) : Prop :=
  (∃ c k, e.evaluate md sc.erase = .ok (c, k)) ∧ ∃ n, e.native md sc = .ok n

/-! ## C58: generated expressions have a type -/

/-- C58: the code for an accepted expression has a Rust type exactly if the types in the expression fit
together (`Coherent`): casts are inserted for the operands of `+ - * / %` whose type the compiler knows,
and nowhere else. -/
theorem C58_typed_iff (hord : Ordinary sc) (e : Expr fo.F) (hacc : Accepted md sc e) :
    (∃ t, Typed (rscope sc) (code md sc e) t) ↔ Coherent md sc e := by
  obtain ⟨⟨c, k, hev⟩, n, hn⟩ := hacc
  have h := types_iff hord e c k hev n hn
  constructor
  · rintro ⟨t, ht⟩
    exact ((h t).1 ht).1
  · intro hc
    obtain ⟨t, ht, _⟩ := coherent_can e hc
    exact ⟨t, (h t).2 ⟨hc, ht⟩⟩

/-- C58: the same for the text that is emitted, read by Rust, if Rust groups it as it is meant (C47). -/
theorem C58_text_iff (hord : Ordinary sc) (e : Expr fo.F) (hacc : Accepted md sc e) (hparsed : e.Parsed)
    (hsep : e.Separable (textInfo md sc)) (ts : List (Tok fo.F))
    (ht : e.text md sc.erase (textInfo md sc) = some ts) :
    (∃ x t, ReadsAs ts x ∧ Typed (rscope sc) x t) ↔ Coherent md sc e := by
  obtain ⟨⟨c, k, hev⟩, n, hn⟩ := id hacc
  have hr := C47_grouping_partial md sc.erase (textInfo md sc) e hparsed hsep _ hev ts ht
  rw [← C58_typed_iff hord e hacc]
  constructor
  · rintro ⟨x, t, hx, h⟩
    obtain ⟨n1, h1⟩ := hx
    obtain ⟨n2, h2⟩ := hr
    have := (h1 (max n1 n2) (by omega)).symm.trans (h2 (max n1 n2) (by omega))
    simp only [Option.some.injEq, Prod.mk.injEq, and_true] at this
    subst this
    exact ⟨t, h⟩
  · rintro ⟨t, h⟩
    exact ⟨_, t, hr, h⟩

/-- C58: where the compiler knows the type of a number, it knows the right one. -/
theorem C58_native_type (hord : Ordinary sc) (e : Expr fo.F) (hacc : Accepted md sc e) (r : NumRef)
    (hr : e.native md sc = .ok (some r)) (t : RTy) (ht : Typed (rscope sc) (code md sc e) t)
    (hnum : t.Number) : t = numTy r.name := by
  obtain ⟨⟨c, k, hev⟩, n, hn⟩ := hacc
  exact sort_native e c k hev r hr t ((types_iff hord e c k hev n hn t).1 ht).2
    (castable_of_number hnum)

/-- Sums, differences, products, quotients and remainders of integer literals and integer fields,
parameters, constants and lengths of arrays. -/
def IntegerArithmetic (sc : TScope) : Expr fo.F → Prop
  | .intLit _ => True
  | .ident n => ∃ m i, (sc.ident n = some ⟨.num m, .plain⟩ ∨ sc.ident n = some ⟨.num m, .const⟩) ∧
      m.rustInt = some i
  | .lengthof (.ident n) => ∃ ty t, sc.ident n = some ⟨ty, .array⟩ ∧ valueTy ty = some t
  | .paren e => IntegerArithmetic sc e
  | .arith _ a b => IntegerArithmetic sc a ∧ IntegerArithmetic sc b
  | _ => False

/-- The same without literals, but with floats. -/
def NumberArithmetic (sc : TScope) : Expr fo.F → Prop
  | .ident n => ∃ m, sc.ident n = some ⟨.num m, .plain⟩ ∨ sc.ident n = some ⟨.num m, .const⟩
  | .lengthof (.ident n) => ∃ ty t, sc.ident n = some ⟨ty, .array⟩ ∧ valueTy ty = some t
  | .paren e => NumberArithmetic sc e
  | .arith _ a b => NumberArithmetic sc a ∧ NumberArithmetic sc b
  | _ => False

theorem mixInteger_int {n m : Option NumRef} {r : NumRef} (h : mixInteger n m = .ok (some r))
    (hn : ∀ o, n = some o → o.name.rustInt ≠ none) (hm : ∀ o, m = some o → o.name.rustInt ≠ none) :
    r.name.rustInt ≠ none := by
  have unsigned : ∀ a b, convertToUnsigned a = .ok b → b.rustInt ≠ none := by
    intro a b h
    cases a <;> simp only [convertToUnsigned, reduceCtorEq, Res.ok.injEq] at h <;> subst h <;>
      simp [NumName.rustInt]
  cases n with
  | none =>
    cases m with
    | none => simp [mixInteger] at h
    | some o => simp only [mixInteger, Res.ok.injEq] at h; exact hm r h
  | some o =>
    cases m with
    | none => simp only [mixInteger, Res.ok.injEq] at h; exact hn r h
    | some o' =>
      simp only [mixInteger] at h
      split at h
      · simp only [Res.ok.injEq] at h
        exact hn r h
      · obtain ⟨s1, _, h⟩ := Res.bind_eq_ok.1 h
        obtain ⟨s2, _, h⟩ := Res.bind_eq_ok.1 h
        obtain ⟨r1, _, h⟩ := Res.bind_eq_ok.1 h
        obtain ⟨r2, _, h⟩ := Res.bind_eq_ok.1 h
        split at h
        · split at h
          · cases h; exact hn _ rfl
          · obtain ⟨b, hb, h⟩ := Res.bind_eq_ok.1 h
            cases h; exact unsigned _ _ hb
        · split at h
          · cases h; exact hm _ rfl
          · obtain ⟨b, hb, h⟩ := Res.bind_eq_ok.1 h
            cases h; exact unsigned _ _ hb

/-- What `IntegerArithmetic` guarantees. -/
theorem integerArithmetic_spec (e : Expr fo.F) (h : IntegerArithmetic sc e) (c : CVal fo.F) (k : Bool)
    (hev : e.evaluate md sc.erase = .ok (c, k)) (n : Option NumRef) (hn : e.native md sc = .ok n) :
    (∃ v, c = .int v) ∧ Coherent md sc e ∧ (∀ r, n = some r → r.name.rustInt ≠ none) ∧
      sort md sc e = (n.map fun r => STy.is (numTy r.name)).getD .anyInt := by
  induction e generalizing c k n with
  | intLit v =>
    cases hev; cases hn
    exact ⟨⟨_, rfl⟩, trivial, by simp, rfl⟩
  | paren e ih => exact ih h c k hev n hn
  | ident x =>
    obtain ⟨m, i, hx, hi⟩ := h
    have hf : m.rustFloat = none := by revert hi; cases m <;> simp [NumName.rustInt, NumName.rustFloat]
    have hs : ∃ s, sc.ident x = some ⟨.num m, s⟩ ∧ (s = .plain ∨ s = .const) := by
      rcases hx with hx | hx
      · exact ⟨_, hx, .inl rfl⟩
      · exact ⟨_, hx, .inr rfl⟩
    obtain ⟨s, hx, hs⟩ := hs
    have ht : symbTy ⟨.num m, s⟩ = some (numTy m) := by rcases hs with rfl | rfl <;> rfl
    simp only [Expr.evaluate, TScope.erase, hx, Option.map_some, lookup, ZTy.sym, hf, Option.isSome_none,
      SymTy.dummy] at hev
    simp only [Expr.native, hx, Option.bind_some, ZTy.native, Res.ok.injEq] at hn
    cases hev; subst hn
    have hsort : sort md sc (.ident x : Expr fo.F) = .is (numTy m) := by
      simp [sort, hx, ht, STy.ofOption]
    refine ⟨⟨_, rfl⟩, ?_, ?_, hsort⟩
    · exact ⟨numTy m, by rw [hsort]; exact rfl, trivial⟩
    · rintro r h
      cases h
      simp [hi]
  | lengthof e ih =>
    cases e <;> try exact h.elim
    rename_i x
    obtain ⟨ty, t, hx, ht⟩ := h
    simp only [Expr.evaluate] at hev
    obtain ⟨_, _, hev⟩ := Res.bind_eq_ok.1 hev
    simp only [Expr.native, Res.ok_bind, Res.ok.injEq] at hn
    cases hev; subst hn
    have hsort : sort md sc (.ident x : Expr fo.F) = .is (.vec t) := by
      simp [sort, hx, symbTy, ht, STy.ofOption]
    refine ⟨⟨_, rfl⟩, ⟨⟨.vec t, by rw [hsort]; exact rfl, trivial⟩, ⟨.vec t, by rw [hsort]; exact rfl,
      .inl ⟨t, rfl⟩⟩⟩, ?_, rfl⟩
    rintro r h
    cases h
    simp [NumName.rustInt]
  | arith op a b iha ihb =>
    obtain ⟨ha, hb⟩ := h
    have hn0 := nativeOf_ok hn
    have hev0 := hev
    simp only [Expr.evaluate] at hev
    obtain ⟨⟨ca, ra⟩, hea, hev⟩ := Res.bind_eq_ok.1 hev
    obtain ⟨⟨cb, rb⟩, heb, hev⟩ := Res.bind_eq_ok.1 hev
    obtain ⟨c', hc', hev⟩ := Res.bind_eq_ok.1 hev
    simp only [Expr.native] at hn
    obtain ⟨na, hna, hn⟩ := Res.bind_eq_ok.1 hn
    obtain ⟨nb, hnb, hn⟩ := Res.bind_eq_ok.1 hn
    obtain ⟨⟨va, rfl⟩, coha, inta, sorta⟩ := iha ha ca ra hea na hna
    obtain ⟨⟨vb, rfl⟩, cohb, intb, sortb⟩ := ihb hb cb rb heb nb hnb
    simp only [hea, heb, Res.ok_bind] at hn
    have hcv : ∃ v, c = .int v := by
      simp only [evalArith] at hc'
      obtain ⟨v, _, hv⟩ := Res.bind_eq_ok.1 hc'
      cases hv; cases hev
      exact ⟨_, rfl⟩
    obtain ⟨v, rfl⟩ := hcv
    have cana : (sort md sc a).Can RTy.Number := by
      rw [sorta]; cases na with
      | none => exact ⟨.usize, trivial, trivial⟩
      | some r => exact ⟨numTy r.name, rfl, numTy_number _⟩
    have canb : (sort md sc b).Can RTy.Number := by
      rw [sortb]; cases nb with
      | none => exact ⟨.usize, trivial, trivial⟩
      | some r => exact ⟨numTy r.name, rfl, numTy_number _⟩
    have hint : ∀ r, n = some r → r.name.rustInt ≠ none := by
      rintro r rfl
      exact mixInteger_int hn inta intb
    have integer : ∀ r, n = some r → (numTy r.name).Integer := by
      intro r hr
      have := hint r hr
      revert this
      cases r.name <;> simp [numTy, NumName.rustInt, RTy.Integer]
    have hnone : n = none → na = none ∧ nb = none := by
      rintro rfl
      exact mix_none (.inl hn)
    refine ⟨⟨v, rfl⟩, ⟨coha, cohb, ?_⟩, hint, ?_⟩
    · simp only [hev0, hn0]
      refine ⟨cana, canb, ?_⟩
      cases n with
      | some r =>
        refine ⟨fun h => ?_, fun h => ?_⟩
        · rw [nativeOf_ok hna] at h
          rw [sorta, h]
          exact integer r rfl
        · rw [nativeOf_ok hnb] at h
          rw [sortb, h]
          exact integer r rfl
      | none =>
        obtain ⟨rfl, rfl⟩ := hnone rfl
        rw [sorta, sortb]
        exact ⟨.usize, trivial, trivial, trivial⟩
    · simp only [sort, hev0, hn0]
      cases n with
      | some r => rfl
      | none =>
        obtain ⟨rfl, rfl⟩ := hnone rfl
        rw [sorta, sortb]
        rfl
  | _ => exact h.elim

/-- What `NumberArithmetic` guarantees. -/
theorem numberArithmetic_spec (e : Expr fo.F) (h : NumberArithmetic sc e) (c : CVal fo.F) (k : Bool)
    (hev : e.evaluate md sc.erase = .ok (c, k)) (n : Option NumRef) (hn : e.native md sc = .ok n) :
    ((∃ v, c = .int v) ∨ ∃ f, c = .float f) ∧ Coherent md sc e ∧
      ∃ r, n = some r ∧ sort md sc e = .is (numTy r.name) := by
  induction e generalizing c k n with
  | paren e ih => exact ih h c k hev n hn
  | ident x =>
    obtain ⟨m, hx⟩ := h
    have hs : ∃ s, sc.ident x = some ⟨.num m, s⟩ ∧ (s = .plain ∨ s = .const) := by
      rcases hx with hx | hx
      · exact ⟨_, hx, .inl rfl⟩
      · exact ⟨_, hx, .inr rfl⟩
    obtain ⟨s, hx, hs⟩ := hs
    have ht : symbTy ⟨.num m, s⟩ = some (numTy m) := by rcases hs with rfl | rfl <;> rfl
    simp only [Expr.evaluate, TScope.erase, hx, Option.map_some, lookup, ZTy.sym] at hev
    simp only [Expr.native, hx, Option.bind_some, ZTy.native, Res.ok.injEq] at hn
    subst hn
    have hsort : sort md sc (.ident x : Expr fo.F) = .is (numTy m) := by
      simp [sort, hx, ht, STy.ofOption]
    refine ⟨?_, ⟨numTy m, by rw [hsort]; exact rfl, trivial⟩, _, rfl, hsort⟩
    split at hev <;> cases hev
    · exact .inr ⟨_, rfl⟩
    · exact .inl ⟨_, rfl⟩
  | lengthof e ih =>
    cases e <;> try exact h.elim
    rename_i x
    obtain ⟨ty, t, hx, ht⟩ := h
    simp only [Expr.evaluate] at hev
    obtain ⟨_, _, hev⟩ := Res.bind_eq_ok.1 hev
    simp only [Expr.native, Res.ok_bind, Res.ok.injEq] at hn
    cases hev; subst hn
    have hsort : sort md sc (.ident x : Expr fo.F) = .is (.vec t) := by
      simp [sort, hx, symbTy, ht, STy.ofOption]
    exact ⟨.inl ⟨_, rfl⟩, ⟨⟨.vec t, by rw [hsort]; exact rfl, trivial⟩, ⟨.vec t, by rw [hsort]; exact rfl,
      .inl ⟨t, rfl⟩⟩⟩, _, rfl, rfl⟩
  | arith op a b iha ihb =>
    obtain ⟨ha, hb⟩ := h
    have hn0 := nativeOf_ok hn
    have hev0 := hev
    simp only [Expr.evaluate] at hev
    obtain ⟨⟨ca, ra⟩, hea, hev⟩ := Res.bind_eq_ok.1 hev
    obtain ⟨⟨cb, rb⟩, heb, hev⟩ := Res.bind_eq_ok.1 hev
    obtain ⟨c', hc', hev⟩ := Res.bind_eq_ok.1 hev
    simp only [Expr.native] at hn
    obtain ⟨na, hna, hn⟩ := Res.bind_eq_ok.1 hn
    obtain ⟨nb, hnb, hn⟩ := Res.bind_eq_ok.1 hn
    obtain ⟨kinda, coha, ra', rfl, sorta⟩ := iha ha ca ra hea na hna
    obtain ⟨kindb, cohb, rb', rfl, sortb⟩ := ihb hb cb rb heb nb hnb
    simp only [hea, heb, Res.ok_bind] at hn
    cases hev
    have hmix : mixInteger (some ra') (some rb') = .ok n ∨ mixFloat (some ra') (some rb') = .ok n := by
      rcases kinda with ⟨v, rfl⟩ | ⟨v, rfl⟩ <;> rcases kindb with ⟨w, rfl⟩ | ⟨w, rfl⟩
      · exact .inl hn
      · exact .inr hn
      · exact .inr hn
      · exact .inr hn
    have hkind : (∃ v, c = .int v) ∨ ∃ f, c = .float f := by
      rcases kinda with ⟨v, rfl⟩ | ⟨v, rfl⟩ <;> rcases kindb with ⟨w, rfl⟩ | ⟨w, rfl⟩ <;>
        simp only [evalArith] at hc'
      · obtain ⟨v, _, hv⟩ := Res.bind_eq_ok.1 hc'
        cases hv
        exact .inl ⟨_, rfl⟩
      all_goals
        right
        split at hc' <;> first | (cases hc'; exact ⟨_, rfl⟩) | cases hc'
    have hsome : ∃ r, n = some r := by
      cases n with
      | some r => exact ⟨r, rfl⟩
      | none => exact absurd (mix_none hmix).1 (by simp)
    obtain ⟨r, rfl⟩ := hsome
    refine ⟨hkind, ⟨coha, cohb, ?_⟩, r, rfl, ?_⟩
    · rcases hkind with ⟨v, rfl⟩ | ⟨v, rfl⟩ <;> simp only [hev0, hn0, nativeOf_ok hna, nativeOf_ok hnb] <;>
        exact ⟨⟨_, by rw [sorta]; exact rfl, numTy_number _⟩, ⟨_, by rw [sortb]; exact rfl, numTy_number _⟩,
          by simp, by simp⟩
    · rcases hkind with ⟨v, rfl⟩ | ⟨v, rfl⟩ <;> simp only [sort, hev0, hn0]
  | _ => exact h.elim

/-- C58 (partial): arithmetic of integer literals and integer names of any types has a type, and an
integer one.  Missing: what the violations below show. -/
theorem C58_integers_partial (hord : Ordinary sc) (e : Expr fo.F) (hacc : Accepted md sc e)
    (h : IntegerArithmetic sc e) : ∃ t, t.Integer ∧ Typed (rscope sc) (code md sc e) t := by
  obtain ⟨⟨c, k, hev⟩, n, hn⟩ := hacc
  obtain ⟨_, hc, hint, hs⟩ := integerArithmetic_spec e h c k hev n hn
  have ht := types_iff hord e c k hev n hn
  cases n with
  | none => exact ⟨.usize, trivial, (ht _).2 ⟨hc, by rw [hs]; trivial⟩⟩
  | some r =>
    refine ⟨numTy r.name, ?_, (ht _).2 ⟨hc, by rw [hs]; exact rfl⟩⟩
    have := hint r rfl
    revert this
    cases r.name <;> simp [numTy, NumName.rustInt, RTy.Integer]

/-- C58 (partial): arithmetic of names of any numeric types has a type, the one that the compiler
computes.  Missing: literals next to floats, see the violations below. -/
theorem C58_numbers_partial (hord : Ordinary sc) (e : Expr fo.F) (hacc : Accepted md sc e)
    (h : NumberArithmetic sc e) :
    ∃ r, e.native md sc = .ok (some r) ∧ ∀ t, Typed (rscope sc) (code md sc e) t ↔ t = numTy r.name := by
  obtain ⟨⟨c, k, hev⟩, n, hn⟩ := hacc
  obtain ⟨_, hc, r, rfl, hs⟩ := numberArithmetic_spec e h c k hev n hn
  refine ⟨r, hn, fun t => ?_⟩
  rw [types_iff hord e c k hev _ hn t, hs]
  exact ⟨fun h => h.2.symm, fun h => ⟨hc, h.symm⟩⟩

/-- A field or parameter of a numeric type. -/
def NumberField (sc : TScope) (x : String) (n : NumName) : Prop := sc.ident x = some ⟨.num n, .plain⟩

/-- The dummy value of a numeric type. -/
def NumName.dummy (fo : FloatOps) (n : NumName) : CVal fo.F :=
  if n.rustFloat.isSome then .float fo.zero else .int 0

theorem field_evaluate {x : String} {n : NumName} (h : NumberField sc x n) :
    (Expr.ident x : Expr fo.F).evaluate md sc.erase = .ok (n.dummy fo, false) := by
  simp only [NumberField] at h
  simp only [Expr.evaluate, TScope.erase, h, Option.map_some, lookup, ZTy.sym, NumName.dummy]
  split <;> rfl

theorem field_native {x : String} {n : NumName} (h : NumberField sc x n) :
    (Expr.ident x : Expr fo.F).native md sc = .ok (some { name := n }) := by
  simp only [NumberField] at h
  simp [Expr.native, h, ZTy.native]

theorem field_sort {x : String} {n : NumName} (h : NumberField sc x n) :
    sort md sc (Expr.ident x : Expr fo.F) = .is (numTy n) := by
  simp only [NumberField] at h
  simp [sort, h, symbTy, valueTy, STy.ofOption]

theorem dummy_int {n : NumName} {i : IntTy} (h : n.rustInt = some i) : n.dummy fo = .int 0 := by
  revert h
  cases n <;> simp [NumName.dummy, NumName.rustInt, NumName.rustFloat]

theorem dummy_float {n : NumName} {w : Nat} (h : n.rustFloat = some w) : n.dummy fo = .float fo.zero := by
  simp [NumName.dummy, h]

theorem numTy_int {n : NumName} {i : IntTy} (h : n.rustInt = some i) : numTy n = .int i := by
  simp [numTy, h]

theorem numTy_float {n : NumName} {w : Nat} (h : n.rustFloat = some w) : numTy n = .float w := by
  have : n.rustInt = none := by revert h; cases n <;> simp [NumName.rustInt, NumName.rustFloat]
  simp [numTy, this, h]

/-- The compiler accepts the expression, and the code for it has no type. -/
def Untypable (md : Mode) (sc : TScope) (e : Expr fo.F) : Prop :=
  Accepted md sc e ∧ ∀ t, ¬ Typed (rscope sc) (code md sc e) t

theorem untypable (hord : Ordinary sc) {e : Expr fo.F} (hacc : Accepted md sc e)
    (h : ¬ Coherent md sc e) : Untypable md sc e :=
  ⟨hacc, fun t ht => h ((C58_typed_iff hord e hacc).1 ⟨t, ht⟩)⟩

/-- The evaluation of the operations from the one of their operands. -/
theorem evaluate_cmp {op : CmpOp} {a b : Expr fo.F} {ca cb c : CVal fo.F} {ra rb k : Bool}
    (ha : a.evaluate md sc.erase = .ok (ca, ra)) (hb : b.evaluate md sc.erase = .ok (cb, rb))
    (h : evalCmp op ca cb ra rb = .ok (c, k)) :
    (Expr.cmp op a b).evaluate md sc.erase = .ok (c, ra && rb && k) := by
  simp only [Expr.evaluate, ha, hb, h, Res.ok_bind, Res.pure_eq]

theorem evaluate_arith {op : ArithOp} {a b : Expr fo.F} {ca cb c : CVal fo.F} {ra rb : Bool}
    (ha : a.evaluate md sc.erase = .ok (ca, ra)) (hb : b.evaluate md sc.erase = .ok (cb, rb))
    (h : evalArith md op ca cb ra rb = .ok c) :
    (Expr.arith op a b).evaluate md sc.erase = .ok (c, ra && rb) := by
  simp only [Expr.evaluate, ha, hb, h, Res.ok_bind, Res.pure_eq]

theorem evaluate_bit {op : BitOp} {a b : Expr fo.F} {ca cb c : CVal fo.F} {ra rb k : Bool}
    (ha : a.evaluate md sc.erase = .ok (ca, ra)) (hb : b.evaluate md sc.erase = .ok (cb, rb))
    (h : evalBit md op ca cb = .ok (c, k)) :
    (Expr.bit op a b).evaluate md sc.erase = .ok (c, ra && rb && k) := by
  simp only [Expr.evaluate, ha, hb, h, Res.ok_bind, Res.pure_eq]

/-- The native type of a sum with one operand that has none. -/
theorem native_arith {op : ArithOp} {a b : Expr fo.F} {ca cb : CVal fo.F} {ra rb : Bool}
    {na nb : Option NumRef} (ha : a.evaluate md sc.erase = .ok (ca, ra))
    (hb : b.evaluate md sc.erase = .ok (cb, rb)) (hna : a.native md sc = .ok na)
    (hnb : b.native md sc = .ok nb) (hca : (∃ v, ca = .int v) ∨ ∃ f, ca = .float f)
    (hcb : (∃ v, cb = .int v) ∨ ∃ f, cb = .float f) (hnone : na = none ∨ nb = none) :
    (Expr.arith op a b).native md sc = .ok (na.orElse fun _ => nb) := by
  have h1 : mixInteger na nb = .ok (na.orElse fun _ => nb) := by
    rcases hnone with rfl | rfl
    · cases nb <;> rfl
    · cases na <;> rfl
  have h2 : mixFloat na nb = .ok (na.orElse fun _ => nb) := by
    rcases hnone with rfl | rfl
    · cases nb <;> rfl
    · cases na <;> rfl
  rcases hca with ⟨v, rfl⟩ | ⟨v, rfl⟩ <;> rcases hcb with ⟨w, rfl⟩ | ⟨w, rfl⟩ <;>
    simp only [Expr.native, ha, hb, hna, hnb, Res.ok_bind, h1, h2]

theorem native_two {a b : Expr fo.F} {na nb : Option NumRef} (hna : a.native md sc = .ok na)
    (hnb : b.native md sc = .ok nb) :
    (∀ op, (Expr.cmp op a b).native md sc = .ok none) ∧ ∀ op, (Expr.bit op a b).native md sc = .ok none := by
  constructor <;> intro op <;> simp only [Expr.native, hna, hnb, Res.ok_bind]

/-- C58 is violated by every comparison of integer fields with different Rust types: nothing is cast. -/
theorem C58_comparison_violated (hord : Ordinary sc) (op : CmpOp) {x y : String} {m n : NumName}
    {i j : IntTy} (hx : NumberField sc x m) (hy : NumberField sc y n) (hm : m.rustInt = some i)
    (hn : n.rustInt = some j) (hne : i ≠ j) :
    Untypable md sc (.cmp op (.ident x) (.ident y) : Expr fo.F) := by
  refine untypable hord ⟨⟨_, _, evaluate_cmp (field_evaluate hx) (field_evaluate hy)
    (by rw [dummy_int hm, dummy_int hn]; rfl)⟩, none, (native_two (field_native hx) (field_native hy)).1 op⟩ ?_
  rintro ⟨_, _, s, t, hs, ht, hc⟩
  rw [field_sort hx, numTy_int hm] at hs
  rw [field_sort hy, numTy_int hn] at ht
  cases hs; cases ht
  exact hne hc

/-- C58 is violated by `&`, `|`, `^` of integer fields with different Rust types. -/
theorem C58_bit_operation_violated (hord : Ordinary sc) (op : BitOp) (hop : op ≠ .shl ∧ op ≠ .shr)
    {x y : String} {m n : NumName} {i j : IntTy} (hx : NumberField sc x m) (hy : NumberField sc y n)
    (hm : m.rustInt = some i) (hn : n.rustInt = some j) (hne : i ≠ j) :
    Untypable md sc (.bit op (.ident x) (.ident y) : Expr fo.F) := by
  have hc : ∃ v, op.compile md 0 0 = .ok v := by
    obtain ⟨h1, h2⟩ := hop
    cases op <;> first | exact ⟨_, rfl⟩ | exact absurd rfl h1 | exact absurd rfl h2
  obtain ⟨v, hv⟩ := hc
  refine untypable hord ⟨⟨_, _, evaluate_bit (field_evaluate hx) (field_evaluate hy) (c := .int v) (k := true)
    (by rw [dummy_int hm, dummy_int hn]; simp [evalBit, hv])⟩, none,
    (native_two (field_native hx) (field_native hy)).2 op⟩ ?_
  rintro ⟨_, _, h⟩
  have : STy.Meets RTy.Bits (.is (.int i)) (.is (.int j)) := by
    obtain ⟨h1, h2⟩ := hop
    cases op <;> first | exact absurd rfl h1 | exact absurd rfl h2 | skip
    all_goals
      simp only [field_sort hx, field_sort hy, numTy_int hm, numTy_int hn] at h
      exact h
  obtain ⟨t, h1, h2, _⟩ := this
  cases h1; cases h2
  exact hne rfl

/-- C58 is violated by `(x & 1) + y` if `x` and `y` have different Rust types: the result of `&` has no
native type, so only `y` could be cast, and it has the type of the result. -/
theorem C58_bits_then_sum_violated (hord : Ordinary sc) {x y : String} {m n : NumName}
    {i j : IntTy} (hx : NumberField sc x m) (hy : NumberField sc y n) (hm : m.rustInt = some i)
    (hn : n.rustInt = some j) (hne : i ≠ j) :
    Untypable md sc (.arith .add (.paren (.bit .and (.ident x) (.intLit 1))) (.ident y) : Expr fo.F) := by
  have hb : (Expr.paren (.bit .and (.ident x) (.intLit 1)) : Expr fo.F).evaluate md sc.erase =
      .ok (.int 0, false) :=
    evaluate_bit (k := true) (field_evaluate hx) (rb := true) (cb := .int 1) rfl
      (by rw [dummy_int hm]; rfl)
  have hnb : (Expr.paren (.bit .and (.ident x) (.intLit 1)) : Expr fo.F).native md sc = .ok none :=
    (native_two (field_native hx) (nb := none) rfl).2 .and
  have he := evaluate_arith (md := md) (op := .add) (c := .int 2) hb (field_evaluate hy)
    (by rw [dummy_int hn]; cases md <;> rfl)
  have hnat := native_arith (op := .add) hb (field_evaluate hy) hnb (field_native hy) (.inl ⟨_, rfl⟩)
    (.inl ⟨0, dummy_int hn⟩) (.inl rfl)
  refine untypable hord ⟨⟨_, _, he⟩, _, hnat⟩ ?_
  rintro ⟨_, _, h⟩
  simp only [he, nativeOf_ok hnat] at h
  have h := h.2.2.1 (nativeOf_ok hnb)
  have hs : sort md sc (.paren (.bit .and (.ident x) (.intLit 1)) : Expr fo.F) = .is (.int i) := by
    have hs := field_sort (fo := fo) (md := md) hx
    rw [numTy_int hm] at hs
    simp only [sort] at hs ⊢
    rw [hs]
    rfl
  rw [hs, numTy_int hn] at h
  cases h
  exact hne rfl

/-- C58 is violated by `f + 1` for a field `f` of a floating point type, and by `f + 2.0`, `f + 0.0` and so
on: Rust does not accept an integer literal for a float, and `2.0` is printed as `2`. -/
theorem C58_float_literal_violated (hord : Ordinary sc) {x : String} {m : NumName} {w : Nat}
    (hx : NumberField sc x m) (hm : m.rustFloat = some w) :
    (∀ v, Untypable md sc (.arith .add (.ident x) (.intLit v) : Expr fo.F)) ∧
    ∀ f v, fo.printsInteger f = some v →
      Untypable md sc (.arith .add (.ident x) (.floatLit f) : Expr fo.F) := by
  have hev := field_evaluate (fo := fo) (md := md) hx
  rw [dummy_float hm] at hev
  constructor
  · intro v
    have he := evaluate_arith (md := md) (op := .add) hev (b := .intLit v) rfl rfl
    have hnat := native_arith (op := .add) hev (b := .intLit v) rfl (field_native hx) rfl (.inr ⟨_, rfl⟩)
      (.inl ⟨_, rfl⟩) (.inr rfl)
    refine untypable hord ⟨⟨_, _, he⟩, _, hnat⟩ ?_
    rintro ⟨_, _, h⟩
    simp only [he, nativeOf_ok hnat] at h
    have h := h.2.2.2 (nativeOf_ok rfl)
    simp only [sort, numTy_float hm] at h
    exact h
  · intro f v hf
    have he := evaluate_arith (md := md) (op := .add) hev (b := .floatLit f) rfl rfl
    have hnat := native_arith (op := .add) hev (b := .floatLit f) rfl (field_native hx) rfl (.inr ⟨_, rfl⟩)
      (.inr ⟨_, rfl⟩) (.inr rfl)
    refine untypable hord ⟨⟨_, _, he⟩, _, hnat⟩ ?_
    rintro ⟨_, _, h⟩
    simp only [he, nativeOf_ok hnat] at h
    have h := h.2.2.2 (nativeOf_ok rfl)
    simp only [sort, hf, numTy_float hm, Option.isSome_some, if_true] at h
    exact h

/-- C58 is violated by a minus sign before an unsigned field, and before a literal that is added to one. -/
theorem C58_sign_violated (hord : Ordinary sc) {x : String} {m : NumName} {width : Nat}
    (hx : NumberField sc x m) (hm : m.rustInt = some ⟨false, width⟩) :
    Untypable md sc (.neg (.ident x) : Expr fo.F) ∧
    ∀ v, 0 < v → v < 2 ^ 31 → Untypable md sc (.arith .add (.ident x) (.neg (.intLit v)) : Expr fo.F) := by
  have hev := field_evaluate (fo := fo) (md := md) hx
  rw [dummy_int hm] at hev
  constructor
  · have he : (Expr.neg (.ident x) : Expr fo.F).evaluate md sc.erase = .ok (.int 0, false) := by
      simp only [Expr.evaluate.eq_def _ _ (.neg _), hev, Res.ok_bind]
      rfl
    refine untypable hord ⟨⟨_, _, he⟩, _, field_native (fo := fo) (md := md) hx⟩ ?_
    rintro ⟨_, t, h, hneg⟩
    rw [field_sort hx, numTy_int hm] at h
    cases h
    cases hneg
  · intro v h0 h31
    have hlit : (Expr.neg (.intLit v) : Expr fo.F).evaluate md sc.erase = .ok (.int (-v), true) := by
      have : v ≠ -2147483648 := by omega
      simp only [Expr.evaluate.eq_def _ _ (.neg _), Expr.evaluate, Res.ok_bind, evalNeg, IntTy.min,
        IntTy.i32]
      simp [this]
    have hadd : ∃ z, ArithOp.add.compile md 1 (-v) = .ok z := by
      refine ⟨1 + -v, ?_⟩
      have : IntTy.i32.Contains (1 + -v) := by
        simp only [IntTy.Contains, IntTy.min, IntTy.max, IntTy.i32]
        constructor <;> simp <;> omega
      cases md <;> simp [ArithOp.compile, ArithOp.undefined, ArithOp.exact, this]
    obtain ⟨z, hz⟩ := hadd
    have he := evaluate_arith (md := md) (op := .add) (c := .int z) hev hlit (by simp [evalArith, hz])
    have hnat := native_arith (op := .add) hev hlit (field_native hx) (nb := none) rfl (.inl ⟨_, rfl⟩)
      (.inl ⟨_, rfl⟩) (.inr rfl)
    refine untypable hord ⟨⟨_, _, he⟩, _, hnat⟩ ?_
    rintro ⟨_, _, h⟩
    simp only [he, nativeOf_ok hnat] at h
    have h := h.2.2.2 (nativeOf_ok rfl)
    simp only [sort, STy.negate, numTy_int hm] at h
    obtain ⟨i, h, hs⟩ := h
    cases h
    cases hs

/-- C58 is violated by `b ? x : y` with integer fields of different Rust types. -/
theorem C58_ternary_violated (hord : Ordinary sc) {b x y : String} {m n : NumName} {i j : IntTy}
    (hb : sc.ident b = some ⟨.bool, .plain⟩) (hx : NumberField sc x m) (hy : NumberField sc y n)
    (hm : m.rustInt = some i) (hn : n.rustInt = some j) (hne : i ≠ j) :
    Untypable md sc (.tern (.ident b) (.ident x) (.ident y) : Expr fo.F) := by
  have hb' : (Expr.ident b : Expr fo.F).evaluate md sc.erase = .ok (.bool false, false) := by
    simp [Expr.evaluate, TScope.erase, hb, lookup, ZTy.sym, SymTy.dummy]
  refine untypable hord ⟨⟨n.dummy fo, false, ?_⟩, none, ?_⟩ ?_
  · simp only [Expr.evaluate.eq_def _ _ (.tern _ _ _), hb', field_evaluate (fo := fo) hx,
      field_evaluate (fo := fo) hy, Res.ok_bind, Res.pure_eq]
  · have : (Expr.ident b : Expr fo.F).native md sc = .ok none := by simp [Expr.native, hb, ZTy.native]
    simp only [Expr.native.eq_def _ _ (.tern _ _ _), this, field_native (fo := fo) hx,
      field_native (fo := fo) hy, Res.ok_bind]
  · rintro ⟨_, _, _, _, t, h1, h2, _⟩
    rw [field_sort hx, numTy_int hm] at h1
    rw [field_sort hy, numTy_int hn] at h2
    cases h1; cases h2
    exact hne rfl

/-- C58 is violated by arithmetic with an optional field, which is an `Option` in the generated code. -/
theorem C58_optional_violated (hord : Ordinary sc) {x : String} {m : NumName} {i : IntTy}
    (hx : sc.ident x = some ⟨.num m, .optional⟩) (hm : m.rustInt = some i) (v : Int) (hv : 0 ≤ v)
    (hv' : v < 2 ^ 31 - 1) :
    Untypable md sc (.arith .add (.ident x) (.intLit v) : Expr fo.F) := by
  have hf : m.rustFloat = none := by revert hm; cases m <;> simp [NumName.rustInt, NumName.rustFloat]
  have hev : (Expr.ident x : Expr fo.F).evaluate md sc.erase = .ok (.int 0, false) := by
    simp [Expr.evaluate, TScope.erase, hx, lookup, ZTy.sym, SymTy.dummy, hf]
  have hn : (Expr.ident x : Expr fo.F).native md sc = .ok (some { name := m }) := by
    simp [Expr.native, hx, ZTy.native]
  have hadd : ∃ z, ArithOp.add.compile md 1 v = .ok z := by
    refine ⟨1 + v, ?_⟩
    have : IntTy.i32.Contains (1 + v) := by
      simp only [IntTy.Contains, IntTy.min, IntTy.max, IntTy.i32]
      constructor <;> simp <;> omega
    cases md <;> simp [ArithOp.compile, ArithOp.undefined, ArithOp.exact, this]
  obtain ⟨z, hz⟩ := hadd
  have he := evaluate_arith (md := md) (op := .add) (c := .int z) hev (b := .intLit v) rfl
    (by simp [evalArith, hz])
  have hnat := native_arith (op := .add) hev (b := .intLit v) rfl hn rfl (.inl ⟨_, rfl⟩)
    (.inl ⟨_, rfl⟩) (.inr rfl)
  refine untypable hord ⟨⟨_, _, he⟩, _, hnat⟩ ?_
  rintro ⟨_, _, h⟩
  simp only [he, nativeOf_ok hnat] at h
  obtain ⟨t, h, hnum⟩ := h.1
  simp only [sort, hx, Option.bind_some, symbTy, valueTy, Option.map_some, STy.ofOption] at h
  cases h
  exact hnum

/-- C58, `valueof`: of an enum field, parameter or constant, of a bitmask field or parameter, and of a call of a
function that returns an enum, it has the underlying type. -/
theorem C58_valueof_partial (x : String) (id : String) (base : NumRef) (i : IntTy)
    (hb : base.name.rustInt = some i) :
    (∀ shape, shape = .plain ∨ shape = .const → sc.ident x = some ⟨.enum id base, shape⟩ →
      ∀ t, Typed (rscope sc) (code md sc (.valueof (.ident x) : Expr fo.F)) t ↔ t = .int i) ∧
    (sc.ident x = some ⟨.bitmask id base, .plain⟩ →
      ∀ t, Typed (rscope sc) (code md sc (.valueof (.ident x) : Expr fo.F)) t ↔ t = .int i) ∧
    (∀ shape, sc.ident x = some ⟨.function (.enum id base), shape⟩ →
      ∀ t, Typed (rscope sc) (code md sc (.valueof (.call (.ident x)) : Expr fo.F)) t ↔ t = .int i) := by
  have hcast : ∀ r, (RTy.enum r).CanCast (.int i) := fun r => .inr (.inr ⟨.inr ⟨r, rfl⟩, trivial⟩)
  have hnum := numTy_int hb
  refine ⟨?_, ?_, ?_⟩
  · rintro shape hshape hx t
    have hn : (Expr.valueof (.ident x) : Expr fo.F).nativeOf md sc = some base := by
      simp [Expr.nativeOf, Expr.native, Expr.resultType, hx, ZTy.base]
    have hy : symbTy ⟨.enum id base, shape⟩ = some (.enum id) := by
      rcases hshape with rfl | rfl <;> simp [symbTy, valueTy]
    simp only [code, Expr.tree, textInfo, hn, Expr.isBitmaskField, Expr.symbolOf, Expr.symbol, hx,
      Bool.false_eq_true, if_false, Typed, primType_rustName, Option.some.injEq, rscope, Option.bind_some, hy,
      hnum]
    constructor
    · rintro ⟨rfl, _⟩; rfl
    · rintro rfl; exact ⟨rfl, _, rfl, hcast _⟩
  · intro hx t
    have hn : (Expr.valueof (.ident x) : Expr fo.F).nativeOf md sc = some base := by
      simp [Expr.nativeOf, Expr.native, Expr.resultType, hx, ZTy.base]
    have hbm : (Expr.ident x : Expr fo.F).isBitmaskField md sc = true := by
      simp [Expr.isBitmaskField, Expr.symbolOf, Expr.symbol, hx]
    simp only [code, Expr.tree, textInfo, hn, hbm, if_true, Typed, primType_rustName, Option.some.injEq, rscope,
      Option.bind_some, hnum, hx, symbTy, valueTy]
    constructor
    · rintro ⟨rfl, _⟩; rfl
    · rintro rfl
      refine ⟨rfl, .int (baseTy base), ⟨_, rfl, by simp [methodTy]⟩, ?_⟩
      simp [RTy.CanCast, RTy.Number]
  · intro shape hx t
    have hn : (Expr.valueof (.call (.ident x)) : Expr fo.F).nativeOf md sc = some base := by
      simp [Expr.nativeOf, Expr.native, Expr.resultType, hx, ZTy.base, Expr.symbol, ZTy.result]
    simp only [code, Expr.tree, textInfo, hn, Expr.isBitmaskField, Expr.symbolOf, Expr.symbol,
      Bool.false_eq_true, if_false, Typed, primType_rustName, Option.some.injEq, rscope, Option.bind_some, hx,
      funcTy, ZTy.result, valueTy, hnum]
    constructor
    · rintro ⟨rfl, _⟩; rfl
    · rintro rfl; exact ⟨rfl, _, rfl, hcast _⟩

/-- C58 is violated by `valueof` of a bitmask constant, of a call of a function that returns a bitmask, and of an
optional enum or bitmask: the generated code casts what cannot be cast, or calls `bits()` of an `Option`. -/
theorem C58_valueof_violated (x : String) (id : String) (base : NumRef) (i : IntTy)
    (hb : base.name.rustInt = some i) :
    (sc.ident x = some ⟨.bitmask id base, .const⟩ → Untypable md sc (.valueof (.ident x) : Expr fo.F)) ∧
    (∀ shape, sc.ident x = some ⟨.function (.bitmask id base), shape⟩ →
      Untypable md sc (.valueof (.call (.ident x)) : Expr fo.F)) ∧
    (sc.ident x = some ⟨.enum id base, .optional⟩ → Untypable md sc (.valueof (.ident x) : Expr fo.F)) ∧
    (sc.ident x = some ⟨.bitmask id base, .optional⟩ → Untypable md sc (.valueof (.ident x) : Expr fo.F)) := by
  have hnum := numTy_int hb
  refine ⟨?_, ?_, ?_, ?_⟩
  · intro hx
    have hn : (Expr.valueof (.ident x) : Expr fo.F).native md sc = .ok (some base) := by
      simp [Expr.native, Expr.resultType, hx, ZTy.base]
    refine ⟨⟨⟨.int 0, false, ?_⟩, _, hn⟩, ?_⟩
    · simp [Expr.evaluate, TScope.erase, hx, lookup, ZTy.sym, SymTy.dummy]
    · intro t
      simp only [code, Expr.tree, textInfo, nativeOf_ok hn, Expr.isBitmaskField, Expr.symbolOf, Expr.symbol, hx,
        Typed, primType_rustName, rscope, Option.bind_some, symbTy, valueTy, hnum]
      simp [Typed, RTy.CanCast, RTy.Number, hx, symbTy, valueTy]
      rintro rfl
      simp
  · intro shape hx
    have hn : (Expr.valueof (.call (.ident x)) : Expr fo.F).native md sc = .ok (some base) := by
      simp [Expr.native, Expr.resultType, hx, ZTy.base, Expr.symbol, ZTy.result, ZTy.native]
    refine ⟨⟨⟨.int 0, false, ?_⟩, _, hn⟩, ?_⟩
    · simp [Expr.evaluate, TScope.erase, hx, lookup, ZTy.sym, SymTy.dummy, Expr.symbol, ZTy.result]
    · intro t
      simp only [code, Expr.tree, textInfo, nativeOf_ok hn, Expr.isBitmaskField, Expr.symbolOf, Expr.symbol,
        Bool.false_eq_true, if_false, Typed, primType_rustName, rscope, Option.bind_some, hx, funcTy, ZTy.result,
        valueTy, hnum]
      rintro ⟨h, s, hs, hc⟩
      simp only [Option.some.injEq] at h hs
      subst h hs
      simp [RTy.CanCast, RTy.Number] at hc
  · intro hx
    have hn : (Expr.valueof (.ident x) : Expr fo.F).native md sc = .ok (some base) := by
      simp [Expr.native, Expr.resultType, hx, ZTy.base]
    refine ⟨⟨⟨.int 0, false, ?_⟩, _, hn⟩, ?_⟩
    · simp [Expr.evaluate, TScope.erase, hx, lookup, ZTy.sym, SymTy.dummy]
    · intro t
      simp only [code, Expr.tree, textInfo, nativeOf_ok hn, Expr.isBitmaskField, Expr.symbolOf, Expr.symbol, hx,
        Bool.false_eq_true, if_false, Typed, primType_rustName, rscope, Option.bind_some, symbTy, valueTy, hnum,
        Option.map_some]
      rintro ⟨h, s, hs, hc⟩
      simp only [Option.some.injEq] at h hs
      subst h hs
      simp [RTy.CanCast, RTy.Number] at hc
  · intro hx
    have hn : (Expr.valueof (.ident x) : Expr fo.F).native md sc = .ok (some base) := by
      simp [Expr.native, Expr.resultType, hx, ZTy.base]
    have hbm : (Expr.ident x : Expr fo.F).isBitmaskField md sc = true := by
      simp [Expr.isBitmaskField, Expr.symbolOf, Expr.symbol, hx]
    refine ⟨⟨⟨.int 0, false, ?_⟩, _, hn⟩, ?_⟩
    · simp [Expr.evaluate, TScope.erase, hx, lookup, ZTy.sym, SymTy.dummy]
    · intro t
      simp only [code, Expr.tree, textInfo, nativeOf_ok hn, hbm, if_true, Typed, primType_rustName, rscope,
        Option.bind_some, symbTy, valueTy, hnum, hx, Option.map_some]
      rintro ⟨h, s, ⟨u, hu, hm⟩, hc⟩
      simp only [Option.some.injEq] at hu
      subst hu
      simp [methodTy] at hm

/-- A symbol table for examples: `a : uint8`, `b : uint16`, `c : int32`, `f : float32`, `g : float64`,
`p : bool`, `o : optional uint8`, `l : uint16[]`, `s : string`, `m` of a bitmask type `M`, `E` an enum type
with the item `ONE`, `k : const uint8`, `n : const string`, `t` an object of the type `T` with the member
`x : uint32`. -/
def exampleScope : TScope where
  ident := fun x =>
    if x = "a" then some ⟨.num .uint8, .plain⟩
    else if x = "b" then some ⟨.num .uint16, .plain⟩
    else if x = "c" then some ⟨.num .int32, .plain⟩
    else if x = "f" then some ⟨.num .float32, .plain⟩
    else if x = "g" then some ⟨.num .float64, .plain⟩
    else if x = "p" then some ⟨.bool, .plain⟩
    else if x = "o" then some ⟨.num .uint8, .optional⟩
    else if x = "l" then some ⟨.num .uint16, .array⟩
    else if x = "s" then some ⟨.string, .plain⟩
    else if x = "m" then some ⟨.bitmask "M" { name := .uint8 }, .plain⟩
    else if x = "E" then some ⟨.enum "E" { name := .uint8 }, .typeName⟩
    else if x = "k" then some ⟨.num .uint8, .const⟩
    else if x = "n" then some ⟨.string, .const⟩
    else if x = "e" then some ⟨.enum "E" { name := .uint8 }, .plain⟩
    else if x = "h" then some ⟨.function (.enum "E" { name := .uint8 }), .plain⟩
    else if x = "mc" then some ⟨.bitmask "M" { name := .uint8 }, .const⟩
    else if x = "mh" then some ⟨.function (.bitmask "M" { name := .uint8 }), .plain⟩
    else if x = "eo" then some ⟨.enum "E" { name := .uint8 }, .optional⟩
    else if x = "mo" then some ⟨.bitmask "M" { name := .uint8 }, .optional⟩
    else if x = "t" then some ⟨.compound "T", .plain⟩
    else none
  member := fun id x => if id = "T" ∧ x = "x" then some ⟨.num .uint32, .plain⟩ else none
  hasItem := fun id x => id = "E" && x = "ONE"
  index := true

theorem exampleScope_ordinary : Ordinary exampleScope := by
  intro id n s r h hs
  simp only [exampleScope] at h
  split at h
  · cases h
    cases hs
  · cases h

-- `(a + b) * 2 - lengthof(l) % k` is typed: all of it is cast to `u32`.
example : let e : Expr tenths.F := .arith .sub (.arith .mul (.paren (.arith .add (.ident "a") (.ident "b")))
      (.intLit 2)) (.arith .mod (.lengthof (.ident "l")) (.ident "k"))
    Accepted .debug exampleScope e ∧ IntegerArithmetic exampleScope e ∧
      Typed (rscope exampleScope) (code .debug exampleScope e) (.int ⟨false, 32⟩) := by
  intro e
  have hacc : Accepted .debug exampleScope e := ⟨⟨_, _, rfl⟩, _, rfl⟩
  have h : IntegerArithmetic exampleScope e :=
    ⟨⟨⟨⟨_, _, .inl rfl, rfl⟩, _, _, .inl rfl, rfl⟩, trivial⟩, ⟨_, _, rfl, rfl⟩, _, _, .inr rfl, rfl⟩
  obtain ⟨t, ht, hty⟩ := C58_integers_partial exampleScope_ordinary e hacc h
  have := C58_native_type exampleScope_ordinary e hacc _ rfl t hty (integer_number ht)
  rw [this] at hty
  exact ⟨hacc, h, hty⟩

-- `a + f * g` is an `f64`.
example : let e : Expr tenths.F := .arith .add (.ident "a") (.arith .mul (.ident "f") (.ident "g"))
    ∀ t, Typed (rscope exampleScope) (code .debug exampleScope e) t ↔ t = .float 64 := by
  intro e
  obtain ⟨r, hr, h⟩ := C58_numbers_partial exampleScope_ordinary e ⟨⟨_, _, rfl⟩, _, rfl⟩
    ⟨⟨_, .inl rfl⟩, ⟨_, .inl rfl⟩, _, .inl rfl⟩
  cases hr
  exact h

-- `b < c ? 1 : 2` is accepted and has no type; neither has `a & b`, `(a & 1) + c`, `f + 2.0`, `-a`,
-- `p ? a : b`, `o + 1`.
example : Untypable .debug exampleScope (.cmp .lt (.ident "b") (.ident "c") : Expr tenths.F) ∧
    Untypable .debug exampleScope (.bit .and (.ident "a") (.ident "b") : Expr tenths.F) ∧
    Untypable .debug exampleScope
      (.arith .add (.paren (.bit .and (.ident "a") (.intLit 1))) (.ident "c") : Expr tenths.F) ∧
    Untypable .debug exampleScope (.arith .add (.ident "f") (.floatLit (20 : Int)) : Expr tenths.F) ∧
    Untypable .debug exampleScope (.neg (.ident "a") : Expr tenths.F) ∧
    Untypable .debug exampleScope (.tern (.ident "p") (.ident "a") (.ident "b") : Expr tenths.F) ∧
    Untypable .debug exampleScope (.arith .add (.ident "o") (.intLit 1) : Expr tenths.F) :=
  ⟨C58_comparison_violated exampleScope_ordinary .lt (m := .uint16) (n := .int32) rfl rfl rfl rfl (by decide),
    C58_bit_operation_violated exampleScope_ordinary .and (by decide) (m := .uint8) (n := .uint16) rfl rfl
      rfl rfl (by decide),
    C58_bits_then_sum_violated exampleScope_ordinary (m := .uint8) (n := .int32) rfl rfl rfl rfl (by decide),
    (C58_float_literal_violated exampleScope_ordinary (x := "f") (m := .float32) rfl rfl).2 _ 2 rfl,
    (C58_sign_violated exampleScope_ordinary (x := "a") (m := .uint8) rfl rfl).1,
    C58_ternary_violated exampleScope_ordinary (m := .uint8) (n := .uint16) rfl rfl rfl rfl rfl (by decide),
    C58_optional_violated exampleScope_ordinary (m := .uint8) rfl rfl 1 (by decide) (by decide)⟩

-- `valueof` of the enum field `e`, the bitmask field `m` and the call `h()` is a `u8`; of the bitmask constant `mc`,
-- the call `mh()` and the optional fields `eo` and `mo` it has no type.
example : (∀ t, Typed (rscope exampleScope) (code .debug exampleScope
      (.valueof (.ident "e") : Expr tenths.F)) t ↔ t = .int ⟨false, 8⟩) ∧
    (∀ t, Typed (rscope exampleScope) (code .debug exampleScope
      (.valueof (.ident "m") : Expr tenths.F)) t ↔ t = .int ⟨false, 8⟩) ∧
    (∀ t, Typed (rscope exampleScope) (code .debug exampleScope
      (.valueof (.call (.ident "h")) : Expr tenths.F)) t ↔ t = .int ⟨false, 8⟩) ∧
    Untypable .debug exampleScope (.valueof (.ident "mc") : Expr tenths.F) ∧
    Untypable .debug exampleScope (.valueof (.call (.ident "mh")) : Expr tenths.F) ∧
    Untypable .debug exampleScope (.valueof (.ident "eo") : Expr tenths.F) ∧
    Untypable .debug exampleScope (.valueof (.ident "mo") : Expr tenths.F) :=
  ⟨(C58_valueof_partial "e" "E" { name := .uint8 } _ rfl).1 _ (.inl rfl) rfl,
    (C58_valueof_partial "m" "M" { name := .uint8 } _ rfl).2.1 rfl,
    (C58_valueof_partial "h" "E" { name := .uint8 } _ rfl).2.2 _ rfl,
    (C58_valueof_violated "mc" "M" { name := .uint8 } _ rfl).1 rfl,
    (C58_valueof_violated "mh" "M" { name := .uint8 } _ rfl).2.1 _ rfl,
    (C58_valueof_violated "eo" "E" { name := .uint8 } _ rfl).2.2.1 rfl,
    (C58_valueof_violated "mo" "M" { name := .uint8 } _ rfl).2.2.2 rfl⟩

/-! ## C59: expressions have the type that their place requires -/

/-- C59, constants: `pub const N: T = e;` is accepted by Rust exactly if the types in the expression fit
together and its type, without any cast, is the one of the constant. -/
theorem C59_constant_iff (hord : Ordinary sc) (e : Expr fo.F) (hacc : Accepted md sc e) (t : RTy) :
    Typed (rscope sc) (code md sc e) t ↔ Coherent md sc e ∧ (sort md sc e).Allows t := by
  obtain ⟨⟨c, k, hev⟩, n, hn⟩ := hacc
  exact types_iff hord e c k hev n hn t

/-- C59, lengths of arrays: the only requirement is that the length can be cast to `usize`. -/
theorem C59_length_iff (hord : Ordinary sc) (e : Expr fo.F) (hacc : Accepted md sc e) :
    Typed (rscope sc) (lengthCode md sc e) .usize ↔
      Coherent md sc e ∧ (sort md sc e).Can (fun t => t.CanCast .usize) := by
  simp only [lengthCode, Typed, C59_constant_iff hord e hacc]
  constructor
  · rintro ⟨_, s, ⟨hc, hs⟩, hcast⟩
    exact ⟨hc, s, hs, hcast⟩
  · rintro ⟨hc, s, hs, hcast⟩
    exact ⟨rfl, s, ⟨hc, hs⟩, hcast⟩

/-- C59, lengths of `bit<e>` and `int<e>`: if the compiler knows the type of the length, it can be any type
that can be cast to `u8`, otherwise it has to be `u8` in the first place. -/
theorem C59_bits_iff (hord : Ordinary sc) (e : Expr fo.F) (hacc : Accepted md sc e) :
    Typed (rscope sc) (bitsCode md sc e) (.int ⟨false, 8⟩) ↔
      Coherent md sc e ∧ match e.nativeOf md sc with
        | some _ => (sort md sc e).Can (fun t => t.CanCast (.int ⟨false, 8⟩))
        | none => (sort md sc e).Allows (.int ⟨false, 8⟩) := by
  simp only [bitsCode]
  obtain ⟨⟨c, k, hev⟩, n, hn⟩ := id hacc
  rw [nativeOf_ok hn]
  cases n with
  | none => exact C59_constant_iff hord e hacc _
  | some r =>
    simp only
    split
    · rename_i hr
      rw [C59_constant_iff hord e hacc]
      refine and_congr_right fun _ => ⟨fun h => ⟨_, h, .inl rfl⟩, ?_⟩
      rintro ⟨t, ht, hcast⟩
      have := sort_native e c k hev r hn t ht (castable_of_canCast hcast trivial)
      rw [hr] at this
      rw [this] at ht
      exact ht
    · simp only [Typed, C59_constant_iff hord e hacc]
      constructor
      · rintro ⟨_, s, ⟨hc, hs⟩, hcast⟩
        exact ⟨hc, s, hs, hcast⟩
      · rintro ⟨hc, s, hs, hcast⟩
        exact ⟨rfl, s, ⟨hc, hs⟩, hcast⟩

/-- C59, conditions: an integer or a bitmask is compared with 0, anything else has to be a boolean. -/
theorem C59_condition_iff (hord : Ordinary sc) (e : Expr fo.F) (hacc : Accepted md sc e) (c : CVal fo.F)
    (k : Bool) (hev : e.evaluate md sc.erase = .ok (c, k)) :
    Typed (rscope sc) (conditionCode md sc e) .bool ↔
      Coherent md sc e ∧ if c.isNumber then
          (sort md sc e).Can fun t => t.Integer ∨ ∃ id b, t = .bitmask id b
        else (sort md sc e).Allows .bool := by
  have hnum : Typed (rscope sc) (.bin (.cmp .ne) (code md sc e) (.atom (.int 0))) .bool ↔
      Coherent md sc e ∧ (sort md sc e).Can fun t => t.Integer ∨ ∃ id b, t = .bitmask id b := by
    simp only [Typed, C59_constant_iff hord e hacc, true_and]
    constructor
    · rintro ⟨s, u, ⟨hc, hs⟩, hu, hcmp⟩
      refine ⟨hc, s, hs, ?_⟩
      cases s <;> cases u <;> simp [RTy.Comparable, RTy.Integer] at hcmp hu ⊢
    · rintro ⟨hc, s, hs, hint | ⟨id, b, rfl⟩⟩
      · refine ⟨s, s, ⟨hc, hs⟩, hint, ?_⟩
        cases s <;> first | exact hint.elim | exact rfl | trivial
      · exact ⟨_, .int b, ⟨hc, hs⟩, trivial, rfl, .inr rfl⟩
  simp only [conditionCode, hev]
  cases c <;> first | exact hnum | exact C59_constant_iff hord e hacc _

/-- The types of C59 for functions. -/
def Returnable : ZTy → Bool
  | .num _ | .bool | .string => true
  | _ => false

theorem primType_returnable {ret : ZTy} (h : Returnable ret = true) :
    ∃ t, valueTy ret = some t ∧ primType ret.rustName = some t := by
  cases ret <;> first | cases h | skip
  · exact ⟨_, rfl, primType_rustName _⟩
  · exact ⟨_, rfl, rfl⟩
  · exact ⟨_, rfl, rfl⟩

/-- C59, functions that return numbers, booleans and strings: the result has to be castable to the type of
the function; a string that the compiler does not know is cloned and has to be a `String`. -/
theorem C59_function_iff (hord : Ordinary sc) (ret : ZTy) (hret : Returnable ret = true) (t : RTy)
    (ht : valueTy ret = some t) (e : Expr fo.F) (hacc : Accepted md sc e) (c : CVal fo.F) (k : Bool)
    (hev : e.evaluate md sc.erase = .ok (c, k)) :
    Typed (rscope sc) (functionCode md sc ret e) t ↔
      Coherent md sc e ∧ if t = .string then (sort md sc e).Allows .string
        else (sort md sc e).Can (fun s => s.CanCast t) := by
  have hcast : ∀ u, primType ret.rustName = some u →
      (Typed (rscope sc) (.cast (.paren (code md sc e)) ret.rustName) u ↔
        Coherent md sc e ∧ (sort md sc e).Can (fun s => s.CanCast u)) := by
    intro u hu
    simp only [Typed, C59_constant_iff hord e hacc]
    constructor
    · rintro ⟨_, s, ⟨hc, hs⟩, h⟩
      exact ⟨hc, s, hs, h⟩
    · rintro ⟨hc, s, hs, h⟩
      exact ⟨hu, s, ⟨hc, hs⟩, h⟩
  obtain ⟨t', ht', hp⟩ := primType_returnable hret
  rw [ht] at ht'
  cases ht'
  cases ret <;> first | cases hret | skip
  · rename_i n
    cases ht
    have : numTy n ≠ .string := by cases n <;> simp [numTy, NumName.rustInt]
    simp only [functionCode, this, if_false]
    exact hcast _ hp
  · cases ht
    simp only [functionCode, reduceCtorEq, if_false]
    exact hcast _ hp
  · cases ht
    simp only [if_true]
    have hstr : (sort md sc e).Can (fun s => s.CanCast .string) ↔ (sort md sc e).Allows .string := by
      constructor
      · rintro ⟨s, hs, rfl | ⟨_, h⟩ | ⟨_, h⟩⟩
        · exact hs
        · exact h.elim
        · exact h.elim
      · exact fun h => ⟨_, h, .inl rfl⟩
    cases k with
    | true =>
      simp only [functionCode, hev]
      rw [hcast _ hp, hstr]
    | false =>
      simp only [functionCode, hev, Typed, C59_constant_iff hord e hacc]
      constructor
      · rintro ⟨s, h, hm⟩
        simp only [methodTy, if_true, Option.some.injEq] at hm
        exact hm ▸ h
      · exact fun h => ⟨_, h, by simp [methodTy]⟩

/-- C59, arguments for parameters of numeric types: if the compiler knows the type of the argument, it can be
any number, otherwise it has to have the type of the parameter in the first place. -/
theorem C59_argument_iff (hord : Ordinary sc) (param : NumName) (e : Expr fo.F) (hacc : Accepted md sc e) :
    Typed (rscope sc) (argumentCode md sc (.num param) e) (numTy param) ↔
      Coherent md sc e ∧ match e.castTarget md sc with
        | some _ => (sort md sc e).Can (fun t => t.CanCast (numTy param))
        | none => (sort md sc e).Allows (numTy param) := by
  obtain ⟨⟨c, k, hev⟩, n, hn⟩ := id hacc
  obtain ⟨x, hx, hclone⟩ : ∃ x, (argumentCode md sc (.num param) e =
        match e.castTarget md sc with
        | some r => if param.rustName ≠ r.name.rustName then .cast x param.rustName else x
        | none => x) ∧
      ∀ t, Typed (rscope sc) x t ↔ Typed (rscope sc) (code md sc e) t := by
    cases k with
    | true => exact ⟨code md sc e, by simp only [argumentCode, hev]; rfl, fun _ => Iff.rfl⟩
    | false =>
      refine ⟨.call (.field (code md sc e) "clone"), by simp only [argumentCode, hev]; rfl, fun t => ?_⟩
      simp only [Typed, methodTy, if_true, Option.some.injEq]
      exact ⟨fun ⟨s, h, hs⟩ => hs ▸ h, fun h => ⟨t, h, rfl⟩⟩
  rw [hx]
  cases hct : e.castTarget md sc with
  | none =>
    simp only
    rw [hclone]
    exact C59_constant_iff hord e hacc _
  | some r =>
    have hr : e.native md sc = .ok (some r) := by
      simp only [Expr.castTarget] at hct
      split at hct <;> first | cases hct | skip
      all_goals rename_i h; rw [h]
    simp only
    split
    · simp only [Typed, hclone, C59_constant_iff hord e hacc, primType_rustName, true_and]
      constructor
      · rintro ⟨s, ⟨hc, hs⟩, h⟩
        exact ⟨hc, s, hs, h⟩
      · rintro ⟨hc, s, hs, h⟩
        exact ⟨s, ⟨hc, hs⟩, h⟩
    · rename_i hname
      rw [hclone, C59_constant_iff hord e hacc]
      refine and_congr_right fun _ => ⟨fun h => ⟨_, h, .inl rfl⟩, ?_⟩
      rintro ⟨t, ht, hcast⟩
      have := sort_native e c k hev r hr t ht (castable_of_canCast hcast (numTy_number _))
      rw [numTy_of_rustName (Decidable.not_not.1 hname), ← this]
      exact ht

-- `uint16[a + b]` is fine, as is `bit<a + b>`, `if a & 4`, `function uint32 f() { return a + b; }` and the
-- argument `a + b` for a parameter of the type `uint32`.
example : let e : Expr tenths.F := .arith .add (.ident "a") (.ident "b")
    Typed (rscope exampleScope) (lengthCode .debug exampleScope e) .usize ∧
    Typed (rscope exampleScope) (bitsCode .debug exampleScope e) (.int ⟨false, 8⟩) ∧
    Typed (rscope exampleScope) (conditionCode .debug exampleScope (.bit .and (.ident "a") (.intLit 4) :
      Expr tenths.F)) .bool ∧
    Typed (rscope exampleScope) (functionCode .debug exampleScope (.num .uint32) e) (.int ⟨false, 32⟩) ∧
    Typed (rscope exampleScope) (argumentCode .debug exampleScope (.num .uint32) e) (numTy .uint32) := by
  intro e
  have hacc : Accepted .debug exampleScope e := ⟨⟨_, _, rfl⟩, _, rfl⟩
  have h : IntegerArithmetic exampleScope e := ⟨⟨_, _, .inl rfl, rfl⟩, _, _, .inl rfl, rfl⟩
  have hc : Coherent .debug exampleScope e := (C58_typed_iff exampleScope_ordinary e hacc).1
    ((C58_integers_partial exampleScope_ordinary e hacc h).imp fun _ h => h.2)
  have hs : (sort .debug exampleScope e).Allows (.int ⟨false, 16⟩) := rfl
  refine ⟨(C59_length_iff exampleScope_ordinary e hacc).2 ⟨hc, _, hs, .inr (.inl ⟨trivial, trivial⟩)⟩,
    (C59_bits_iff exampleScope_ordinary e hacc).2 ⟨hc, _, hs, .inr (.inl ⟨trivial, trivial⟩)⟩, ?_,
    (C59_function_iff exampleScope_ordinary (.num .uint32) rfl _ rfl e hacc _ _ rfl).2
      ⟨hc, _, hs, .inr (.inl ⟨trivial, trivial⟩)⟩,
    (C59_argument_iff exampleScope_ordinary .uint32 e hacc).2 ⟨hc, _, hs, .inr (.inl ⟨trivial, trivial⟩)⟩⟩
  refine (C59_condition_iff exampleScope_ordinary _ ⟨⟨_, _, rfl⟩, _, rfl⟩ (.int 0) false rfl).2
    ⟨⟨⟨.int ⟨false, 8⟩, rfl, trivial⟩, trivial, ⟨.int ⟨false, 8⟩, rfl, trivial, trivial⟩⟩,
      .int ⟨false, 8⟩, rfl, .inl trivial⟩

/-- C59 is violated by float constants with a value like `2.0`: `pub const N: f32 = 2;` -/
theorem C59_float_constant_violated (f : fo.F) (v : Int) (h : fo.printsInteger f = some v) (w : Nat) :
    Accepted md sc (.floatLit f : Expr fo.F) ∧
      ¬ Typed (rscope sc) (code md sc (.floatLit f : Expr fo.F)) (.float w) := by
  refine ⟨⟨⟨_, _, rfl⟩, _, rfl⟩, fun ht => ?_⟩
  simp only [code, Expr.tree, Typed, h] at ht
  exact ht

/-- C59 is violated by every constant that is defined as another one with a different Rust type, for
instance `const uint16 A = B;` with `const uint8 B`. -/
theorem C59_constant_alias_violated {x : String} {n : NumName} (hx : sc.ident x = some ⟨.num n, .const⟩)
    (t : RTy) (hne : numTy n ≠ t) :
    Accepted md sc (.ident x : Expr fo.F) ∧
      ¬ Typed (rscope sc) (code md sc (.ident x : Expr fo.F)) t := by
  refine ⟨⟨⟨(ZTy.num n).sym.dummy fo, false,
    by simp only [Expr.evaluate, TScope.erase, hx, Option.map_some, lookup]⟩, _, rfl⟩,
    fun ht => ?_⟩
  simp only [code, Expr.tree, Typed, rscope, hx, Option.bind_some, symbTy, valueTy,
    Option.some.injEq] at ht
  exact hne ht

/-- C59 is violated by `bit<x & 7>` and `int<x & 7>` for a field `x` that is not a `u8`: the type of the
length is not known, so it is not cast. -/
theorem C59_bits_violated (hord : Ordinary sc) {x : String} {m : NumName} {i : IntTy}
    (hx : NumberField sc x m) (hm : m.rustInt = some i) (hne : i ≠ ⟨false, 8⟩) :
    let e : Expr fo.F := .bit .and (.ident x) (.intLit 7)
    Accepted md sc e ∧ Coherent md sc e ∧ ¬ Typed (rscope sc) (bitsCode md sc e) (.int ⟨false, 8⟩) := by
  intro e
  have hs : sort md sc e = .is (.int i) := by
    have hs := field_sort (fo := fo) (md := md) hx
    rw [numTy_int hm] at hs
    simp only [e, sort] at hs ⊢
    rw [hs]
    rfl
  have hacc : Accepted md sc e := ⟨⟨_, _, evaluate_bit (k := true) (c := .int 0) (field_evaluate hx)
    (rb := true) (cb := .int 7) rfl (by rw [dummy_int hm]; rfl)⟩, none,
    (native_two (field_native hx) (nb := none) rfl).2 .and⟩
  refine ⟨hacc, ⟨⟨_, by rw [field_sort hx]; exact rfl, trivial⟩, trivial, .int i,
    by rw [field_sort hx, numTy_int hm]; exact rfl, trivial, trivial⟩, fun h => ?_⟩
  have hn : e.nativeOf md sc = none := nativeOf_ok ((native_two (field_native hx) (nb := none) rfl).2 .and)
  have h := ((C59_bits_iff hord e hacc).1 h).2
  rw [hn, hs] at h
  cases h
  exact hne rfl

/-- C59 is violated by functions that return a string literal (`("abc") as String`) or a string constant
(`N.clone()`, which is a `&str`). -/
theorem C59_string_function_violated (hord : Ordinary sc) {x : String}
    (hx : sc.ident x = some ⟨.string, .const⟩) :
    (∀ s, Accepted md sc (.strLit s : Expr fo.F) ∧
      ¬ Typed (rscope sc) (functionCode md sc .string (.strLit s : Expr fo.F)) .string) ∧
    Accepted md sc (.ident x : Expr fo.F) ∧
      ¬ Typed (rscope sc) (functionCode md sc .string (.ident x : Expr fo.F)) .string := by
  constructor
  · intro s
    have hacc : Accepted md sc (.strLit s : Expr fo.F) := ⟨⟨_, _, rfl⟩, _, rfl⟩
    refine ⟨hacc, fun h => ?_⟩
    have h := ((C59_function_iff hord .string rfl _ rfl _ hacc _ _ rfl).1 h).2
    cases h
  · have he : (Expr.ident x : Expr fo.F).evaluate md sc.erase = .ok (.str "", false) := by
      simp [Expr.evaluate, TScope.erase, hx, lookup, ZTy.sym, SymTy.dummy]
    have hacc : Accepted md sc (.ident x : Expr fo.F) := ⟨⟨_, _, he⟩, _, rfl⟩
    refine ⟨hacc, fun h => ?_⟩
    have h := ((C59_function_iff hord .string rfl _ rfl _ hacc _ _ he).1 h).2
    simp only [if_true, sort, hx, Option.bind_some, symbTy, STy.ofOption] at h
    cases h

-- `const float64 PI = 2.0;`, `const uint16 A = k;`, `bit<b & 7>`, `function string f() { return n; }`
example : tenths.printsInteger (20 : Int) = some 2 ∧ numTy .uint8 ≠ .int ⟨false, 16⟩ ∧
    NumberField exampleScope "b" .uint16 ∧ exampleScope.ident "k" = some ⟨.num .uint8, .const⟩ ∧
    exampleScope.ident "n" = some ⟨.string, .const⟩ := ⟨rfl, by decide, rfl, rfl, rfl⟩

end Zs
