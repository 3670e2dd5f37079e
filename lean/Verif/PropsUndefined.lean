import Verif.PropsValue

/-!
# C96: expressions that have no value
-/

namespace Zs

open Spec

variable {fo : FloatOps} {md : Mode} {sc : TScope} {O : Type} {w : World fo.F O}

/-- **C96** An element that the array does not have: the emitted code panics, in debug and in release builds. -/
theorem C96_element (hord : Ordinary sc) (hc : Conforms w (rscope sc)) (build : Mode) (e i : Expr fo.F) (t : RTy)
    {l : List (Datum fo.F O)} {k : Int} (ht : Typed (rscope sc) (code md sc (.elem e i)) t)
    (hl : means w e = some (.list l)) (hk : means w i = some (.int k)) (hf : Fits md sc w (.elem e i) t)
    (hno : means w (.elem e i) = none) : ∀ o, Evals w (rscope sc) build (code md sc (.elem e i)) t o ↔ o = .panic := by
  intro o
  simp only [code, Expr.tree, Typed] at ht
  have ge := value_main hord hc build e (.vec t) _ ht.1 hl hf.1
  have gi := value_main hord hc build i .usize _ ht.2 hk hf.2
  have hpos : ¬ k < 0 := by
    obtain ⟨j, hj, h⟩ := hasTy_int.1 gi.2
    cases hj
    simp [IntTy.Contains, IntTy.min] at h
    omega
  simp only [means, hl, hk, hpos, if_false] at hno
  simp only [code, Expr.tree, Evals]
  rw [then_iff ge.1, then_iff gi.1]
  constructor
  · rintro ⟨l', k', h1, h2, h⟩
    cases h1; cases h2
    rw [hno] at h
    exact h
  · rintro rfl
    exact ⟨l, k, rfl, rfl, by rw [hno]⟩

/-- **C96** `a / b` and `a % b` if `b` is 0: the emitted code panics, in debug and in release builds. -/
theorem C96_division (hord : Ordinary sc) (hc : Conforms w (rscope sc)) (build : Mode) {op : ArithOp}
    (hop : op = .div ∨ op = .mod) (a b : Expr fo.F) (t : RTy) {x : Int}
    (ht : Typed (rscope sc) (code md sc (.arith op a b)) t) (hx : means w a = some (.int x))
    (hy : means w b = some (.int 0)) (hf : Fits md sc w (.arith op a b) t) :
    ∀ o, Evals w (rscope sc) build (code md sc (.arith op a b)) t o ↔ o = .panic := by
  intro o
  by_cases hstr : ∃ x r, (Expr.arith op a b).evaluate md sc.erase = .ok (.str x, r)
  · obtain ⟨z, r, hz⟩ := hstr
    simp only [code, Expr.tree, hz, Typed, Fits] at ht hf
    obtain ⟨rfl, ⟨s0, hs0, _⟩, u0, hu0, _⟩ := ht
    obtain ⟨s, hs, _⟩ := infers_some .str hs0
    simp only [Expr.evaluate] at hz
    obtain ⟨⟨ca, ra⟩, ha0, hz⟩ := Res.bind_eq_ok.1 hz
    obtain ⟨⟨cb, rb⟩, hb0, hz⟩ := Res.bind_eq_ok.1 hz
    obtain ⟨c, hc', hz⟩ := Res.bind_eq_ok.1 hz
    simp only [Res.pure_eq, Res.ok.injEq, Prod.mk.injEq] at hz
    obtain ⟨rfl, _⟩ := hz
    have hca : ∃ z, ca = .str z := by
      cases ca <;> cases cb <;> simp only [evalArith, reduceCtorEq] at hc'
      · obtain ⟨_, _, h⟩ := Res.bind_eq_ok.1 hc'
        simp at h
      · split at hc' <;> simp at hc'
      · split at hc' <;> simp at hc'
      · split at hc' <;> simp at hc'
      · exact ⟨_, rfl⟩
    obtain ⟨z, rfl⟩ := hca
    exact absurd (holds_integer (hasTy_int.1 (value_main hord hc build a s _ hs.1 hx (hf.1 s hs)).2))
      (str_not_integer hord a z ra s ha0 hs.1)
  · rw [tree_number hstr] at ht ⊢
    obtain ⟨fa, fb, fr, fm⟩ := fits_number hstr hf
    simp only [Typed] at ht
    obtain ⟨hta, htb, hnum⟩ := ht
    have ga := computes_operand (w := w) (m := build) (n := x) hta (by
      intro hcast
      rw [hcast] at fa hta
      exact value_main hord hc build a t _ hta hx fa) (by
      intro ty hcast
      rw [hcast] at fa
      exact ⟨fa.1 x hx, fun s hs => value_main hord hc build a s _ hs.1 hx (fa.2 s hs)⟩)
    have gb := computes_operand (w := w) (m := build) (n := 0) htb (by
      intro hcast
      rw [hcast] at fb htb
      exact value_main hord hc build b t _ htb hy fb) (by
      intro ty hcast
      rw [hcast] at fb
      exact ⟨fb.1 0 hy, fun s hs => value_main hord hc build b s _ hs.1 hy (fb.2 s hs)⟩)
    obtain ⟨i, hi, -⟩ := hasTy_int.1 gb.2
    simp only [Evals]
    rw [then_iff ga.1, then_iff gb.1]
    simp only [ArithTo, hi, Option.some.injEq, hop, true_or, and_self, if_true]
    exact ⟨fun ⟨_, _, h⟩ => h, fun h => ⟨i, rfl, h⟩⟩

/-- **C96** Lengths of arrays: if the expression panics, so does the length, and no array is read or written. -/
theorem C96_length (build : Mode) (e : Expr fo.F) (s : RTy) (hs : Typed (rscope sc) (code md sc e) s)
    (hcan : s.CanCast .usize) (hp : ∀ s, Infers (rscope sc) (code md sc e) .usize s →
      ∀ o, Evals w (rscope sc) build (code md sc e) s o ↔ o = .panic) :
    ∀ o, Evals w (rscope sc) build (lengthCode md sc e) .usize o ↔ o = .panic := by
  intro o
  have hs' : Typed (rscope sc) (.paren (code md sc e)) s := by simpa only [Typed] using hs
  simp only [lengthCode, Evals]
  constructor
  · rintro ⟨_, u, hu, _, r, hr, h⟩
    obtain rfl := (hp u (infers_paren hu) r).1 hr
    exact h
  · rintro rfl
    obtain ⟨u, hu, hcu⟩ := infers_cast hs' hcan
    exact ⟨rfl, u, hu, hcu, .panic, (hp u (infers_paren hu) _).2 rfl, rfl⟩

/-- **C96** Widths: if the length `e` of `bit<e>` or `int<e>` panics, so does the emitted width. -/
theorem C96_width (build : Mode) (e : Expr fo.F) (ht : Typed (rscope sc) (bitsCode md sc e) (.int ⟨false, 8⟩))
    (hp : ∀ s, Typed (rscope sc) (code md sc e) s → ∀ o, Evals w (rscope sc) build (code md sc e) s o ↔ o = .panic) :
    ∀ o, Evals w (rscope sc) build (bitsCode md sc e) (.int ⟨false, 8⟩) o ↔ o = .panic := by
  have cast : Typed (rscope sc) (.cast (.paren (code md sc e)) "u8") (.int ⟨false, 8⟩) →
      ∀ o, Evals w (rscope sc) build (.cast (.paren (code md sc e)) "u8") (.int ⟨false, 8⟩) o ↔ o = .panic := by
    intro ht o
    simp only [Typed] at ht
    obtain ⟨hty, s, hs, hcan⟩ := ht
    have hs' : Typed (rscope sc) (.paren (code md sc e)) s := by simpa only [Typed] using hs
    simp only [Evals]
    constructor
    · rintro ⟨_, u, hu, _, r, hr, h⟩
      obtain rfl := (hp u (infers_paren hu).1 r).1 hr
      exact h
    · rintro rfl
      obtain ⟨u, hu, hcu⟩ := infers_cast hs' hcan
      exact ⟨hty, u, hu, hcu, .panic, (hp u (infers_paren hu).1 _).2 rfl, rfl⟩
  unfold bitsCode at ht ⊢
  split at ht
  · split at ht
    · rename_i h1 h2
      rw [if_pos h2]
      exact hp _ ht
    · rename_i h1 h2
      rw [if_neg h2]
      exact cast ht
  · exact hp _ ht

/-- **C96** Conditions (`if`, constraints): if the expression panics, so does the emitted condition. -/
theorem C96_condition (build : Mode) (e : Expr fo.F) (ht : Typed (rscope sc) (conditionCode md sc e) .bool)
    (hp : ∀ s, Typed (rscope sc) (code md sc e) s → ∀ o, Evals w (rscope sc) build (code md sc e) s o ↔ o = .panic) :
    ∀ o, Evals w (rscope sc) build (conditionCode md sc e) .bool o ↔ o = .panic := by
  have number : Typed (rscope sc) (.bin (.cmp .ne) (code md sc e) (.atom (.int 0))) .bool →
      ∀ o, Evals w (rscope sc) build (.bin (.cmp .ne) (code md sc e) (.atom (.int 0))) .bool o ↔ o = .panic := by
    intro ht o
    simp only [Typed] at ht
    obtain ⟨_, s0, u0, hs0, hu0, hcmp0⟩ := ht
    obtain ⟨s, u, hsu⟩ := infersBoth_some (b := .atom (.int 0)) hs0 (by simpa only [Typed] using hu0) hcmp0
    rw [Evals]
    constructor
    · rintro ⟨s, u, hsu, r, hr, h⟩
      obtain rfl := (hp s hsu.1 r).1 hr
      exact h
    · rintro rfl
      exact ⟨s, u, hsu, .panic, (hp s hsu.1 _).2 rfl, rfl⟩
  unfold conditionCode at ht ⊢
  split at ht
  · exact number ht
  · exact number ht
  · exact hp _ ht

theorem wrap_in {i : IntTy} (h : 1 ≤ i.width) (z : Int) : i.Contains (i.wrap z) := by
  have h2 : (2 : Int) ^ i.width = 2 * 2 ^ (i.width - 1) := by
    rw [show i.width = (i.width - 1) + 1 by omega, Int.pow_succ]
    simp
    omega
  have h1 : (0 : Int) < 2 ^ (i.width - 1) := Int.pow_pos (by decide)
  have h3 := Int.emod_nonneg (z - i.min) (b := 2 ^ i.width) (by omega)
  have h4 := Int.emod_lt_of_pos (z - i.min) (b := 2 ^ i.width) (by omega)
  simp only [IntTy.Contains, IntTy.wrap, IntTy.max, IntTy.min] at *
  cases i.signed <;> simp at * <;> omega

/-- What `a << b` and `a >> b` compute for integers, if the operands fit. -/
theorem shift_main (hord : Ordinary sc) (hc : Conforms w (rscope sc)) (build : Mode) {op : BitOp}
    (hop : op = .shl ∨ op = .shr) (a b : Expr fo.F) (t : RTy) {x n : Int}
    (ht : Typed (rscope sc) (code md sc (.bit op a b)) t) (hx : means w a = some (.int x)) (hy : means w b = some (.int n))
    (fa : Fits md sc w a t)
    (fb : ∀ s, Infers (rscope sc) (code md sc b) (.int ⟨true, 32⟩) s → Fits md sc w b s) (o : Res (Datum fo.F O)) :
    Evals w (rscope sc) build (code md sc (.bit op a b)) t o ↔ ShiftsTo build op t (.int x) (.int n) o := by
  simp only [code, Expr.tree, Typed] at ht ⊢
  rw [if_pos hop] at ht
  obtain ⟨hta, -, u0, hu0, -⟩ := ht
  have ga := value_main hord hc build a t _ hta hx fa
  have key : ∀ u, Infers (rscope sc) (code md sc b) (.int ⟨true, 32⟩) u →
      (Then (Evals w (rscope sc) build (code md sc a) t)
        (fun x => Then (Evals w (rscope sc) build (code md sc b) u) (ShiftsTo build op t x)) o ↔
        ShiftsTo build op t (.int x) (.int n) o) := by
    intro u hu
    rw [then_iff ga.1, then_iff (value_main hord hc build b u _ hu.1 hy (fb u hu)).1]
  obtain ⟨u, hu, _⟩ := infers_some (.int ⟨true, 32⟩) hu0
  simp only [Evals, if_pos hop]
  exact ⟨fun ⟨u, hu, h⟩ => (key u hu).1 h, fun h => ⟨u, hu, (key u hu).2 h⟩⟩

/-- C70 is violated by shifts that lose bits, as `a << 4` if the `uint8` field `a` is 100: in debug and in release builds the
code goes on with another number, the value modulo the size of the type `i` of the left operand. -/
theorem C70_shift_violated (hord : Ordinary sc) (hc : Conforms w (rscope sc)) (build : Mode) (a b : Expr fo.F) (t : RTy)
    {i : IntTy} {x n : Int} (ht : Typed (rscope sc) (code md sc (.bit .shl a b)) t) (hx : means w a = some (.int x))
    (hy : means w b = some (.int n)) (fa : Fits md sc w a t)
    (fb : ∀ s, Infers (rscope sc) (code md sc b) (.int ⟨true, 32⟩) s → Fits md sc w b s) (hi : t.ints = some i)
    (hn0 : 0 ≤ n) (hn : n < i.width) (hout : ¬ i.Contains (x * 2 ^ n.toNat)) :
    means w (.bit .shl a b) = some (.int (x * 2 ^ n.toNat)) ∧ i.wrap (x * 2 ^ n.toNat) ≠ x * 2 ^ n.toNat ∧
    ∀ o, Evals w (rscope sc) build (code md sc (.bit .shl a b)) t o ↔ o = .ok (.int (i.wrap (x * 2 ^ n.toNat))) := by
  have hr : BitOp.result .shl x n = some (x * 2 ^ n.toNat) := by
    simp only [BitOp.result]
    rw [if_neg (by omega)]
  refine ⟨by simp [means, hx, hy, hr], fun h => hout (h ▸ wrap_in (by have := ints_width hi; omega) _), fun o => ?_⟩
  rw [shift_main hord hc build (.inl rfl) a b t ht hx hy fa fb]
  simp only [ShiftsTo, hi, Option.some.injEq, hr]
  constructor
  · rintro ⟨_, rfl, h⟩
    rw [if_pos ⟨hn0, hn⟩] at h
    obtain ⟨_, rfl, h⟩ := h
    exact h
  · rintro rfl
    exact ⟨_, rfl, by rw [if_pos ⟨hn0, hn⟩]; exact ⟨_, rfl, rfl⟩⟩

/-- C70 is violated by shifts by as many bits as the type has, or more: debug builds panic, release builds shift by another
number of bits. -/
theorem C70_amount_violated (hord : Ordinary sc) (hc : Conforms w (rscope sc)) {op : BitOp}
    (hop : op = .shl ∨ op = .shr) (a b : Expr fo.F) (t : RTy) {i : IntTy} {x n v : Int}
    (ht : Typed (rscope sc) (code md sc (.bit op a b)) t) (hx : means w a = some (.int x)) (hy : means w b = some (.int n))
    (fa : Fits md sc w a t)
    (fb : ∀ s, Infers (rscope sc) (code md sc b) (.int ⟨true, 32⟩) s → Fits md sc w b s) (hi : t.ints = some i)
    (hn : i.width ≤ n) (hv : BitOp.result op x (n % i.width) = some v) :
    (∀ o, Evals w (rscope sc) .debug (code md sc (.bit op a b)) t o ↔ o = .panic) ∧
    ∀ o, Evals w (rscope sc) .release (code md sc (.bit op a b)) t o ↔ o = .ok (.int (i.wrap v)) := by
  have hno : ¬ (0 ≤ n ∧ n < i.width) := by omega
  refine ⟨fun o => ?_, fun o => ?_⟩ <;> rw [shift_main hord hc _ hop a b t ht hx hy fa fb] <;>
    simp only [ShiftsTo, hi, Option.some.injEq]
  · constructor
    · rintro ⟨_, rfl, h⟩
      rwa [if_neg hno] at h
    · exact fun h => ⟨_, rfl, by rwa [if_neg hno]⟩
  · constructor
    · rintro ⟨_, rfl, h⟩
      rw [if_neg hno] at h
      obtain ⟨_, hv', h⟩ := h
      cases hv.symm.trans hv'
      exact h
    · exact fun h => ⟨_, rfl, by rw [if_neg hno]; exact ⟨_, hv, h⟩⟩

-- `l[3]` panics: `l` has three elements.
example (build : Mode) (o : Res (Datum tenths.F Unit)) :
    Evals valueWorld (rscope valueScope) build (code .debug valueScope (.elem (.ident "l") (.intLit 3))) (.int ⟨false, 16⟩) o ↔
      o = .panic :=
  C96_element valueScope_ordinary valueWorld_conforms build (.ident "l") (.intLit 3) _ ⟨rfl, trivial⟩ rfl rfl
    ⟨trivial, _, rfl, by decide⟩ rfl o

/-- `e % (e - e)`. -/
def valueZero : Expr tenths.F := .arith .mod (.ident "e") (.paren (.arith .sub (.ident "e") (.ident "e")))

theorem valueZero_typed : Typed (rscope valueScope) (code .debug valueScope valueZero) (.int ⟨true, 32⟩) := by
  have : code .debug valueScope valueZero = .bin (.arith .mod) (.atom (.name "e"))
      (.paren (.bin (.arith .sub) (.atom (.name "e")) (.atom (.name "e")))) := rfl
  rw [this]
  exact ⟨rfl, ⟨rfl, rfl, trivial⟩, trivial⟩

theorem valueZero_fits : Fits .debug valueScope valueWorld valueZero (.int ⟨true, 32⟩) := by
  refine ⟨trivial, ⟨trivial, trivial, fun k hk => ?_, nofun⟩, nofun, fun _ => nofun⟩
  have : (some (.int 0) : Option (Datum tenths.F Unit)) = some (.int k) := hk
  cases this
  exact ⟨_, rfl, by decide⟩

-- `e % (e - e)` panics.
example (build : Mode) (o : Res (Datum tenths.F Unit)) :
    Evals valueWorld (rscope valueScope) build (code .debug valueScope valueZero) (.int ⟨true, 32⟩) o ↔ o = .panic :=
  C96_division valueScope_ordinary valueWorld_conforms build (.inr rfl) _ _ _ valueZero_typed (x := 5) rfl rfl
    valueZero_fits o

-- So does the array `x[e % (e - e)]`.
example (build : Mode) (o : Res (Datum tenths.F Unit)) :
    Evals valueWorld (rscope valueScope) build (lengthCode .debug valueScope valueZero) .usize o ↔ o = .panic := by
  refine C96_length build valueZero _ valueZero_typed (.inr (.inl ⟨trivial, trivial⟩)) (fun s hs => ?_) o
  obtain rfl : s = .int ⟨true, 32⟩ := by
    have h := hs.1
    have : code .debug valueScope valueZero = .bin (.arith .mod) (.atom (.name "e"))
        (.paren (.bin (.arith .sub) (.atom (.name "e")) (.atom (.name "e")))) := rfl
    rw [this] at h
    exact (Option.some.inj h.1).symm
  exact C96_division valueScope_ordinary valueWorld_conforms build (.inr rfl) _ _ _ valueZero_typed (x := 5) rfl rfl
    valueZero_fits

-- `a << 4` is 3200; the code computes 128.
example (build : Mode) (o : Res (Datum tenths.F Unit)) :
    Evals valueWorld (rscope valueScope) build (code .debug valueScope (.bit .shl (.ident "a") (.intLit 4))) (.int ⟨false, 8⟩) o ↔
      o = .ok (.int 128) := by
  have h := (C70_shift_violated (md := .debug) valueScope_ordinary valueWorld_conforms build (.ident "a") (.intLit 4)
    (.int ⟨false, 8⟩) (x := 200) (n := 4) (i := ⟨false, 8⟩) ⟨rfl, trivial, .int ⟨true, 32⟩, trivial, trivial⟩ rfl rfl trivial
    (fun s hs => by
      obtain rfl : s = .int ⟨true, 32⟩ := (hs.2 trivial).elim id id
      exact ⟨_, rfl, by decide⟩) rfl (by decide) (by decide) (by decide)).2.2 o
  exact h

-- `a << b` with `b = 200`: debug builds panic, release builds do not shift.
example :
    (∀ o, Evals valueWorld (rscope valueScope) .debug (code .debug valueScope (.bit .shl (.ident "a") (.ident "b")))
      (.int ⟨false, 8⟩) o ↔ o = .panic) ∧
    ∀ o, Evals valueWorld (rscope valueScope) .release (code .debug valueScope (.bit .shl (.ident "a") (.ident "b")))
      (.int ⟨false, 8⟩) o ↔ o = .ok (.int 200) :=
  C70_amount_violated (md := .debug) valueScope_ordinary valueWorld_conforms (.inl rfl) (.ident "a") (.ident "b")
    (.int ⟨false, 8⟩) (x := 200) (n := 200) (v := 200) (i := ⟨false, 8⟩) ⟨rfl, trivial, .int ⟨false, 8⟩, rfl, trivial⟩ rfl rfl
    trivial (fun _ _ => trivial) rfl (by decide) rfl

theorem valueZero_type {s : RTy} (h : Typed (rscope valueScope) (code .debug valueScope valueZero) s) :
    s = .int ⟨true, 32⟩ := by
  have : code .debug valueScope valueZero = .bin (.arith .mod) (.atom (.name "e"))
      (.paren (.bin (.arith .sub) (.atom (.name "e")) (.atom (.name "e")))) := rfl
  rw [this] at h
  exact (Option.some.inj h.1).symm

theorem valueZero_panics (build : Mode) (s : RTy) (h : Typed (rscope valueScope) (code .debug valueScope valueZero) s)
    (o : Res (Datum tenths.F Unit)) :
    Evals valueWorld (rscope valueScope) build (code .debug valueScope valueZero) s o ↔ o = .panic := by
  obtain rfl := valueZero_type h
  exact C96_division valueScope_ordinary valueWorld_conforms build (.inr rfl) _ _ _ valueZero_typed (x := 5) rfl rfl
    valueZero_fits o

-- `bit<e % (e - e)> x;` panics.
example (build : Mode) (o : Res (Datum tenths.F Unit)) :
    Evals valueWorld (rscope valueScope) build (bitsCode .debug valueScope valueZero) (.int ⟨false, 8⟩) o ↔ o = .panic :=
  C96_width build valueZero (by
    have : bitsCode .debug valueScope valueZero = .cast (.paren (code .debug valueScope valueZero)) "u8" := rfl
    rw [this]
    exact ⟨rfl, .int ⟨true, 32⟩, valueZero_typed, .inr (.inl ⟨trivial, trivial⟩)⟩) (valueZero_panics build) o

-- `x if e % (e - e)` panics.
example (build : Mode) (o : Res (Datum tenths.F Unit)) :
    Evals valueWorld (rscope valueScope) build (conditionCode .debug valueScope valueZero) .bool o ↔ o = .panic :=
  C96_condition build valueZero (by
    have : conditionCode .debug valueScope valueZero = .bin (.cmp .ne) (code .debug valueScope valueZero) (.atom (.int 0)) := rfl
    rw [this]
    exact ⟨rfl, _, .int ⟨true, 32⟩, valueZero_typed, trivial, rfl⟩) (valueZero_panics build) o

end Zs
