import Verif.ExprValueMain
import Verif.PropsTyping

/-!
# Properties of the values of generated expressions (C70)

The statements are in English in `properties.jsonl`; each theorem below repeats what it says.
-/

namespace Zs

open Spec

variable {fo : FloatOps} {md : Mode} {sc : TScope} {O : Type} {w : World fo.F O}

/-! ## C70: generated expressions compute what the schema means -/

/-- C70 (partial): the Rust code for a schema expression has, in debug and in release builds, exactly the
value that the expression means, provided that the code has a type and that all literals, operands and
results are in the ranges of the Rust types in which they are computed.  Missing: values out of range,
see the violations below; operations on floats. -/
theorem C70_value_partial (hord : Ordinary sc) (hc : Conforms w (rscope sc)) (build : Mode) (e : Expr fo.F)
    (t : RTy) (v : Datum fo.F O) (ht : Typed (rscope sc) (code md sc e) t) (hv : means w e = some v)
    (hf : Fits md sc w e t) :
    (∀ o, Evals w (rscope sc) build (code md sc e) t o ↔ o = .ok v) ∧ HasTy w t v :=
  value_main hord hc build e t v ht hv hf

/-- C70 (partial): the same for the text that is emitted, as Rust reads it, if Rust groups it as it is
meant (C47).  Missing: as above. -/
theorem C70_text_partial (hord : Ordinary sc) (hc : Conforms w (rscope sc)) (build : Mode) (e : Expr fo.F)
    (t : RTy) (v : Datum fo.F O) (hacc : Accepted md sc e) (hparsed : e.Parsed)
    (hsep : e.Separable (textInfo md sc)) (ts : List (Tok fo.F))
    (hts : e.text md sc.erase (textInfo md sc) = some ts) (x : RExpr fo.F) (hx : ReadsAs ts x)
    (ht : Typed (rscope sc) x t) (hv : means w e = some v) (hf : Fits md sc w e t) :
    ∀ o, Evals w (rscope sc) build x t o ↔ o = .ok v := by
  obtain ⟨⟨c, k, hev⟩, _⟩ := hacc
  have hr := C47_grouping_partial md sc.erase (textInfo md sc) e hparsed hsep _ hev ts hts
  obtain ⟨n1, h1⟩ := hx
  obtain ⟨n2, h2⟩ := hr
  have := (h1 (max n1 n2) (by omega)).symm.trans (h2 (max n1 n2) (by omega))
  simp only [Option.some.injEq, Prod.mk.injEq, and_true] at this
  subst this
  exact (value_main hord hc build e t v ht hv hf).1

/-- The value of `(e) as usize` for an integer `n`. -/
theorem length_value (hord : Ordinary sc) (hc : Conforms w (rscope sc)) (build : Mode) (e : Expr fo.F)
    (n : Int) (s : RTy) (hs : Typed (rscope sc) (code md sc e) s) (hcan : s.CanCast .usize)
    (hv : means w e = some (.int n))
    (hf : ∀ s, Infers (rscope sc) (code md sc e) .usize s → Fits md sc w e s) :
    ∀ o, Evals w (rscope sc) build (lengthCode md sc e) .usize o ↔ o = .ok (.int (n % 2 ^ 64)) := by
  have hp : ∀ s, Infers (rscope sc) (.paren (code md sc e)) .usize s → Infers (rscope sc) (code md sc e) .usize s :=
    fun s hs => ⟨by simpa only [Typed] using hs.1, fun h => hs.2 (by simpa only [Typed] using h)⟩
  have hg : ∀ s, Infers (rscope sc) (.paren (code md sc e)) .usize s →
      Computes w (rscope sc) build (.paren (code md sc e)) s (.int n) :=
    fun s hs => computes_paren (value_main hord hc build e s _ (hp s hs).1 hv (hf s (hp s hs)))
  have hcast : ∀ o : Res (Datum fo.F O), CastsTo .usize (.int n) o ↔ o = .ok (.int (n % 2 ^ 64)) := by
    intro o
    have : IntTy.wrap ⟨false, 64⟩ n = n % 2 ^ 64 := by simp [IntTy.wrap, IntTy.min]
    simp only [CastsTo, RTy.ints, this]
  obtain ⟨u, hu, hcu⟩ := infers_cast (x := .paren (code md sc e)) (by simpa only [Typed] using hs) hcan
  intro o
  rw [lengthCode, Evals]
  constructor
  · rintro ⟨_, s, hs, _, h⟩
    exact (hcast o).1 ((then_iff (hg s hs).1 o).1 h)
  · intro h
    exact ⟨rfl, u, hu, hcu, (then_iff (hg u hu).1 o).2 ((hcast o).2 h)⟩

/-- C70 (partial), lengths of arrays: the number of elements that is read or checked is the value of the
length expression, which may have any type that can be cast to `usize`.  Missing: negative values. -/
theorem C70_length_partial (hord : Ordinary sc) (hc : Conforms w (rscope sc)) (build : Mode) (e : Expr fo.F)
    (n : Nat) (hn : n < 2 ^ 64) (s : RTy) (hs : Typed (rscope sc) (code md sc e) s)
    (hcan : s.CanCast .usize) (hv : means w e = some (.int n))
    (hf : ∀ s, Infers (rscope sc) (code md sc e) .usize s → Fits md sc w e s) :
    ∀ o, Evals w (rscope sc) build (lengthCode md sc e) .usize o ↔ o = .ok (.int n) := by
  intro o
  rw [length_value hord hc build e n s hs hcan hv hf, Int.emod_eq_of_lt (by omega) (by omega)]

/-- C70 is violated by lengths that are negative, such as `a - b` for signed fields: no error is raised,
the code goes on with the length plus `2^64`. -/
theorem C70_length_violated (hord : Ordinary sc) (hc : Conforms w (rscope sc)) (build : Mode) (e : Expr fo.F)
    (n : Int) (hneg : n < 0) (hmin : -2 ^ 63 ≤ n) (s : RTy) (hs : Typed (rscope sc) (code md sc e) s)
    (hcan : s.CanCast .usize) (hv : means w e = some (.int n))
    (hf : ∀ s, Infers (rscope sc) (code md sc e) .usize s → Fits md sc w e s) :
    ∀ o, Evals w (rscope sc) build (lengthCode md sc e) .usize o ↔ o = .ok (.int (2 ^ 64 + n)) := by
  intro o
  rw [length_value hord hc build e n s hs hcan hv hf,
    show n % 2 ^ 64 = 2 ^ 64 + n by rw [← Int.add_emod_right, Int.emod_eq_of_lt] <;> omega]

theorem infers_paren {Γ : RScope fo.F} {x : RExpr fo.F} {t s : RTy} (h : Infers Γ (.paren x) t s) :
    Infers Γ x t s :=
  ⟨by simpa only [Typed] using h.1, fun h' => h.2 (by simpa only [Typed] using h')⟩

/-- C70 (partial), lengths of `bit<e>` and `int<e>`: the width that is used is the value of the length
expression.  Missing: values that do not fit into `u8`, of which the last 8 bits are used. -/
theorem C70_width_partial (hord : Ordinary sc) (hc : Conforms w (rscope sc)) (build : Mode) (e : Expr fo.F)
    (n : Nat) (hn : n < 256) (ht : Typed (rscope sc) (bitsCode md sc e) (.int ⟨false, 8⟩))
    (hv : means w e = some (.int n))
    (hf : ∀ s, Infers (rscope sc) (code md sc e) (.int ⟨false, 8⟩) s → Fits md sc w e s) :
    ∀ o, Evals w (rscope sc) build (bitsCode md sc e) (.int ⟨false, 8⟩) o ↔ o = .ok (.int n) := by
  have hplain : Typed (rscope sc) (code md sc e) (.int ⟨false, 8⟩) →
      ∀ o, Evals w (rscope sc) build (code md sc e) (.int ⟨false, 8⟩) o ↔ o = .ok (.int n) :=
    fun ht => (value_main hord hc build e _ _ ht hv (hf _ (infers_target ht))).1
  have hcast : Typed (rscope sc) (.cast (.paren (code md sc e)) "u8") (.int ⟨false, 8⟩) →
      ∀ o, Evals w (rscope sc) build (.cast (.paren (code md sc e)) "u8") (.int ⟨false, 8⟩) o ↔
        o = .ok (.int n) := by
    intro ht
    refine (computes_cast (.inl rfl) ht (fun s hs => ?_) ?_).1
    · exact computes_paren
        (value_main hord hc build e s _ (infers_paren hs).1 hv (hf _ (infers_paren hs)))
    · refine ⟨⟨false, 8⟩, rfl, ?_⟩
      simp only [IntTy.Contains, IntTy.min, IntTy.max]
      simp
      omega
  simp only [bitsCode] at ht ⊢
  split at ht
  · split at ht
    · rename_i h; simp only [h, if_true]; exact hplain ht
    · rename_i h; simp only [h, if_false]; exact hcast ht
  · exact hplain ht

/-- C70 is violated by widths of 256 and more, such as `bit<n>` with `uint16 n` and `n = 257`: no error is
raised, the width is taken modulo 256. -/
theorem C70_width_violated (hord : Ordinary sc) (hc : Conforms w (rscope sc)) (build : Mode) (e : Expr fo.F)
    (n : Int) (hn : 256 ≤ n) (r : NumRef) (hr : e.nativeOf md sc = some r) (hu : r.name ≠ .uint8)
    (ht : Typed (rscope sc) (bitsCode md sc e) (.int ⟨false, 8⟩)) (hv : means w e = some (.int n))
    (hf : ∀ s, Infers (rscope sc) (code md sc e) (.int ⟨false, 8⟩) s → Fits md sc w e s) :
    (∀ o, Evals w (rscope sc) build (bitsCode md sc e) (.int ⟨false, 8⟩) o ↔ o = .ok (.int (n % 256))) ∧
      n % 256 ≠ n := by
  refine ⟨fun o => ?_, by omega⟩
  simp only [bitsCode, hr, hu, if_false] at ht ⊢
  have hg : ∀ s, Infers (rscope sc) (.paren (code md sc e)) (.int ⟨false, 8⟩) s →
      Computes w (rscope sc) build (.paren (code md sc e)) s (.int n) := fun s hs =>
    computes_paren (value_main hord hc build e s _ (infers_paren hs).1 hv (hf _ (infers_paren hs)))
  have hcast : ∀ o : Res (Datum fo.F O), CastsTo (.int ⟨false, 8⟩) (.int n) o ↔ o = .ok (.int (n % 256)) := by
    intro o
    have : IntTy.wrap ⟨false, 8⟩ n = n % 256 := by simp [IntTy.wrap, IntTy.min]
    simp [CastsTo, RTy.ints, this]
  simp only [Typed] at ht
  obtain ⟨hty, s, hs, hcs⟩ := ht
  obtain ⟨u, hu, hcu⟩ := infers_cast (x := .paren (code md sc e)) (by simpa only [Typed] using hs) hcs
  rw [Evals]
  constructor
  · rintro ⟨_, s, hs, _, h⟩
    exact (hcast o).1 ((then_iff (hg s hs).1 o).1 h)
  · intro h
    exact ⟨hty, u, hu, hcu, (then_iff (hg u hu).1 o).2 ((hcast o).2 h)⟩

theorem typed_clone {Γ : RScope fo.F} {x : RExpr fo.F} {t : RTy} :
    Typed Γ (.call (.field x "clone")) t ↔ Typed Γ x t := by
  simp only [Typed, methodTy, if_true, Option.some.injEq]
  exact ⟨fun ⟨s, h, hs⟩ => hs ▸ h, fun h => ⟨t, h, rfl⟩⟩

theorem computes_clone {Γ : RScope fo.F} {m : Mode} {x : RExpr fo.F} {t : RTy} {v : Datum fo.F O}
    (ht : Typed Γ x t) (h : Computes w Γ m x t v) :
    Computes w Γ m (.call (.field x "clone")) t v := by
  refine ⟨fun o => ?_, h.2⟩
  simp only [Evals, methodTy, if_true, Option.some.injEq]
  constructor
  · rintro ⟨s, -, rfl, ho⟩
    have := (then_iff h.1 o).1 ho
    simpa [MethodTo] using this
  · intro ho
    exact ⟨t, infers_target ht, rfl, (then_iff h.1 o).2 (by simpa [MethodTo] using ho)⟩

/-- The argument without the cast. -/
theorem argument_cases (hord : Ordinary sc) (hc : Conforms w (rscope sc)) (build : Mode) (e : Expr fo.F) (param : ZTy)
    (t : RTy) (v : Datum fo.F O) (hv : means w e = some v)
    (hf : ∀ s, Infers (rscope sc) (code md sc e) t s → Fits md sc w e s) : ∃ x,
      (argumentCode md sc param e =
        match e.castTarget md sc with
        | some r => if param.rustName ≠ r.name.rustName then .cast x param.rustName else x
        | none => x) ∧
      (∀ t, Typed (rscope sc) x t ↔ Typed (rscope sc) (code md sc e) t) ∧
      ∀ s, Infers (rscope sc) x t s → Computes w (rscope sc) build x s v := by
  have hmain := fun s (hs : Infers (rscope sc) (code md sc e) t s) =>
    value_main hord hc build e s _ hs.1 hv (hf s hs)
  have hclone := fun s (hs : Infers (rscope sc) (.call (.field (code md sc e) "clone")) t s) =>
    have hs' : Infers (rscope sc) (code md sc e) t s := ⟨typed_clone.1 hs.1, fun h => hs.2 (typed_clone.2 h)⟩
    computes_clone hs'.1 (hmain s hs')
  cases hev : e.evaluate md sc.erase with
  | ok p =>
    obtain ⟨c, k⟩ := p
    cases k with
    | true => exact ⟨code md sc e, by simp only [argumentCode, hev]; rfl, fun _ => Iff.rfl, hmain⟩
    | false => exact ⟨_, by simp only [argumentCode, hev]; rfl, fun t => typed_clone, hclone⟩
  | err x => exact ⟨_, by simp only [argumentCode, hev]; rfl, fun t => typed_clone, hclone⟩
  | panic => exact ⟨_, by simp only [argumentCode, hev]; rfl, fun t => typed_clone, hclone⟩

/-- C70 (partial), arguments for parameters of integer types: the parameter gets the value of the
expression.  Missing: values out of the range of the parameter, floats. -/
theorem C70_argument_partial (hord : Ordinary sc) (hc : Conforms w (rscope sc)) (build : Mode)
    (e : Expr fo.F) (param : NumName) (n : Int) (hn : (numTy param).Holds n)
    (ht : Typed (rscope sc) (argumentCode md sc (.num param) e) (numTy param)) (hv : means w e = some (.int n))
    (hf : ∀ s, Infers (rscope sc) (code md sc e) (numTy param) s → Fits md sc w e s) :
    ∀ o, Evals w (rscope sc) build (argumentCode md sc (.num param) e) (numTy param) o ↔ o = .ok (.int n) := by
  obtain ⟨x, hx, htx, hcx⟩ := argument_cases (md := md) hord hc build e (.num param) (numTy param) _ hv hf
  rw [hx] at ht ⊢
  split at ht
  · split at ht
    · rename_i h
      rw [if_pos h]
      exact (computes_cast (.inl rfl) ht hcx hn).1
    · rename_i h
      rw [if_neg h]
      exact (hcx _ (infers_target ht)).1
  · exact (hcx _ (infers_target ht)).1

/-- A cast to the type that the operand has. -/
theorem computes_same {Γ : RScope fo.F} {m : Mode} {x : RExpr fo.F} {ty : String} {t : RTy} {v : Datum fo.F O}
    (hn : t = .bool ∨ t = .string) (ht : Typed Γ (.cast x ty) t)
    (hx : ∀ s, Infers Γ x t s → Computes w Γ m x s v) : Computes w Γ m (.cast x ty) t v := by
  simp only [Typed] at ht
  obtain ⟨hty, s, hs, hcs⟩ := ht
  have hsame : ∀ s, s.CanCast t → s = t := by
    rintro s (h | ⟨-, h⟩ | ⟨-, h⟩)
    · exact h
    · rcases hn with rfl | rfl <;> exact h.elim
    · rcases hn with rfl | rfl <;> exact h.elim
  obtain rfl := hsame s hcs
  have hg := hx s (infers_target hs)
  have key : ∀ o, CastsTo s v o ↔ o = .ok v := by
    intro o
    have hv := hg.2
    rcases hn with rfl | rfl <;> cases v <;> first | exact hv.elim | simp [CastsTo, RTy.ints]
  refine ⟨fun o => ?_, hg.2⟩
  simp only [Evals]
  constructor
  · rintro ⟨_, u, hu, _, h⟩
    exact (key o).1 ((then_iff (hx u hu).1 o).1 h)
  · intro h
    exact ⟨hty, s, infers_target hs, .inl rfl, (then_iff hg.1 o).2 ((key o).2 h)⟩

theorem primType_path (id : String) : primType ("crate::" ++ id) = none := by
  have h : ∀ s : String, "crate::" ++ id = s → 7 ≤ s.length := by
    rintro s rfl
    rw [String.length_append]
    exact Nat.le_add_right 7 _
  unfold primType
  split <;> first | rfl | (rename_i h'; exact absurd (h _ h') (by decide))

/-- C70, arguments for parameters that are booleans, strings or enumerations: the parameter gets the value of the
expression. -/
theorem C70_argument (hord : Ordinary sc) (hc : Conforms w (rscope sc)) (build : Mode) (e : Expr fo.F) (param : ZTy)
    (hp : param = .bool ∨ param = .string ∨ ∃ id base, param = .enum id base) (t : RTy) (ht' : valueTy param = some t)
    (v : Datum fo.F O) (ht : Typed (rscope sc) (argumentCode md sc param e) t) (hv : means w e = some v)
    (hf : ∀ s, Infers (rscope sc) (code md sc e) t s → Fits md sc w e s) :
    ∀ o, Evals w (rscope sc) build (argumentCode md sc param e) t o ↔ o = .ok v := by
  obtain ⟨x, hx, htx, hcx⟩ := argument_cases (md := md) hord hc build e param t _ hv hf
  rw [hx] at ht ⊢
  split at ht
  · split at ht
    · rename_i h
      rw [if_pos h]
      rcases hp with rfl | rfl | ⟨id, base, rfl⟩
      · cases ht'
        exact (computes_same (.inl rfl) ht hcx).1
      · cases ht'
        exact (computes_same (.inr rfl) ht hcx).1
      · simp only [Typed, ZTy.rustName, primType_path, reduceCtorEq, false_and] at ht
    · rename_i h
      rw [if_neg h]
      exact (hcx _ (infers_target ht)).1
  · exact (hcx _ (infers_target ht)).1

/-- C70 (partial), functions that return integers: the result is the value of the expression, of an item of
an enum its number.  Missing: values out of the range of the return type, floats. -/
theorem C70_function_partial (hord : Ordinary sc) (hc : Conforms w (rscope sc)) (build : Mode)
    (e : Expr fo.F) (ret : NumName) (v : Datum fo.F O) (n : Int) (hv : means w e = some v)
    (hvn : v = .int n ∨ v = .enum n) (hn : (numTy ret).Holds n)
    (ht : Typed (rscope sc) (functionCode md sc (.num ret) e) (numTy ret))
    (hf : ∀ s, Infers (rscope sc) (code md sc e) (numTy ret) s → Fits md sc w e s) :
    ∀ o, Evals w (rscope sc) build (functionCode md sc (.num ret) e) (numTy ret) o ↔ o = .ok (.int n) := by
  simp only [functionCode] at ht ⊢
  exact (computes_cast hvn ht (fun s hs => computes_paren
    (value_main hord hc build e s _ (infers_paren hs).1 hv (hf _ (infers_paren hs)))) hn).1

/-- C70 (partial), functions that return booleans and strings: the result is the value of the expression.
Missing: as for `C70_value_partial`. -/
theorem C70_function_other_partial (hord : Ordinary sc) (hc : Conforms w (rscope sc)) (build : Mode)
    (e : Expr fo.F) (ret : ZTy) (t : RTy) (hret : ret = .bool ∧ t = .bool ∨ ret = .string ∧ t = .string)
    (v : Datum fo.F O) (hv : means w e = some v)
    (ht : Typed (rscope sc) (functionCode md sc ret e) t)
    (hf : ∀ s, Infers (rscope sc) (code md sc e) t s → Fits md sc w e s) :
    ∀ o, Evals w (rscope sc) build (functionCode md sc ret e) t o ↔ o = .ok v := by
  have hcast : ∀ ty, Typed (rscope sc) (.cast (.paren (code md sc e)) ty) t →
      ∀ o, Evals w (rscope sc) build (.cast (.paren (code md sc e)) ty) t o ↔ o = .ok v :=
    fun ty ht => (computes_same (by rcases hret with h | h <;> simp [h.2]) ht fun s hs =>
      computes_paren (value_main hord hc build e s _ (infers_paren hs).1 hv (hf _ (infers_paren hs)))).1
  unfold functionCode at ht ⊢
  split at ht
  · have ht := typed_clone.1 ht
    exact (computes_clone ht (value_main hord hc build e t _ ht hv (hf _ (infers_target ht)))).1
  · exact hcast _ ht


/-- C70 (partial), conditions (`if`, constraints): the code decides as the expression does, an integer or
bitmask counting as true if it is not 0.  Missing: as for `C70_value_partial`. -/
theorem C70_condition_partial (hord : Ordinary sc) (hc : Conforms w (rscope sc)) (build : Mode)
    (e : Expr fo.F) (v : Datum fo.F O) (b : Bool) (ht : Typed (rscope sc) (conditionCode md sc e) .bool)
    (hv : means w e = some v) (hb : truth v = some b)
    (hf : ∀ s, Typed (rscope sc) (code md sc e) s → Fits md sc w e s) :
    ∀ o, Evals w (rscope sc) build (conditionCode md sc e) .bool o ↔ o = .ok (.bool b) := by
  have plain : Typed (rscope sc) (code md sc e) .bool →
      ∀ o, Evals w (rscope sc) build (code md sc e) .bool o ↔ o = .ok (.bool b) := by
    intro ht
    have hg := value_main hord hc build e .bool v ht hv (hf _ ht)
    have : v = .bool b := by
      have h2 := hg.2
      cases v <;> simp [HasTy] at h2
      simpa [truth] using hb
    rw [← this]
    exact hg.1
  have number : Typed (rscope sc) (.bin (.cmp .ne) (code md sc e) (.atom (.int 0))) .bool →
      ∀ o, Evals w (rscope sc) build (.bin (.cmp .ne) (code md sc e) (.atom (.int 0))) .bool o ↔
        o = .ok (.bool b) := by
    intro ht
    simp only [Typed] at ht
    obtain ⟨_, s0, u0, hs0, hu0, hcmp0⟩ := ht
    obtain ⟨s, u, hsu⟩ := infersBoth_some (b := .atom (.int 0)) hs0 (by simpa only [Typed] using hu0) hcmp0
    have key : ∀ s u, InfersBoth (rscope sc) .ne (code md sc e) (.atom (.int 0)) s u → ∀ o,
        (Then (Evals w (rscope sc) build (code md sc e) s)
          (fun x => Then (Evals w (rscope sc) build (.atom (.int 0)) u) (ComparesTo .ne x)) o ↔
          o = .ok (.bool b)) := by
      rintro s u ⟨hs, hu, hcmp, _⟩ o
      have hg := value_main hord hc build e s v hs hv (hf s hs)
      have hui : u.Integer := hu
      have zero : u.Holds 0 → ∀ o, Evals w (rscope sc) build (.atom (.int 0)) u o ↔ o = .ok (.int 0) := by
        intro h o
        simp only [Evals]
        exact ⟨fun h => h.2, fun h' => ⟨h, h'⟩⟩
      rw [then_iff hg.1]
      cases v <;> simp only [truth, reduceCtorEq, Option.some.injEq] at hb
      case int n =>
        subst hb
        have hn := hasTy_int.1 hg.2
        have hi := holds_integer hn
        have hsu : s = u := by
          cases s <;> cases u <;> simp_all [RTy.Comparable, RTy.Integer]
        subst hsu
        rw [then_iff (zero (holds_zero hn))]
        by_cases h0 : n = 0 <;> simp [ComparesTo, CmpOp.Says, h0]
      case bool x =>
        have : s = .bool := by
          have h2 := hg.2
          cases s <;> simp [HasTy] at h2 ⊢
        subst this
        cases u <;> simp_all [RTy.Comparable, RTy.Integer]
      case mask n =>
        subst hb
        obtain ⟨id, base, rfl, hn⟩ := mask_type hg.2
        have hu' : u = .int base := by
          cases u <;> simp_all [RTy.Comparable, RTy.Integer]
        subst hu'
        rw [then_iff (zero (holds_zero hn))]
        simp only [ComparesTo, CmpOp.equality, Option.some.injEq]
        constructor
        · rintro ⟨b, rfl, rfl⟩
          by_cases h0 : n = 0 <;> simp [h0]
        · rintro rfl
          exact ⟨_, rfl, by by_cases h0 : n = 0 <;> simp [h0]⟩
    intro o
    rw [Evals]
    constructor
    · rintro ⟨s, u, hsu, h⟩
      exact (key s u hsu o).1 h
    · intro h
      exact ⟨s, u, hsu, (key s u hsu o).2 h⟩
  have split : conditionCode md sc e = .bin (.cmp .ne) (code md sc e) (.atom (.int 0)) ∨
      conditionCode md sc e = code md sc e := by
    unfold conditionCode
    split
    · exact .inl rfl
    · exact .inl rfl
    · exact .inr rfl
  rcases split with h | h
  · rw [h] at ht ⊢
    exact number ht
  · rw [h] at ht ⊢
    exact plain ht

/-! ## Operations on fields -/

theorem field_typed {x : String} {n : NumName} {i : IntTy} (h : NumberField sc x n) (hn : n.rustInt = some i)
    (t : RTy) : Typed (rscope sc) (code md sc (.ident x : Expr fo.F)) t ↔ t = .int i := by
  simp only [NumberField] at h
  simp only [code, Expr.tree, Typed, rscope, h, Option.bind_some, symbTy, valueTy, numTy_int hn,
    Option.some.injEq]
  exact eq_comm

theorem rustInt_ints {n : NumName} {i : IntTy} (h : n.rustInt = some i) : (RTy.int i).ints = some i := by
  revert h
  cases n <;> simp only [NumName.rustInt, Option.some.injEq, reduceCtorEq, false_implies] <;> rintro rfl <;> rfl

theorem rustName_int {m n : NumName} {i j : IntTy} (hm : m.rustInt = some i) (hn : n.rustInt = some j)
    (h : m.rustName = n.rustName) : i = j := by
  have := numTy_of_rustName h
  rw [numTy_int hm, numTy_int hn] at this
  exact RTy.int.inj this

/-- A field as an operand in the type `i`: its value modulo the size of `i`. -/
theorem operand_value {x : String} {m : NumName} {i im : IntTy} {r : NumRef} {a : Int} (build : Mode)
    (hc : Conforms w (rscope sc)) (hx : NumberField sc x m) (hm : m.rustInt = some im)
    (hr : r.name.rustInt = some i) (ha : w.name x = some (.int a)) (o : Res (Datum fo.F O)) :
    Evals w (rscope sc) build (castTree (castOf (some r) (some { name := m }))
      (code md sc (.ident x : Expr fo.F))) (.int i) o ↔ o = .ok (.int (i.wrap a)) := by
  have hname : ∀ t o, Evals w (rscope sc) build (code md sc (.ident x : Expr fo.F)) t o ↔ o = .ok (.int a) := by
    intro t o
    simp only [code, Expr.tree, Evals, ha, Option.some.injEq]
    exact ⟨fun ⟨_, h, h'⟩ => h ▸ h', fun h => ⟨_, rfl, h⟩⟩
  have hty := (field_typed (fo := fo) (md := md) hx hm (.int im)).2 rfl
  unfold castOf
  split
  · rename_i r' o' hr' ho'
    cases hr'; cases ho'
    split
    · simp only [castTree]
      rw [Evals, Evals]
      have hcast : ∀ o : Res (Datum fo.F O), CastsTo (.int i) (.int a) o ↔ o = .ok (.int (i.wrap a)) := by
        intro o
        simp only [CastsTo, rustInt_ints hr]
      have hpar : ∀ t o, Evals w (rscope sc) build (.paren (code md sc (.ident x : Expr fo.F))) t o ↔
          o = .ok (.int a) := by
        intro t o
        rw [Evals]
        exact hname t o
      constructor
      · rintro ⟨_, s, _, _, h⟩
        exact (hcast o).1 ((then_iff (hpar s) o).1 h)
      · intro h
        have hty' : Typed (rscope sc) (.paren (code md sc (.ident x : Expr fo.F))) (.int im) := by
          simpa only [Typed] using hty
        refine ⟨by rw [primType_rustName, numTy_int hr], .int im, ⟨hty', fun h => ?_⟩, .inr (.inl ⟨trivial, trivial⟩),
          (then_iff (hpar _) o).2 ((hcast o).2 h)⟩
        exact .inl ((field_typed (fo := fo) (md := md) hx hm _).1 (by simpa only [Typed] using h)).symm
    · rename_i hname'
      simp only [castTree]
      have : im = i := rustName_int hm hr (by
        have := Decidable.not_not.1 hname'
        exact this.symm)
      subst this
      have hh : (RTy.int im).Holds a := by
        have := provided_some (hc.name x) hty ha
        exact hasTy_int.1 this
      rw [wrap_holds (rustInt_ints hm) hh]
      exact hname _ o
  · rename_i h
    exact absurd rfl (h r { name := m } rfl)

/-- C70: what `x + y`, `x - y`, `x * y`, `x / y`, `x % y` compute for integer fields of any types: the values
of the operands are taken modulo the size of the type `i` that the compiler chooses, then the operation
is done in that type. -/
theorem C70_operation_iff (hc : Conforms w (rscope sc)) (build : Mode) (op : ArithOp) {x y : String}
    {m n : NumName} {im jn i : IntTy} {r : NumRef} (hx : NumberField sc x m) (hy : NumberField sc y n)
    (hm : m.rustInt = some im) (hn : n.rustInt = some jn)
    (hr : mixInteger (some { name := m }) (some { name := n }) = .ok (some r)) (hi : r.name.rustInt = some i)
    {a b : Int} (ha : w.name x = some (.int a)) (hb : w.name y = some (.int b)) :
    (∀ t, Typed (rscope sc) (code md sc (.arith op (.ident x) (.ident y) : Expr fo.F)) t ↔ t = .int i) ∧
    ∀ o, Evals w (rscope sc) build (code md sc (.arith op (.ident x) (.ident y) : Expr fo.F)) (.int i) o ↔
      ArithTo build op (.int i) (.int (i.wrap a)) (.int (i.wrap b)) o := by
  have hex := field_evaluate (fo := fo) (md := md) hx
  rw [dummy_int hm] at hex
  have hey := field_evaluate (fo := fo) (md := md) hy
  rw [dummy_int hn] at hey
  have hcomp : ∃ z, op.compile md 1 1 = .ok z := by
    cases op <;> cases md <;> exact ⟨_, rfl⟩
  obtain ⟨z, hz⟩ := hcomp
  have he := evaluate_arith (md := md) (op := op) (c := .int z) hex hey (by simp [evalArith, hz])
  have hnat : (Expr.arith op (.ident x) (.ident y) : Expr fo.F).native md sc = .ok (some r) := by
    simp only [Expr.native.eq_def _ _ (.arith _ _ _), field_native (fo := fo) (md := md) hx,
      field_native (fo := fo) (md := md) hy, hex, hey, Res.ok_bind]
    exact hr
  have htree : code md sc (.arith op (.ident x) (.ident y) : Expr fo.F) =
      .bin (.arith op) (castTree (castOf (some r) (some { name := m })) (code md sc (.ident x)))
        (castTree (castOf (some r) (some { name := n })) (code md sc (.ident y))) := by
    rw [tree_number (by rintro ⟨_, _, h⟩; cases he.symm.trans h)]
    simp only [textInfo, Expr.castTarget, he, hnat, nativeOf_ok (field_native (fo := fo) (md := md) hx),
      nativeOf_ok (field_native (fo := fo) (md := md) hy)]
  refine ⟨fun t => ?_, fun o => ?_⟩
  · have htyx : ∀ {x : String} {m : NumName} {im : IntTy}, NumberField sc x m → m.rustInt = some im → ∀ t,
        Typed (rscope sc) (castTree (castOf (some r) (some { name := m }))
          (code md sc (.ident x : Expr fo.F))) t ↔ t = .int i := by
      intro x m im hx hm t
      have hf := field_typed (fo := fo) (md := md) hx hm
      simp only [castOf]
      split
      · simp only [castTree, Typed, primType_rustName, numTy_int hi, Option.some.injEq]
        constructor
        · exact fun h => h.1.symm
        · rintro rfl
          exact ⟨rfl, .int im, (hf _).2 rfl, .inr (.inl ⟨trivial, trivial⟩)⟩
      · rename_i h
        have h := Decidable.not_not.1 h
        simp only [castTree]
        rw [rustName_int hi hm h]
        exact hf t
    rw [htree]
    simp only [Typed, htyx hx hm, htyx hy hn]
    constructor
    · exact fun h => h.1
    · rintro rfl
      exact ⟨rfl, rfl, trivial⟩
  · rw [htree, Evals, then_iff (operand_value build hc hx hm hi ha), then_iff (operand_value build hc hy hn hi hb)]

/-- C70 (partial): if the values of the fields and the result are in the range of the type that the compiler
chooses, the result is right.  Missing: other values. -/
theorem C70_operation_partial (hc : Conforms w (rscope sc)) (build : Mode) (op : ArithOp) {x y : String}
    {m n : NumName} {im jn i : IntTy} {r : NumRef} (hx : NumberField sc x m) (hy : NumberField sc y n)
    (hm : m.rustInt = some im) (hn : n.rustInt = some jn)
    (hr : mixInteger (some { name := m }) (some { name := n }) = .ok (some r)) (hi : r.name.rustInt = some i)
    {a b z : Int} (ha : w.name x = some (.int a)) (hb : w.name y = some (.int b))
    (hia : i.Contains a) (hib : i.Contains b) (hz : ArithOp.result op a b = some z) (hiz : i.Contains z)
    (hmod : op = .mod → i.Contains (a.tdiv b)) (o : Res (Datum fo.F O)) :
    means w (.arith op (.ident x) (.ident y)) = some (.int z) ∧
    (Evals w (rscope sc) build (code md sc (.arith op (.ident x) (.ident y) : Expr fo.F)) (.int i) o ↔
      o = .ok (.int z)) := by
  refine ⟨by simp [means, ha, hb, hz], ?_⟩
  rw [(C70_operation_iff hc build op hx hy hm hn hr hi ha hb).2 o,
    wrap_holds (rustInt_ints hi) ⟨i, rustInt_ints hi, hia⟩,
    wrap_holds (rustInt_ints hi) ⟨i, rustInt_ints hi, hib⟩]
  refine arith_result hz ⟨i, rustInt_ints hi, hiz⟩ ?_ o
  rintro hop q hq
  simp only [ArithOp.result, Option.ite_none_left_eq_some, Option.some.injEq] at hq
  rw [← hq.2]
  exact ⟨i, rustInt_ints hi, hmod hop⟩

/-- C70 is violated by every sum, difference or product of two integer fields of one type that is out of
the range of that type, as `200 + 200` of two `uint8` or `3 - 5` of two unsigned fields: debug builds panic,
release builds go on with another value. -/
theorem C70_overflow_violated (hc : Conforms w (rscope sc)) (op : ArithOp)
    (hop : op = .add ∨ op = .sub ∨ op = .mul) {x y : String} {m : NumName} {i : IntTy}
    (hx : NumberField sc x m) (hy : NumberField sc y m) (hm : m.rustInt = some i)
    {a b z : Int} (ha : w.name x = some (.int a)) (hb : w.name y = some (.int b))
    (hz : ArithOp.result op a b = some z) (hiz : ¬ i.Contains z) (o : Res (Datum fo.F O)) :
    means w (.arith op (.ident x) (.ident y)) = some (.int z) ∧
    (Evals w (rscope sc) .debug (code md sc (.arith op (.ident x) (.ident y) : Expr fo.F)) (.int i) o ↔
      o = .panic) ∧
    (Evals w (rscope sc) .release (code md sc (.arith op (.ident x) (.ident y) : Expr fo.F)) (.int i) o ↔
      o = .ok (.int (i.wrap z))) ∧ i.wrap z ≠ z := by
  have hmix : mixInteger (some { name := m }) (some { name := m }) = .ok (some { name := m }) := by
    simp [mixInteger, compareNative]
  have hin : ∀ {x : String} {a : Int}, NumberField sc x m → w.name x = some (.int a) →
      (RTy.int i).Holds a := by
    intro x a hx ha
    exact hasTy_int.1 (provided_some (hc.name x) ((field_typed (fo := fo) (md := md) hx hm _).2 rfl) ha)
  have hints := rustInt_ints hm
  have hwa := wrap_holds hints (hin hx ha)
  have hwb := wrap_holds hints (hin hy hb)
  have key : ∀ build, Evals w (rscope sc) build
      (code md sc (.arith op (.ident x) (.ident y) : Expr fo.F)) (.int i) o ↔ o = inType build i z := by
    intro build
    rw [(C70_operation_iff hc build op hx hy hm hm hmix hm ha hb).2 o, hwa, hwb]
    simp only [ArithTo]
    have hno : ¬ ((op = .div ∨ op = .mod) ∧ (b = 0 ∨ (a = i.min ∧ b = -1 ∧ i.signed = true))) := by
      rcases hop with rfl | rfl | rfl <;> simp
    constructor
    · rintro ⟨j, hj, h⟩
      cases hints.symm.trans hj
      rw [if_neg hno] at h
      obtain ⟨v, hv, h⟩ := h
      cases hz.symm.trans hv
      exact h
    · intro h
      refine ⟨i, hints, ?_⟩
      rw [if_neg hno]
      exact ⟨z, hz, h⟩
  refine ⟨by simp [means, ha, hb, hz], ?_, ?_, ?_⟩
  · rw [key]; simp [inType, hiz]
  · rw [key]; simp [inType, hiz]
  · intro h
    apply hiz
    have hw := ints_width hints
    have hp : (0 : Int) < 2 ^ i.width := Int.pow_pos (by omega)
    have h1 := Int.emod_nonneg (z - i.min) (Int.ne_of_gt hp)
    have h2 := Int.emod_lt_of_pos (z - i.min) hp
    have hq : (2 : Int) ^ i.width = 2 ^ (i.width - 1) * 2 := by
      conv => lhs; rw [show i.width = (i.width - 1) + 1 by omega, Int.pow_succ]
    unfold IntTy.wrap at h
    cases hs : i.signed with
    | true =>
      rw [contains_signed hs (by omega)]
      simp only [IntTy.min, hs, if_true] at h h1 h2
      omega
    | false =>
      rw [contains_unsigned hs]
      simp only [IntTy.min, hs, Bool.false_eq_true, if_false] at h h1 h2
      omega

/-- C70 is violated when a signed field is divided by an unsigned one that is not narrower: the quotient is
computed without sign, and neither debug nor release builds notice.  `-4 / 2` is `2147483646`. -/
theorem C70_sign_violated (hc : Conforms w (rscope sc)) (build : Mode) {x y : String}
    (hx : NumberField sc x .int8) (hy : NumberField sc y .uint32) (ha : w.name x = some (.int (-4)))
    (hb : w.name y = some (.int 2)) (o : Res (Datum fo.F O)) :
    means w (.arith .div (.ident x) (.ident y)) = some (.int (-2)) ∧
    (Evals w (rscope sc) build (code md sc (.arith .div (.ident x) (.ident y) : Expr fo.F))
      (.int ⟨false, 32⟩) o ↔ o = .ok (.int 2147483646)) := by
  refine ⟨by simp [means, ha, hb, ArithOp.result], ?_⟩
  rw [(C70_operation_iff hc build .div hx hy rfl rfl (r := { name := .uint32 }) rfl rfl ha hb).2 o]
  have h1 : IntTy.wrap ⟨false, 32⟩ (-4) = 4294967292 := by decide
  have h2 : IntTy.wrap ⟨false, 32⟩ 2 = 2 := by decide
  rw [h1, h2]
  refine arith_result (z := 2147483646) (by decide) ⟨_, rfl, by decide⟩ ?_ o
  intro h
  cases h

/-! ## Examples -/

/-- A symbol table for examples: `a : uint8`, `b : uint8`, `c : int8`, `d : uint32`, `e : int32`,
`l : uint16[]`. -/
def valueScope : TScope where
  ident := fun x =>
    if x = "a" then some ⟨.num .uint8, .plain⟩
    else if x = "b" then some ⟨.num .uint8, .plain⟩
    else if x = "c" then some ⟨.num .int8, .plain⟩
    else if x = "d" then some ⟨.num .uint32, .plain⟩
    else if x = "e" then some ⟨.num .int32, .plain⟩
    else if x = "l" then some ⟨.num .uint16, .array⟩
    else none
  member := fun _ _ => none
  hasItem := fun _ _ => false
  index := false

/-- Values of the fields. -/
def valueWorld : World tenths.F Unit where
  name := fun x =>
    if x = "a" then some (.int 200)
    else if x = "b" then some (.int 200)
    else if x = "c" then some (.int (-4))
    else if x = "d" then some (.int 2)
    else if x = "e" then some (.int 5)
    else if x = "l" then some (.list [.int 7, .int 8, .int 9])
    else none
  func := fun _ => none
  member := fun _ _ => none
  method := fun _ _ => none
  item := fun _ _ => none
  index := none
  isA := fun _ _ => False

theorem valueScope_ordinary : Ordinary valueScope := by
  intro id n s r h _
  cases h

theorem valueWorld_conforms : Conforms valueWorld (rscope valueScope) where
  name := by
    intro n
    simp only [rscope, valueScope, valueWorld]
    repeat' split
    all_goals first
      | exact ⟨_, rfl, _, rfl, by decide⟩
      | (refine ⟨_, rfl, fun x hx => ?_⟩
         simp only [List.mem_cons, List.not_mem_nil, or_false] at hx
         rcases hx with rfl | rfl | rfl <;> exact ⟨_, rfl, by decide⟩)
      | rfl
  func := by
    intro n x hx
    cases hx
  member := by intro o id n h; exact h.elim
  method := by intro o id n h; exact h.elim
  item := by
    intro e n
    simp only [rscope, valueScope, valueWorld]
    split
    · rfl
    · rfl
    · rfl
  index := rfl

/-- `(e + 1) * 3 - 8`. -/
def valueLeft : Expr tenths.F :=
  .arith .sub (.arith .mul (.paren (.arith .add (.ident "e") (.intLit 1))) (.intLit 3)) (.intLit 8)

/-- `l[2]`. -/
def valueRight : Expr tenths.F := .elem (.ident "l") (.intLit 2)

theorem valueLeft_typed (t : RTy) :
    Typed (rscope valueScope) (code .debug valueScope valueLeft) t ↔ t = .int ⟨true, 32⟩ := by
  have : code .debug valueScope valueLeft = .bin (.arith .sub) (.bin (.arith .mul)
      (.paren (.bin (.arith .add) (.atom (.name "e")) (.atom (.int 1)))) (.atom (.int 3)))
      (.atom (.int 8)) := rfl
  rw [this]
  simp only [Typed, rscope, valueScope]
  constructor
  · rintro ⟨⟨⟨h, _⟩, _⟩, _⟩
    cases h
    rfl
  · rintro rfl
    exact ⟨⟨⟨rfl, trivial, trivial⟩, trivial, trivial⟩, trivial, trivial⟩

theorem valueLeft_fits : Fits .debug valueScope valueWorld valueLeft (.int ⟨true, 32⟩) := by
  have h : ∀ n : Int, -100 ≤ n → n ≤ 100 → (RTy.int ⟨true, 32⟩).Holds n := by
    intro n h1 h2
    refine ⟨_, rfl, ?_⟩
    simp only [IntTy.Contains, IntTy.min, IntTy.max]
    simp
    omega
  have hw : ∀ n : Int, -100 ≤ n → n ≤ 100 →
      Within (.int ⟨true, 32⟩) (some (.int n) : Option (Datum tenths.F Unit)) := by
    intro n h1 h2 k hk
    cases hk
    exact h n h1 h2
  refine ⟨⟨⟨trivial, h 1 (by decide) (by decide), hw 6 (by decide) (by decide), nofun⟩, h 3 (by decide) (by decide),
    hw 18 (by decide) (by decide), nofun⟩, h 8 (by decide) (by decide), hw 10 (by decide) (by decide), nofun⟩

theorem valueRight_typed (t : RTy) :
    Typed (rscope valueScope) (code .debug valueScope valueRight) t ↔ t = .int ⟨false, 16⟩ := by
  have : code .debug valueScope valueRight = .elem (.atom (.name "l")) (.atom (.int 2)) := rfl
  rw [this]
  simp only [Typed, rscope, valueScope]
  constructor
  · rintro ⟨h, _⟩
    cases h
    rfl
  · rintro rfl
    exact ⟨rfl, trivial⟩

theorem comparable_int {op : CmpOp} {i : IntTy} {u : RTy} (h : (RTy.int i).Comparable op u) : u = .int i := by
  cases u <;> simp_all [RTy.Comparable]

-- `(e + 1) * 3 - 8 == 10 && l[2] == 9` is computed as it is meant: it is true.
example (build : Mode) (o : Res (Datum tenths.F Unit)) :
    Evals valueWorld (rscope valueScope) build (code .debug valueScope
      (.logic .and (.cmp .eq valueLeft (.intLit 10)) (.cmp .eq valueRight (.intLit 9)))) .bool o ↔
      o = .ok (.bool true) := by
  refine (C70_value_partial valueScope_ordinary valueWorld_conforms build _ .bool (.bool true) ?_ ?_ ?_).1 o
  · exact ⟨rfl, ⟨rfl, _, .int ⟨true, 32⟩, (valueLeft_typed _).2 rfl, trivial, rfl⟩,
      rfl, _, .int ⟨false, 16⟩, (valueRight_typed _).2 rfl, trivial, rfl⟩
  · rfl
  · refine ⟨fun s u h => ?_, fun _ s u h => ?_⟩
    · obtain ⟨hs, hu, hcmp, _⟩ := h
      cases (valueLeft_typed s).1 hs
      cases comparable_int hcmp
      exact ⟨valueLeft_fits, _, rfl, by decide⟩
    · obtain ⟨hs, hu, hcmp, _⟩ := h
      cases (valueRight_typed s).1 hs
      cases comparable_int hcmp
      exact ⟨⟨trivial, _, rfl, by decide⟩, _, rfl, by decide⟩

-- The text of `(e + 1) * 3 - 8`, as Rust reads it, has the value 10.
example (build : Mode) : ∃ ts x, valueLeft.text .debug valueScope.erase (textInfo .debug valueScope) = some ts ∧
    ReadsAs ts x ∧ ∀ o, Evals valueWorld (rscope valueScope) build x (.int ⟨true, 32⟩) o ↔ o = .ok (.int 10) := by
  have hp : valueLeft.Parsed := by simp [valueLeft, Expr.Parsed, Expr.level]
  have hs : valueLeft.Separable (textInfo .debug valueScope) := by
    simp [valueLeft, Expr.Separable]
  have hr := C47_grouping_partial .debug valueScope.erase (textInfo .debug valueScope) valueLeft hp hs _ rfl _ rfl
  exact ⟨_, _, rfl, hr, C70_text_partial valueScope_ordinary valueWorld_conforms build valueLeft _ _ ⟨⟨_, _, rfl⟩, _, rfl⟩
    hp hs _ rfl _ hr ((valueLeft_typed _).2 rfl) rfl valueLeft_fits⟩

-- The array `x[(e + 1) * 3 - 8]` has ten elements.
example (build : Mode) (o : Res (Datum tenths.F Unit)) :
    Evals valueWorld (rscope valueScope) build (lengthCode .debug valueScope valueLeft) .usize o ↔
      o = .ok (.int 10) := by
  refine C70_length_partial valueScope_ordinary valueWorld_conforms build valueLeft 10 (by decide) _
    ((valueLeft_typed _).2 rfl) (.inr (.inl ⟨trivial, trivial⟩)) rfl ?_ o
  · rintro s ⟨hs, _⟩
    cases (valueLeft_typed s).1 hs
    exact valueLeft_fits

-- The array `x[c]` has `2^64 - 4` elements.
example (build : Mode) (o : Res (Datum tenths.F Unit)) :
    Evals valueWorld (rscope valueScope) build (lengthCode .debug valueScope (.ident "c")) .usize o ↔
      o = .ok (.int 18446744073709551612) := by
  refine C70_length_violated valueScope_ordinary valueWorld_conforms build (.ident "c") (-4) (by decide) (by decide)
    (.int ⟨true, 8⟩) rfl (.inr (.inl ⟨trivial, trivial⟩)) rfl (fun _ _ => trivial) o

theorem valueLeft_infers {t s : RTy} (h : Infers (rscope valueScope) (code .debug valueScope valueLeft) t s) :
    Fits .debug valueScope valueWorld valueLeft s := by
  cases (valueLeft_typed s).1 h.1
  exact valueLeft_fits

-- `bit<(e + 1) * 3 - 8>` has ten bits, a parameter of type `uint16` gets 10, and so does the caller of a function.
example (build : Mode) (o : Res (Datum tenths.F Unit)) :
    (Evals valueWorld (rscope valueScope) build (bitsCode .debug valueScope valueLeft) (.int ⟨false, 8⟩) o ↔
      o = .ok (.int 10)) ∧
    (Evals valueWorld (rscope valueScope) build (argumentCode .debug valueScope (.num .uint16) valueLeft)
      (.int ⟨false, 16⟩) o ↔ o = .ok (.int 10)) ∧
    (Evals valueWorld (rscope valueScope) build (functionCode .debug valueScope (.num .uint32) valueLeft)
      (.int ⟨false, 32⟩) o ↔ o = .ok (.int 10)) ∧
    (Evals valueWorld (rscope valueScope) build
      (functionCode .debug valueScope .bool (.cmp .eq valueLeft (.intLit 10))) .bool o ↔
        o = .ok (.bool true)) := by
  refine ⟨C70_width_partial valueScope_ordinary valueWorld_conforms build valueLeft 10 (by decide) ?_ rfl
      (fun _ => valueLeft_infers) o,
    C70_argument_partial valueScope_ordinary valueWorld_conforms build valueLeft .uint16 10
      ⟨_, rfl, by decide⟩ ?_ rfl (fun _ => valueLeft_infers) o,
    C70_function_partial valueScope_ordinary valueWorld_conforms build valueLeft .uint32 _ 10 rfl (.inl rfl)
      ⟨_, rfl, by decide⟩ ?_ (fun _ => valueLeft_infers) o,
    C70_function_other_partial valueScope_ordinary valueWorld_conforms build _ .bool .bool (.inl ⟨rfl, rfl⟩) _ rfl
      ?_ ?_ o⟩
  · exact ⟨rfl, _, (valueLeft_typed _).2 rfl, .inr (.inl ⟨trivial, trivial⟩)⟩
  · exact ⟨rfl, _, typed_clone.2 ((valueLeft_typed _).2 rfl), .inr (.inl ⟨trivial, trivial⟩)⟩
  · exact ⟨rfl, _, (valueLeft_typed _).2 rfl, .inr (.inl ⟨trivial, trivial⟩)⟩
  · exact ⟨rfl, .bool, ⟨rfl, _, .int ⟨true, 32⟩, (valueLeft_typed _).2 rfl, trivial, rfl⟩, .inl rfl⟩
  · intro s hs t u h
    obtain ⟨ht, hu, hcmp, _⟩ := h
    cases (valueLeft_typed t).1 ht
    cases comparable_int hcmp
    exact ⟨valueLeft_fits, _, rfl, by decide⟩

-- `bit<e * 60>` is `bit<300>`, but has 44 bits.
example (build : Mode) (o : Res (Datum tenths.F Unit)) :
    Evals valueWorld (rscope valueScope) build
      (bitsCode .debug valueScope (.arith .mul (.ident "e") (.intLit 60))) (.int ⟨false, 8⟩) o ↔
      o = .ok (.int 44) := by
  have htyped : ∀ t, Typed (rscope valueScope)
      (code (fo := tenths) .debug valueScope (.arith .mul (.ident "e") (.intLit 60))) t ↔ t = .int ⟨true, 32⟩ := by
    intro t
    rw [show code (fo := tenths) .debug valueScope (.arith .mul (.ident "e") (.intLit 60)) =
      .bin (.arith .mul) (.atom (.name "e")) (.atom (.int 60)) from rfl]
    simp only [Typed, rscope, valueScope]
    constructor
    · rintro ⟨h, _⟩
      cases h
      rfl
    · rintro rfl
      exact ⟨rfl, trivial, trivial⟩
  refine (C70_width_violated valueScope_ordinary valueWorld_conforms build _ 300 (by decide) { name := .int32 } rfl
    (by decide) ?_ rfl ?_).1 o
  · exact ⟨rfl, _, (htyped _).2 rfl, .inr (.inl ⟨trivial, trivial⟩)⟩
  rintro s ⟨hs, _⟩
  cases (htyped s).1 hs
  have h : ∀ n : Int, 0 ≤ n → n ≤ 1000 → (RTy.int ⟨true, 32⟩).Holds n := by
    intro n h1 h2
    refine ⟨_, rfl, ?_⟩
    simp only [IntTy.Contains, IntTy.min, IntTy.max]
    simp
    omega
  refine ⟨trivial, h 60 (by decide) (by decide), ?_, nofun⟩
  intro k hk
  cases hk
  exact h 300 (by decide) (by decide)

-- The field `x if e` is present: `e` is not 0.
example (build : Mode) (o : Res (Datum tenths.F Unit)) :
    Evals valueWorld (rscope valueScope) build (conditionCode .debug valueScope (.ident "e")) .bool o ↔
      o = .ok (.bool true) := by
  refine C70_condition_partial valueScope_ordinary valueWorld_conforms build (.ident "e") (.int 5) true
    ?_ rfl rfl (fun _ _ => trivial) o
  exact ⟨rfl, .int ⟨true, 32⟩, .int ⟨true, 32⟩, rfl, trivial, rfl⟩

-- `a - d` is a `u32`; `200 - 2` is right.
example (build : Mode) (o : Res (Datum tenths.F Unit)) :
    Evals valueWorld (rscope valueScope) build
      (code .debug valueScope (.arith .sub (.ident "a") (.ident "d"))) (.int ⟨false, 32⟩) o ↔
      o = .ok (.int 198) :=
  (C70_operation_partial valueWorld_conforms build .sub (x := "a") (y := "d") (m := .uint8) (n := .uint32) rfl rfl rfl rfl rfl rfl
    (a := 200) (b := 2) rfl rfl (by decide) (by decide) rfl (by decide) nofun o).2

-- `a + b` is `400`: debug builds panic, release builds compute `144`.
example (o : Res (Datum tenths.F Unit)) :
    (Evals valueWorld (rscope valueScope) .debug
      (code .debug valueScope (.arith .add (.ident "a") (.ident "b"))) (.int ⟨false, 8⟩) o ↔ o = .panic) ∧
    (Evals valueWorld (rscope valueScope) .release
      (code .debug valueScope (.arith .add (.ident "a") (.ident "b"))) (.int ⟨false, 8⟩) o ↔
      o = .ok (.int 144)) := by
  have h := C70_overflow_violated (md := .debug) valueWorld_conforms .add (.inl rfl) (m := .uint8)
    (x := "a") (y := "b") rfl rfl rfl rfl rfl rfl (by decide) o
  exact ⟨h.2.1, h.2.2.1⟩

example (build : Mode) (o : Res (Datum tenths.F Unit)) :
    Evals valueWorld (rscope valueScope) build
      (code .debug valueScope (.arith .div (.ident "c") (.ident "d"))) (.int ⟨false, 32⟩) o ↔
      o = .ok (.int 2147483646) :=
  (C70_sign_violated (x := "c") (y := "d") valueWorld_conforms build rfl rfl rfl rfl o).2

end Zs
