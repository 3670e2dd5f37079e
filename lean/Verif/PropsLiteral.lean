import Verif.LiteralLemmas

/-!
# C52: literals keep their value

`C52`: a literal of a schema denotes in the generated code what it denotes in the schema, or the compiler
refuses the schema with an error.

The code violates this: strings with octal escapes silently change, floating-point literals without a
fraction become integer literals, and several literals that the lexer accepts make the compiler panic.
-/

namespace Zs

open Spec

/-- The token of an integer literal. -/
def Spec.IntLit.kind : IntLit → LitKind
  | .decimal _ => .decimal
  | .octal _ => .octal
  | .hexadecimal .. => .hexadecimal
  | .binary .. => .binary

/-- The number is understood: below `2^31`, and no capital `X` or `B`. -/
def Spec.IntLit.Understood (l : IntLit) : Prop :=
  l.value < 2 ^ 31 ∧
  match l with
  | .hexadecimal upper _ => upper = false
  | .binary upper _ => upper = false
  | _ => True

/-- A binary literal. -/
def Spec.IntLit.IsBinary : IntLit → Prop
  | .binary .. => True
  | _ => False

instance (l : IntLit) : Decidable l.IsBinary := by cases l <;> unfold IntLit.IsBinary <;> infer_instance
instance (l : IntLit) : Decidable l.Understood := by
  cases l <;> unfold IntLit.Understood <;> infer_instance

/-- The value of an integer literal is its number if it is understood; otherwise the compiler panics. -/
theorem integer_value (fl : FloatText) (l : IntLit) (hw : l.WellFormed) :
    literalValue fl l.kind l.text = if l.Understood then .ok (.int (l.value : Int)) else .panic := by
  cases l with
  | decimal ds =>
    have h := parseI32_lower (r := 10) (by omega) (by omega) ds hw.1 hw.2.1
    simp only [IntLit.kind, literalValue, IntLit.text, h, IntLit.Understood, IntLit.value, and_true]
    by_cases hv : digitsValue 10 ds < 2 ^ 31
    · rw [if_pos hv, if_pos hv]
    · rw [if_neg hv, if_neg hv]
  | octal ds =>
    have h := parseI32_lower (r := 8) (by omega) (by omega) (0 :: ds) (by simp)
      (fun d hd => by
        rcases List.mem_cons.1 hd with rfl | hd
        · omega
        · exact hw.2 d hd)
    have e0 : digitsValue 8 (0 :: ds) = digitsValue 8 ds := rfl
    have et : (0 :: ds).map (digitChar false) = '0' :: ds.map (digitChar false) := rfl
    rw [e0, et] at h
    simp only [IntLit.kind, literalValue, IntLit.text, h, IntLit.Understood, IntLit.value, and_true]
    by_cases hv : digitsValue 8 ds < 2 ^ 31
    · rw [if_pos hv, if_pos hv]
    · rw [if_neg hv, if_neg hv]
  | hexadecimal upper ds =>
    cases upper with
    | false =>
      have hx : 'x' ∉ ds.map fun d => digitChar d.2 d.1 := by
        intro hm
        obtain ⟨d, hd, e⟩ := List.mem_map.1 hm
        exact (digitChar_ne d.1 (hw.2 d hd) d.2).2.2.1 e
      have ht : trimStart0x ('0' :: 'x' :: ds.map fun d => digitChar d.2 d.1) =
          ds.map fun d => digitChar d.2 d.1 := (trimStart0x.eq_1 _).trans (trimStart0x_digits _ hx)
      have h := parseI32_exact (r := 16) (by omega) (by omega) ds hw.1 hw.2
      simp only [IntLit.kind, literalValue, IntLit.text, Bool.false_eq_true, if_false, ht, h,
        IntLit.Understood, IntLit.value, and_true]
      by_cases hv : digitsValue 16 (ds.map Prod.fst) < 2 ^ 31
      · rw [if_pos hv, if_pos hv]
      · rw [if_neg hv, if_neg hv]
    | true =>
      have hx : 'x' ∉ '0' :: 'X' :: ds.map fun d => digitChar d.2 d.1 := by
        intro hm
        rcases List.mem_cons.1 hm with e | hm
        · revert e; decide
        rcases List.mem_cons.1 hm with e | hm
        · revert e; decide
        obtain ⟨d, hd, e⟩ := List.mem_map.1 hm
        exact (digitChar_ne d.1 (hw.2 d hd) d.2).2.2.1 e
      have hbad : parseI32 16 ('0' :: 'X' :: ds.map fun d => digitChar d.2 d.1) = none := by
        rw [parseI32_unsigned (by decide) (by decide)]
        exact parseDigits_invalid _ ⟨'X', by simp, by decide⟩ 0
      simp only [IntLit.kind, literalValue, IntLit.text, if_true, trimStart0x_digits _ hx, hbad,
        IntLit.Understood, Bool.true_eq_false, and_false, if_false]
  | binary upper ds =>
    cases upper with
    | false =>
      have key : ∀ d < 2, digitChar false d ≠ 'b' := by decide
      have hb : 'b' ∉ ds.map (digitChar false) := by
        intro hm
        obtain ⟨d, hd, e⟩ := List.mem_map.1 hm
        exact key d (hw.2 d hd) e
      have h := parseI32_lower (r := 2) (by omega) (by omega) ds hw.1 hw.2
      simp only [IntLit.kind, literalValue, IntLit.text, Bool.false_eq_true, if_false, trimEndB_b _ hb, h,
        IntLit.Understood, IntLit.value, and_true]
      by_cases hv : digitsValue 2 ds < 2 ^ 31
      · rw [if_pos hv, if_pos hv]
      · rw [if_neg hv, if_neg hv]
    | true =>
      have hbad : parseI32 2 (ds.map (digitChar false) ++ ['B']) = none := by
        cases ds with
        | nil => exact absurd rfl hw.1
        | cons d ds =>
          have hn := digitChar_ne d (by have := hw.2 d (List.mem_cons_self ..); omega) false
          rw [List.map_cons, List.cons_append, parseI32_unsigned hn.1 hn.2.1]
          exact parseDigits_invalid _ ⟨'B', by simp, by decide⟩ 0
      simp only [IntLit.kind, literalValue, IntLit.text, if_true, trimEndB_other _ (show 'B' ≠ 'b' by decide),
        hbad, IntLit.Understood, Bool.true_eq_false, and_false, if_false]

/-- The text of a number that an `i32` holds is read by Rust as that number. -/
theorem integer_text (fl : FloatText) (l : IntLit) (hv : l.value < 2 ^ 31) (hb : ¬l.IsBinary) :
    ∃ out, literalText fl l.kind (.int (l.value : Int)) = .ok out ∧ rustInt out = some l.value := by
  have hneg : ¬((l.value : Int) < 0) := by omega
  have hmod : ((l.value : Int) % 2 ^ 32).toNat = l.value := by
    have : (l.value : Int) % 2 ^ 32 = (l.value : Int) := Int.emod_eq_of_lt (by omega) (by omega)
    rw [this]; rfl
  have habs : (l.value : Int).natAbs = l.value := rfl
  cases l with
  | decimal ds =>
    refine ⟨_, rfl, ?_⟩
    simp only [showI32, if_neg hneg, habs]
    exact rustInt_decimal _
  | octal ds =>
    refine ⟨_, rfl, ?_⟩
    simp only [showRadix, hmod]
    exact rustInt_octal _
  | hexadecimal upper ds =>
    refine ⟨_, rfl, ?_⟩
    simp only [showRadix, hmod]
    exact rustInt_hex _
  | binary upper ds => exact absurd trivial hb

/-! ## Integers -/

/-- **C52**, integers: a literal for which code is generated denotes in Rust the number it denotes in the
schema.  Missing: code is generated only for numbers below `2^31`, without capital `X`, and not for binary
literals; otherwise the compiler panics (`C52_integer_refused`). -/
theorem C52_integer_literal_partial (fl : FloatText) (l : IntLit) (hw : l.WellFormed) (out : List Char)
    (h : compileLiteral fl l.kind l.text = .ok out) : rustInt out = some l.value := by
  unfold compileLiteral at h
  rw [integer_value fl l hw] at h
  by_cases hu : l.Understood
  · rw [if_pos hu] at h
    simp only [Res.ok_bind] at h
    by_cases hb : l.IsBinary
    · cases l <;> first | (exact absurd hb id) | cases h
    · obtain ⟨out', h', hr⟩ := integer_text fl l hu.1 hb
      rw [h'] at h
      cases h
      exact hr
  · rw [if_neg hu] at h; cases h

/-- The floating-point part is not used by these examples. -/
def noFloat : FloatText := { F := Unit, round := fun _ => (), display := fun _ => [] }

/-- `0x1Fb` is compiled to `0x1fb`. -/
example : (IntLit.hexadecimal false [(1, false), (15, true), (11, false)]).WellFormed ∧
    (IntLit.hexadecimal false [(1, false), (15, true), (11, false)]).text = "0x1Fb".toList ∧
    (IntLit.hexadecimal false [(1, false), (15, true), (11, false)]).value = 507 ∧
    compileLiteral noFloat .hexadecimal "0x1Fb".toList = .ok "0x1fb".toList := by
  refine ⟨⟨by decide, by decide⟩, by decide, by decide, by decide +kernel⟩

/-- **C52**, integers: exactly which literals are refused, and how: the compiler panics. -/
theorem C52_integer_refused (fl : FloatText) (l : IntLit) (hw : l.WellFormed) :
    (∃ out, compileLiteral fl l.kind l.text = .ok out) ∧ l.Understood ∧ ¬l.IsBinary ∨
    compileLiteral fl l.kind l.text = .panic ∧ (¬l.Understood ∨ l.IsBinary) := by
  unfold compileLiteral
  rw [integer_value fl l hw]
  by_cases hu : l.Understood
  · rw [if_pos hu]
    simp only [Res.ok_bind]
    by_cases hb : l.IsBinary
    · refine Or.inr ⟨?_, Or.inr hb⟩
      cases l <;> first | (exact absurd hb id) | rfl
    · obtain ⟨out', h', hr⟩ := integer_text fl l hu.1 hb
      exact Or.inl ⟨⟨out', h'⟩, hu, hb⟩
  · rw [if_neg hu]; exact Or.inr ⟨rfl, Or.inl hu⟩

/-- `101b` and `0777` meet the hypothesis, one on each side. -/
example : (IntLit.binary false [1, 0, 1]).WellFormed ∧
    compileLiteral noFloat .binary (IntLit.binary false [1, 0, 1]).text = .panic ∧
    (IntLit.octal [7, 7, 7]).WellFormed ∧
    compileLiteral noFloat .octal (IntLit.octal [7, 7, 7]).text = .ok "0o777".toList := by
  refine ⟨⟨by decide, by decide⟩, by decide +kernel, ⟨by decide, by decide⟩, by decide +kernel⟩

/-- Violation of **C52**: literals that the lexer accepts and that make the compiler panic: every binary
literal, the capital prefix, and `4294967295`, the largest value of an `uint32`. -/
theorem C52_integer_violated (fl : FloatText) :
    compileLiteral fl .binary "1b".toList = .panic ∧
    compileLiteral fl .hexadecimal "0XFF".toList = .panic ∧
    compileLiteral fl .decimal "4294967295".toList = .panic := by
  have h1 := (C52_integer_refused fl (.binary false [1]) ⟨by simp, by decide⟩).resolve_left
    fun h => h.2.2 trivial
  have h2 := (C52_integer_refused fl (.hexadecimal true [(15, true), (15, true)])
    ⟨by simp, by decide⟩).resolve_left fun h => absurd h.2.1 (by decide)
  have h3 := (C52_integer_refused fl (.decimal [4, 2, 9, 4, 9, 6, 7, 2, 9, 5])
    ⟨by simp, by decide, by decide⟩).resolve_left fun h => absurd h.2.1 (by decide)
  exact ⟨h1.1, h2.1, h3.1⟩

/-! ## Booleans -/

/-- **C52**, booleans: both literals are kept. -/
theorem C52_bool_literal (fl : FloatText) (b : Bool) :
    compileLiteral fl .bool (if b then "true".toList else "false".toList) =
      .ok (if b then "true".toList else "false".toList) := by
  cases b <;> rfl

/-! ## Strings -/

/-- A string literal is copied to the generated code, character by character. -/
theorem string_text (fl : FloatText) (es : List StrElem) :
    compileLiteral fl .string (strText es) = .ok (strText es) := by
  have hlen : ¬((strText es).length < 2) := by simp [strText]
  have hbody : ((strText es).drop 1).dropLast = es.flatMap StrElem.text := by simp [strText]
  simp only [compileLiteral, literalValue, if_neg hlen, Res.ok_bind, literalText, hbody]
  rfl

/-- **C52**, strings: what Rust reads is what the literal denotes exactly if every escape in it is one that
Rust shares with zserio: not `\f`, no `\u....`, no `\x80` to `\xff`, no octal escape.  Missing: the other
escapes, which are accepted as well (`C52_string_violated`). -/
theorem C52_string_literal_partial (fl : FloatText) (es : List StrElem) (hw : ∀ e ∈ es, e.WellFormed) :
    ∃ out, compileLiteral fl .string (strText es) = .ok out ∧
      (rustStr out = some (es.map StrElem.denote) ↔ ∀ e ∈ es, e.Shared) := by
  refine ⟨_, string_text fl es, ?_⟩
  have hb : rustStr (strText es) = rustStrBody (es.flatMap StrElem.text ++ ['"']) := rfl
  rw [hb]
  constructor
  · intro h e he
    refine Classical.byContradiction fun hs => ?_
    have := (rustStrBody_length es hw _ h).2 ⟨e, he, hs⟩
    simp at this
  · exact rustStrBody_all_shared es hw

/-- The literal `"a\n\x7f"`: shared escapes only. -/
example : strText [.plain 'a', .escape 'n', .hex (7, false) (15, false)] =
      ['"', 'a', '\\', 'n', '\\', 'x', '7', 'f', '"'] ∧
    (∀ e ∈ [StrElem.plain 'a', .escape 'n', .hex (7, false) (15, false)], e.WellFormed ∧ e.Shared) ∧
    [StrElem.plain 'a', .escape 'n', .hex (7, false) (15, false)].map StrElem.denote = [97, 10, 127] := by
  refine ⟨by decide, ?_, by decide⟩
  simp [StrElem.WellFormed, StrElem.Shared]

/-- Violation of **C52**: the literal `"\012"` denotes one character, a line feed; the generated code is
valid and denotes three characters.  `"\f"` and `"\u0041"` are accepted and the generated code is not
valid Rust. -/
theorem C52_string_violated (fl : FloatText) :
    (StrElem.octal [1, 2]).WellFormed ∧ (StrElem.octal [1, 2]).denote = 10 ∧
    compileLiteral fl .string (strText [.octal [1, 2]]) = .ok (strText [.octal [1, 2]]) ∧
    rustStr (strText [.octal [1, 2]]) = some [0, 49, 50] ∧
    compileLiteral fl .string (strText [.escape 'f']) = .ok (strText [.escape 'f']) ∧
    rustStr (strText [.escape 'f']) = none ∧
    compileLiteral fl .string (strText [.unicode [(0, false), (0, false), (4, false), (1, false)]]) =
      .ok (strText [.unicode [(0, false), (0, false), (4, false), (1, false)]]) ∧
    rustStr (strText [.unicode [(0, false), (0, false), (4, false), (1, false)]]) = none := by
  refine ⟨⟨⟨by decide, by decide, by decide⟩, by decide⟩, by decide, string_text fl _, by decide, string_text fl _,
    by decide, string_text fl _, by decide⟩

/-! ## Floating-point numbers -/

/-- **C52**, floating-point numbers: every literal without suffix is accepted and rounded once; the
generated code contains the `Display` form of the rounded number.  Missing: that this is a floating-point
literal in Rust (`C52_float_violated`), and literals with the suffix `f` (`C52_float_suffix`). -/
theorem C52_float_literal_partial (fl : FloatText) (l : FloatLit) (hw : l.WellFormed) :
    literalValue fl .double l.text = .ok (.float (fl.round l.text)) ∧
    compileLiteral fl .double l.text = .ok (fl.display (fl.round l.text)) := by
  have h : parseF64 fl l.text = some (fl.round l.text) := by
    rw [parseF64, if_pos (acceptsNumber_double l hw)]
  have hv : literalValue fl .double l.text = .ok (.float (fl.round l.text)) := by
    simp only [literalValue, h]
  refine ⟨hv, ?_⟩
  rw [compileLiteral, hv]
  rfl

/-- `1.5e-3` and `.5` are such literals. -/
example : (FloatLit.mk [1] (some [5]) (some ⟨false, some true, [3]⟩)).WellFormed ∧
    (FloatLit.mk [1] (some [5]) (some ⟨false, some true, [3]⟩)).text = "1.5e-3".toList ∧
    (FloatLit.mk [] (some [5]) none).WellFormed ∧
    (FloatLit.mk [] (some [5]) none).text = ".5".toList := by
  refine ⟨?_, by decide, ?_, by decide⟩ <;> simp [FloatLit.WellFormed]

/-- Violation of **C52**: no literal with the suffix `f` or `F` is understood; the compiler panics. -/
theorem C52_float_suffix (fl : FloatText) (l : FloatLit) (f : Char) (hf : f = 'f' ∨ f = 'F') :
    compileLiteral fl .float (l.text ++ [f]) = .panic := by
  have h : acceptsNumber (l.text ++ [f]) = false := by
    rcases hf with rfl | rfl
    · exact acceptsNumber_suffix _ (by decide) (by decide) (by decide) (by decide)
    · exact acceptsNumber_suffix _ (by decide) (by decide) (by decide) (by decide)
  simp [compileLiteral, literalValue, parseF64, h]

/-- `1.5f`. -/
example : (FloatLit.mk [1] (some [5]) none).text ++ ['f'] = "1.5f".toList ∧
    (FloatLit.mk [1] (some [5]) none).WellFormed := by
  refine ⟨by decide, ?_⟩
  simp [FloatLit.WellFormed]

/-- Violation of **C52**: `1.0` becomes the integer literal `1`.  The hypothesis is what `Display` of `f64`
prints. -/
theorem C52_float_violated (fl : FloatText) (hd : fl.display (fl.round "1.0".toList) = "1".toList) :
    compileLiteral fl .double "1.0".toList = .ok "1".toList ∧
    ¬RustFloat "1".toList ∧ rustInt "1".toList = some 1 := by
  have hw : (FloatLit.mk [1] (some [0]) none).WellFormed := by simp [FloatLit.WellFormed]
  have ht : (FloatLit.mk [1] (some [0]) none).text = "1.0".toList := by decide
  have h := (C52_float_literal_partial fl _ hw).2
  rw [ht, hd] at h
  refine ⟨h, ?_, by decide⟩
  unfold RustFloat
  decide

/-- A display function with this property. -/
example : ({ F := Nat, round := fun _ => 1, display := showDigits 10 } : FloatText).display
    (({ F := Nat, round := fun _ => 1, display := showDigits 10 } : FloatText).round "1.0".toList) =
      "1".toList := by decide +kernel

end Zs
