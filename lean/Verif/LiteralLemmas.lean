import Verif.Literal
import Verif.LiteralSpec

/-!
# Lemmas about literals
-/

namespace Zs

open Spec

/-! ## Digits -/

theorem toDigit_16 : ∀ d < 16, ∀ u : Bool, toDigit 16 (digitChar u d) = some d := by decide

theorem digit_below {r : Nat} (hr : r ≤ 16) (d : Nat) :
    (if d < r then some d else none) =
      (if d < 16 then some d else none).bind fun d => if d < r then some d else none := by
  by_cases h : d < r
  · rw [if_pos h, if_pos (by omega), Option.bind_some, if_pos h]
  · rw [if_neg h]
    by_cases h' : d < 16
    · rw [if_pos h', Option.bind_some, if_neg h]
    · rw [if_neg h']; rfl

theorem toDigit_le {r : Nat} (hr : r ≤ 16) (c : Char) :
    toDigit r c = (toDigit 16 c).bind fun d => if d < r then some d else none := by
  simp only [toDigit]
  split
  · exact digit_below hr _
  · split
    · exact digit_below hr _
    · split
      · exact digit_below hr _
      · rfl

theorem toDigit_digitChar {r d : Nat} (hr : r ≤ 16) (hd : d < r) (u : Bool) :
    toDigit r (digitChar u d) = some d := by
  rw [toDigit_le hr, toDigit_16 d (by omega) u]
  simp [hd]

theorem digitChar_ne : ∀ d < 16, ∀ u : Bool, digitChar u d ≠ '+' ∧ digitChar u d ≠ '-' ∧
    digitChar u d ≠ 'x' ∧ digitChar u d ≠ '"' ∧ digitChar u d ≠ '\\' ∧ digitChar u d ≠ '\r' := by decide

theorem digitsValue_ge (base : Nat) (hb : 1 ≤ base) (ds : List Nat) (acc : Nat) :
    acc ≤ ds.foldl (fun acc d => base * acc + d) acc := by
  induction ds generalizing acc with
  | nil => exact Nat.le_refl _
  | cons d ds ih =>
    refine Nat.le_trans ?_ (ih (base * acc + d))
    have := Nat.mul_le_mul_right acc hb
    omega

theorem parseDigits_cons {r : Nat} {c : Char} {d : Nat} (h : toDigit r c = some d) (acc : Int)
    (cs : List Char) :
    parseDigits r acc (c :: cs) =
      if acc * (r : Int) < 2 ^ 31 ∧ acc * (r : Int) + (d : Int) < 2 ^ 31 then
        parseDigits r (acc * (r : Int) + (d : Int)) cs
      else none := by
  rw [parseDigits, h]; rfl

theorem parseDigits_step {r : Nat} {c : Char} {d : Nat} (h : toDigit r c = some d) (acc : Nat)
    (cs : List Char) :
    parseDigits r acc (c :: cs) =
      if r * acc + d < 2 ^ 31 then parseDigits r ((r * acc + d : Nat) : Int) cs else none := by
  have hcast : (acc : Int) * (r : Int) + (d : Int) = ((r * acc + d : Nat) : Int) := by
    push_cast; rw [Int.mul_comm]
  have hcast' : (acc : Int) * (r : Int) = ((r * acc : Nat) : Int) := by
    push_cast; rw [Int.mul_comm]
  rw [parseDigits_cons h, hcast, hcast']
  have hM : (2 : Int) ^ 31 = (((2 : Nat) ^ 31 : Nat) : Int) := (Int.natCast_pow 2 31).symm
  rw [hM]
  generalize (2 : Nat) ^ 31 = M
  by_cases hlt : r * acc + d < M
  · rw [if_pos hlt, if_pos (by omega)]
  · rw [if_neg hlt, if_neg (by omega)]

/-- The digit loop is exact up to the largest `i32` and fails beyond it. -/
theorem parseDigits_exact {r : Nat} (h1 : 1 ≤ r) (hr : r ≤ 16) (ds : List (Nat × Bool))
    (hds : ∀ d ∈ ds, d.1 < r) (acc : Nat) :
    parseDigits r acc (ds.map fun d => digitChar d.2 d.1) =
      if ds = [] ∨ (ds.map Prod.fst).foldl (fun acc d => r * acc + d) acc < 2 ^ 31 then
        some (((ds.map Prod.fst).foldl (fun acc d => r * acc + d) acc : Nat) : Int)
      else none := by
  induction ds generalizing acc with
  | nil => rw [if_pos (Or.inl rfl)]; rfl
  | cons d ds ih =>
    have hd := hds d (List.mem_cons_self ..)
    have hds' : ∀ d ∈ ds, d.1 < r := fun x hx => hds x (List.mem_cons_of_mem _ hx)
    rw [List.map_cons, parseDigits_step (toDigit_digitChar hr hd d.2), List.map_cons, List.foldl_cons,
      ih hds' (r * acc + d.1)]
    have hge := digitsValue_ge r h1 (ds.map Prod.fst) (r * acc + d.1)
    have hnil : ds = [] → (ds.map Prod.fst).foldl (fun acc d => r * acc + d) (r * acc + d.1)
        = r * acc + d.1 := by rintro rfl; rfl
    generalize (2 : Nat) ^ 31 = M
    generalize (ds.map Prod.fst).foldl (fun acc d => r * acc + d) (r * acc + d.1) = V at *
    generalize r * acc + d.1 = x at *
    have hcons : (d :: ds = [] ∨ V < M) ↔ V < M := by simp
    by_cases hlt : x < M
    · rw [if_pos hlt]
      by_cases hv : V < M
      · rw [if_pos (Or.inr hv), if_pos (Or.inr hv)]
      · have : ¬(ds = [] ∨ V < M) := by
          rintro (h | h)
          · have := hnil h; omega
          · exact hv h
        rw [if_neg this, if_neg (by rw [hcons]; exact hv)]
    · rw [if_neg hlt, if_neg (by rw [hcons]; omega)]

/-- A character that is no digit makes the number invalid. -/
theorem parseDigits_invalid {r : Nat} (cs : List Char) (h : ∃ c ∈ cs, toDigit r c = none) (acc : Int) :
    parseDigits r acc cs = none := by
  induction cs generalizing acc with
  | nil => obtain ⟨c, hc, _⟩ := h; cases hc
  | cons c cs ih =>
    simp only [parseDigits]
    cases hd : toDigit r c with
    | none => rfl
    | some d =>
      have : ∃ c ∈ cs, toDigit r c = none := by
        obtain ⟨x, hx, hn⟩ := h
        rcases List.mem_cons.1 hx with e | e
        · subst e; rw [hd] at hn; cases hn
        · exact ⟨x, e, hn⟩
      simp only [Option.bind_some, ih this]
      split <;> rfl

/-- Without a sign, the digits are read as they are. -/
theorem parseI32_unsigned {r : Nat} {c : Char} {cs : List Char} (h : c ≠ '+') (h' : c ≠ '-') :
    parseI32 r (c :: cs) = parseDigits r 0 (c :: cs) := by
  unfold parseI32
  split
  · cases ‹_›
  · rename_i e; injection e with e1 _; exact absurd e1 h
  · rename_i e; injection e with e1 _; exact absurd e1 h'
  · rename_i e; injection e with e1 _; exact absurd e1 h
  · rename_i e; injection e with e1 _; exact absurd e1 h'
  · rfl

theorem parseI32_exact {r : Nat} (h1 : 1 ≤ r) (hr : r ≤ 16) (ds : List (Nat × Bool)) (hne : ds ≠ [])
    (hds : ∀ d ∈ ds, d.1 < r) :
    parseI32 r (ds.map fun d => digitChar d.2 d.1) =
      if digitsValue r (ds.map Prod.fst) < 2 ^ 31 then some ((digitsValue r (ds.map Prod.fst) : Nat) : Int)
      else none := by
  cases ds with
  | nil => exact absurd rfl hne
  | cons d ds =>
    have hd := hds d (List.mem_cons_self ..)
    have hn := digitChar_ne d.1 (by omega) d.2
    rw [List.map_cons, parseI32_unsigned hn.1 hn.2.1]
    refine (parseDigits_exact h1 hr (d :: ds) hds 0).trans ?_
    simp only [reduceCtorEq, false_or]
    rfl

/-- The same for digits without capital letters. -/
theorem parseI32_lower {r : Nat} (h1 : 1 ≤ r) (hr : r ≤ 16) (ds : List Nat) (hne : ds ≠ [])
    (hds : ∀ d ∈ ds, d < r) :
    parseI32 r (ds.map (digitChar false)) =
      if digitsValue r ds < 2 ^ 31 then some ((digitsValue r ds : Nat) : Int) else none := by
  have := parseI32_exact h1 hr (ds.map fun d => (d, false)) (by simpa using hne) (by simpa using hds)
  simpa [List.map_map, Function.comp_def] using this

theorem trimStart0x_digits (cs : List Char) (h : 'x' ∉ cs) : trimStart0x cs = cs := by
  unfold trimStart0x
  split
  · exact absurd (List.mem_cons_of_mem _ (List.mem_cons_self ..)) h
  · rfl

theorem trimEndB_b (cs : List Char) (h : 'b' ∉ cs) : trimEndB (cs ++ ['b']) = cs := by
  unfold trimEndB
  rw [List.reverse_append]
  simp only [List.reverse_cons, List.reverse_nil, List.nil_append, List.cons_append,
    List.dropWhile_cons_of_pos, beq_self_eq_true]
  have : cs.reverse.dropWhile (· == 'b') = cs.reverse := by
    cases hr : cs.reverse with
    | nil => rfl
    | cons c ds =>
      rw [List.dropWhile_cons_of_neg]
      intro hc
      have : c = 'b' := by simpa using hc
      subst this
      exact h (List.mem_reverse.1 (hr ▸ List.mem_cons_self ..))
  rw [this, List.reverse_reverse]

theorem trimEndB_other (cs : List Char) {c : Char} (h : c ≠ 'b') : trimEndB (cs ++ [c]) = cs ++ [c] := by
  unfold trimEndB
  rw [List.reverse_append]
  simp only [List.reverse_cons, List.reverse_nil, List.nil_append, List.cons_append]
  rw [List.dropWhile_cons_of_neg (by simpa using h), List.reverse_cons, List.reverse_reverse]

/-! ## Rust reads the digits that were written -/

theorem rustDigit_lower : (∀ d < 2, rustDigit 2 (lowerDigit d) = some d) ∧
    (∀ d < 8, rustDigit 8 (lowerDigit d) = some d) ∧ (∀ d < 10, rustDigit 10 (lowerDigit d) = some d) ∧
    (∀ d < 16, rustDigit 16 (lowerDigit d) = some d) := by decide

theorem rustDigit_16 : ∀ d < 16, ∀ u : Bool, rustDigit 16 (digitChar u d) = some d := by decide
theorem rustDigit_8 : ∀ d < 8, ∀ u : Bool, rustDigit 8 (digitChar u d) = some d := by decide
theorem rustDigit_8_none : ∀ d < 16, 8 ≤ d → ∀ u : Bool, rustDigit 8 (digitChar u d) = none := by decide

theorem rustDigits_snoc (b : Nat) (cs : List Char) (c : Char) (acc : Nat) :
    rustDigits b acc (cs ++ [c]) =
      (rustDigits b acc cs).bind fun v => (rustDigit b c).map fun d => b * v + d := by
  induction cs generalizing acc with
  | nil => simp only [List.nil_append, rustDigits, Option.bind_some]; cases rustDigit b c <;> rfl
  | cons x xs ih =>
    simp only [List.cons_append, rustDigits]
    cases rustDigit b x with
    | none => rfl
    | some d => simp only [Option.bind_some, ih]

theorem showDigits_read (b : Nat) (hb : 2 ≤ b) (h : ∀ d < b, rustDigit b (lowerDigit d) = some d) (n : Nat) :
    rustDigits b 0 (showDigits b n) = some n := by
  induction n using Nat.strongRecOn with
  | _ n ih =>
    rw [showDigits]
    split
    · rename_i hc
      have hn : n < b := by omega
      simp [rustDigits, h n hn]
    · rename_i hc
      have hn : ¬n < b := by omega
      rw [rustDigits_snoc, ih (n / b) (Nat.div_lt_self (by omega) (by omega))]
      simp only [Option.bind_some, h (n % b) (Nat.mod_lt _ (by omega)), Option.map_some]
      rw [Nat.div_add_mod]

theorem showDigits_ne_nil (b n : Nat) : showDigits b n ≠ [] := by
  rw [showDigits]; split <;> simp

theorem showDigits_mem (n : Nat) : ∀ c ∈ showDigits 10 n, c ≠ 'x' ∧ c ≠ 'o' ∧ c ≠ 'b' := by
  have key : ∀ d < 10, lowerDigit d ≠ 'x' ∧ lowerDigit d ≠ 'o' ∧ lowerDigit d ≠ 'b' := by decide
  induction n using Nat.strongRecOn with
  | _ n ih =>
    rw [showDigits]
    split
    · intro c hc
      have : c = lowerDigit n := by simpa using hc
      subst this
      exact key n (by omega)
    · intro c hc
      rcases List.mem_append.1 hc with h | h
      · exact ih (n / 10) (Nat.div_lt_self (by omega) (by omega)) c h
      · have : c = lowerDigit (n % 10) := by simpa using h
        subst this
        exact key _ (Nat.mod_lt _ (by omega))

theorem rustInt_decimal (n : Nat) : rustInt (showDigits 10 n) = some n := by
  have hread := showDigits_read 10 (by omega) rustDigit_lower.2.2.1 n
  have hmem := showDigits_mem n
  have hne := showDigits_ne_nil 10 n
  generalize showDigits 10 n = cs at *
  unfold rustInt
  split
  · exact absurd rfl hne
  · exact absurd rfl (hmem 'x' (by simp)).1
  · exact absurd rfl (hmem 'o' (by simp)).2.1
  · exact absurd rfl (hmem 'b' (by simp)).2.2
  · exact hread

theorem rustInt_hex (n : Nat) : rustInt ('0' :: 'x' :: showDigits 16 n) = some n := by
  have hread := showDigits_read 16 (by omega) rustDigit_lower.2.2.2 n
  have hne := showDigits_ne_nil 16 n
  cases h : showDigits 16 n with
  | nil => exact absurd h hne
  | cons c cs => rw [h] at hread; exact hread

theorem rustInt_octal (n : Nat) : rustInt ('0' :: 'o' :: showDigits 8 n) = some n := by
  have hread := showDigits_read 8 (by omega) rustDigit_lower.2.1 n
  have hne := showDigits_ne_nil 8 n
  cases h : showDigits 8 n with
  | nil => exact absurd h hne
  | cons c cs => rw [h] at hread; exact hread

/-! ## Strings -/

theorem rustStrBody_plain {c : Char} (h1 : c ≠ '"') (h2 : c ≠ '\\') (h3 : c ≠ '\r') (rest : List Char) :
    rustStrBody (c :: rest) = (rustStrBody rest).map (c.toNat :: ·) := by
  rw [rustStrBody.eq_def]
  split <;> rename_i e <;> first
    | (injection e with e1 e2; exact absurd e1 h1)
    | (injection e with e1 e2; exact absurd e1 h2)
    | (injection e with e1 e2; exact absurd e1 h3)
    | (injection e with e1 e2; subst e1; subst e2; rfl)
    | cases e

/-- An element that Rust writes like zserio is read as what it denotes. -/
theorem rustStrBody_shared {e : StrElem} (hw : e.WellFormed) (hs : e.Shared) (rest : List Char) :
    rustStrBody (e.text ++ rest) = (rustStrBody rest).map (e.denote :: ·) := by
  cases e with
  | plain c => exact rustStrBody_plain hw.1 hw.2.1 hw.2.2.1 rest
  | escape c =>
    have hc : c ∈ ['"', '\\', 'r', 'n', 'f', 't'] := hw
    simp only [List.mem_cons, List.not_mem_nil, or_false] at hc
    rcases hc with h | h | h | h | h | h
    · subst h; rfl
    · subst h; rfl
    · subst h; rfl
    · subst h; rfl
    · exact absurd h hs
    · subst h; rfl
  | unicode ds => exact absurd hs id
  | hex a b =>
    have ha : a.1 < 8 := hs
    show (rustDigit 8 _).bind _ = _
    rw [rustDigit_8 a.1 ha a.2]
    simp only [Option.bind_some]
    rw [rustDigit_16 b.1 hw.2 b.2]
    simp [StrElem.denote, digitsValue]
  | octal ds => exact absurd hs id

/-- Octal digits in a string are read as themselves. -/
theorem rustStrBody_digits (ds : List Nat) (hds : ∀ d ∈ ds, d < 8) (rest : List Char) :
    rustStrBody (ds.map (digitChar false) ++ rest) =
      (rustStrBody rest).map (ds.map (fun d => (digitChar false d).toNat) ++ ·) := by
  induction ds with
  | nil => simp
  | cons d ds ih =>
    have hn := digitChar_ne d (by have := hds d (List.mem_cons_self ..); omega) false
    rw [List.map_cons, List.cons_append, rustStrBody_plain hn.2.2.2.1 hn.2.2.2.2.1 hn.2.2.2.2.2,
      ih (fun x hx => hds x (List.mem_cons_of_mem _ hx))]
    cases rustStrBody rest <;> rfl

/-- An octal escape is read as a zero character and digits. -/
theorem rustStrBody_octal (ds : List Nat) (hds : ∀ d ∈ ds, d < 8) (rest : List Char) :
    rustStrBody ((StrElem.octal ds).text ++ rest) =
      (rustStrBody rest).map (fun l => 0 :: (ds.map (fun d => (digitChar false d).toNat) ++ l)) := by
  show (rustStrBody (ds.map (digitChar false) ++ rest)).map (0 :: ·) = _
  rw [rustStrBody_digits ds hds]
  cases rustStrBody rest <;> rfl

/-- The other escapes are rejected. -/
theorem rustStrBody_rejected {e : StrElem} (hw : e.WellFormed) (hs : ¬e.Shared)
    (ho : ∀ ds, e ≠ .octal ds) (rest : List Char) : rustStrBody (e.text ++ rest) = none := by
  cases e with
  | plain c => exact absurd trivial hs
  | escape c =>
    have : c = 'f' := Classical.byContradiction fun h => hs h
    subst this
    rfl
  | unicode ds => rfl
  | hex a b =>
    have ha : 8 ≤ a.1 := Nat.le_of_not_lt hs
    show (rustDigit 8 _).bind _ = _
    rw [rustDigit_8_none a.1 hw.1 ha a.2]
    rfl
  | octal ds => exact absurd rfl (ho ds)

/-- What Rust reads, if anything, is at least as long; and longer behind an element it does not share. -/
theorem rustStrBody_length (es : List StrElem) (hw : ∀ e ∈ es, e.WellFormed) (l : List Nat)
    (h : rustStrBody (es.flatMap StrElem.text ++ ['"']) = some l) :
    es.length ≤ l.length ∧ ((∃ e ∈ es, ¬e.Shared) → es.length < l.length) := by
  induction es generalizing l with
  | nil => exact ⟨Nat.zero_le _, fun ⟨_, hm, _⟩ => by cases hm⟩
  | cons e es ih =>
    have hwe := hw e (List.mem_cons_self ..)
    have hws : ∀ x ∈ es, x.WellFormed := fun x hx => hw x (List.mem_cons_of_mem _ hx)
    rw [List.flatMap_cons, List.append_assoc] at h
    by_cases hs : e.Shared
    · rw [rustStrBody_shared hwe hs] at h
      obtain ⟨l', hl', rfl⟩ := Option.map_eq_some_iff.1 h
      have := ih hws l' hl'
      refine ⟨by simpa using this.1, ?_⟩
      rintro ⟨x, hx, hxs⟩
      rcases List.mem_cons.1 hx with rfl | hx
      · exact absurd hs hxs
      · simpa using this.2 ⟨x, hx, hxs⟩
    · by_cases ho : ∃ ds, e = .octal ds
      · obtain ⟨ds, rfl⟩ := ho
        rw [rustStrBody_octal ds hwe.1.2.2] at h
        obtain ⟨l', hl', rfl⟩ := Option.map_eq_some_iff.1 h
        have := ih hws l' hl'
        have hd : 0 < ds.length := hwe.1.1
        simp only [List.length_cons, List.length_append, List.length_map]
        exact ⟨by omega, fun _ => by omega⟩
      · rw [rustStrBody_rejected hwe hs (fun ds hd => ho ⟨ds, hd⟩)] at h
        cases h

theorem rustStrBody_all_shared (es : List StrElem) (hw : ∀ e ∈ es, e.WellFormed)
    (hs : ∀ e ∈ es, e.Shared) :
    rustStrBody (es.flatMap StrElem.text ++ ['"']) = some (es.map StrElem.denote) := by
  induction es with
  | nil => rfl
  | cons e es ih =>
    rw [List.flatMap_cons, List.append_assoc,
      rustStrBody_shared (hw e (List.mem_cons_self ..)) (hs e (List.mem_cons_self ..)),
      ih (fun x hx => hw x (List.mem_cons_of_mem _ hx)) (fun x hx => hs x (List.mem_cons_of_mem _ hx))]
    rfl

/-! ## Floating-point numbers -/

theorem isDigit_digitChar : ∀ d < 10, isDigit (digitChar false d) = true := by decide

theorem all_isDigit (ds : List Nat) (h : ∀ d ∈ ds, d < 10) :
    ∀ c ∈ ds.map (digitChar false), isDigit c = true := by
  intro c hc
  obtain ⟨d, hd, rfl⟩ := List.mem_map.1 hc
  exact isDigit_digitChar d (h d hd)

theorem takeWhile_digits (ds : List Nat) (h : ∀ d ∈ ds, d < 10) (c : Char) (cs : List Char)
    (hc : isDigit c = false) :
    (ds.map (digitChar false) ++ c :: cs).takeWhile isDigit = ds.map (digitChar false) := by
  rw [List.takeWhile_append_of_pos (all_isDigit ds h), List.takeWhile_cons_of_neg (by simp [hc]),
    List.append_nil]

theorem dropWhile_digits (ds : List Nat) (h : ∀ d ∈ ds, d < 10) (c : Char) (cs : List Char)
    (hc : isDigit c = false) :
    (ds.map (digitChar false) ++ c :: cs).dropWhile isDigit = c :: cs := by
  rw [List.dropWhile_append_of_pos (all_isDigit ds h), List.dropWhile_cons_of_neg (by simp [hc])]

theorem takeWhile_digits_nil (ds : List Nat) (h : ∀ d ∈ ds, d < 10) :
    (ds.map (digitChar false)).takeWhile isDigit = ds.map (digitChar false) := by
  have := List.takeWhile_append_of_pos (p := isDigit) (l₂ := []) (all_isDigit ds h)
  simpa using this

theorem dropWhile_digits_nil (ds : List Nat) (h : ∀ d ∈ ds, d < 10) :
    (ds.map (digitChar false)).dropWhile isDigit = [] := by
  have := List.dropWhile_append_of_pos (p := isDigit) (l₂ := []) (all_isDigit ds h)
  simpa using this

theorem acceptsExponent_text (e : Exponent) (hne : e.digits ≠ []) (h : ∀ d ∈ e.digits, d < 10) :
    acceptsExponent e.text = true := by
  have hall : (e.digits.map (digitChar false)).all isDigit = true := by
    rw [List.all_eq_true]; exact all_isDigit e.digits h
  have hempty : (e.digits.map (digitChar false)).isEmpty = false := by
    cases hd : e.digits with
    | nil => exact absurd hd hne
    | cons => rfl
  have hup : ((if e.upper = true then 'E' else 'e') == 'e' || (if e.upper = true then 'E' else 'e') == 'E')
      = true := by cases e.upper <;> decide
  simp only [Exponent.text, acceptsExponent, hup, Bool.true_and]
  cases hs : e.sign with
  | some b => cases b <;> simp [hall, hempty]
  | none =>
    simp only [List.nil_append]
    cases hd : e.digits with
    | nil => exact absurd hd hne
    | cons d ds =>
      rw [hd] at hall hempty
      have hn := digitChar_ne d (by have := h d (hd ▸ List.mem_cons_self ..); omega) false
      simp only [List.map_cons] at hall hempty ⊢
      split
      · rename_i e'; injection e' with e1 _; exact absurd e1 hn.1
      · rename_i e'; injection e' with e1 _; exact absurd e1 hn.2.1
      · simp [hall]

/-- Behind an exponent or at the end of the number a letter `f` is rejected. -/
theorem acceptsExponent_suffix (cs : List Char) {f : Char} (hf : isDigit f = false) (he : f ≠ 'e')
    (hE : f ≠ 'E') : acceptsExponent (cs ++ [f]) = false := by
  have hall : ∀ ds : List Char, (ds ++ [f]).all isDigit = false := by
    intro ds; simp [List.all_append, hf]
  cases cs with
  | nil =>
    simp only [List.nil_append, acceptsExponent]
    have : (f == 'e' || f == 'E') = false := by simp [he, hE]
    rw [this, Bool.false_and]
  | cons c cs =>
    simp only [List.cons_append, acceptsExponent]
    rw [Bool.and_eq_false_iff]
    refine Or.inr ?_
    split
    · rename_i ds e
      cases cs with
      | nil => injection e with _ e2; subst e2; rfl
      | cons x xs => injection e with _ e2; subst e2; exact Bool.and_eq_false_iff.2 (Or.inr (hall xs))
    · rename_i ds e
      cases cs with
      | nil => injection e with _ e2; subst e2; rfl
      | cons x xs => injection e with _ e2; subst e2; exact Bool.and_eq_false_iff.2 (Or.inr (hall xs))
    · rw [hall]; simp

theorem isDigit_dot : isDigit '.' = false := by decide

/-- Every `DOUBLE_LITERAL` is accepted. -/
theorem acceptsNumber_double (l : FloatLit) (hw : l.WellFormed) : acceptsNumber l.text = true := by
  obtain ⟨whole, fraction, exponent⟩ := l
  obtain ⟨h1, h2, h3, h4⟩ := hw
  simp only at h1 h2 h3 h4
  cases fraction with
  | none =>
    cases exponent with
    | none => exact absurd rfl h4.2
    | some e =>
      have he := acceptsExponent_text e (h3 e rfl).1 (h3 e rfl).2
      have hc : isDigit (if e.upper = true then 'E' else 'e') = false := by cases e.upper <;> decide
      have hdot : (if e.upper = true then 'E' else 'e') ≠ '.' := by cases e.upper <;> decide
      have hempty : (whole.map (digitChar false)).isEmpty = false := by
        cases whole with
        | nil => exact absurd rfl h4.1
        | cons => rfl
      simp only [FloatLit.text, List.append_nil]
      simp only [Exponent.text] at he ⊢
      unfold acceptsNumber
      rw [takeWhile_digits whole h1 _ _ hc, dropWhile_digits whole h1 _ _ hc]
      simp only [hempty]
      split
      · rename_i e'; injection e' with e1 _; exact absurd e1 hdot
      · simp [he]
  | some f =>
    have hf := h2 f rfl
    have hexp : acceptsExponent (match exponent with | none => [] | some e => e.text) = true := by
      cases exponent with
      | none => rfl
      | some e => exact acceptsExponent_text e (h3 e rfl).1 (h3 e rfl).2
    have hne : (!(whole.map (digitChar false)).isEmpty ||
        !(f.map (digitChar false)).isEmpty) = true := by
      rcases h4 with h | h
      · cases whole with
        | nil => exact absurd rfl h
        | cons => rfl
      · cases f with
        | nil => exact absurd rfl h
        | cons => simp
    simp only [FloatLit.text, List.append_assoc, List.cons_append]
    unfold acceptsNumber
    rw [takeWhile_digits whole h1 _ _ isDigit_dot, dropWhile_digits whole h1 _ _ isDigit_dot]
    simp only
    cases exponent with
    | none =>
      simp only [List.append_nil]
      rw [takeWhile_digits_nil f hf, dropWhile_digits_nil f hf, hne]
      rfl
    | some e =>
      have hc : isDigit (if e.upper = true then 'E' else 'e') = false := by cases e.upper <;> decide
      simp only [Exponent.text] at hexp ⊢
      rw [takeWhile_digits f hf _ _ hc, dropWhile_digits f hf _ _ hc, hne, hexp]
      rfl

theorem dropWhile_snoc (cs : List Char) {f : Char} (hf : isDigit f = false) :
    ∃ ds, (cs ++ [f]).dropWhile isDigit = ds ++ [f] := by
  induction cs with
  | nil => exact ⟨[], by simp [hf]⟩
  | cons c cs ih =>
    cases hc : isDigit c with
    | true =>
      obtain ⟨ds, hds⟩ := ih
      exact ⟨ds, by rw [List.cons_append, List.dropWhile_cons_of_pos hc, hds]⟩
    | false => exact ⟨c :: cs, by rw [List.cons_append, List.dropWhile_cons_of_neg (by simp [hc])]⟩

/-- A text that ends with `f` is never accepted. -/
theorem acceptsNumber_suffix (cs : List Char) {f : Char} (hf : isDigit f = false) (he : f ≠ 'e')
    (hE : f ≠ 'E') (hd : f ≠ '.') : acceptsNumber (cs ++ [f]) = false := by
  obtain ⟨ds, hds⟩ := dropWhile_snoc cs hf
  unfold acceptsNumber
  rw [hds]
  split
  · rename_i rest e
    cases ds with
    | nil => injection e with e1 _; exact absurd e1 hd
    | cons d ds =>
      injection e with _ e2
      subst e2
      obtain ⟨xs, hxs⟩ := dropWhile_snoc ds hf
      have hxs' : (ds.append [f]).dropWhile isDigit = xs ++ [f] := hxs
      simp only [hxs', acceptsExponent_suffix xs hf he hE, Bool.and_false]
  · simp only [acceptsExponent_suffix ds hf he hE, Bool.and_false]

end Zs
