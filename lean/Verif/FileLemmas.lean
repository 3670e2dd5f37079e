import Verif.FileSpec
import Verif.PropsParser

/-!
# Lemmas about the parser of files
-/

namespace Zs.Src

open Spec

/-! ## Small readers -/

theorem moreIds_dotted (xs : List String) (rest : List Token) (h : ∀ x us, rest ≠ .dot :: .id x :: us) :
    moreIds (dotted xs ++ rest) = (xs, rest) := by
  induction xs with
  | nil =>
    show moreIds rest = _
    unfold moreIds
    split
    · exact absurd rfl (h _ _)
    · rfl
  | cons x xs ih =>
    show moreIds (.dot :: .id x :: (dotted xs ++ rest)) = _
    simp only [moreIds, ih]

theorem readFlag_written (w : String) (b : Bool) (rest : List Token) (h : ∀ us, rest ≠ .other w :: us) :
    readFlag w (writtenFlag w b ++ rest) = (b, rest) := by
  cases b with
  | true => simp [writtenFlag, readFlag]
  | false =>
    simp only [writtenFlag, Bool.false_eq_true, if_false, List.nil_append]
    cases rest with
    | nil => rfl
    | cons t ts =>
      cases t with
      | other v =>
        have : v ≠ w := fun hv => h ts (by rw [hv])
        simp [readFlag, this]
      | _ => rfl

theorem separated_cons (x : List Token) {r : List (List Token)} (h : r ≠ []) :
    separated (x :: r) = x ++ .comma :: separated r := by
  cases r with
  | nil => exact absurd rfl h
  | cons y r => simp [separated]

theorem readCommas_separated {α : Type} (p : Reader α) (w : α → List Token) (xs : List α) (rest : List Token) (n : Nat)
    (hne : xs ≠ []) (hn : xs.length ≤ n) (hc : ∀ us, rest ≠ .comma :: us)
    (hp : ∀ x ∈ xs, ∀ us, (us = rest ∨ ∃ vs, us = .comma :: vs) → p (w x ++ us) = some (x, us)) :
    readCommas p n (separated (xs.map w) ++ rest) = some (xs, rest) := by
  induction xs generalizing n with
  | nil => exact absurd rfl hne
  | cons x xs ih =>
    cases n with
    | zero => simp at hn
    | succ n =>
      by_cases hx : xs = []
      · subst hx
        simp only [List.map_cons, List.map_nil, separated, readCommas,
          hp x (by simp) rest (.inl rfl), Option.bind_some]
      · rw [List.map_cons, separated_cons _ (by simpa using hx), List.append_assoc, List.cons_append, readCommas,
          hp x (by simp) _ (.inr ⟨_, rfl⟩)]
        simp only [Option.bind_some]
        rw [ih n hx (by simp at hn; omega) fun y hy => hp y (by simp [hy])]
        rfl

theorem readMany_written {α : Type} (stop : Token → Bool) (p : Reader α) (w : α → List Token) (xs : List α)
    (rest : List Token) (n : Nat) (hn : xs.length ≤ n)
    (hr : ∀ t us, rest = t :: us → stop t = true)
    (hw : ∀ x ∈ xs, ∃ t us, w x = t :: us ∧ stop t = false)
    (hp : ∀ x ∈ xs, ∀ us, p (w x ++ us) = some (x, us)) :
    readMany stop p n (xs.flatMap w ++ rest) = some (xs, rest) := by
  induction xs generalizing n with
  | nil =>
    simp only [List.flatMap_nil, List.nil_append]
    cases n with
    | zero => rfl
    | succ n =>
      cases rest with
      | nil => rfl
      | cons t us => simp [readMany, hr t us rfl]
  | cons x xs ih =>
    cases n with
    | zero => simp at hn
    | succ n =>
      obtain ⟨t, us, hx, ht⟩ := hw x (by simp)
      have h1 := hp x (by simp) (xs.flatMap w ++ rest)
      rw [List.flatMap_cons, List.append_assoc, hx, List.cons_append, readMany]
      rw [hx, List.cons_append] at h1
      simp only [ht, Bool.false_eq_true, if_false, h1, Option.bind_some]
      rw [ih n (by simp at hn; omega) (fun y hy => hw y (by simp [hy])) fun y hy => hp y (by simp [hy])]
      rfl

theorem flatMap_length_le {α : Type} (w : α → List Token) (xs : List α) (rest : List Token)
    (hw : ∀ x ∈ xs, w x ≠ []) : xs.length ≤ (xs.flatMap w ++ rest).length := by
  induction xs with
  | nil => simp
  | cons x xs ih =>
    have h1 := ih fun y hy => hw y (by simp [hy])
    have h2 := List.length_pos_iff.2 (hw x (by simp))
    simp only [List.flatMap_cons, List.append_assoc, List.length_append, List.length_cons] at h1 ⊢
    omega

theorem separated_length_le (xs : List (List Token)) (h : ∀ x ∈ xs, x ≠ []) : xs.length ≤ (separated xs).length := by
  induction xs with
  | nil => simp
  | cons x xs ih =>
    have h1 := ih fun y hy => h y (by simp [hy])
    have h2 := List.length_pos_iff.2 (h x (by simp))
    by_cases hx : xs = []
    · subst hx; simp only [separated, List.length_cons, List.length_nil]; omega
    · rw [separated_cons _ hx]; simp only [List.length_append, List.length_cons]; omega

/-! ## Expressions -/

theorem written_ne (e : Exp) : written e ≠ [] := by
  induction e with
  | binary op a b ha _ => cases op <;> simp [written, binarySigns]
  | _ => simp [written]

/-- The first token of an expression. -/
theorem written_start (e : Exp) : ∃ t us, written e = t :: us ∧ t ≠ .rparen ∧ t ≠ .rbracket ∧ ∀ w, t ≠ .other w := by
  have key : ∀ (a : Exp) (l : List Token),
      (∃ t us, written a = t :: us ∧ t ≠ .rparen ∧ t ≠ .rbracket ∧ ∀ w, t ≠ .other w) →
      ∃ t us, written a ++ l = t :: us ∧ t ≠ .rparen ∧ t ≠ .rbracket ∧ ∀ w, t ≠ .other w := by
    rintro a l ⟨t, us, h, h1⟩
    exact ⟨t, us ++ l, by rw [h]; rfl, h1⟩
  induction e with
  | call e ih => exact key _ _ ih
  | elem e i ih _ => simpa [written] using key e _ ih
  | dot e x ih => exact key _ _ ih
  | binary op a b ih _ => simpa [written] using key a _ ih
  | ternary c a b ih _ _ => simpa [written] using key c _ ih
  | unary op e _ => cases op <;> exact ⟨_, _, rfl, by simp [unarySign]⟩
  | _ => exact ⟨_, _, rfl, by simp⟩

theorem expressionBehind_written (t : Token) (e : Option Exp) (rest : List Token) (he : OptionOk e) (hr : NoOperator rest)
    (ht : ∀ us, rest ≠ t :: us) : expressionBehind t (writtenBehind t e ++ rest) = some (e, rest) := by
  cases e with
  | none =>
    simp only [writtenBehind, List.nil_append]
    cases rest with
    | nil => rfl
    | cons u us =>
      have : u ≠ t := fun h => ht us (by rw [h])
      simp [expressionBehind, this]
  | some e =>
    simp only [writtenBehind, List.cons_append, List.nil_append, expressionBehind, if_true]
    rw [C79_reads e (he e rfl) rest hr]
    rfl

/-! ## Open brackets -/

/-- How many brackets are open. -/
inductive Scan where
  | open (n : Nat)
  /-- a bracket was closed that was not open -/
  | under
  /-- a token that is not in expressions -/
  | blocked

/-- One token; `?` is closed by `:`. -/
def scanToken : Nat → Token → Scan
  | n, .lparen | n, .lbracket | n, .question => .open (n + 1)
  | n, .rparen | n, .rbracket | n, .colon => match n with
    | 0 => .under
    | n + 1 => .open n
  | _, .other _ => .blocked
  | n, _ => .open n

/-- Several tokens. -/
def scan : Scan → List Token → Scan
  | s, [] => s
  | .open n, t :: ts => scan (scanToken n t) ts
  | s, _ :: _ => s

theorem scan_under (ts : List Token) : scan .under ts = .under := by cases ts <;> rfl

theorem scan_blocked (ts : List Token) : scan .blocked ts = .blocked := by cases ts <;> rfl

theorem scan_append (s : Scan) (a b : List Token) : scan s (a ++ b) = scan (scan s a) b := by
  induction a generalizing s with
  | nil => rfl
  | cons t ts ih =>
    cases s with
    | «open» n => exact ih _
    | under => simp [scan, scan_under]
    | blocked => simp [scan, scan_blocked]

theorem scan_written (e : Exp) (n : Nat) : scan (.open n) (written e) = .open n := by
  induction e generalizing n with
  | unary op e ih => cases op <;> simp [written, ih, scan, scanToken, unarySign]
  | binary op a b iha ihb => cases op <;> simp [written, scan_append, iha, ihb, scan, scanToken, binarySigns]
  | _ => simp_all [written, scan_append, scan, scanToken]

/-- Every bracket is closed, or there is a token that is not in expressions. -/
def Closed (l : List Token) : Prop := ∀ n, scan (.open n) l = .open n ∨ scan (.open n) l = .blocked

theorem Closed.append {a b : List Token} (ha : Closed a) (hb : Closed b) : Closed (a ++ b) := by
  intro n
  rw [scan_append]
  rcases ha n with h | h
  · rw [h]; exact hb n
  · rw [h, scan_blocked]; exact .inr rfl

theorem Closed.nil : Closed [] := fun _ => .inl rfl

theorem Closed.written (e : Exp) : Closed (written e) := fun n => .inl (scan_written e n)

theorem Closed.other (w : String) (l : List Token) : Closed (.other w :: l) := fun n => .inr (by
  simp [scan, scanToken, scan_blocked])

theorem Closed.brackets {a : List Token} (ha : Closed a) : Closed (.lparen :: a ++ [.rparen]) := by
  intro n
  simp only [List.cons_append, scan, scanToken, scan_append]
  rcases ha (n + 1) with h | h <;> rw [h]
  · exact .inl rfl
  · exact .inr rfl

theorem Closed.squares {a : List Token} (ha : Closed a) : Closed (.lbracket :: a ++ [.rbracket]) := by
  intro n
  simp only [List.cons_append, scan, scanToken, scan_append]
  rcases ha (n + 1) with h | h <;> rw [h]
  · exact .inl rfl
  · exact .inr rfl

theorem Closed.separated {l : List (List Token)} (h : ∀ x ∈ l, Closed x) : Closed (separated l) := by
  induction l with
  | nil => exact .nil
  | cons x l ih =>
    have h1 := ih fun y hy => h y (by simp [hy])
    by_cases hl : l = []
    · subst hl; exact h x (by simp)
    · rw [separated_cons _ hl]
      exact (h x (by simp)).append (Closed.append (a := [.comma]) (fun n => .inl rfl) h1)

theorem scan_shift (l : List Token) (n k : Nat) (h : scan (.open n) l = .open k) (m : Nat) :
    scan (.open (n + m)) l = .open (k + m) := by
  induction l generalizing n with
  | nil => cases h; rfl
  | cons t ts ih =>
    have step : ∀ j, scanToken n t = .open j → scanToken (n + m) t = .open (j + m) := by
      intro j hj
      cases t <;> simp only [scanToken, Scan.open.injEq, reduceCtorEq] at hj ⊢ <;> first
        | omega
        | (cases n with
          | zero => simp at hj
          | succ n =>
            simp only [Scan.open.injEq] at hj
            subst hj
            rw [show n + 1 + m = (n + m) + 1 by omega])
    simp only [scan] at h ⊢
    cases ht : scanToken n t with
    | «open» j => rw [ht] at h; rw [step j ht]; exact ih j h
    | under => rw [ht, scan_under] at h; cases h
    | blocked => rw [ht, scan_blocked] at h; cases h

/-- The first colon or `;` behind closed brackets is where an expression ends. -/
theorem colon_behind {o : Exp} {us N us' : List Token} {t : Token} (hN : Closed N) (ht : t = .colon ∨ ∃ w, t = .other w)
    (h : written o ++ .colon :: us = N ++ t :: us') : written o = N ∧ t = .colon ∧ us = us' := by
  rcases List.append_eq_append_iff.1 h with ⟨x, hx, hy⟩ | ⟨x, hx, hy⟩
  · cases x with
    | nil =>
      simp only [List.nil_append, List.append_nil, List.cons.injEq] at hx hy
      exact ⟨hx.symm, hy.1.symm, hy.2⟩
    | cons y x =>
      simp only [List.cons_append, List.cons.injEq] at hy
      obtain ⟨rfl, _⟩ := hy
      have := hN 0
      rw [hx, scan_append, scan_written] at this
      simp [scan, scanToken, scan_under] at this
  · cases x with
    | nil =>
      simp only [List.nil_append, List.append_nil, List.cons.injEq] at hx hy
      exact ⟨hx, hy.1, hy.2.symm⟩
    | cons y x =>
      simp only [List.cons_append, List.cons.injEq] at hy
      obtain ⟨rfl, _⟩ := hy
      have h1 := scan_written o 0
      rw [hx, scan_append] at h1
      rcases hN 0 with h2 | h2
      · rw [h2] at h1
        rcases ht with rfl | ⟨w, rfl⟩ <;> simp [scan, scanToken, scan_under, scan_blocked] at h1
      · rw [h2, scan_blocked] at h1; cases h1

/-! ## Types -/

theorem separated_types_length (t : Ty) (ts : List Ty) :
    (separated (writtenTypes (t :: ts))).length =
      (writtenType t).length + (if ts = [] then 0 else 1 + (separated (writtenTypes ts)).length) := by
  cases ts with
  | nil => simp [writtenTypes, separated]
  | cons u us => simp [writtenTypes, separated]; omega

/-- What may be behind a type. -/
def TypeEnd (t : Ty) (rest : List Token) : Prop :=
  (∀ us, rest ≠ .dot :: us) ∧ (∀ us, rest ≠ .colon :: us) ∧ ∀ x xs, t = .named x xs [] → ∀ us, rest ≠ .lt :: us

theorem decimalNumber_digits (n : Nat) : decimalNumber (Nat.toDigits 10 n) = n := by
  have h := Nat.ofDigitChars_ten_toDigits (n := n)
  exact h

mutual
theorem typeReference_written (t : Ty) (ht : TypeOk t) (n : Nat) (rest : List Token) (hr : TypeEnd t rest)
    (hn : (writtenType t).length ≤ n) : typeReference n (writtenType t ++ rest) = some (t, rest) := by
  match t, n with
  | .builtin w, 0 => simp [writtenType] at hn
  | .builtin w, n + 1 =>
    have hw : w ∈ typeWords := (by decide : ∀ w ∈ builtinNames, w ∈ typeWords) w ht
    simp only [writtenType, List.cons_append, List.nil_append, typeReference, hw, if_true]
    split
    · exact absurd rfl (hr.2.1 _)
    · rfl
  | .fixedBits s b, 0 => simp [writtenType] at hn
  | .fixedBits s b, n + 1 =>
    cases s <;> simp [writtenType, typeReference, typeWords, decimalNumber_digits]
  | .named x xs [], 0 => simp [writtenType] at hn
  | .named x xs [], n + 1 =>
    simp only [writtenType, List.cons_append, List.nil_append, typeReference,
      moreIds_dotted xs rest fun x us => hr.1 _]
    split
    · exact absurd rfl (hr.2.2 _ _ rfl _)
    · rfl
  | .named x xs (a :: as), 0 => simp [writtenType] at hn
  | .named x xs (a :: as), n + 1 =>
    have h1 : writtenType (.named x xs (a :: as)) ++ rest =
        .id x :: (dotted xs ++ .lt :: (separated (writtenTypes (a :: as)) ++ .gt :: rest)) := by simp [writtenType]
    rw [h1]
    simp only [typeReference, moreIds_dotted xs (.lt :: _) (by simp)]
    rw [templateArguments_written a as ht n rest (by
      simp only [writtenType, List.length_append, List.length_cons] at hn; omega)]
theorem templateArguments_written (a : Ty) (as : List Ty) (ht : TypesOk (a :: as)) (n : Nat) (rest : List Token)
    (hn : (separated (writtenTypes (a :: as))).length + 1 ≤ n) :
    templateArguments n (separated (writtenTypes (a :: as)) ++ .gt :: rest) = some (a :: as, rest) := by
  match as, n with
  | _, 0 => simp at hn
  | [], n + 1 =>
    simp only [writtenTypes, separated, templateArguments] at hn ⊢
    rw [typeReference_written a ht.1 n (.gt :: rest) ⟨by simp, by simp, by simp⟩ (by omega)]
    rfl
  | b :: bs, n + 1 =>
    have h1 : separated (writtenTypes (a :: b :: bs)) ++ .gt :: rest =
        writtenType a ++ .comma :: (separated (writtenTypes (b :: bs)) ++ .gt :: rest) := by
      simp [writtenTypes, separated]
    rw [separated_types_length] at hn
    simp only [reduceCtorEq, if_false] at hn
    rw [h1, templateArguments, typeReference_written a ht.1 n _ ⟨by simp, by simp, by simp⟩ (by omega)]
    simp only [Option.bind_some]
    rw [templateArguments_written b bs ht.2 n rest (by omega)]
    rfl
end

theorem readType_written (t : Ty) (ht : TypeOk t) (rest : List Token) (hr : TypeEnd t rest) :
    readType (writtenType t ++ rest) = some (t, rest) :=
  typeReference_written t ht _ rest hr (by simp; omega)

mutual
theorem Closed.type (t : Ty) : Closed (writtenType t) := by
  match t with
  | .builtin w => exact .other _ _
  | .fixedBits s b => exact .other _ _
  | .named x xs [] => exact Closed.append (a := [.id x]) (fun _ => .inl rfl) (Closed.dotted xs)
  | .named x xs (a :: as) =>
    refine Closed.append (Closed.append (Closed.append (Closed.append (a := [.id x]) (fun _ => .inl rfl)
      (Closed.dotted xs)) (b := [.lt]) (fun _ => .inl rfl)) (Closed.separated (Closed.types (a :: as)))) (b := [.gt]) (fun _ => .inl rfl)
theorem Closed.types (ts : List Ty) : ∀ x ∈ writtenTypes ts, Closed x := by
  match ts with
  | [] => intro x hx; cases hx
  | t :: ts =>
    intro x hx
    simp only [writtenTypes, List.mem_cons] at hx
    rcases hx with rfl | hx
    · exact Closed.type t
    · exact Closed.types ts x hx
theorem Closed.dotted (xs : List String) : Closed (dotted xs) := by
  match xs with
  | [] => exact .nil
  | x :: xs => exact Closed.append (a := [.dot, .id x]) (fun _ => .inl rfl) (Closed.dotted xs)
end

theorem writtenType_start (t : Ty) : (∃ x us, writtenType t = .id x :: us) ∨
    ∃ w us, writtenType t = .other w :: us ∧ (TypeOk t → w ∈ typeWords) := by
  match t with
  | .builtin w => exact .inr ⟨w, _, rfl, fun h => (by decide : ∀ w ∈ builtinNames, w ∈ typeWords) w h⟩
  | .fixedBits s b => exact .inr ⟨_, _, rfl, fun _ => by cases s <;> decide⟩
  | .named x xs [] => exact .inl ⟨_, _, rfl⟩
  | .named x xs (a :: as) =>
    exact .inl ⟨x, dotted xs ++ .lt :: (separated (writtenTypes (a :: as)) ++ [.gt]), by simp [writtenType]⟩

end Zs.Src
