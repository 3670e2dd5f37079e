import Verif.FileLemmas

/-!
# Lemmas: arguments and fields
-/

namespace Zs.Src

open Spec

/-! ## Arguments -/

theorem typeArgument_expr {ts : List Token} (h : ∀ us, ts ≠ .other "explicit" :: us) :
    typeArgument ts = (parseExpression ts).map fun r => (.expr r.1, r.2) := by
  unfold typeArgument
  split
  · exact absurd rfl (h _)
  · rfl

theorem written_not_other (e : Exp) (rest : List Token) (w : String) (us : List Token) : written e ++ rest ≠ .other w :: us := by
  obtain ⟨t, vs, h, _, _, h1⟩ := written_start e
  rw [h]
  intro h2
  simp only [List.cons_append, List.cons.injEq] at h2
  exact h1 w h2.1

theorem typeArgument_written (a : Arg) (ha : ArgOk a) (rest : List Token) (hr : NoOperator rest) :
    typeArgument (writtenArg a ++ rest) = some (a, rest) := by
  cases a with
  | explicit x => rfl
  | expr e =>
    rw [writtenArg, typeArgument_expr (written_not_other e rest _), C79_reads e ha rest hr]
    rfl

theorem writtenArg_ne (a : Arg) : writtenArg a ≠ [] := by
  cases a with
  | explicit x => simp [writtenArg]
  | expr e => exact written_ne e

/-- No `>` could be the end of a longer expression. -/
def NoGreater (rest : List Token) : Prop := ∀ mid us, rest = mid ++ .gt :: us → scan (.open 0) mid ≠ .open 0

theorem lengthArgument_written (e : Exp) (he : Bracketed e) (rest : List Token) (hr : NoGreater rest) :
    lengthArgument (written e ++ .gt :: rest) = some (e, rest) := by
  have hl : (written e ++ .gt :: rest).length = (written e).length + (rest.length + 1) := by simp
  unfold lengthArgument
  rw [List.findSome?_eq_some_iff]
  refine ⟨((List.range rest.length).map fun i => (written e).length + 1 + i).reverse, (written e).length,
    (List.range (written e).length).reverse, ?_, ?_, ?_⟩
  · rw [hl, show (written e).length + (rest.length + 1) = ((written e).length + 1) + rest.length by omega,
      List.range_add, List.range_succ, List.reverse_append, List.reverse_append]
    rfl
  · have hp := C79_reads e he [] trivial
    rw [List.append_nil] at hp
    rw [List.drop_left, List.take_left]
    simp [hp]
  · intro j hj
    simp only [List.mem_reverse, List.mem_map, List.mem_range] at hj
    obtain ⟨i, hi, rfl⟩ := hj
    split
    · next us hd =>
      split
      · next e' hp =>
        exfalso
        obtain ⟨ht, _⟩ := C79_only _ _ _ hp
        rw [List.append_nil] at ht
        have hts := List.take_append_drop ((written e).length + 1 + i) (written e ++ .gt :: rest)
        rw [ht, hd] at hts
        have hlen : (written e').length = (written e).length + 1 + i := by
          rw [← ht, List.length_take, hl]; omega
        rcases List.append_eq_append_iff.1 hts with ⟨x, hx, hy⟩ | ⟨x, hx, hy⟩
        · rw [hx, List.length_append] at hlen; omega
        · cases x with
          | nil => rw [hx, List.length_append, List.length_nil] at hlen; omega
          | cons y mid =>
            simp only [List.cons_append, List.cons.injEq] at hy
            obtain ⟨rfl, hy⟩ := hy
            refine hr mid us hy ?_
            have := scan_written e' 0
            rw [hx, scan_append, scan_written] at this
            exact this
      · rfl
    · rfl

theorem readArgs_args (ts : List Token) : readArgs (.lparen :: ts) =
    (readCommas typeArgument ts.length ts).bind fun r => (matchToken .rparen r.2).bind fun us =>
    match r.1 with
    | a :: as => some (.args a as, us)
    | [] => none := rfl

theorem readArgs_none {t : Token} {ts : List Token} (h1 : t ≠ .lparen) (h2 : t ≠ .lt) :
    readArgs (t :: ts) = some (.none, t :: ts) := by
  unfold readArgs
  split
  · next h => cases h; exact absurd rfl h1
  · next h => cases h; exact absurd rfl h2
  · rfl

theorem typeInstantiation_written (i : Inst) (hi : InstOk true i) (x : String) (rest : List Token) (hr : NoGreater (.id x :: rest)) :
    typeInstantiation (writtenInst i ++ .id x :: rest) = some (i, .id x :: rest) := by
  obtain ⟨t, a⟩ := i
  obtain ⟨ht, ha⟩ := hi
  simp only at ht ha
  unfold typeInstantiation writtenInst
  cases a with
  | none =>
    simp only [writtenArgs, List.append_nil]
    rw [readType_written t ht _ ⟨by simp, by simp, by simp⟩]
    rfl
  | args a as =>
    have e : writtenType t ++ writtenArgs (.args a as) ++ .id x :: rest =
        writtenType t ++ .lparen :: (separated ((a :: as).map writtenArg) ++ .rparen :: .id x :: rest) := by
      simp [writtenArgs]
    simp only [e]
    rw [readType_written t ht _ ⟨by simp, by simp, by simp⟩]
    simp only [Option.bind_some]
    rw [readArgs_args, readCommas_separated typeArgument writtenArg (a :: as) (.rparen :: .id x :: rest) _ (by simp) ?_ (by simp)]
    · rfl
    · intro b hb us hus
      refine typeArgument_written b ?_ us ?_
      · rcases List.mem_cons.1 hb with rfl | hb
        · exact ha.1
        · exact ha.2 b hb
      · rcases hus with rfl | ⟨vs, rfl⟩ <;> trivial
    · have := separated_length_le ((a :: as).map writtenArg) (by
        intro y hy
        obtain ⟨b, _, rfl⟩ := List.mem_map.1 hy
        exact writtenArg_ne b)
      simp only [List.length_map] at this
      simp only [List.length_append]
      omega
  | length e =>
    obtain ⟨he, hw⟩ := ha
    obtain ⟨w, rfl⟩ := hw trivial
    have e : writtenType (.builtin w) ++ writtenArgs (.length e) ++ .id x :: rest =
        writtenType (.builtin w) ++ .lt :: (written e ++ .gt :: .id x :: rest) := by
      simp [writtenArgs]
    simp only [e]
    rw [readType_written _ ht _ ⟨by simp, by simp, by simp⟩]
    simp only [Option.bind_some, readArgs]
    rw [lengthArgument_written _ he _ hr]
    rfl

theorem Closed.args (a : Args) : Closed (writtenArgs a) := by
  cases a with
  | none => exact .nil
  | args a as =>
    have key : ∀ b, Closed (writtenArg b) := by
      intro b
      cases b with
      | explicit x => exact .other _ _
      | expr e => exact .written e
    refine Closed.brackets (a := Zs.Spec.separated (writtenArg a :: as.map writtenArg)) (Closed.separated ?_)
    intro x hx
    simp only [List.mem_cons, List.mem_map] at hx
    rcases hx with rfl | ⟨b, _, rfl⟩ <;> exact key _
  | length e =>
    exact Closed.append (Closed.append (a := [.lt]) (fun _ => .inl rfl) (Closed.written e)) (b := [.gt]) fun _ => .inl rfl

/-! ## The name and what is behind -/

theorem Closed.array (a : Option (Option Exp)) : Closed (writtenArray a) := by
  match a with
  | none => exact .nil
  | some none => exact fun _ => .inl rfl
  | some (some e) => exact Closed.squares (.written e)

theorem noGreater_name (x : String) (a : Option (Option Exp)) (t : Token) (rest : List Token)
    (ht : t = .colon ∨ ∃ w, t = .other w) : NoGreater (.id x :: (writtenArray a ++ t :: rest)) := by
  intro mid us h hs
  cases mid with
  | nil => cases h
  | cons y m =>
    simp only [List.cons_append, List.cons.injEq] at h
    obtain ⟨rfl, h⟩ := h
    simp only [scan, scanToken] at hs
    rcases List.append_eq_append_iff.1 h with ⟨z, hz, hy⟩ | ⟨z, hz, hy⟩
    · -- `m = array ++ z`
      cases z with
      | nil =>
        simp only [List.nil_append, List.cons.injEq] at hy
        rcases ht with rfl | ⟨w, rfl⟩ <;> cases hy.1
      | cons u z =>
        simp only [List.cons_append, List.cons.injEq] at hy
        obtain ⟨rfl, _⟩ := hy
        rw [hz, scan_append] at hs
        rcases Closed.array a 0 with h2 | h2
        · rw [h2] at hs
          rcases ht with rfl | ⟨w, rfl⟩ <;> simp [scan, scanToken, scan_under, scan_blocked] at hs
        · rw [h2, scan_blocked] at hs; cases hs
    · cases z with
      | nil =>
        simp only [List.nil_append, List.cons.injEq] at hy
        rcases ht with rfl | ⟨w, rfl⟩ <;> cases hy.1
      | cons u z =>
        simp only [List.cons_append, List.cons.injEq] at hy
        obtain ⟨rfl, _⟩ := hy
        match a with
        | none => simp [writtenArray] at hz
        | some none =>
          simp only [writtenArray] at hz
          match m with
          | [] => simp at hz
          | [_] => simp at hz
          | [_, _] => simp at hz
          | _ :: _ :: _ :: _ => simp at hz
        | some (some e) =>
          simp only [writtenArray] at hz
          cases m with
          | nil => simp at hz
          | cons v m =>
            simp only [List.cons_append, List.nil_append, List.cons.injEq] at hz
            obtain ⟨rfl, hz⟩ := hz
            simp only [scan, scanToken] at hs
            rcases List.append_eq_append_iff.1 hz with ⟨s, hs1, hs2⟩ | ⟨s, hs1, hs2⟩
            · cases s with
              | nil => simp at hs2
              | cons c s => 
                cases s with
                | nil => simp at hs2
                | cons d s => simp at hs2
            · have h0 := scan_written e 0
              rw [hs1, scan_append] at h0
              cases hm : scan (.open 0) m with
              | «open» k =>
                have := scan_shift m 0 k hm 1
                rw [Nat.zero_add, hs] at this
                cases this
              | under => rw [hm, scan_under] at h0; cases h0
              | blocked => rw [hm, scan_blocked] at h0; cases h0

theorem fieldArrayRange_written (a : Option (Option Exp)) (ha : ∀ e, a = some (some e) → Bracketed e) (rest : List Token)
    (hr : ∀ us, rest ≠ .lbracket :: us) : fieldArrayRange (writtenArray a ++ rest) = some (a, rest) := by
  match a with
  | none =>
    show fieldArrayRange rest = _
    unfold fieldArrayRange
    split
    · exact absurd rfl (hr _)
    · rfl
  | some none => rfl
  | some (some e) =>
    have e1 : writtenArray (some (some e)) ++ rest = .lbracket :: (written e ++ .rbracket :: rest) := by simp [writtenArray]
    rw [e1]
    unfold fieldArrayRange
    simp only
    obtain ⟨t, us, h, _, h1, _⟩ := written_start e
    split
    · next h2 => rw [h] at h2; cases h2; exact absurd rfl h1
    · rw [C79_reads e (ha e rfl) (.rbracket :: rest) trivial]
      simp

theorem type_not_other {t : Ty} (ht : TypeOk t) {w : String} (hw : w ∉ typeWords) (rest us : List Token) :
    writtenType t ++ rest ≠ .other w :: us := by
  intro h
  rcases writtenType_start t with ⟨x, vs, h1⟩ | ⟨v, vs, h1, h2⟩
  · rw [h1] at h; cases h
  · rw [h1] at h
    simp only [List.cons_append, List.cons.injEq, Token.other.injEq] at h
    exact hw (h.1 ▸ h2 ht)

theorem fieldTypeId_written (f : FieldTypeId) (hf : TypeIdOk true f) (t : Token) (rest : List Token)
    (ht : t = .colon ∨ ∃ w, t = .other w) : fieldTypeId (writtenTypeId f ++ t :: rest) = some (f, t :: rest) := by
  obtain ⟨p, i, ty, x, a⟩ := f
  obtain ⟨h1, h2⟩ := hf
  simp only at h1 h2
  have e : writtenTypeId ⟨p, i, ty, x, a⟩ ++ t :: rest = writtenFlag "packed" p ++ (writtenFlag "implicit" i ++
      (writtenInst ty ++ .id x :: (writtenArray a ++ t :: rest))) := by simp [writtenTypeId]
  have g1 : ∀ us, writtenInst ty ++ .id x :: (writtenArray a ++ t :: rest) ≠ .other "implicit" :: us := by
    intro us; rw [writtenInst, List.append_assoc]; exact type_not_other h1.1 (by decide) _ _
  have g2 : ∀ us, writtenFlag "implicit" i ++ (writtenInst ty ++ .id x :: (writtenArray a ++ t :: rest)) ≠ .other "packed" :: us := by
    intro us
    cases i with
    | true => simp [writtenFlag]
    | false => 
      simp only [writtenFlag, Bool.false_eq_true, if_false, List.nil_append]
      rw [writtenInst, List.append_assoc]; exact type_not_other h1.1 (by decide) _ _
  rw [e]
  unfold fieldTypeId
  rw [readFlag_written "packed" p _ g2, readFlag_written "implicit" i _ g1]
  simp only
  rw [typeInstantiation_written ty h1 x _ (noGreater_name x a t rest ht)]
  simp only [Option.bind_some, readId]
  rw [fieldArrayRange_written a h2 _ (by rintro us ⟨⟩; rcases ht with h | ⟨w, h⟩ <;> cases h)]
  rfl

end Zs.Src
