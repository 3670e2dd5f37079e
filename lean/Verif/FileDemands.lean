import Verif.FileShape
import Verif.PropsLexer

/-!
# Lemmas: the literals of a file stand in its text
-/

namespace Zs.Src

open Spec

/-- The literal of the demand is one of the tokens. -/
def Stood (ts : List Token) : Demand → Prop
  | .literal k x => .lit k x ∈ ts
  | .align (.lit k x) => .lit k x ∈ ts
  | _ => True

theorem Stood.mono {a b : List Token} {d : Demand} (h : Stood a d) (hab : ∀ t ∈ a, t ∈ b) : Stood b d := by
  unfold Stood at h ⊢
  split
  · exact hab _ h
  · exact hab _ h
  · trivial

theorem Stood.lexed {ts : List Token} {d : Demand} (h : Stood ts d) (hl : ∀ k x, Token.lit k x ∈ ts → Lexed k x) : d.Lexed := by
  unfold Stood at h
  unfold Demand.Lexed
  split at h
  · exact hl _ _ h
  · exact hl _ _ h
  · next h1 h2 =>
    split
    · exact absurd rfl (h1 _ _)
    · trivial
    · exact absurd rfl (h2 _ _)
    · trivial

/-- All demands stand in the text. -/
def AllStood (ds : List Demand) (ts : List Token) : Prop := ∀ d ∈ ds, Stood ts d

theorem AllStood.mono {ds : List Demand} {a b : List Token} (h : AllStood ds a) (hab : ∀ t ∈ a, t ∈ b) : AllStood ds b :=
  fun d hd => (h d hd).mono hab

theorem allStood_nil {ts : List Token} : AllStood [] ts := nofun

theorem AllStood.append {a b : List Demand} {ts : List Token} (ha : AllStood a ts) (hb : AllStood b ts) :
    AllStood (a ++ b) ts := fun d hd => (List.mem_append.1 hd).elim (ha d) (hb d)

theorem AllStood.flatMap {α : Type} {l : List α} {f : α → List Demand} {ts : List Token}
    (h : ∀ x ∈ l, AllStood (f x) ts) : AllStood (l.flatMap f) ts := by
  intro d hd
  obtain ⟨x, hx, hd⟩ := List.mem_flatMap.1 hd
  exact h x hx d hd

theorem mem_separated {x : List Token} {xs : List (List Token)} (hx : x ∈ xs) : ∀ t ∈ x, t ∈ separated xs := by
  induction xs with
  | nil => cases hx
  | cons y ys ih =>
    intro t ht
    by_cases hy : ys = []
    · subst hy
      simp only [List.mem_singleton] at hx
      subst hx
      exact ht
    · rw [separated_cons _ hy]
      rcases List.mem_cons.1 hx with rfl | hx
      · simp [ht]
      · simp [ih hx t ht]

theorem exp_stood (e : Exp) : AllStood (expDemands e) (written e) := by
  induction e with
  | lit k x => intro d hd; cases List.mem_singleton.1 hd; simp [Stood, written]
  | index => exact allStood_nil
  | id x => exact allStood_nil
  | paren e ih | call e ih | dot e x ih | lengthof e ih | valueof e ih | numbits e ih | unary op e ih =>
    exact ih.mono (by simp +contextual [written])
  | elem a b iha ihb | isset a b iha ihb | binary op a b iha ihb =>
    exact (iha.mono (by simp +contextual [written])).append (ihb.mono (by simp +contextual [written]))
  | ternary a b c iha ihb ihc =>
    exact ((iha.mono (by simp +contextual [written])).append (ihb.mono (by simp +contextual [written]))).append
      (ihc.mono (by simp +contextual [written]))

theorem ty_stood (t : Ty) (ts : List Token) : AllStood (tyDemands t) ts := by
  have key : ∀ t : Ty, ∀ d ∈ tyDemands t, ∃ n, d = .width n := by
    intro t
    refine Ty.rec (motive_1 := fun t => ∀ d ∈ tyDemands t, ∃ n, d = .width n)
      (motive_2 := fun l => ∀ d ∈ tyDemands.tysDemands l, ∃ n, d = .width n) ?_ ?_ ?_ ?_ ?_ t
    · intro w d hd; simp [tyDemands] at hd
    · intro s n d hd; simp only [tyDemands, List.mem_singleton] at hd; exact ⟨n, hd⟩
    · intro x xs as ih d hd; exact ih d (by simpa [tyDemands] using hd)
    · intro d hd; simp [tyDemands.tysDemands] at hd
    · intro t ts ih1 ih2 d hd
      simp only [tyDemands.tysDemands, List.mem_append] at hd
      exact hd.elim (ih1 d) (ih2 d)
  intro d hd
  obtain ⟨n, rfl⟩ := key t d hd
  trivial

theorem behind_stood (t : Token) (e : Option Exp) : AllStood (optDemands expDemands e) (writtenBehind t e) := by
  cases e with
  | none => exact allStood_nil
  | some e => exact (exp_stood e).mono (by simp +contextual [writtenBehind])

theorem inst_stood (i : Inst) : AllStood (instDemands i) (writtenInst i) := by
  obtain ⟨t, a⟩ := i
  refine (ty_stood _ _).append ?_
  cases a with
  | none => exact allStood_nil
  | args a as =>
    refine AllStood.flatMap fun b hb => ?_
    have h : AllStood (argDemands b) (writtenArg b) := by
      cases b with
      | explicit x => exact allStood_nil
      | expr e => exact exp_stood e
    refine h.mono fun t ht => ?_
    have := mem_separated (x := writtenArg b) (xs := writtenArg a :: as.map writtenArg)
      (by simpa using (List.mem_map_of_mem hb : writtenArg b ∈ (a :: as).map writtenArg)) t ht
    simp [writtenInst, writtenArgs, this]
  | length e => exact (exp_stood e).mono (by simp +contextual [writtenInst, writtenArgs])

theorem typeId_stood (f : FieldTypeId) : AllStood (fieldTypeDemands f) (writtenTypeId f) := by
  refine ((inst_stood _).mono (by simp +contextual [writtenTypeId])).append ?_
  rcases hf : f.array with _ | _ | e
  · exact allStood_nil
  · exact allStood_nil
  · exact (exp_stood e).mono (by simp +contextual [writtenTypeId, hf, writtenArray])

theorem field_stood (f : StructField) : AllStood (structFieldDemands f) (writtenField f) := by
  refine ((((AllStood.append ?_ ?_).append ?_).append ?_).append ?_).append ?_
  · exact (typeId_stood _).mono (by simp +contextual [writtenField, writtenBody])
  · rcases hf : f.align with _ | e
    · exact allStood_nil
    · intro d hd
      cases List.mem_singleton.1 hd
      have : AllStood (expDemands e) (writtenField f) :=
        (exp_stood e).mono (by simp +contextual [writtenField, writtenAlign, hf])
      cases e with
      | lit k x => exact this (.literal k x) (by simp [expDemands])
      | _ => trivial
  · rcases hf : f.offset with _ | e
    · exact allStood_nil
    · exact (exp_stood e).mono (by simp +contextual [writtenField, writtenOffset, hf])
  · exact (behind_stood (.other "=") _).mono (by simp +contextual [writtenField, writtenBody])
  · exact (behind_stood (.other "if") _).mono (by simp +contextual [writtenField, writtenBody])
  · exact (behind_stood .colon _).mono (by simp +contextual [writtenField, writtenBody])

theorem cases_stood (c : Cases) : AllStood (casesDemands c) (writtenCases c) := by
  refine AllStood.append (AllStood.flatMap fun e he => ?_) ?_
  · refine (exp_stood e).mono fun t ht => ?_
    simp only [writtenCases, List.mem_append, List.mem_flatMap]
    exact .inl ⟨e, he, by simp [ht]⟩
  · rcases hf : c.field with _ | f
    · exact allStood_nil
    · exact (typeId_stood _).mono (by simp +contextual [writtenCases, hf, writtenCaseField, writtenChoiceField])

theorem function_stood (f : Func) : AllStood (funcDemands f) (writtenFunction f) :=
  ((exp_stood _).mono (by simp +contextual [writtenFunction])).append (ty_stood _ _)

theorem mem_flatMap_written {α : Type} {l : List α} {x : α} (hx : x ∈ l) {w : α → List Token} :
    ∀ t ∈ w x, t ∈ l.flatMap w := fun _ ht => List.mem_flatMap.2 ⟨x, hx, ht⟩

theorem functions_stood (fs : List Func) : AllStood (fs.flatMap funcDemands) (writtenEnd fs) :=
  .flatMap fun f hf => (function_stood f).mono fun t ht => by
    simp only [writtenEnd, List.mem_append]
    exact .inl (mem_flatMap_written hf t ht)

theorem directive_stood {d : Directive} {ts : List Token} (h : DirectiveText d ts) :
    AllStood (demands d) ts := by
  have items : ∀ (is : List Item), AllStood (is.flatMap fun i => optDemands expDemands i.value) (separated (is.map writtenItem)) :=
    fun is => .flatMap fun i hi => (behind_stood (.other "=") i.value).mono fun t ht =>
      mem_separated (List.mem_map_of_mem hi) t (by simp [writtenItem, ht])
  have values : ∀ (vs : List (String × Option Exp)),
      AllStood (vs.flatMap fun i => optDemands expDemands i.2) (separated (vs.map writtenValue)) :=
    fun vs => .flatMap fun i hi => (behind_stood (.other "=") i.2).mono fun t ht =>
      mem_separated (List.mem_map_of_mem hi) t (by simp [writtenValue, ht])
  cases h with
  | plain _ ho =>
    cases d with
    | const d =>
      exact ((inst_stood _).mono (by simp +contextual [writtenDirective])).append
        ((exp_stood _).mono (by simp +contextual [writtenDirective]))
    | subtype d => exact ty_stood _ _
    | instantiate d => exact ty_stood _ _
    | struct d =>
      refine (AllStood.append (.flatMap fun _ _ => ty_stood _ _) (.flatMap fun f hf => ?_)).append ?_
      · exact ((field_stood f).mono (mem_flatMap_written hf)).mono (by
          simp only [writtenDirective, List.mem_append]
          intro t ht; exact .inl (.inr ht))
      · exact (functions_stood _).mono (by simp +contextual [writtenDirective])
    | union d =>
      refine (AllStood.append (.flatMap fun _ _ => ty_stood _ _) (.flatMap fun f hf => ?_)).append ?_
      · exact ((typeId_stood f.typeId).mono (b := writtenChoiceField f)
          (by simp +contextual [writtenChoiceField])).mono (fun t ht => by
          simp only [writtenDirective, List.mem_append]
          exact .inl (.inr (mem_flatMap_written hf t ht)))
      · exact (functions_stood _).mono (by simp +contextual [writtenDirective])
    | choice d =>
      refine ((AllStood.append ?_ (.flatMap fun _ _ => ty_stood _ _)).append (.flatMap fun c hc => ?_)).append ?_
      · exact (exp_stood _).mono (by simp +contextual [writtenDirective])
      · exact (cases_stood c).mono (fun t ht => by
          simp only [writtenDirective, List.mem_append]
          exact .inl (.inl (.inr (mem_flatMap_written hc t ht))))
      · exact (functions_stood _).mono (by simp +contextual [writtenDirective])
    | enum d =>
      exact ((inst_stood _).mono (by simp +contextual [writtenDirective])).append
        ((items _).mono (by simp +contextual [writtenDirective]))
    | bitmask d =>
      exact ((inst_stood _).mono (by simp +contextual [writtenDirective])).append
        ((values _).mono (by simp +contextual [writtenDirective]))
    | other o => exact absurd rfl (ho o)
  | enum d =>
    exact ((inst_stood _).mono (by simp +contextual)).append ((items _).mono (by simp +contextual))
  | bitmask d =>
    exact ((inst_stood _).mono (by simp +contextual)).append ((values _).mono (by simp +contextual))

theorem directives_stood {ds : List Directive} {ts : List Token} (h : DirectivesText ds ts) : AllStood (ds.flatMap demands) ts := by
  induction h with
  | nil => exact allStood_nil
  | cons hd _ ih =>
    rw [List.flatMap_cons]
    exact ((directive_stood hd).mono (by simp +contextual)).append
      (ih.mono (by simp +contextual))

theorem file_stood {p : Package} {ts : List Token} (h : FileText p ts) :
    AllStood (p.directives.flatMap demands) ts := by
  obtain ⟨us, hus, rfl⟩ := h
  exact (directives_stood hus).mono (by simp +contextual)

/-! ## Decimal numbers -/

theorem digitChar_false {d : Nat} (h : d < 10) : Spec.digitChar false d = Nat.digitChar d ∧ (Nat.digitChar d).toNat - 48 = d := by
  have : ∀ d : Fin 10, Spec.digitChar false d.1 = Nat.digitChar d.1 ∧ (Nat.digitChar d.1).toNat - 48 = d.1 := by decide
  exact this ⟨d, h⟩

theorem decimal_digits (ds : List Nat) (h : ds ≠ []) (hd : ∀ d ∈ ds, d < 10) (hz : ds.head? = some 0 → ds = [0]) :
    Nat.toDigits 10 (decimalNumber (ds.map (Spec.digitChar false))) = ds.map (Spec.digitChar false) ∧
      (ds ≠ [0] → 0 < decimalNumber (ds.map (Spec.digitChar false))) := by
  induction hn : ds.length generalizing ds with
  | zero => exact absurd (List.eq_nil_of_length_eq_zero hn) h
  | succ n ih =>
    obtain ⟨l, d, rfl⟩ : ∃ l d, ds = l ++ [d] := ⟨ds.dropLast, ds.getLast h, (List.dropLast_concat_getLast h).symm⟩
    have hd10 : d < 10 := hd d (by simp)
    obtain ⟨e1, e2⟩ := digitChar_false hd10
    cases l with
    | nil =>
      simp only [List.nil_append, List.map_cons, List.map_nil, decimalNumber, List.foldl_cons, List.foldl_nil, e1, e2,
        Nat.mul_zero, Nat.zero_add]
      refine ⟨Nat.toDigits_of_lt_base hd10, ?_⟩
      intro hne
      rcases Nat.eq_zero_or_pos d with rfl | h
      · exact absurd rfl hne
      · exact h
    | cons c l =>
      have hc : c ≠ 0 := by
        rintro rfl
        have := hz (by simp)
        simp at this
      have hi := ih (c :: l) (by simp) (fun x hx => hd x (List.mem_append.2 (.inl hx))) (by simp [hc]) (by simpa using hn)
      have hpos := hi.2 (by simp [hc])
      have hstep : decimalNumber (((c :: l) ++ [d]).map (Spec.digitChar false)) =
          10 * decimalNumber ((c :: l).map (Spec.digitChar false)) + d := by
        simp only [decimalNumber, List.map_append, List.foldl_append, List.map_cons, List.map_nil, List.foldl_cons,
          List.foldl_nil, e1, e2]
      rw [hstep, ← Nat.toDigits_append_toDigits (by omega) hpos hd10, hi.1, Nat.toDigits_of_lt_base hd10, List.map_append]
      exact ⟨by simp [e1], fun _ => by omega⟩

theorem canon_of_lexed {ts : List Token} (h : ∀ x, Token.lit .decimal x ∈ ts → Lexed .decimal x) : Canon ts := by
  intro x hx
  obtain ⟨l, hw, hk, rfl⟩ := h x hx
  cases l with
  | decimal ds => exact (decimal_digits ds hw.1 hw.2.1 hw.2.2).1
  | _ => cases hk

end Zs.Src
