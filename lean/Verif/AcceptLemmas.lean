import Verif.AcceptSpec
import Verif.VisitSpec
import Verif.Visitor

/-!
# Lemmas for C62
-/

namespace Zs

open Spec Ast

variable {fl : FloatText}

/-- `r` is a success if all demands are met, a panic otherwise. -/
def Decided {β : Type} (ds : List Demand) (r : Res β) : Prop :=
  (∀ d ∈ ds, d.Lexed) → ((∃ b, r = .ok b) ∧ ∀ d ∈ ds, d.Met) ∨ (r = .panic ∧ ∃ d ∈ ds, ¬d.Met)

theorem decided_ok {β : Type} (b : β) : Decided [] (.ok b) := fun _ => .inl ⟨⟨b, rfl⟩, by simp⟩

theorem decided_bind {β γ : Type} {ds es : List Demand} {r : Res β} {k : β → Res γ} (h : Decided ds r)
    (hk : ∀ b, Decided es (k b)) : Decided (ds ++ es) (r >>= k) := by
  intro hl
  rcases h (fun d hd => hl d (by simp [hd])) with ⟨⟨b, rfl⟩, hm⟩ | ⟨rfl, d, hd, hn⟩
  · rcases hk b (fun d hd => hl d (by simp [hd])) with ⟨⟨c, hc⟩, hm'⟩ | ⟨hc, d, hd, hn⟩
    · refine .inl ⟨⟨c, by simpa using hc⟩, ?_⟩
      intro d hd
      rcases List.mem_append.1 hd with hd | hd
      · exact hm d hd
      · exact hm' d hd
    · exact .inr ⟨by simpa using hc, d, by simp [hd], hn⟩
  · exact .inr ⟨rfl, d, by simp [hd], hn⟩

theorem decided_map {β γ : Type} {ds : List Demand} {r : Res β} (f : β → γ) (h : Decided ds r) :
    Decided ds (r >>= fun b => .ok (f b)) := by
  have := decided_bind h (fun b => decided_ok (f b))
  simpa using this

theorem decided_list {α β : Type} {f : α → Res β} {g : α → List Demand} (h : ∀ a, Decided (g a) (f a)) (l : List α) :
    Decided (l.flatMap g) (visitList f l) := by
  induction l with
  | nil => exact decided_ok _
  | cons a l ih =>
    simp only [List.flatMap_cons, visitList]
    exact decided_bind (h a) fun b => decided_map _ ih

theorem decided_option {α β : Type} {f : α → Res β} {g : α → List Demand} (h : ∀ a, Decided (g a) (f a))
    (o : Option α) : Decided (optDemands g o) (visitOption f o) := by
  cases o with
  | none => exact decided_ok _
  | some a => exact decided_map _ (h a)

/-- Two literals of the same kind and text are both understood or not. -/
theorem understood_congr {l k : IntLit} (hl : l.WellFormed) (hk : k.WellFormed) (h1 : l.kind = k.kind)
    (h2 : l.text = k.text) : l.Understood ↔ k.Understood := by
  have e1 := integer_value noFloat l hl
  have e2 := integer_value noFloat k hk
  rw [h1, h2, e2] at e1
  by_cases a : l.Understood <;> by_cases b : k.Understood <;> simp_all

theorem decided_integer {l : IntLit} (hl : l.WellFormed) :
    (∃ v, literalValue fl l.kind l.text = .ok v) ∧ l.Understood ∨
      literalValue fl l.kind l.text = .panic ∧ ¬l.Understood := by
  rw [integer_value fl l hl]
  by_cases h : l.Understood
  · exact .inl ⟨⟨_, if_pos h⟩, h⟩
  · exact .inr ⟨if_neg h, h⟩

theorem decided_literal (kind : LitKind) (text : List Char) :
    Decided [.literal kind text] (literalValue fl kind text) := by
  intro hl
  have hl := hl _ (List.mem_singleton.2 rfl)
  simp only [List.mem_singleton, forall_eq, exists_eq_left]
  have integer : (∃ l : IntLit, l.WellFormed ∧ l.kind = kind ∧ l.text = text) →
      (∃ v, literalValue fl kind text = .ok v) ∧
        (∃ l : IntLit, l.WellFormed ∧ l.kind = kind ∧ l.text = text ∧ l.Understood) ∨
      literalValue fl kind text = .panic ∧
        ¬∃ l : IntLit, l.WellFormed ∧ l.kind = kind ∧ l.text = text ∧ l.Understood := by
    rintro ⟨l, hw, rfl, rfl⟩
    rcases decided_integer (fl := fl) hw with ⟨h, hu⟩ | ⟨h, hu⟩
    · exact .inl ⟨h, l, hw, rfl, rfl, hu⟩
    · refine .inr ⟨h, ?_⟩
      rintro ⟨k, hk, h1, h2, hu'⟩
      exact hu ((understood_congr hk hw h1 h2).1 hu')
  cases kind with
  | bool => rcases hl with rfl | rfl <;> exact .inl ⟨⟨_, rfl⟩, trivial⟩
  | decimal => exact integer hl
  | hexadecimal => exact integer hl
  | octal => exact integer hl
  | binary => exact integer hl
  | string =>
    obtain ⟨es, _, rfl⟩ := hl
    have : ¬ (strText es).length < 2 := by simp [strText]
    exact .inl ⟨⟨_, by simp only [literalValue, if_neg this]; rfl⟩, trivial⟩
  | double =>
    obtain ⟨l, hw, rfl⟩ := hl
    exact .inl ⟨⟨_, (C52_float_literal_partial fl l hw).1⟩, trivial⟩
  | float =>
    obtain ⟨l, f, hw, hf, rfl⟩ := hl
    refine .inr ⟨?_, fun h => h⟩
    have h := C52_float_suffix fl l f hf
    unfold compileLiteral at h
    cases hv : literalValue fl .float (l.text ++ [f]) with
    | ok v =>
      simp only [literalValue] at hv
      split at hv
      · cases hv
        rename_i x hx
        simp only [literalValue, hx, Res.ok_bind, literalText] at h
        cases h
      · cases hv
    | err e =>
      simp only [literalValue] at hv
      split at hv <;> cases hv
    | panic => rfl

theorem decided_exp (e : Src.Exp) : Decided (expDemands e) (visitExp fl e) := by
  induction e with
  | paren e ih => exact decided_map _ ih
  | call e ih => exact decided_map _ ih
  | elem a b iha ihb => exact decided_bind iha fun _ => decided_map _ ihb
  | dot e _ ih => exact decided_map _ ih
  | isset a b iha ihb => exact decided_bind iha fun _ => decided_map _ ihb
  | lengthof e ih => exact decided_map _ ih
  | valueof e ih => exact decided_map _ ih
  | numbits e ih => exact decided_map _ ih
  | unary _ e ih => exact decided_map _ ih
  | binary _ a b iha ihb => exact decided_bind iha fun _ => decided_map _ ihb
  | ternary a b c iha ihb ihc =>
    simp only [expDemands, List.append_assoc]
    exact decided_bind iha fun _ => decided_bind ihb fun _ => decided_map _ ihc
  | lit kind text => exact decided_map _ (decided_literal kind text)
  | index => exact decided_ok _
  | id _ => exact decided_ok _

mutual
theorem decided_ty {F : Type} : ∀ t : Src.Ty, Decided (tyDemands t) (visitTy t : Res (Ast.TypeRef F))
  | .builtin _ => decided_ok _
  | .fixedBits s bits => by
    intro _
    simp only [tyDemands, visitTy, List.mem_singleton, forall_eq, exists_eq_left]
    by_cases h : bits < 256
    · exact .inl ⟨⟨_, if_pos h⟩, h⟩
    · exact .inr ⟨if_neg h, h⟩
  | .named _ _ args => by
    simp only [tyDemands, visitTy]
    exact decided_map _ (decided_tys args)
theorem decided_tys {F : Type} : ∀ ts : List Src.Ty,
    Decided (tyDemands.tysDemands ts) (visitTy.visitTys ts : Res (List (Ast.TypeRef F)))
  | [] => decided_ok _
  | t :: ts => by
    simp only [tyDemands.tysDemands, visitTy.visitTys]
    exact decided_bind (decided_ty t) fun _ => decided_map _ (decided_tys ts)
end

theorem decided_arg (a : Src.Arg) : Decided (argDemands a) (visitArg fl a) := by
  cases a with
  | explicit _ => exact decided_ok _
  | expr e => exact decided_exp e

theorem decided_inst (t : Src.Inst) : Decided (instDemands t) (visitInst fl t) := by
  unfold instDemands visitInst
  refine decided_bind (decided_ty t.type) ?_
  rintro ⟨b, p, n, w, ts, as, l⟩
  cases t.args with
  | none => exact decided_ok _
  | args first rest => exact decided_map _ (decided_list decided_arg _)
  | length e => exact decided_map _ (decided_exp e)

/-- `expression_type` of a node. -/
def nodeToken {F : Type} : Node F → Tok
  | .mk token _ _ _ _ _ _ => token

theorem literalValue_total (kind : LitKind) (text : List Char) :
    (∃ v, literalValue fl kind text = .ok v) ∨ literalValue fl kind text = .panic := by
  cases kind <;> simp only [literalValue] <;> repeat' split
  all_goals first | exact .inl ⟨_, rfl⟩ | exact .inr rfl

theorem total_bind {β γ : Type} {r : Res β} {k : β → Res γ} (h : (∃ b, r = .ok b) ∨ r = .panic)
    (hk : ∀ b, (∃ c, k b = .ok c) ∨ k b = .panic) : (∃ c, (r >>= k) = .ok c) ∨ (r >>= k) = .panic := by
  rcases h with ⟨b, rfl⟩ | rfl
  · simpa using hk b
  · exact .inr rfl

theorem visitExp_total (e : Src.Exp) : (∃ n, visitExp fl e = .ok n) ∨ visitExp fl e = .panic := by
  induction e with
  | lit kind text => exact total_bind (literalValue_total kind text) fun _ => .inl ⟨_, rfl⟩
  | index => exact .inl ⟨_, rfl⟩
  | id _ => exact .inl ⟨_, rfl⟩
  | elem a b iha ihb => exact total_bind iha fun _ => total_bind ihb fun _ => .inl ⟨_, rfl⟩
  | isset a b iha ihb => exact total_bind iha fun _ => total_bind ihb fun _ => .inl ⟨_, rfl⟩
  | binary _ a b iha ihb => exact total_bind iha fun _ => total_bind ihb fun _ => .inl ⟨_, rfl⟩
  | ternary a b c iha ihb ihc =>
    exact total_bind iha fun _ => total_bind ihb fun _ => total_bind ihc fun _ => .inl ⟨_, rfl⟩
  | paren e ih => exact total_bind ih fun _ => .inl ⟨_, rfl⟩
  | call e ih => exact total_bind ih fun _ => .inl ⟨_, rfl⟩
  | dot e _ ih => exact total_bind ih fun _ => .inl ⟨_, rfl⟩
  | lengthof e ih => exact total_bind ih fun _ => .inl ⟨_, rfl⟩
  | valueof e ih => exact total_bind ih fun _ => .inl ⟨_, rfl⟩
  | numbits e ih => exact total_bind ih fun _ => .inl ⟨_, rfl⟩
  | unary _ e ih => exact total_bind ih fun _ => .inl ⟨_, rfl⟩

theorem nodeToken_literal {e : Src.Exp} {n : Node fl.F} (h : visitExp fl e = .ok n)
    (ht : nodeToken n = .literal .decimal) : ∃ text, e = .lit .decimal text := by
  cases e with
  | lit kind text =>
    simp only [visitExp, Res.bind_eq_ok, Res.ok.injEq] at h
    obtain ⟨_, _, rfl⟩ := h
    simp only [nodeToken, Tok.literal.injEq] at ht
    exact ⟨text, by rw [ht]⟩
  | binary op a b =>
    simp only [visitExp, Res.bind_eq_ok, Res.ok.injEq] at h
    obtain ⟨_, _, _, _, rfl⟩ := h
    cases op <;> cases ht
  | unary op a =>
    simp only [visitExp, Res.bind_eq_ok, Res.ok.injEq] at h
    obtain ⟨_, _, rfl⟩ := h
    cases op <;> cases ht
  | _ =>
    simp only [visitExp, Res.bind_eq_ok, Res.ok.injEq] at h
    first
      | (obtain ⟨_, _, _, _, _, _, rfl⟩ := h; cases ht)
      | (obtain ⟨_, _, _, _, rfl⟩ := h; cases ht)
      | (obtain ⟨_, _, rfl⟩ := h; cases ht)
      | (subst h; cases ht)

/-- `parse::<u8>` of a decimal literal. -/
theorem parseU8_decimal {l : IntLit} (hw : l.WellFormed) (hk : l.kind = .decimal) :
    parseU8 l.text = if l.value < 256 then some l.value else none := by
  cases l with
  | decimal ds =>
    have h := parseI32_lower (r := 10) (by omega) (by omega) ds hw.1 hw.2.1
    have hm : ((IntLit.decimal ds).text).head? ≠ some '-' := by
      obtain ⟨d, ds', rfl⟩ := List.exists_cons_of_ne_nil hw.1
      have hd := digitChar_ne d (by have := hw.2.1 d (by simp); omega) false
      simp only [IntLit.text, List.map_cons, List.head?_cons, ne_eq, Option.some.injEq]
      first | exact hd.1 | exact hd.2.1
    show parseU8 (IntLit.decimal ds).text = if digitsValue 10 ds < 256 then some (digitsValue 10 ds) else none
    simp only [parseU8, if_neg hm]
    simp only [IntLit.text, h]
    by_cases h1 : digitsValue 10 ds < 2 ^ 31
    · simp only [if_pos h1, Option.bind_some]
      by_cases h2 : digitsValue 10 ds < 256
      · rw [if_pos h2, if_pos ⟨by omega, by omega⟩]; simp
      · rw [if_neg h2, if_neg (by omega)]
    · rw [if_neg h1, if_neg (by omega)]; rfl
  | octal ds => cases hk
  | hexadecimal u ds => cases hk
  | binary u ds => cases hk

/-- An alignment that is not a decimal literal. -/
theorem visitAlignment_other {e : Src.Exp} (hd : ¬∃ text, e = .lit .decimal text) :
    visitAlignment fl e = .panic := by
  rcases visitExp_total (fl := fl) e with ⟨n, hn⟩ | hn
  · have ht : nodeToken n ≠ .literal .decimal := fun ht => hd (nodeToken_literal hn ht)
    cases n with
    | mk token text _ _ _ _ _ =>
      simp only [nodeToken] at ht
      simp [visitAlignment, hn, ht]
  · simp only [visitAlignment, hn]
    rfl

theorem decided_align (e : Src.Exp) : Decided [.align e] (visitAlignment fl e) := by
  intro hl
  have hl := hl _ (List.mem_singleton.2 rfl)
  simp only [List.mem_singleton, forall_eq, exists_eq_left]
  by_cases hd : ∃ text, e = .lit .decimal text
  · obtain ⟨text, rfl⟩ := hd
    obtain ⟨l, hw, hk, rfl⟩ := hl
    have hp := parseU8_decimal hw hk
    have hv := integer_value fl l hw
    rw [hk] at hv
    have hu : l.Understood ↔ l.value < 2 ^ 31 := by cases l <;> simp_all [IntLit.Understood, IntLit.kind]
    by_cases h256 : l.value < 256
    · refine .inl ⟨⟨l.value, ?_⟩, l, hw, hk, rfl, h256⟩
      rw [if_pos (hu.2 (by omega))] at hv
      simp [visitAlignment, visitExp, hv, hp, h256]
    · refine .inr ⟨?_, ?_⟩
      · by_cases h31 : l.value < 2 ^ 31
        · rw [if_pos (hu.2 h31)] at hv
          simp [visitAlignment, visitExp, hv, hp, h256]
        · rw [if_neg (fun h => h31 (hu.1 h))] at hv
          simp only [visitAlignment, visitExp, hv]
          rfl
      · rintro ⟨k, hkw, hkk, he, hkv⟩
        simp only [Src.Exp.lit.injEq, true_and] at he
        have h1 := parseU8_decimal hkw hkk
        rw [← he, hp, if_neg h256, if_pos hkv] at h1
        cases h1
  · refine .inr ⟨visitAlignment_other hd, ?_⟩
    · rintro ⟨l, _, _, rfl, _⟩
      exact hd ⟨_, rfl⟩

theorem decided_fieldType (f : Src.FieldTypeId) : Decided (fieldTypeDemands f) (visitFieldTypeId fl f) := by
  unfold fieldTypeDemands visitFieldTypeId
  refine decided_bind (decided_inst f.type) fun _ => decided_map _ ?_
  exact decided_option (fun length => decided_map _ (decided_option decided_exp length)) f.array

theorem decided_structField (f : Src.StructField) : Decided (structFieldDemands f) (visitStructField fl f) := by
  unfold structFieldDemands visitStructField
  simp only [List.append_assoc]
  refine decided_bind (decided_fieldType f.typeId) fun _ => decided_bind (decided_option decided_align f.align) fun _ =>
    decided_bind (decided_option decided_exp f.offset) fun _ =>
    decided_bind (decided_option decided_exp f.initializer) fun _ =>
    decided_bind (decided_option decided_exp f.clause) fun _ =>
    decided_map _ (decided_option decided_exp f.constraint)

theorem decided_param {F : Type} (p : Src.Param) : Decided (tyDemands p.type) (visitParam p : Res (Ast.Param F)) :=
  decided_map _ (decided_ty p.type)

theorem decided_func (f : Src.Func) : Decided (funcDemands f) (visitFunc fl f) :=
  decided_bind (decided_exp f.body) fun _ => decided_map _ (decided_ty f.type)

theorem decided_choiceField (f : Src.ChoiceField) :
    Decided (fieldTypeDemands f.typeId) (visitChoiceField fl f) := decided_fieldType f.typeId

theorem decided_cases (c : Src.Cases) : Decided (casesDemands c) (visitCases fl c) :=
  decided_bind (decided_list decided_exp c.labels) fun _ => decided_map _ (decided_option decided_choiceField c.field)

theorem decided_directive (p : Ast.Package fl.F) (d : Src.Directive) : Decided (demands d) (addDirective fl p d) := by
  cases d with
  | const c =>
    refine decided_map _ ?_
    exact decided_bind (decided_inst c.type) fun _ => decided_map _ (decided_exp c.value)
  | subtype a => exact decided_map _ (decided_map _ (decided_ty a.type))
  | instantiate a => exact decided_map _ (decided_map _ (decided_ty a.type))
  | struct s =>
    refine decided_map _ ?_
    simp only [List.append_assoc, demands]
    exact decided_bind (decided_list decided_param s.params) fun _ =>
      decided_bind (decided_list decided_structField s.fields) fun _ => decided_map _ (decided_list decided_func _)
  | choice c =>
    refine decided_map _ ?_
    simp only [List.append_assoc, demands]
    exact decided_bind (decided_exp c.selector) fun _ => decided_bind (decided_list decided_param c.params) fun _ =>
      decided_bind (decided_list decided_cases c.cases) fun _ => decided_map _ (decided_list decided_func _)
  | union u =>
    refine decided_map _ ?_
    simp only [List.append_assoc, demands]
    exact decided_bind (decided_list decided_param u.params) fun _ =>
      decided_bind (decided_list decided_choiceField u.fields) fun _ => decided_map _ (decided_list decided_func _)
  | enum e =>
    refine decided_map _ ?_
    exact decided_bind (decided_inst e.type) fun _ =>
      decided_map _ (decided_list (fun i : Src.Item => decided_map _ (decided_option decided_exp i.value)) _)
  | bitmask b =>
    refine decided_map _ ?_
    exact decided_bind (decided_inst b.type) fun _ =>
      decided_map _ (decided_list (fun i : String × Option Src.Exp => decided_map _ (decided_option decided_exp i.2)) _)
  | other o =>
    have h : Decided (demands (.other o)) (visitOther fl o) :=
      decided_bind (decided_list decided_inst o.types) fun _ => decided_map _ (decided_list decided_exp o.exprs)
    exact decided_map (fun _ => p) h

theorem decided_directives (ds : List Src.Directive) (p : Ast.Package fl.F) :
    Decided (ds.flatMap demands) (addDirectives fl p ds) := by
  induction ds generalizing p with
  | nil => exact decided_ok _
  | cons d ds ih => exact decided_bind (decided_directive p d) fun q => ih q

end Zs
