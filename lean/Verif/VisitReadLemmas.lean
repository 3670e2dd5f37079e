import Verif.VisitLemmas

/-!
# Lemmas: what the visitor writes is what is read
-/

namespace Zs

open Ast Spec

variable {fl : FloatText}

/-- What `f` writes, `r` reads as `s`. -/
def WrittenReads {α β γ : Type} (f : α → Res β) (r : β → Option γ) (s : α → γ) : Prop :=
  ∀ a x, f a = .ok x → r x = some (s a)

theorem reads_list {α β γ : Type} {f : α → Res β} {r : β → Option γ} {s : α → γ} (h : WrittenReads f r s) :
    WrittenReads (visitList f) (readList r) (List.map s) := by
  intro as
  induction as with
  | nil => intro x hx; simp only [visitList, Res.ok.injEq] at hx; subst hx; rfl
  | cons a as ih =>
    intro x hx
    simp only [visitList, Res.bind_eq_ok, Res.ok.injEq] at hx
    obtain ⟨b, hb, bs, hbs, rfl⟩ := hx
    simp [readList, h a b hb, ih bs hbs]

theorem reads_option {α β γ : Type} {f : α → Res β} {r : β → Option γ} {s : α → γ} (h : WrittenReads f r s) :
    WrittenReads (visitOption f) (readOption r) (Option.map s) := by
  intro a x hx
  cases a <;> simp only [visitOption, Res.bind_eq_ok, Res.ok.injEq] at hx
  · subst hx; rfl
  · obtain ⟨b, hb, rfl⟩ := hx
    simp [readOption, h _ b hb]

theorem readOption_none {α β : Type} (f : α → Option β) : readOption f none = some none := rfl

theorem readOption_some {α β : Type} (f : α → Option β) (a : α) :
    readOption f (some a) = (f a).bind fun b => some (some b) := rfl

theorem reads_exp : WrittenReads (visitExp fl) readExp id := readExp_visit

theorem qualified_split (first : String) (rest : List String) (args : List Src.Ty) :
    qualified (first :: rest).dropLast ((first :: rest).getLast (by simp)) args = .named first rest args := by
  cases rest with
  | nil => rfl
  | cons b bs =>
    simp only [List.dropLast_cons_cons, qualified]
    rw [List.getLast_cons (by simp), List.dropLast_concat_getLast]

mutual
theorem visitTy_reads {F : Type} : ∀ (t : Src.Ty) (x : TypeRef F), visitTy t = .ok x → readTy x = some (tySays t)
  | .builtin n, x, h => by
    simp only [visitTy, Res.ok.injEq] at h; subst h; simp [readTy, tySays]
  | .fixedBits s b, x, h => by
    simp only [visitTy] at h
    split at h <;> simp at h
    subst h
    by_cases hb : b = 0 <;> cases s <;> simp [readTy, tySays, hb]
  | .named f r as, x, h => by
    simp only [visitTy, Res.bind_eq_ok, Res.ok.injEq] at h
    obtain ⟨ts, hts, rfl⟩ := h
    simp [readTy, tySays, visitTys_reads as ts hts, qualified_split]
theorem visitTys_reads {F : Type} : ∀ (ts : List Src.Ty) (xs : List (TypeRef F)),
    visitTy.visitTys ts = .ok xs → readTy.readTys xs = some (tySays.tysSay ts)
  | [], xs, h => by simp only [visitTy.visitTys, Res.ok.injEq] at h; subst h; simp [readTy.readTys, tySays.tysSay]
  | t :: ts, xs, h => by
    simp only [visitTy.visitTys, Res.bind_eq_ok, Res.ok.injEq] at h
    obtain ⟨y, hy, ys, hys, rfl⟩ := h
    simp [readTy.readTys, tySays.tysSay, visitTy_reads t y hy, visitTys_reads ts ys hys]
end

theorem reads_ty {F : Type} : WrittenReads (visitTy (F := F)) readTy tySays := visitTy_reads

theorem reads_arg : WrittenReads (visitArg fl) (fun n => do return .expr (← readExp n)) argSays := by
  intro a x h
  cases a with
  | explicit n => simp only [visitArg, Res.ok.injEq] at h; subst h; simp [readExp, argSays]
  | expr e => simp only [visitArg] at h; simp [readExp_visit _ _ h, argSays]

theorem readTy_args {F : Type} (b : Bool) (p : List String) (n : String) (w : Nat) (ts : List (TypeRef F))
    (as bs : List (Node F)) (l m : Option (Node F)) :
    readTy (.mk b p n w ts as l) = readTy (.mk b p n w ts bs m) := by
  cases b <;> cases p <;> cases ts <;> cases w <;> rfl

theorem reads_inst : WrittenReads (visitInst fl) readInst instSays := by
  intro a x h
  obtain ⟨t, as⟩ := a
  simp only [visitInst, Res.bind_eq_ok] at h
  obtain ⟨⟨a1, a2, a3, a4, a5, a6, a7⟩, h1, hx⟩ := h
  have hr := reads_ty _ _ h1
  obtain ⟨rfl, rfl⟩ : a6 = [] ∧ a7 = none := visitTy_bare _ _ h1
  cases as with
  | none =>
    simp only [Res.ok.injEq] at hx
    subst hx
    simp [readInst, hr, readArgs, instSays, argsSay]
  | args f r =>
    simp only [Res.bind_eq_ok, Res.ok.injEq, visitList] at hx
    obtain ⟨_, ⟨y, hy, ys, hys, rfl⟩, rfl⟩ := hx
    rw [readTy_args _ _ _ _ _ _ (y :: ys) _ none] at hr
    have e1 := reads_arg _ _ hy
    have e2 := reads_list reads_arg _ _ hys
    simp only [Option.pure_def, Option.bind_eq_bind, Option.bind_eq_some_iff, Option.some.injEq] at e1
    obtain ⟨e, he, e1⟩ := e1
    simp only [Option.pure_def, Option.bind_eq_bind] at e2
    simp [readInst, hr, readArgs, instSays, argsSay, he, e1, e2]
  | length e =>
    simp only [Res.bind_eq_ok, Res.ok.injEq] at hx
    obtain ⟨l, hl, rfl⟩ := hx
    rw [readTy_args _ _ _ _ _ _ [] _ (some l)] at hr
    simp [readInst, hr, readArgs, instSays, argsSay, readExp_visit _ _ hl]

theorem reads_align {e : Option Src.Exp} {n : Option Nat} (h : visitOption (visitAlignment fl) e = .ok n) :
    n.getD 0 = alignSays e := by
  cases e <;> simp only [visitOption, Res.bind_eq_ok, Res.ok.injEq] at h
  · subst h; rfl
  · obtain ⟨m, hm, rfl⟩ := h
    exact visitAlignment_value hm

theorem reads_typeId {f : Src.FieldTypeId} {x : Field fl.F} (h : visitFieldTypeId fl f = .ok x) :
    x.name = f.name ∧ readInst x.type = some (instSays f.type) ∧
    readOption readArray x.array = some (arraySays f) ∧
    x.optional = false ∧ x.alignment = 0 ∧ x.offset = none ∧ x.initializer = none ∧ x.clause = none ∧
    x.constraint = none := by
  simp only [visitFieldTypeId, Res.bind_eq_ok, Res.ok.injEq] at h
  obtain ⟨t, ht, r, hr, rfl⟩ := h
  refine ⟨rfl, reads_inst _ _ ht, ?_, rfl, rfl, rfl, rfl, rfl, rfl⟩
  cases ha : f.array <;> rw [ha] at hr <;> simp only [visitOption, Res.bind_eq_ok, Res.ok.injEq] at hr
  · subst hr; simp [readOption, arraySays, ha]
  · obtain ⟨_, ⟨l, hl, rfl⟩, rfl⟩ := hr
    have := reads_option reads_exp _ _ hl
    simp only [Option.map_id_fun, id_eq] at this
    simp [readOption_some, readArray, arraySays, ha, this]

theorem reads_structField : WrittenReads (visitStructField fl) readField
    (fun f => (structFieldSays f).withoutExtend) := by
  intro f x h
  simp only [visitStructField, Res.bind_eq_ok, Res.ok.injEq] at h
  obtain ⟨y, h1, a, h2, o, h3, i, h4, c, h5, k, h6, rfl⟩ := h
  obtain ⟨e1, e2, e3, -⟩ := reads_typeId h1
  have r3 := reads_option reads_exp _ _ h3
  have r4 := reads_option reads_exp _ _ h4
  have r5 := reads_option reads_exp _ _ h5
  have r6 := reads_option reads_exp _ _ h6
  simp only [Option.map_id_fun, id_eq] at r3 r4 r5 r6
  simp [readField, e1, e2, e3, r3, r4, r5, r6, reads_align h2, structFieldSays, FieldSays.withoutExtend]

theorem reads_choiceField : WrittenReads (visitChoiceField fl) readField
    (fun f => (choiceFieldSays f).withoutConstraint) := by
  intro f x h
  obtain ⟨e1, e2, e3, e4, e5, e6, e7, e8, e9⟩ := reads_typeId h
  simp [readField, e1, e2, e3, e4, e5, e6, e7, e8, e9, readOption_none, choiceFieldSays,
    FieldSays.withoutConstraint]

theorem reads_param {F : Type} : WrittenReads (visitParam (F := F)) readParam paramSays := by
  intro p x h
  simp only [visitParam, Res.bind_eq_ok, Res.ok.injEq] at h
  obtain ⟨t, ht, rfl⟩ := h
  simp [readParam, reads_ty _ _ ht, paramSays]

theorem reads_alias {F : Type} : WrittenReads (visitAlias (F := F)) readAlias aliasSays := by
  intro p x h
  simp only [visitAlias, Res.bind_eq_ok, Res.ok.injEq] at h
  obtain ⟨t, ht, rfl⟩ := h
  simp [readAlias, reads_ty _ _ ht, aliasSays]

theorem reads_func : WrittenReads (visitFunc fl) readFunc funcSays := by
  intro p x h
  simp only [visitFunc, Res.bind_eq_ok, Res.ok.injEq] at h
  obtain ⟨e, he, t, ht, rfl⟩ := h
  simp [readFunc, reads_ty _ _ ht, readExp_visit _ _ he, funcSays]

theorem reads_struct : WrittenReads (visitStruct fl) readStruct (fun s => (structSays s).withoutExtend) := by
  intro s x h
  simp only [visitStruct, Res.bind_eq_ok, Res.ok.injEq] at h
  obtain ⟨ps, h1, fs, h2, gs, h3, rfl⟩ := h
  simp [readStruct, reads_list reads_param _ _ h1, reads_list reads_structField _ _ h2,
    reads_list reads_func _ _ h3, structSays, RecordSays.withoutExtend]

theorem reads_union : WrittenReads (visitUnion fl) readUnion (fun s => (unionSays s).withoutConstraints) := by
  intro s x h
  simp only [visitUnion, Res.bind_eq_ok, Res.ok.injEq] at h
  obtain ⟨ps, h1, fs, h2, gs, h3, rfl⟩ := h
  simp [readUnion, reads_list reads_param _ _ h1, reads_list reads_choiceField _ _ h2,
    reads_list reads_func _ _ h3, unionSays, RecordSays.withoutConstraints]

theorem reads_case : WrittenReads (visitCases fl) readCase (fun c => (caseSays c).withoutConstraint) := by
  intro s x h
  simp only [visitCases, Res.bind_eq_ok, Res.ok.injEq] at h
  obtain ⟨ls, h1, f, h2, rfl⟩ := h
  have r1 := reads_list reads_exp _ _ h1
  simp only [List.map_id_fun, id_eq] at r1
  simp only [readCase, r1, reads_option reads_choiceField _ _ h2, caseSays, CaseSays.withoutConstraint]
  simp [Function.comp_def]

theorem reads_choice : WrittenReads (visitChoice fl) readChoice (fun c => (choiceSays c).withoutDefault) := by
  intro s x h
  simp only [visitChoice, Res.bind_eq_ok, Res.ok.injEq] at h
  obtain ⟨e, h0, ps, h1, cs, h2, gs, h3, rfl⟩ := h
  simp [readChoice, reads_list reads_param _ _ h1, reads_list reads_case _ _ h2, readExp_visit _ _ h0,
    reads_list reads_func _ _ h3, choiceSays, ChoiceSays.withoutDefault, readOption]

theorem reads_item : WrittenReads (visitItem fl) readItem (fun i => ({ i with mark := .none } : Src.Item)) := by
  intro s x h
  simp only [visitItem, Res.bind_eq_ok, Res.ok.injEq] at h
  obtain ⟨e, he, rfl⟩ := h
  have r := reads_option reads_exp _ _ he
  simp only [Option.map_id_fun, id_eq] at r
  simp [readItem, r]

theorem reads_enum : WrittenReads (visitEnum fl) readEnum (fun e => (enumSays e).withoutMarks) := by
  intro s x h
  simp only [visitEnum, Res.bind_eq_ok, Res.ok.injEq] at h
  obtain ⟨t, ht, is, his, rfl⟩ := h
  simp [readEnum, reads_inst _ _ ht, reads_list reads_item _ _ his, enumSays, EnumSays.withoutMarks]

theorem reads_bitmaskValue : WrittenReads (visitBitmaskValue fl)
    (fun v => do return (v.name, ← readOption readExp v.value)) id := by
  intro s x h
  simp only [visitBitmaskValue, Res.bind_eq_ok, Res.ok.injEq] at h
  obtain ⟨e, he, rfl⟩ := h
  have r := reads_option reads_exp _ _ he
  simp only [Option.map_id_fun, id_eq] at r
  simp [r]

theorem reads_bitmask : WrittenReads (visitBitmask fl) readBitmask bitmaskSays := by
  intro s x h
  simp only [visitBitmask, Res.bind_eq_ok, Res.ok.injEq] at h
  obtain ⟨t, ht, is, his, rfl⟩ := h
  have r := reads_list reads_bitmaskValue _ _ his
  simp only [List.map_id_fun, id_eq] at r
  simp only [readBitmask, reads_inst _ _ ht, r, bitmaskSays]
  rfl

theorem reads_const : WrittenReads (visitConst fl) readConst constSays := by
  intro s x h
  simp only [visitConst, Res.bind_eq_ok, Res.ok.injEq] at h
  obtain ⟨t, ht, e, he, rfl⟩ := h
  simp [readConst, reads_inst _ _ ht, readExp_visit _ _ he, constSays]

end Zs
