import Verif.Symbols
import Verif.VisitRead
import Verif.VisitSpec

/-!
# Lemmas about the visitor
-/

namespace Zs

open Ast Spec

/-- `f` keeps exactly what `s` says. -/
def Reflects {α β γ : Type} (f : α → Res β) (s : α → γ) : Prop :=
  ∀ a b x y, f a = .ok x → f b = .ok y → (x = y ↔ s a = s b)

theorem reflects_list {α β γ : Type} {f : α → Res β} {s : α → γ} (h : Reflects f s) :
    Reflects (visitList f) (List.map s) := by
  intro a
  induction a with
  | nil =>
    intro b x y hx hy
    cases b with
    | nil => simp_all [visitList]
    | cons b bs =>
      simp only [visitList, Res.bind_eq_ok, Res.ok.injEq] at hx hy
      obtain ⟨_, _, _, _, rfl⟩ := hy
      subst hx
      simp
  | cons a as ih =>
    intro b x y hx hy
    simp only [visitList, Res.bind_eq_ok, Res.ok.injEq] at hx
    obtain ⟨x1, h1, xs, h2, rfl⟩ := hx
    cases b with
    | nil =>
      simp only [visitList, Res.ok.injEq] at hy
      subst hy
      simp
    | cons b bs =>
      simp only [visitList, Res.bind_eq_ok, Res.ok.injEq] at hy
      obtain ⟨y1, h3, ys, h4, rfl⟩ := hy
      simp [h _ _ _ _ h1 h3, ih _ _ _ h2 h4]

theorem reflects_option {α β γ : Type} {f : α → Res β} {s : α → γ} (h : Reflects f s) :
    Reflects (visitOption f) (Option.map s) := by
  intro a b x y hx hy
  cases a <;> cases b <;> simp only [visitOption, Res.bind_eq_ok, Res.ok.injEq] at hx hy
  · subst hx hy; simp
  · obtain ⟨_, _, rfl⟩ := hy; subst hx; simp
  · obtain ⟨_, _, rfl⟩ := hx; subst hy; simp
  · obtain ⟨_, h1, rfl⟩ := hx
    obtain ⟨_, h2, rfl⟩ := hy
    simp [h _ _ _ _ h1 h2]

variable {fl : FloatText}

theorem readExp_visit : ∀ (e : Src.Exp) (n : Node fl.F), visitExp fl e = .ok n → readExp n = some e := by
  intro e
  induction e with
  | binary op x y ihx ihy =>
    intro n h
    simp only [visitExp, Res.bind_eq_ok, Res.ok.injEq] at h
    obtain ⟨a, ha, b, hb, rfl⟩ := h
    cases op <;>
      simp [binaryNode, operatorNode, Src.BinOp.token, shiftToken, readExp, tokenBin, ihx _ ha, ihy _ hb]
  | unary op x ihx =>
    intro n h
    simp only [visitExp, Res.bind_eq_ok, Res.ok.injEq] at h
    obtain ⟨a, ha, rfl⟩ := h
    cases op <;> simp [operatorNode, Src.UnOp.token, readExp, tokenUn, ihx _ ha]
  | lit k t =>
    intro n h
    simp only [visitExp, Res.bind_eq_ok, Res.ok.injEq] at h
    obtain ⟨v, _, rfl⟩ := h
    simp [readExp]
  | index => intro n h; simp only [visitExp, Res.ok.injEq] at h; subst h; simp [operatorNode, readExp]
  | id name => intro n h; simp only [visitExp, Res.ok.injEq] at h; subst h; simp [readExp]
  | ternary c x y ih1 ih2 ih3 =>
    intro n h
    simp only [visitExp, Res.bind_eq_ok, Res.ok.injEq] at h
    obtain ⟨a, ha, b, hb, d, hd, rfl⟩ := h
    simp [operatorNode, readExp, ih1 _ ha, ih2 _ hb, ih3 _ hd]
  | elem x y ih1 ih2 =>
    intro n h
    simp only [visitExp, Res.bind_eq_ok, Res.ok.injEq] at h
    obtain ⟨a, ha, b, hb, rfl⟩ := h
    simp [operatorNode, readExp, ih1 _ ha, ih2 _ hb]
  | isset x y ih1 ih2 =>
    intro n h
    simp only [visitExp, Res.bind_eq_ok, Res.ok.injEq] at h
    obtain ⟨a, ha, b, hb, rfl⟩ := h
    simp [operatorNode, readExp, ih1 _ ha, ih2 _ hb]
  | dot x name ih =>
    intro n h
    simp only [visitExp, Res.bind_eq_ok, Res.ok.injEq] at h
    obtain ⟨a, ha, rfl⟩ := h
    simp [operatorNode, readExp, ih _ ha]
  | _ x ih =>
    intro n h
    simp only [visitExp, Res.bind_eq_ok, Res.ok.injEq] at h
    obtain ⟨a, ha, rfl⟩ := h
    simp [operatorNode, readExp, ih _ ha]

theorem reflects_exp : Reflects (visitExp fl) id := by
  intro e e' n n' h h'
  constructor
  · rintro rfl
    have := (readExp_visit e n h).symm.trans (readExp_visit e' n h')
    simpa using this
  · rintro (rfl : e = e')
    rw [h] at h'
    simpa using h'

/-! ## Types -/

theorem dropLast_getLast_inj {a b : String} {as bs : List String}
    (h1 : (a :: as).dropLast = (b :: bs).dropLast)
    (h2 : (a :: as).getLast (by simp) = (b :: bs).getLast (by simp)) : a = b ∧ as = bs := by
  have h := List.dropLast_concat_getLast (l := a :: as) (by simp)
  have h' := List.dropLast_concat_getLast (l := b :: bs) (by simp)
  rw [h1, h2, h'] at h
  simpa [eq_comm] using h

mutual
theorem visitTy_reflects {F : Type} : ∀ (t u : Src.Ty) (x y : TypeRef F), visitTy t = .ok x → visitTy u = .ok y →
    (x = y ↔ tySays t = tySays u)
  | .builtin n, u, x, y, hx, hy => by
    simp only [visitTy, Res.ok.injEq] at hx
    subst hx
    cases u with
    | builtin m => simp only [visitTy, Res.ok.injEq] at hy; subst hy; simp [tySays]
    | fixedBits s b =>
      simp only [visitTy] at hy
      split at hy <;> simp at hy
      subst hy
      simp only [tySays]
      by_cases hb : b = 0 <;> cases s <;> simp_all [eq_comm]
    | named f r a =>
      simp only [visitTy, Res.bind_eq_ok, Res.ok.injEq] at hy
      obtain ⟨_, _, rfl⟩ := hy
      simp [tySays]
  | .fixedBits s n, u, x, y, hx, hy => by
    simp only [visitTy] at hx
    split at hx <;> simp at hx
    subst hx
    cases u with
    | builtin m =>
      simp only [visitTy, Res.ok.injEq] at hy; subst hy
      simp only [tySays]
      by_cases hb : n = 0 <;> cases s <;> simp_all
    | fixedBits s' b =>
      simp only [visitTy] at hy
      split at hy <;> simp at hy
      subst hy
      simp only [tySays]
      by_cases hn : n = 0 <;> by_cases hb : b = 0 <;> cases s <;> cases s' <;> simp_all [eq_comm]
    | named f r a =>
      simp only [visitTy, Res.bind_eq_ok, Res.ok.injEq] at hy
      obtain ⟨_, _, rfl⟩ := hy
      simp only [tySays]
      by_cases hn : n = 0 <;> simp [hn]
  | .named f r a, u, x, y, hx, hy => by
    simp only [visitTy, Res.bind_eq_ok, Res.ok.injEq] at hx
    obtain ⟨xs, hxs, rfl⟩ := hx
    cases u with
    | builtin m => simp only [visitTy, Res.ok.injEq] at hy; subst hy; simp [tySays]
    | fixedBits s b =>
      simp only [visitTy] at hy
      split at hy <;> simp at hy
      subst hy
      simp only [tySays]
      by_cases hb : b = 0 <;> simp [hb]
    | named f' r' a' =>
      simp only [visitTy, Res.bind_eq_ok, Res.ok.injEq] at hy
      obtain ⟨ys, hys, rfl⟩ := hy
      simp only [tySays, TypeRef.mk.injEq, true_and, and_true, Src.Ty.named.injEq,
        visitTys_reflects _ _ _ _ hxs hys]
      constructor
      · rintro ⟨h1, h2, h3⟩
        obtain ⟨rfl, rfl⟩ := dropLast_getLast_inj h1 h2
        exact ⟨rfl, rfl, h3⟩
      · rintro ⟨rfl, rfl, h3⟩
        exact ⟨rfl, rfl, h3⟩
theorem visitTys_reflects {F : Type} : ∀ (t u : List Src.Ty) (x y : List (TypeRef F)),
    visitTy.visitTys t = .ok x → visitTy.visitTys u = .ok y →
    (x = y ↔ tySays.tysSay t = tySays.tysSay u)
  | [], u, x, y, hx, hy => by
    simp only [visitTy.visitTys, Res.ok.injEq] at hx
    subst hx
    cases u with
    | nil => simp only [visitTy.visitTys, Res.ok.injEq] at hy; subst hy; simp
    | cons u us =>
      simp only [visitTy.visitTys, Res.bind_eq_ok, Res.ok.injEq] at hy
      obtain ⟨_, _, _, _, rfl⟩ := hy
      simp [tySays.tysSay]
  | t :: ts, u, x, y, hx, hy => by
    simp only [visitTy.visitTys, Res.bind_eq_ok, Res.ok.injEq] at hx
    obtain ⟨x1, h1, xs, h2, rfl⟩ := hx
    cases u with
    | nil => simp only [visitTy.visitTys, Res.ok.injEq] at hy; subst hy; simp [tySays.tysSay]
    | cons u us =>
      simp only [visitTy.visitTys, Res.bind_eq_ok, Res.ok.injEq] at hy
      obtain ⟨y1, h3, ys, h4, rfl⟩ := hy
      simp [tySays.tysSay, visitTy_reflects _ _ _ _ h1 h3, visitTys_reflects _ _ _ _ h2 h4]
end

theorem reflects_ty {F : Type} : Reflects (visitTy (F := F)) tySays := visitTy_reflects

theorem reflects_arg : Reflects (visitArg fl) argSays := by
  intro a b x y hx hy
  have key : ∀ c : Src.Arg, ∃ e, argSays c = .expr e ∧ visitArg fl c = visitExp fl e := by
    intro c
    cases c with
    | explicit n => exact ⟨.id n, rfl, rfl⟩
    | expr e => exact ⟨e, rfl, rfl⟩
  obtain ⟨e, h1, h2⟩ := key a
  obtain ⟨e', h3, h4⟩ := key b
  rw [h2] at hx
  rw [h4] at hy
  rw [h1, h3, reflects_exp _ _ _ _ hx hy]
  simp

/-- A type reference without arguments. -/
def Ast.TypeRef.bare {F : Type} : TypeRef F → Prop
  | .mk _ _ _ _ _ args length => args = [] ∧ length = none

theorem visitTy_bare {F : Type} (t : Src.Ty) (x : TypeRef F) (h : visitTy t = .ok x) : x.bare := by
  cases t with
  | builtin n => simp only [visitTy, Res.ok.injEq] at h; subst h; simp [TypeRef.bare]
  | fixedBits s b =>
    simp only [visitTy] at h
    split at h <;> simp at h
    subst h; simp [TypeRef.bare]
  | named f r a =>
    simp only [visitTy, Res.bind_eq_ok, Res.ok.injEq] at h
    obtain ⟨_, _, rfl⟩ := h
    simp [TypeRef.bare]

theorem reflects_inst : Reflects (visitInst fl) instSays := by
  intro a b x y hx hy
  obtain ⟨t, as⟩ := a
  obtain ⟨u, bs⟩ := b
  simp only [visitInst, Res.bind_eq_ok] at hx hy
  obtain ⟨⟨a1, a2, a3, a4, a5, a6, a7⟩, h1, hx⟩ := hx
  obtain ⟨⟨b1, b2, b3, b4, b5, b6, b7⟩, h2, hy⟩ := hy
  have hr := reflects_ty _ _ _ _ h1 h2
  obtain ⟨rfl, rfl⟩ : a6 = [] ∧ a7 = none := visitTy_bare _ _ h1
  obtain ⟨rfl, rfl⟩ : b6 = [] ∧ b7 = none := visitTy_bare _ _ h2
  simp only [instSays, Src.Inst.mk.injEq, ← hr]
  have hne : ∀ (first : Src.Arg) (rest : List Src.Arg) (zs : List (Node fl.F)),
      visitList (visitArg fl) (first :: rest) = .ok zs → zs ≠ [] := by
    intro first rest zs h
    simp only [visitList, Res.bind_eq_ok, Res.ok.injEq] at h
    obtain ⟨_, _, _, _, rfl⟩ := h
    simp
  cases as with
  | none =>
    simp only [Res.ok.injEq] at hx
    subst hx
    cases bs with
    | none =>
      simp only [Res.ok.injEq] at hy
      subst hy
      simp
    | args f r =>
      simp only [Res.bind_eq_ok, Res.ok.injEq] at hy
      obtain ⟨ys, hys, rfl⟩ := hy
      have := hne _ _ _ hys
      simp [argsSay, this.symm]
    | length e =>
      simp only [Res.bind_eq_ok, Res.ok.injEq] at hy
      obtain ⟨ys, hys, rfl⟩ := hy
      simp [argsSay]
  | args f r =>
    simp only [Res.bind_eq_ok, Res.ok.injEq] at hx
    obtain ⟨xs, hxs, rfl⟩ := hx
    have hn := hne _ _ _ hxs
    cases bs with
    | none =>
      simp only [Res.ok.injEq] at hy
      subst hy
      simp [argsSay, hn]
    | args f' r' =>
      simp only [Res.bind_eq_ok, Res.ok.injEq] at hy
      obtain ⟨ys, hys, rfl⟩ := hy
      have := reflects_list reflects_arg _ _ _ _ hxs hys
      simp only [List.map_cons, List.cons.injEq] at this
      simp [argsSay, this, and_assoc]
    | length e =>
      simp only [Res.bind_eq_ok, Res.ok.injEq] at hy
      obtain ⟨ys, hys, rfl⟩ := hy
      simp [argsSay]
  | length e =>
    simp only [Res.bind_eq_ok, Res.ok.injEq] at hx
    obtain ⟨xs, hxs, rfl⟩ := hx
    cases bs with
    | none =>
      simp only [Res.ok.injEq] at hy
      subst hy
      simp [argsSay]
    | args f' r' =>
      simp only [Res.bind_eq_ok, Res.ok.injEq] at hy
      obtain ⟨ys, hys, rfl⟩ := hy
      simp [argsSay]
    | length e' =>
      simp only [Res.bind_eq_ok, Res.ok.injEq] at hy
      obtain ⟨ys, hys, rfl⟩ := hy
      have := reflects_exp _ _ _ _ hxs hys
      simp [argsSay, this, and_assoc]

/-! ## Fields -/

theorem toDigit_ten {c : Char} {d : Nat} (h : toDigit 10 c = some d) : d = c.toNat - 48 := by
  simp only [toDigit] at h
  split at h
  · simp at h; omega
  · split at h
    · simp at h; omega
    · split at h
      · simp at h; omega
      · simp at h

theorem parseDigits_ten : ∀ (cs : List Char) (acc : Nat) (n : Int), parseDigits 10 acc cs = some n →
    n = ((cs.map fun c => c.toNat - 48).foldl (fun acc d => 10 * acc + d) acc : Nat)
  | [], acc, n, h => by simp [parseDigits] at h; simp [h]
  | c :: cs, acc, n, h => by
    simp only [parseDigits, Option.bind_eq_some_iff] at h
    obtain ⟨d, hd, h⟩ := h
    split at h
    · simp only [List.map_cons, List.foldl_cons]
      rw [← toDigit_ten hd]
      have e : ((acc : Int) * (10 : Nat) + d) = ((10 * acc + d : Nat) : Int) := by omega
      rw [e] at h
      exact parseDigits_ten cs _ n h
    · simp at h

theorem parseU8_value {cs : List Char} {n : Nat} (h : parseU8 cs = some n) :
    n = digitsValue 10 (cs.map fun c => c.toNat - 48) := by
  simp only [parseU8] at h
  split at h
  · simp at h
  rename_i hm
  simp only [Option.bind_eq_some_iff] at h
  obtain ⟨i, hi, h⟩ := h
  split at h
  · rename_i hr
    simp only [Option.some.injEq] at h
    unfold parseI32 at hi
    split at hi
    · simp at hi
    · simp at hi
    · simp at hi
    · have := parseDigits_ten _ 0 i hi
      simp [digitsValue] at this ⊢
      omega
    · simp at hm
    · have := parseDigits_ten _ 0 i hi
      simp only [digitsValue]
      omega
  · simp at h

theorem visitAlignment_value {e : Src.Exp} {n : Nat} (h : visitAlignment fl e = .ok n) :
    n = alignSays (some e) := by
  simp only [visitAlignment, Res.bind_eq_ok] at h
  obtain ⟨⟨t, text, f, v, r, nt, ops⟩, h1, h2⟩ := h
  dsimp only at h2
  split at h2
  · rename_i ht
    subst ht
    have hu := readExp_visit _ _ h1
    have he : e = .lit .decimal text := by
      match ops, hu with
      | [], hu => simpa [readExp, eq_comm] using hu
      | [_], hu => simp [readExp, tokenUn] at hu
      | [_, _], hu => simp [readExp, tokenBin] at hu
      | _ :: _ :: _ :: _, hu => simp [readExp] at hu
    subst he
    split at h2
    · rename_i m hm
      simp only [Res.ok.injEq] at h2
      subst h2
      exact parseU8_value hm
    · simp at h2
  · simp at h2

theorem reflects_typeId : Reflects (visitFieldTypeId fl)
    (fun f => (f.name, instSays f.type, arraySays f)) := by
  intro a b x y hx hy
  simp only [visitFieldTypeId, Res.bind_eq_ok, Res.ok.injEq] at hx hy
  obtain ⟨t, ht, r, hr, rfl⟩ := hx
  obtain ⟨t', ht', r', hr', rfl⟩ := hy
  have h1 := reflects_inst _ _ _ _ ht ht'
  have h2 : r = r' ↔ arraySays a = arraySays b := by
    obtain ⟨p, i, _, _, ar⟩ := a
    obtain ⟨p', i', _, _, ar'⟩ := b
    cases ar <;> cases ar' <;>
      simp only [visitOption, Res.bind_eq_ok, Res.ok.injEq] at hr hr'
    · subst hr hr'; simp [arraySays]
    · obtain ⟨_, ⟨_, _, rfl⟩, rfl⟩ := hr'; subst hr; simp [arraySays]
    · obtain ⟨_, ⟨_, _, rfl⟩, rfl⟩ := hr; subst hr'; simp [arraySays]
    · obtain ⟨_, ⟨l, hl, rfl⟩, rfl⟩ := hr
      obtain ⟨_, ⟨l', hl', rfl⟩, rfl⟩ := hr'
      have := reflects_option reflects_exp _ _ _ _ hl hl'
      simp only [Option.map_id_fun, id_eq] at this
      simp [arraySays, this]
  simp [h1, h2]

theorem reflects_structField : Reflects (visitStructField fl)
    (fun f => (structFieldSays f).withoutExtend) := by
  intro a b x y hx hy
  simp only [visitStructField, Res.bind_eq_ok, Res.ok.injEq] at hx hy
  obtain ⟨t, ht, al, hal, o, ho, i, hi, c, hc, k, hk, rfl⟩ := hx
  obtain ⟨t', ht', al', hal', o', ho', i', hi', c', hc', k', hk', rfl⟩ := hy
  have h1 := reflects_typeId _ _ _ _ ht ht'
  have h2 := reflects_option reflects_exp _ _ _ _ ho ho'
  have h3 := reflects_option reflects_exp _ _ _ _ hi hi'
  have h4 := reflects_option reflects_exp _ _ _ _ hc hc'
  have h5 := reflects_option reflects_exp _ _ _ _ hk hk'
  have ha : ∀ (e : Option Src.Exp) (r : Option Nat), visitOption (visitAlignment fl) e = .ok r →
      r.getD 0 = alignSays e := by
    intro e r h
    cases e with
    | none => simp only [visitOption, Res.ok.injEq] at h; subst h; rfl
    | some e =>
      simp only [visitOption, Res.bind_eq_ok, Res.ok.injEq] at h
      obtain ⟨n, hn, rfl⟩ := h
      exact visitAlignment_value hn
  rw [ha _ _ hal, ha _ _ hal']
  simp only [Option.map_id_fun, id_eq] at h2 h3 h4 h5
  have hb : ∀ (f : Src.FieldTypeId) (z : Field fl.F), visitFieldTypeId fl f = .ok z →
      z.optional = false ∧ z.alignment = 0 ∧ z.initializer = none ∧ z.offset = none ∧ z.constraint = none ∧
        z.clause = none := by
    intro f z h
    simp only [visitFieldTypeId, Res.bind_eq_ok, Res.ok.injEq] at h
    obtain ⟨_, _, _, _, rfl⟩ := h
    simp
  have b1 := hb _ _ ht
  have b2 := hb _ _ ht'
  obtain ⟨n1, n2, n3, n4, n5, n6, n7, n8, n9⟩ := t
  obtain ⟨m1, m2, m3, m4, m5, m6, m7, m8, m9⟩ := t'
  simp only at b1 b2
  obtain ⟨rfl, rfl, rfl, rfl, rfl, rfl⟩ := b1
  obtain ⟨rfl, rfl, rfl, rfl, rfl, rfl⟩ := b2
  simp only [Field.mk.injEq, true_and, and_true, Prod.mk.injEq] at h1
  simp only [Field.mk.injEq, FieldSays.withoutExtend, structFieldSays, FieldSays.mk.injEq, true_and, h2, h3, h4,
    h5]
  constructor
  · rintro ⟨a1, a2, a3, a4, a5, a6, a7, a8, a9⟩
    have := h1.1 ⟨a1, a4, a9⟩
    exact ⟨this.1, this.2.1, this.2.2, a2, a3, a6, a5, a8, a7⟩
  · rintro ⟨a1, a2, a3, a4, a5, a6, a7, a8, a9⟩
    have := h1.2 ⟨a1, a2, a3⟩
    exact ⟨this.1, a4, a5, this.2.1, a7, a6, a9, a8, this.2.2⟩

theorem reflects_choiceField : Reflects (visitChoiceField fl)
    (fun f => (choiceFieldSays f).withoutConstraint) := by
  intro a b x y hx hy
  have h := reflects_typeId _ _ _ _ hx hy
  simp only [Prod.mk.injEq] at h
  simp [h, choiceFieldSays, FieldSays.withoutConstraint]

/-! ## Declarations -/

theorem reflects_param {F : Type} : Reflects (visitParam (F := F)) paramSays := by
  intro a b x y hx hy
  simp only [visitParam, Res.bind_eq_ok, Res.ok.injEq] at hx hy
  obtain ⟨t, ht, rfl⟩ := hx
  obtain ⟨t', ht', rfl⟩ := hy
  simp [paramSays, reflects_ty _ _ _ _ ht ht']

theorem reflects_alias {F : Type} : Reflects (visitAlias (F := F)) aliasSays := by
  intro a b x y hx hy
  simp only [visitAlias, Res.bind_eq_ok, Res.ok.injEq] at hx hy
  obtain ⟨t, ht, rfl⟩ := hx
  obtain ⟨t', ht', rfl⟩ := hy
  simp [aliasSays, reflects_ty _ _ _ _ ht ht']

theorem reflects_func : Reflects (visitFunc fl) funcSays := by
  intro a b x y hx hy
  simp only [visitFunc, Res.bind_eq_ok, Res.ok.injEq] at hx hy
  obtain ⟨e, he, t, ht, rfl⟩ := hx
  obtain ⟨e', he', t', ht', rfl⟩ := hy
  simp only [funcSays, Func.mk.injEq, FuncSays.mk.injEq, reflects_ty _ _ _ _ ht ht',
    reflects_exp _ _ _ _ he he', id_eq]
  constructor <;> (rintro ⟨a, b, c⟩; exact ⟨a, c, b⟩)

theorem reflects_struct : Reflects (visitStruct fl) (fun s => (structSays s).withoutExtend) := by
  intro a b x y hx hy
  simp only [visitStruct, Res.bind_eq_ok, Res.ok.injEq] at hx hy
  obtain ⟨p, hp, f, hf, g, hg, rfl⟩ := hx
  obtain ⟨p', hp', f', hf', g', hg', rfl⟩ := hy
  have h1 := reflects_list reflects_param _ _ _ _ hp hp'
  have h2 := reflects_list reflects_structField _ _ _ _ hf hf'
  have h3 := reflects_list reflects_func _ _ _ _ hg hg'
  simp [structSays, RecordSays.withoutExtend, h1, h2, h3, Function.comp_def]

theorem reflects_union : Reflects (visitUnion fl) (fun s => (unionSays s).withoutConstraints) := by
  intro a b x y hx hy
  simp only [visitUnion, Res.bind_eq_ok, Res.ok.injEq] at hx hy
  obtain ⟨p, hp, f, hf, g, hg, rfl⟩ := hx
  obtain ⟨p', hp', f', hf', g', hg', rfl⟩ := hy
  have h1 := reflects_list reflects_param _ _ _ _ hp hp'
  have h2 := reflects_list reflects_choiceField _ _ _ _ hf hf'
  have h3 := reflects_list reflects_func _ _ _ _ hg hg'
  simp [unionSays, RecordSays.withoutConstraints, h1, h2, h3, Function.comp_def]

theorem reflects_cases : Reflects (visitCases fl) (fun c => (caseSays c).withoutConstraint) := by
  intro a b x y hx hy
  simp only [visitCases, Res.bind_eq_ok, Res.ok.injEq] at hx hy
  obtain ⟨p, hp, f, hf, rfl⟩ := hx
  obtain ⟨p', hp', f', hf', rfl⟩ := hy
  have h1 := reflects_list reflects_exp _ _ _ _ hp hp'
  have h2 := reflects_option reflects_choiceField _ _ _ _ hf hf'
  simp [caseSays, CaseSays.withoutConstraint, h1, h2, Function.comp_def]

theorem reflects_choice : Reflects (visitChoice fl) (fun c => (choiceSays c).withoutDefault) := by
  intro a b x y hx hy
  simp only [visitChoice, Res.bind_eq_ok, Res.ok.injEq] at hx hy
  obtain ⟨e, he, p, hp, f, hf, g, hg, rfl⟩ := hx
  obtain ⟨e', he', p', hp', f', hf', g', hg', rfl⟩ := hy
  have h0 := reflects_exp _ _ _ _ he he'
  have h1 := reflects_list reflects_param _ _ _ _ hp hp'
  have h2 := reflects_list reflects_cases _ _ _ _ hf hf'
  have h3 := reflects_list reflects_func _ _ _ _ hg hg'
  simp [choiceSays, ChoiceSays.withoutDefault, h0, h1, h2, h3, Function.comp_def]

theorem reflects_item : Reflects (visitItem fl) (fun i => ({ i with mark := .none } : Src.Item)) := by
  intro a b x y hx hy
  simp only [visitItem, Res.bind_eq_ok, Res.ok.injEq] at hx hy
  obtain ⟨p, hp, rfl⟩ := hx
  obtain ⟨p', hp', rfl⟩ := hy
  have h1 := reflects_option reflects_exp _ _ _ _ hp hp'
  simp at h1
  simp [h1]

theorem reflects_enum : Reflects (visitEnum fl) (fun e => (enumSays e).withoutMarks) := by
  intro a b x y hx hy
  simp only [visitEnum, Res.bind_eq_ok, Res.ok.injEq] at hx hy
  obtain ⟨t, ht, p, hp, rfl⟩ := hx
  obtain ⟨t', ht', p', hp', rfl⟩ := hy
  simp [enumSays, EnumSays.withoutMarks, reflects_inst _ _ _ _ ht ht', reflects_list reflects_item _ _ _ _ hp hp']

theorem reflects_bitmaskValue : Reflects (visitBitmaskValue fl) id := by
  intro a b x y hx hy
  simp only [visitBitmaskValue, Res.bind_eq_ok, Res.ok.injEq] at hx hy
  obtain ⟨p, hp, rfl⟩ := hx
  obtain ⟨p', hp', rfl⟩ := hy
  have h1 := reflects_option reflects_exp _ _ _ _ hp hp'
  simp at h1
  simp [h1, Prod.ext_iff]

theorem reflects_bitmask : Reflects (visitBitmask fl) bitmaskSays := by
  intro a b x y hx hy
  simp only [visitBitmask, Res.bind_eq_ok, Res.ok.injEq] at hx hy
  obtain ⟨t, ht, p, hp, rfl⟩ := hx
  obtain ⟨t', ht', p', hp', rfl⟩ := hy
  have h := reflects_list reflects_bitmaskValue _ _ _ _ hp hp'
  simp at h
  simp [bitmaskSays, reflects_inst _ _ _ _ ht ht', h]

theorem reflects_const : Reflects (visitConst fl) constSays := by
  intro a b x y hx hy
  simp only [visitConst, Res.bind_eq_ok, Res.ok.injEq] at hx hy
  obtain ⟨t, ht, p, hp, rfl⟩ := hx
  obtain ⟨t', ht', p', hp', rfl⟩ := hy
  simp [constSays, reflects_inst _ _ _ _ ht ht', reflects_exp _ _ _ _ hp hp']

/-! ## Packages -/

theorem visitList_mem {α β : Type} {f : α → Res β} {as : List α} {bs : List β}
    (h : visitList f as = .ok bs) : ∀ a ∈ as, ∃ b ∈ bs, f a = .ok b := by
  induction as generalizing bs with
  | nil => simp
  | cons a as ih =>
    simp only [visitList, Res.bind_eq_ok, Res.ok.injEq] at h
    obtain ⟨b, hb, bs, hbs, rfl⟩ := h
    intro x hx
    rcases List.mem_cons.1 hx with rfl | hx
    · exact ⟨b, by simp, hb⟩
    · obtain ⟨y, hy, e⟩ := ih hbs x hx
      exact ⟨y, by simp [hy], e⟩

theorem visitList_mem' {α β : Type} {f : α → Res β} {as : List α} {bs : List β}
    (h : visitList f as = .ok bs) : ∀ b ∈ bs, ∃ a ∈ as, f a = .ok b := by
  induction as generalizing bs with
  | nil => simp [visitList] at h; simp [h]
  | cons a as ih =>
    simp only [visitList, Res.bind_eq_ok, Res.ok.injEq] at h
    obtain ⟨b, hb, bs, hbs, rfl⟩ := h
    intro x hx
    rcases List.mem_cons.1 hx with rfl | hx
    · exact ⟨a, by simp, hb⟩
    · obtain ⟨y, hy, e⟩ := ih hbs x hx
      exact ⟨y, by simp [hy], e⟩

/-- What happens to one component of a package: `ins` adds a result. -/
theorem addDirectives_component {α β γ : Type} (sel : Src.Directive → Option α) (visit : α → Res β)
    (π : Ast.Package fl.F → γ) (ins : β → γ → γ)
    (step : ∀ p d q, addDirective fl p d = .ok q →
      (sel d = none → π q = π p) ∧ (∀ s, sel d = some s → ∃ a, visit s = .ok a ∧ π q = ins a (π p))) :
    ∀ (ds : List Src.Directive) (p q : Ast.Package fl.F), addDirectives fl p ds = .ok q →
      ∃ xs, visitList visit (ds.filterMap sel) = .ok xs ∧ π q = xs.foldl (fun m a => ins a m) (π p) := by
  intro ds
  induction ds with
  | nil => intro p q h; simp [addDirectives] at h; exact ⟨[], rfl, by simp [h]⟩
  | cons d ds ih =>
    intro p q h
    simp only [addDirectives, Res.bind_eq_ok] at h
    obtain ⟨p1, h1, h2⟩ := h
    obtain ⟨xs, hxs, hq⟩ := ih p1 q h2
    obtain ⟨s1, s2⟩ := step p d p1 h1
    cases hs : sel d with
    | none => exact ⟨xs, by simpa [List.filterMap_cons, hs] using hxs, by rw [hq, s1 hs]⟩
    | some s =>
      obtain ⟨a, ha, e⟩ := s2 s hs
      refine ⟨a :: xs, by simp [List.filterMap_cons, hs, visitList, ha, hxs], ?_⟩
      rw [hq, e, List.foldl_cons]

theorem foldl_snoc {β : Type} (xs ys : List β) : xs.foldl (fun m a => m ++ [a]) ys = ys ++ xs := by
  induction xs generalizing ys with
  | nil => simp
  | cons x xs ih => simp [ih]

theorem foldl_insert {β : Type} (name : β → String) (xs : List β) (m : Map β) :
    xs.foldl (fun m a => Map.insert m (name a) a) m = Map.insertAll name id xs m := by
  induction xs generalizing m with
  | nil => rfl
  | cons x xs ih => simp [ih, Map.insertAll]

/-- The components of an accepted file. -/
structure Components (fl : FloatText) (p : Src.Package) (q : Ast.Package fl.F) : Prop where
  name : p.name = some q.name
  imports : q.imports = p.imports.map visitImport
  structs : ∃ xs, visitList (visitStruct fl) (structsOf p.directives) = .ok xs ∧
    q.structs = Map.insertAll Ast.Struct.name id xs Map.empty
  choices : ∃ xs, visitList (visitChoice fl) (choicesOf p.directives) = .ok xs ∧
    q.choices = Map.insertAll Ast.Choice.name id xs Map.empty
  unions : ∃ xs, visitList (visitUnion fl) (unionsOf p.directives) = .ok xs ∧
    q.unions = Map.insertAll Ast.Union.name id xs Map.empty
  enums : visitList (visitEnum fl) (enumsOf p.directives) = .ok q.enums
  bitmasks : visitList (visitBitmask fl) (bitmasksOf p.directives) = .ok q.bitmasks
  consts : visitList (visitConst fl) (constsOf p.directives) = .ok q.consts
  subtypes : visitList visitAlias (subtypesOf p.directives) = .ok q.subtypes
  instantiated : visitList visitAlias (instantiationsOf p.directives) = .ok q.instantiated

theorem addDirective_cases {p q : Ast.Package fl.F} {d : Src.Directive} (h : addDirective fl p d = .ok q) :
    (∃ s a, d = .struct s ∧ visitStruct fl s = .ok a ∧ q = { p with structs := p.structs.insert a.name a }) ∨
    (∃ s a, d = .choice s ∧ visitChoice fl s = .ok a ∧ q = { p with choices := p.choices.insert a.name a }) ∨
    (∃ s a, d = .union s ∧ visitUnion fl s = .ok a ∧ q = { p with unions := p.unions.insert a.name a }) ∨
    (∃ s a, d = .enum s ∧ visitEnum fl s = .ok a ∧ q = { p with enums := p.enums ++ [a] }) ∨
    (∃ s a, d = .bitmask s ∧ visitBitmask fl s = .ok a ∧ q = { p with bitmasks := p.bitmasks ++ [a] }) ∨
    (∃ s a, d = .const s ∧ visitConst fl s = .ok a ∧ q = { p with consts := p.consts ++ [a] }) ∨
    (∃ s a, d = .subtype s ∧ visitAlias s = .ok a ∧ q = { p with subtypes := p.subtypes ++ [a] }) ∨
    (∃ s a, d = .instantiate s ∧ visitAlias s = .ok a ∧
      q = { p with instantiated := p.instantiated ++ [a] }) ∨
    (∃ s, d = .other s ∧ q = p) := by
  cases d <;> simp only [addDirective, Res.bind_eq_ok, Res.ok.injEq] at h <;> obtain ⟨a, h1, rfl⟩ := h <;>
    simp [h1]

theorem components {p : Src.Package} {q : Ast.Package fl.F} (h : visitPackage fl p = .ok q) :
    Components fl p q := by
  simp only [visitPackage] at h
  split at h
  · simp at h
  rename_i name hn
  have hname := addDirectives_component (fl := fl) (α := Empty) (β := Empty) (fun _ => none) (fun a => a.elim)
    (fun p => (p.name, p.imports)) (fun a => a.elim) (by
      intro p d q h
      rcases addDirective_cases h with ⟨_, _, _, _, rfl⟩ | ⟨_, _, _, _, rfl⟩ | ⟨_, _, _, _, rfl⟩ |
        ⟨_, _, _, _, rfl⟩ | ⟨_, _, _, _, rfl⟩ | ⟨_, _, _, _, rfl⟩ | ⟨_, _, _, _, rfl⟩ | ⟨_, _, _, _, rfl⟩ |
        ⟨_, _, rfl⟩ <;> simp) _ _ _ h
  obtain ⟨xs, hxs, hname⟩ := hname
  cases xs with
  | cons x _ => exact x.elim
  | nil => ?_
  simp only [List.foldl_nil, Prod.mk.injEq] at hname
  have hs : ∃ xs, visitList (visitStruct fl) (structsOf p.directives) = .ok xs ∧ _ :=
    addDirectives_component (fl := fl) _ (visitStruct fl) Ast.Package.structs
    (fun a m => Map.insert m a.name a) (by
      intro p d q h
      rcases addDirective_cases h with ⟨_, _, rfl, h, rfl⟩ | ⟨_, _, rfl, _, rfl⟩ | ⟨_, _, rfl, _, rfl⟩ |
        ⟨_, _, rfl, _, rfl⟩ | ⟨_, _, rfl, _, rfl⟩ | ⟨_, _, rfl, _, rfl⟩ | ⟨_, _, rfl, _, rfl⟩ |
        ⟨_, _, rfl, _, rfl⟩ | ⟨_, rfl, rfl⟩ <;> simp_all) _ _ _ h
  have hc : ∃ xs, visitList (visitChoice fl) (choicesOf p.directives) = .ok xs ∧ _ :=
    addDirectives_component (fl := fl) _ (visitChoice fl) Ast.Package.choices
    (fun a m => Map.insert m a.name a) (by
      intro p d q h
      rcases addDirective_cases h with ⟨_, _, rfl, h, rfl⟩ | ⟨_, _, rfl, _, rfl⟩ | ⟨_, _, rfl, _, rfl⟩ |
        ⟨_, _, rfl, _, rfl⟩ | ⟨_, _, rfl, _, rfl⟩ | ⟨_, _, rfl, _, rfl⟩ | ⟨_, _, rfl, _, rfl⟩ |
        ⟨_, _, rfl, _, rfl⟩ | ⟨_, rfl, rfl⟩ <;> simp_all) _ _ _ h
  have hu : ∃ xs, visitList (visitUnion fl) (unionsOf p.directives) = .ok xs ∧ _ :=
    addDirectives_component (fl := fl) _ (visitUnion fl) Ast.Package.unions
    (fun a m => Map.insert m a.name a) (by
      intro p d q h
      rcases addDirective_cases h with ⟨_, _, rfl, h, rfl⟩ | ⟨_, _, rfl, _, rfl⟩ | ⟨_, _, rfl, _, rfl⟩ |
        ⟨_, _, rfl, _, rfl⟩ | ⟨_, _, rfl, _, rfl⟩ | ⟨_, _, rfl, _, rfl⟩ | ⟨_, _, rfl, _, rfl⟩ |
        ⟨_, _, rfl, _, rfl⟩ | ⟨_, rfl, rfl⟩ <;> simp_all) _ _ _ h
  have he : ∃ xs, visitList (visitEnum fl) (enumsOf p.directives) = .ok xs ∧ _ :=
    addDirectives_component (fl := fl) _ (visitEnum fl) Ast.Package.enums
    (fun a m => m ++ [a]) (by
      intro p d q h
      rcases addDirective_cases h with ⟨_, _, rfl, h, rfl⟩ | ⟨_, _, rfl, _, rfl⟩ | ⟨_, _, rfl, _, rfl⟩ |
        ⟨_, _, rfl, _, rfl⟩ | ⟨_, _, rfl, _, rfl⟩ | ⟨_, _, rfl, _, rfl⟩ | ⟨_, _, rfl, _, rfl⟩ |
        ⟨_, _, rfl, _, rfl⟩ | ⟨_, rfl, rfl⟩ <;> simp_all) _ _ _ h
  have hb : ∃ xs, visitList (visitBitmask fl) (bitmasksOf p.directives) = .ok xs ∧ _ :=
    addDirectives_component (fl := fl) _ (visitBitmask fl) Ast.Package.bitmasks
    (fun a m => m ++ [a]) (by
      intro p d q h
      rcases addDirective_cases h with ⟨_, _, rfl, h, rfl⟩ | ⟨_, _, rfl, _, rfl⟩ | ⟨_, _, rfl, _, rfl⟩ |
        ⟨_, _, rfl, _, rfl⟩ | ⟨_, _, rfl, _, rfl⟩ | ⟨_, _, rfl, _, rfl⟩ | ⟨_, _, rfl, _, rfl⟩ |
        ⟨_, _, rfl, _, rfl⟩ | ⟨_, rfl, rfl⟩ <;> simp_all) _ _ _ h
  have hk : ∃ xs, visitList (visitConst fl) (constsOf p.directives) = .ok xs ∧ _ :=
    addDirectives_component (fl := fl) _ (visitConst fl) Ast.Package.consts
    (fun a m => m ++ [a]) (by
      intro p d q h
      rcases addDirective_cases h with ⟨_, _, rfl, h, rfl⟩ | ⟨_, _, rfl, _, rfl⟩ | ⟨_, _, rfl, _, rfl⟩ |
        ⟨_, _, rfl, _, rfl⟩ | ⟨_, _, rfl, _, rfl⟩ | ⟨_, _, rfl, _, rfl⟩ | ⟨_, _, rfl, _, rfl⟩ |
        ⟨_, _, rfl, _, rfl⟩ | ⟨_, rfl, rfl⟩ <;> simp_all) _ _ _ h
  have ht : ∃ xs, visitList visitAlias (subtypesOf p.directives) = .ok xs ∧ _ :=
    addDirectives_component (fl := fl) _ visitAlias Ast.Package.subtypes
    (fun a m => m ++ [a]) (by
      intro p d q h
      rcases addDirective_cases h with ⟨_, _, rfl, h, rfl⟩ | ⟨_, _, rfl, _, rfl⟩ | ⟨_, _, rfl, _, rfl⟩ |
        ⟨_, _, rfl, _, rfl⟩ | ⟨_, _, rfl, _, rfl⟩ | ⟨_, _, rfl, _, rfl⟩ | ⟨_, _, rfl, _, rfl⟩ |
        ⟨_, _, rfl, _, rfl⟩ | ⟨_, rfl, rfl⟩ <;> simp_all) _ _ _ h
  have hi : ∃ xs, visitList visitAlias (instantiationsOf p.directives) = .ok xs ∧ _ :=
    addDirectives_component (fl := fl) _ visitAlias Ast.Package.instantiated
    (fun a m => m ++ [a]) (by
      intro p d q h
      rcases addDirective_cases h with ⟨_, _, rfl, h, rfl⟩ | ⟨_, _, rfl, _, rfl⟩ | ⟨_, _, rfl, _, rfl⟩ |
        ⟨_, _, rfl, _, rfl⟩ | ⟨_, _, rfl, _, rfl⟩ | ⟨_, _, rfl, _, rfl⟩ | ⟨_, _, rfl, _, rfl⟩ |
        ⟨_, _, rfl, _, rfl⟩ | ⟨_, rfl, rfl⟩ <;> simp_all) _ _ _ h
  simp only [foldl_insert, foldl_snoc, List.nil_append] at hs hc hu he hb hk ht hi
  obtain ⟨_, he, rfl⟩ := he
  obtain ⟨_, hb, rfl⟩ := hb
  obtain ⟨_, hk, rfl⟩ := hk
  obtain ⟨_, ht, rfl⟩ := ht
  obtain ⟨_, hi, rfl⟩ := hi
  exact ⟨by rw [hname.1, hn], hname.2, hs, hc, hu, he, hb, hk, ht, hi⟩

end Zs
