import Verif.ConstantSpec
import Verif.PackageLink
import Verif.PackageValues
import Verif.PropsValue

/-!
# Lemmas: constants
-/

namespace Zs

open Ast Spec

variable {fo : FloatOps} {round : List Char → fo.F} {display : fo.F → List Char} {float : Val → fo.F}
variable {md : Mode} {esc : EScope fo.F} {K K' : Constants fo.F} {O : Type}

/-! ## The value of an expression depends on the names in it -/

theorem Spec.Then.mono {p p' : Res (Datum fo.F O) → Prop} {k k' : Datum fo.F O → Res (Datum fo.F O) → Prop}
    {o : Res (Datum fo.F O)} (hp : ∀ r, p r → p' r) (hk : ∀ x o, k x o → k' x o) (h : Then p k o) : Then p' k' o := by
  obtain ⟨r, hr, h⟩ := h
  refine ⟨r, hp r hr, ?_⟩
  cases r with
  | ok x => exact hk x o h
  | err e => exact h
  | panic => exact h

theorem evals_agree {w : World fo.F O} {f g : String → Option (Datum fo.F O)} {Γ : RScope fo.F} {m : Mode} :
    ∀ (x : RExpr fo.F) (t : RTy) (o : Res (Datum fo.F O)), (∀ n ∈ x.names, w.name n = f n ∧ w.func n = g n) →
    Evals w Γ m x t o → Evals { w with name := f, func := g } Γ m x t o
  | .atom a, t, o, h, he => by
    cases a with
    | name n =>
      obtain ⟨v, hv, ho⟩ := he
      exact ⟨v, (h n (List.mem_singleton.2 rfl)).1.symm.trans hv, ho⟩
    | _ => exact he
  | .paren e, t, o, h, he => by
    simp only [Evals] at he ⊢
    exact evals_agree e t o h he
  | .call (.atom a), t, o, h, he => by
    cases a with
    | name n =>
      obtain ⟨v, hv, ho⟩ := he
      exact ⟨v, (h n (List.mem_singleton.2 rfl)).2.symm.trans hv, ho⟩
    | _ => exact he
  | .call (.field e _), t, o, h, he => by
    simp only [Evals] at he ⊢
    obtain ⟨s, h1, h2, h3⟩ := he
    exact ⟨s, h1, h2, h3.mono (fun r hr => evals_agree e s r h hr) fun x o hx => hx⟩
  | .call (.paren _), _, _, _, he | .call (.call _), _, _, _, he | .call (.apply _ _), _, _, _, he
  | .call (.elem _ _), _, _, _, he | .call (.cast _ _), _, _, _, he | .call (.neg _), _, _, _, he
  | .call (.not _), _, _, _, he | .call (.bin _ _ _), _, _, _, he | .call (.ite _ _ _), _, _, _, he
  | .call (.concat _ _), _, _, _, he => by
    simp only [Evals] at he
  | .apply _ e, t, o, h, he => by
    simp only [Evals] at he ⊢
    obtain ⟨s, h1, h2, h3⟩ := he
    exact ⟨s, h1, h2, h3.mono (fun r hr => evals_agree e s r h hr) fun x o hx => hx⟩
  | .field e n, t, o, h, he => by
    simp only [Evals] at he ⊢
    obtain ⟨id, h1, h3⟩ := he
    exact ⟨id, h1, h3.mono (fun r hr => evals_agree e _ r h hr) fun x o hx => hx⟩
  | .elem a b, t, o, h, he => by
    simp only [Evals] at he ⊢
    simp only [RExpr.names, List.mem_append] at h
    exact he.mono (fun r hr => evals_agree a _ r (fun n hn => h n (.inl hn)) hr) fun x o hx =>
      hx.mono (fun r hr => evals_agree b _ r (fun n hn => h n (.inr hn)) hr) fun y o hy => hy
  | .cast e ty, t, o, h, he => by
    simp only [Evals] at he ⊢
    obtain ⟨h0, s, h1, h2, h3⟩ := he
    exact ⟨h0, s, h1, h2, h3.mono (fun r hr => evals_agree e s r h hr) fun x o hx => hx⟩
  | .neg e, t, o, h, he => by
    simp only [Evals] at he ⊢
    exact he.mono (fun r hr => evals_agree e t r h hr) fun x o hx => hx
  | .not e, t, o, h, he => by
    simp only [Evals] at he ⊢
    exact he.mono (fun r hr => evals_agree e t r h hr) fun x o hx => hx
  | .bin (.arith op) a b, t, o, h, he => by
    simp only [Evals] at he ⊢
    simp only [RExpr.names, List.mem_append] at h
    exact he.mono (fun r hr => evals_agree a _ r (fun n hn => h n (.inl hn)) hr) fun x o hx =>
      hx.mono (fun r hr => evals_agree b _ r (fun n hn => h n (.inr hn)) hr) fun y o hy => hy
  | .bin (.bit op) a b, t, o, h, he => by
    simp only [Evals] at he ⊢
    simp only [RExpr.names, List.mem_append] at h
    split at he
    · rename_i hop
      rw [if_pos hop]
      obtain ⟨s, h1, he⟩ := he
      exact ⟨s, h1, he.mono (fun r hr => evals_agree a _ r (fun n hn => h n (.inl hn)) hr) fun x o hx =>
        hx.mono (fun r hr => evals_agree b _ r (fun n hn => h n (.inr hn)) hr) fun y o hy => hy⟩
    · rename_i hop
      rw [if_neg hop]
      exact he.mono (fun r hr => evals_agree a _ r (fun n hn => h n (.inl hn)) hr) fun x o hx =>
        hx.mono (fun r hr => evals_agree b _ r (fun n hn => h n (.inr hn)) hr) fun y o hy => hy
  | .bin (.cmp op) a b, t, o, h, he => by
    simp only [Evals] at he ⊢
    simp only [RExpr.names, List.mem_append] at h
    obtain ⟨s, u, h1, he⟩ := he
    exact ⟨s, u, h1, he.mono (fun r hr => evals_agree a _ r (fun n hn => h n (.inl hn)) hr) fun x o hx =>
      hx.mono (fun r hr => evals_agree b _ r (fun n hn => h n (.inr hn)) hr) fun y o hy => hy⟩
  | .bin (.logic op) a b, t, o, h, he => by
    simp only [Evals] at he ⊢
    simp only [RExpr.names, List.mem_append] at h
    refine he.mono (fun r hr => evals_agree a _ r (fun n hn => h n (.inl hn)) hr) fun x o hx => ?_
    obtain ⟨c, h1, h2⟩ := hx
    refine ⟨c, h1, ?_⟩
    split at h2
    · rename_i hc
      rw [if_pos hc]
      exact evals_agree b _ o (fun n hn => h n (.inr hn)) h2
    · rename_i hc
      rw [if_neg hc]
      exact h2
  | .ite c a b, t, o, h, he => by
    simp only [Evals] at he ⊢
    simp only [RExpr.names, List.mem_append] at h
    refine he.mono (fun r hr => evals_agree c _ r (fun n hn => h n (.inl (.inl hn))) hr) fun x o hx => ?_
    obtain ⟨d, h1, h2⟩ := hx
    refine ⟨d, h1, ?_⟩
    split at h2
    · rename_i hc
      rw [if_pos hc]
      exact evals_agree a _ o (fun n hn => h n (.inl (.inr hn))) h2
    · rename_i hc
      rw [if_neg hc]
      exact evals_agree b _ o (fun n hn => h n (.inr hn)) h2
  | .concat a b, t, o, h, he => by
    simp only [Evals] at he ⊢
    simp only [RExpr.names, List.mem_append] at h
    obtain ⟨s, u, h1, h2, he⟩ := he
    exact ⟨s, u, h1, h2, he.mono (fun r hr => evals_agree a _ r (fun n hn => h n (.inl hn)) hr) fun x o hx =>
      hx.mono (fun r hr => evals_agree b _ r (fun n hn => h n (.inr hn)) hr) fun y o hy => hy⟩

/-! ## Scopes -/

/-- A structure without members. -/
def memberless : Src.Struct := ⟨"", [], [], [], []⟩

/-- The constants, enumerations and bitmasks, without objects. -/
def noObjects (K : Constants fo.F) : Constants fo.F := { K with objects := fun _ => none }

theorem noObjects_good (hK : K.Good) : (noObjects K).Good := ⟨hK.value, hK.none, hK.masks, nofun⟩

theorem constScope_text (K : Constants fo.F) : constScope K.names = textScope (noObjects K) memberless := by
  unfold constScope textScope
  congr 1
  funext n
  exact names_symb K n

theorem constWorld_text (float : Val → fo.F) (K : Constants fo.F) :
    constWorld K = textLook float (noObjects K) memberless ⟨[], []⟩ := by
  unfold constWorld textLook
  rw [constScope_text]
  rfl

theorem constScope_ordinary (K : Constants fo.F) : Ordinary (constScope K.names) := by
  intro _ _ _ _ h
  cases h

theorem constWorld_conforms (hK : K.Good) :
    Conforms (constWorld K) (rscope (constScope K.names)) := by
  rw [constScope_text, constWorld_text fun _ => fo.zero]
  exact text_conforms_of (noObjects_good hK) fun m hm => by cases hm

theorem stand_good {ds : List Src.Directive} (h : ConstsStand round ds K) : K.Good where
  value n z hz := by
    by_cases hn : n ∈ (constsIn ds).map Src.Const.name
    · obtain ⟨c, hc, rfl⟩ := List.mem_map.1 hn
      obtain ⟨t, z', x, v, -, -, -, -, hv, hty, hval⟩ := h.declared c hc
      rw [hz] at hty
      cases hty
      exact ⟨v, hval, hv⟩
    · rw [(h.others n hn).1] at hz
      cases hz
  none n hz := by
    by_cases hn : n ∈ (constsIn ds).map Src.Const.name
    · obtain ⟨c, hc, rfl⟩ := List.mem_map.1 hn
      obtain ⟨t, z', x, v, -, -, -, -, hv, hty, hval⟩ := h.declared c hc
      rw [hz] at hty
      cases hty
    · exact (h.others n hn).2
  masks n b hb := by
    by_cases hn : n ∈ (masksIn ds).map Src.Bitmask.name
    · obtain ⟨d, hd, rfl⟩ := List.mem_map.1 hn
      obtain ⟨x, ⟨t, m, i, ks, -, -, hi, -, hr, rfl⟩, hB⟩ := h.masks.declared d hd
      rw [hb] at hB
      cases hB
      rintro ⟨a, k⟩ hk
      obtain ⟨k, hk', rfl⟩ := List.mem_map.1 (List.of_mem_zip hk).2
      have : baseTy ⟨m, widthOf t, false⟩ = i := by simp [baseTy, hi]
      simp only [this]
      exact ⟨i, (rustInt_zero hi).1, hr k hk'⟩
    · rw [h.masks.others n hn] at hb
      cases hb
  objects n ms hm := by
    by_cases hn : ∃ s, .struct s ∈ ds ∧ s.name = n
    · obtain ⟨s, hs, rfl⟩ := hn
      rw [h.objects.declared s hs, Option.some.injEq] at hm
      exact ⟨s, hm.symm, h.methods s hs⟩
    · rw [h.objects.others n fun s hs he => hn ⟨s, hs, he⟩] at hm
      cases hm

/-! ## Constants in the symbol table -/

section
variable {P : Src.Package} {Q : Ast.Package fo.F}

theorem mem_constsIn {ds : List Src.Directive} {c : Src.Const} : c ∈ constsIn ds ↔ .const c ∈ ds := by
  simp only [constsIn, List.mem_filterMap]
  constructor
  · rintro ⟨d, hd, h⟩
    cases d <;> simp only [Option.some.injEq, reduceCtorEq] at h
    exact h ▸ hd
  · exact fun h => ⟨_, h, rfl⟩

theorem const_found (hQ : visitPackage (floatText fo round display) P = .ok Q)
    (hn : ((P.directives.filterMap declares).map Prod.fst).Nodup) {c : Src.Const} (hc : c ∈ constsIn P.directives) :
    ∃ d, fileSymbols Q c.name = some (.const d) ∧ (∀ K : Constants fo.F, d.type.zty K.names.types = typeIn K.types c.type.type) ∧
      ∀ known x, Stands round known c.value x → d.value.expr = some x := by
  obtain ⟨s, hs, hv⟩ := symbol_found hQ hn (mem_constsIn.1 hc) (n := c.name) (by simp [declares])
  cases hv with
  | const hx =>
    simp only [visitConst, Res.bind_eq_ok, Res.ok.injEq] at hx
    obtain ⟨r, hr, v, hv, rfl⟩ := hx
    exact ⟨_, hs, fun K => by rw [names_types]; exact zty_inst hr, fun known x h => expr_visit h v hv⟩

theorem const_declared {fl : FloatText} {Q : Ast.Package fl.F} (hQ : visitPackage fl P = .ok Q) {n : String}
    {d : Ast.Const fl.F} (h : fileSymbols Q n = some (.const d)) : ∃ c ∈ constsIn P.directives, c.name = n := by
  obtain ⟨x, hx, e, hv⟩ := symbol_visited (components hQ) h
  cases hv with
  | const hv => exact ⟨_, mem_constsIn.2 hx, by simpa [declares] using e⟩

theorem constType_stand (hQ : visitPackage (floatText fo round display) P = .ok Q)
    (hn : ((P.directives.filterMap declares).map Prod.fst).Nodup) (hs : ConstsStand round P.directives K) :
    constType K.names.types (fileSymbols Q) = K.ty := by
  funext n
  by_cases hm : n ∈ (constsIn P.directives).map Src.Const.name
  · obtain ⟨c, hc, rfl⟩ := List.mem_map.1 hm
    obtain ⟨d, hd, hty, -⟩ := const_found hQ hn hc
    obtain ⟨t, z, x, v, ht, hz, -, -, -, hk, -⟩ := hs.declared c hc
    rw [ht] at hty
    simp only [constType, hd, hty, hk, typeIn_num hz]
  · rw [(hs.others n hm).1]
    unfold constType
    split
    · rename_i d hd
      obtain ⟨c, hc, rfl⟩ := const_declared (fl := floatText fo round display) hQ hd
      exact absurd (List.mem_map_of_mem hc) hm
    · rfl

/-! ## Enumerations in the symbol table -/

theorem mem_enumsIn {ds : List Src.Directive} {e : Src.Enum} : e ∈ enumsIn ds ↔ .enum e ∈ ds := by
  simp only [enumsIn, List.mem_filterMap]
  constructor
  · rintro ⟨d, hd, h⟩
    cases d <;> simp only [Option.some.injEq, reduceCtorEq] at h
    exact h ▸ hd
  · exact fun h => ⟨_, h, rfl⟩

theorem item_names {fl : FloatText} {is : List Src.Item} {ys : List (Ast.Item fl.F)}
    (h : visitList (visitItem fl) is = .ok ys) : ys.map Ast.Item.name = is.map Src.Item.name :=
  visitList_map (f := visitItem fl) (by
    intro a b hb
    simp only [visitItem, Res.bind_eq_ok, Res.ok.injEq] at hb
    obtain ⟨_, _, rfl⟩ := hb
    rfl) h

theorem enum_type {fl : FloatText} {t : Src.Ty} {n : NumName} (ht : exprTypeOf t = some (.num n)) {r : Ast.TypeRef fl.F}
    (hr : visitInst fl ⟨t, .none⟩ = .ok r) : ∃ tn, r = .mk true [] tn (widthOf t) [] [] none ∧
      (Emit.BName.ofString tn).bind Emit.BName.zty = some (.num n) := by
  simp only [visitInst, Res.bind_eq_ok] at hr
  obtain ⟨r', hr', hr⟩ := hr
  cases t with
  | builtin name =>
    simp only [visitTy, Res.ok.injEq] at hr'
    subst hr'
    simp only [Res.ok.injEq] at hr
    subst hr
    exact ⟨name, rfl, (zty_builtin name).trans ht⟩
  | fixedBits g b =>
    simp only [visitTy] at hr'
    split at hr' <;> simp only [Res.ok.injEq, reduceCtorEq] at hr'
    subst hr'
    simp only [Res.ok.injEq] at hr
    subst hr
    refine ⟨_, rfl, ?_⟩
    cases g <;> exact ht
  | named f r as => cases ht

theorem enum_found (hQ : visitPackage (floatText fo round display) P = .ok Q)
    (hn : ((P.directives.filterMap declares).map Prod.fst).Nodup) {e : Src.Enum} (he : e ∈ enumsIn P.directives)
    {x : Enumeration} (hx : EnumStands e x) (md : Mode) (esc : EScope fo.F) :
    ∃ d, fileSymbols Q e.name = some (.enum d) ∧ ∀ y, EnumSeen md esc d y ↔ y = x := by
  obtain ⟨s, hs, hv⟩ := symbol_found hQ hn (mem_enumsIn.1 he) (n := e.name) (by simp [declares])
  obtain ⟨t, n, items, ht, hz, hi, hr, rfl⟩ := hx
  cases hv with
  | enum hd =>
    simp only [visitEnum, Res.bind_eq_ok, Res.ok.injEq] at hd
    obtain ⟨r, hr', ys, hys, rfl⟩ := hd
    rw [ht] at hr'
    obtain ⟨tn, rfl, htn⟩ := enum_type hz hr'
    obtain ⟨xs, hxs, hvs⟩ := enum_values (md := md) (sc := esc) hi hr hys
    refine ⟨_, hs, fun y => ⟨?_, ?_⟩⟩
    · rintro ⟨tn', bits', n', xs', vs', h1, h2, h3, h4, rfl⟩
      cases h1
      rw [htn] at h2
      cases h2
      obtain rfl : xs = xs' := by
        have := hxs.symm.trans h3
        exact List.map_inj_right (fun a b h => Option.some.inj h) |>.1 this
      rw [hvs] at h4
      cases h4
      rw [← item_names hys]
      rfl
    · rintro rfl
      exact ⟨tn, _, n, xs, _, rfl, htn, hxs, hvs, by rw [← item_names hys]; rfl⟩

theorem enum_declared {fl : FloatText} {Q : Ast.Package fl.F} (hQ : visitPackage fl P = .ok Q) {n : String}
    {d : Ast.Enum fl.F} (h : fileSymbols Q n = some (.enum d)) : ∃ e ∈ enumsIn P.directives, e.name = n := by
  obtain ⟨x, hx, e, hv⟩ := symbol_visited (components hQ) h
  cases hv with
  | enum hv => exact ⟨_, mem_enumsIn.2 hx, by simpa [declares] using e⟩

theorem enums_seen {E E' : String → Option Enumeration} {esc : EScope fo.F}
    (hQ : visitPackage (floatText fo round display) P = .ok Q)
    (hn : ((P.directives.filterMap declares).map Prod.fst).Nodup) (hs : EnumsStand P.directives E) :
    EnumsSeen md esc (fileSymbols Q) E' ↔ E' = E := by
  constructor
  · intro h
    funext n
    by_cases hm : n ∈ (enumsIn P.directives).map Src.Enum.name
    · obtain ⟨e, he, rfl⟩ := List.mem_map.1 hm
      obtain ⟨x, hx, hE⟩ := hs.declared e he
      obtain ⟨d, hd, hu⟩ := enum_found hQ hn he hx md esc
      obtain ⟨y, hy, hy'⟩ := h.declared _ d hd
      rw [hE, hy, (hu y).1 hy']
    · rw [hs.others n hm]
      refine h.others n fun d hd => ?_
      obtain ⟨e, he, rfl⟩ := enum_declared (fl := floatText fo round display) hQ hd
      exact hm (List.mem_map_of_mem he)
  · rintro rfl
    refine ⟨fun n d hd => ?_, fun n h => ?_⟩
    · obtain ⟨e, he, rfl⟩ := enum_declared (fl := floatText fo round display) hQ hd
      obtain ⟨x, hx, hE⟩ := hs.declared e he
      obtain ⟨d', hd', hu⟩ := enum_found hQ hn he hx md esc
      obtain rfl : d' = d := by simpa [hd'] using hd
      exact ⟨x, hE, (hu x).2 rfl⟩
    · refine hs.others n fun hm => ?_
      obtain ⟨e, he, rfl⟩ := List.mem_map.1 hm
      obtain ⟨x, hx, hE⟩ := hs.declared e he
      obtain ⟨d, hd, -⟩ := enum_found hQ hn he hx md esc
      exact h d hd

/-! ## Bitmasks in the symbol table -/

theorem mem_masksIn {ds : List Src.Directive} {b : Src.Bitmask} : b ∈ masksIn ds ↔ .bitmask b ∈ ds := by
  simp only [masksIn, List.mem_filterMap]
  constructor
  · rintro ⟨d, hd, h⟩
    cases d <;> simp only [Option.some.injEq, reduceCtorEq] at h
    exact h ▸ hd
  · exact fun h => ⟨_, h, rfl⟩

theorem value_names {fl : FloatText} {is : List (String × Option Src.Exp)} {ys : List (Ast.Item fl.F)}
    (h : visitList (visitBitmaskValue fl) is = .ok ys) : ys.map Ast.Item.name = is.map Prod.fst :=
  visitList_map (f := visitBitmaskValue fl) (by
    intro a b hb
    simp only [visitBitmaskValue, Res.bind_eq_ok, Res.ok.injEq] at hb
    obtain ⟨_, _, rfl⟩ := hb
    rfl) h

theorem mask_found (hQ : visitPackage (floatText fo round display) P = .ok Q)
    (hn : ((P.directives.filterMap declares).map Prod.fst).Nodup) {b : Src.Bitmask} (hb : b ∈ masksIn P.directives)
    {x : Enumeration} (hx : MaskStands b x) (md : Mode) (esc : EScope fo.F) :
    ∃ d, fileSymbols Q b.name = some (.bitmask d) ∧ ∀ y, MaskSeen md esc d y ↔ y = x := by
  obtain ⟨s, hs, hv⟩ := symbol_found hQ hn (mem_masksIn.1 hb) (n := b.name) (by simp [declares])
  obtain ⟨t, n, i, ks, ht, hz, hi, hk, hr, rfl⟩ := hx
  cases hv with
  | bitmask hd =>
    simp only [visitBitmask, Res.bind_eq_ok, Res.ok.injEq] at hd
    obtain ⟨r, hr', ys, hys, rfl⟩ := hd
    rw [ht] at hr'
    obtain ⟨tn, rfl, htn⟩ := enum_type hz hr'
    obtain ⟨xs, hxs, hvs⟩ := bitmask_values (md := md) (sc := esc) hk hys
    refine ⟨_, hs, fun y => ⟨?_, ?_⟩⟩
    · rintro ⟨tn', bits', n', i', xs', vs', h1, h2, h3, h4, h5, h6, rfl⟩
      cases h1
      rw [htn] at h2
      cases h2
      obtain rfl : xs = xs' := by
        have := hxs.symm.trans h4
        exact List.map_inj_right (fun a b h => Option.some.inj h) |>.1 this
      rw [hvs] at h5
      cases h5
      rw [← value_names hys]
    · rintro rfl
      exact ⟨tn, _, n, i, xs, _, rfl, htn, hi, hxs, hvs, hr, by rw [← value_names hys]⟩

theorem mask_declared {fl : FloatText} {Q : Ast.Package fl.F} (hQ : visitPackage fl P = .ok Q) {n : String}
    {d : Ast.Bitmask fl.F} (h : fileSymbols Q n = some (.bitmask d)) : ∃ b ∈ masksIn P.directives, b.name = n := by
  obtain ⟨x, hx, e, hv⟩ := symbol_visited (components hQ) h
  cases hv with
  | bitmask hv => exact ⟨_, mem_masksIn.2 hx, by simpa [declares] using e⟩

theorem masks_seen {B B' : String → Option Enumeration} {esc : EScope fo.F}
    (hQ : visitPackage (floatText fo round display) P = .ok Q)
    (hn : ((P.directives.filterMap declares).map Prod.fst).Nodup) (hs : MasksStand P.directives B) :
    MasksSeen md esc (fileSymbols Q) B' ↔ B' = B := by
  constructor
  · intro h
    funext n
    by_cases hm : n ∈ (masksIn P.directives).map Src.Bitmask.name
    · obtain ⟨b, hb, rfl⟩ := List.mem_map.1 hm
      obtain ⟨x, hx, hB⟩ := hs.declared b hb
      obtain ⟨d, hd, hu⟩ := mask_found hQ hn hb hx md esc
      obtain ⟨y, hy, hy'⟩ := h.declared _ d hd
      rw [hB, hy, (hu y).1 hy']
    · rw [hs.others n hm]
      refine h.others n fun d hd => ?_
      obtain ⟨b, hb, rfl⟩ := mask_declared (fl := floatText fo round display) hQ hd
      exact hm (List.mem_map_of_mem hb)
  · rintro rfl
    refine ⟨fun n d hd => ?_, fun n h => ?_⟩
    · obtain ⟨b, hb, rfl⟩ := mask_declared (fl := floatText fo round display) hQ hd
      obtain ⟨x, hx, hB⟩ := hs.declared b hb
      obtain ⟨d', hd', hu⟩ := mask_found hQ hn hb hx md esc
      obtain rfl : d' = d := by simpa [hd'] using hd
      exact ⟨x, hB, (hu x).2 rfl⟩
    · refine hs.others n fun hm => ?_
      obtain ⟨b, hb, rfl⟩ := List.mem_map.1 hm
      obtain ⟨x, hx, hB⟩ := hs.declared b hb
      obtain ⟨d, hd, -⟩ := mask_found hQ hn hb hx md esc
      exact h d hd

/-! ## Structures in the symbol table -/

theorem struct_found {s : Src.Struct} (hQ : visitPackage (floatText fo round display) P = .ok Q)
    (hn : ((P.directives.filterMap declares).map Prod.fst).Nodup) (hs : .struct s ∈ P.directives) :
    ∃ d, fileSymbols Q s.name = some (.struct d) ∧ ∀ K : Constants fo.F,
      d.members K ++ d.methods K = partsOf K.types s := by
  obtain ⟨y, hy, hv⟩ := symbol_found hQ hn hs (n := s.name) (by simp [declares])
  cases hv with
  | struct hd => exact ⟨_, hy, fun K => by
      rw [partsOf, ← members_visit (fl := floatText fo round display) hd, ← methods_visit (fl := floatText fo round display) hd]⟩

theorem struct_declared {fl : FloatText} {Q : Ast.Package fl.F} (hQ : visitPackage fl P = .ok Q) {n : String}
    {d : Ast.Struct fl.F} (h : fileSymbols Q n = some (.struct d)) : ∃ s, .struct s ∈ P.directives ∧ s.name = n := by
  obtain ⟨x, hx, e, hv⟩ := symbol_visited (components hQ) h
  cases hv with
  | struct hv => exact ⟨_, hx, by simpa [declares] using e⟩

/-- The table has the structures that are declared. -/
theorem objects_seen (hQ : visitPackage (floatText fo round display) P = .ok Q)
    (hn : ((P.directives.filterMap declares).map Prod.fst).Nodup) :
    ObjectsSeen (fileSymbols Q) K ↔ ObjectsStand P.directives K := by
  have other : ∀ n, (∀ s, .struct s ∈ P.directives → s.name ≠ n) → ∀ d, fileSymbols Q n ≠ some (.struct d) := by
    intro n h d hd
    obtain ⟨s, hs, rfl⟩ := struct_declared (fl := floatText fo round display) hQ hd
    exact h s hs rfl
  constructor
  · intro h
    refine ⟨fun s hs => ?_, fun n hs => ?_⟩
    · obtain ⟨d, hd, hm⟩ := struct_found hQ hn hs
      rw [h s.name, hd]
      exact congrArg some (hm K)
    · rw [h n]
      split
      · rename_i d hd
        exact absurd hd (other n hs d)
      · rfl
  · intro h n
    by_cases hs : ∃ s, .struct s ∈ P.directives ∧ s.name = n
    · obtain ⟨s, hs, rfl⟩ := hs
      obtain ⟨d, hd, hm⟩ := struct_found hQ hn hs
      rw [h.declared s hs, hd]
      exact congrArg some (hm K).symm
    · rw [h.others n fun s h1 h2 => hs ⟨s, h1, h2⟩]
      split
      · rename_i d hd
        exact absurd hd (other n (fun s h1 h2 => hs ⟨s, h1, h2⟩) d)
      · rfl

/-- The structures, enumerations and bitmasks that are declared determine what expressions know of types. -/
theorem types_unique {ds : List Src.Directive} (he : K'.enums = K.enums) (hb : K'.masks = K.masks) (h : ObjectsStand ds K)
    (h' : ObjectsStand ds K') : K'.types = K.types ∧ K'.objects = K.objects := by
  have hs : ∀ n, (K'.objects n).isSome = (K.objects n).isSome := by
    intro n
    by_cases hs : ∃ s, .struct s ∈ ds ∧ s.name = n
    · obtain ⟨s, hs, rfl⟩ := hs
      rw [h.declared s hs, h'.declared s hs]
      rfl
    · rw [h.others n fun s h1 h2 => hs ⟨s, h1, h2⟩, h'.others n fun s h1 h2 => hs ⟨s, h1, h2⟩]
  have ht : K'.types = K.types := by
    funext n
    simp only [Constants.types, he, hb]
    split
    · rfl
    split
    · rfl
    · have := hs n
      cases h1 : K'.objects n <;> cases h2 : K.objects n <;> rw [h1, h2] at this <;> first | rfl | cases this
  refine ⟨ht, funext fun n => ?_⟩
  by_cases hs : ∃ s, .struct s ∈ ds ∧ s.name = n
  · obtain ⟨s, hs, rfl⟩ := hs
    rw [h.declared s hs, h'.declared s hs, ht]
  · rw [h.others n fun s h1 h2 => hs ⟨s, h1, h2⟩, h'.others n fun s h1 h2 => hs ⟨s, h1, h2⟩]

/-- The structures of a package. -/
def structsIn (ds : List Src.Directive) : List Src.Struct := ds.filterMap fun d => match d with
  | .struct s => some s
  | _ => none

theorem mem_structsIn {ds : List Src.Directive} {s : Src.Struct} : s ∈ structsIn ds ↔ .struct s ∈ ds := by
  simp only [structsIn, List.mem_filterMap]
  constructor
  · rintro ⟨d, hd, h⟩
    cases d <;> simp only [Option.some.injEq, reduceCtorEq] at h
    exact h ▸ hd
  · exact fun h => ⟨_, h, rfl⟩

/-- No function is called like a method that generated code uses. -/
theorem methods_named {ds : List Src.Directive}
    (h : ((structsIn ds).all fun s => s.functions.all fun f => !["len", "bits", "clone"].contains f.name) = true) :
    ∀ s, .struct s ∈ ds → ∀ f ∈ s.functions, f.name ∉ ["len", "bits", "clone"] := by
  intro s hs f hf hm
  have := List.all_eq_true.1 (List.all_eq_true.1 h s (mem_structsIn.2 hs)) f hf
  rw [List.contains_iff_mem.2 hm] at this
  cases this

/-- The types that expressions know in a package. -/
def typesOf (E B : String → Option Enumeration) (ss : List Src.Struct) (n : String) : Option ZTy :=
  match E n with
  | some e => some (.enum n e.base)
  | none => match B n with
    | some b => some (.bitmask n b.base)
    | none => (ss.find? fun s => s.name = n).map fun _ => .compound n

/-- With the structures. -/
def withStructs (K : Constants fo.F) (ss : List Src.Struct) : Constants fo.F :=
  { K with objects := fun n => (ss.find? fun s => s.name = n).map (partsOf (typesOf K.enums K.masks ss)) }

theorem withStructs_types (K : Constants fo.F) (ss : List Src.Struct) :
    (withStructs K ss).types = typesOf K.enums K.masks ss := by
  funext n
  simp only [Constants.types, withStructs, typesOf, Option.map_map]
  rfl

/-- The parameters, fields and functions of the structures can be looked up in every package. -/
theorem withStructs_stand (K : Constants fo.F) {ds : List Src.Directive}
    (hn : ((ds.filterMap declares).map Prod.fst).Nodup) : ObjectsStand ds (withStructs K (structsIn ds)) := by
  refine ⟨fun s hs => ?_, fun n h => ?_⟩
  · rw [withStructs_types]
    have : (structsIn ds).find? (fun x => x.name = s.name) = some s := by
      cases hf : (structsIn ds).find? (fun x => x.name = s.name) with
      | none => exact absurd (decide_eq_true rfl) (List.find?_eq_none.1 hf s (mem_structsIn.2 hs))
      | some x =>
        have h1 := mem_structsIn.1 (List.mem_of_find?_eq_some hf)
        have h2 : x.name = s.name := by simpa using List.find?_some hf
        have := directive_unique hn h1 hs (n := s.name) (by simp [declares, h2]) (by simp [declares])
        cases this
        rfl
    simp only [withStructs, this, Option.map_some]
  · simp only [withStructs, Option.map_eq_none_iff, List.find?_eq_none, decide_eq_true_eq]
    exact fun s hs => h s (mem_structsIn.1 hs)

theorem itemsStand_get : ∀ {is : List Src.Item} {ks : List (Option Int)} {next : Int} {i : Nat} {item : Src.Item},
    ItemsStand is ks → is[i]? = some item → ∃ k, (enumValuesFrom next ks)[i]? = some k
  | [], _, _, _, _, _, h => by simp at h
  | _ :: _, [], _, _, _, hs, _ => by simp [ItemsStand] at hs
  | _ :: is, k :: ks, next, 0, item, hs, h => ⟨_, rfl⟩
  | _ :: is, k :: ks, next, i + 1, item, hs, h => by
    simp only [ItemsStand] at hs
    exact itemsStand_get (is := is) (ks := ks) hs.2 (by simpa using h)

theorem mem_zipIdx {α : Type} {l : List α} {a : α} {i : Nat} (h : (a, i) ∈ l.zipIdx) : a ∈ l :=
  List.mem_of_getElem? (List.mk_mem_zipIdx_iff_getElem?.1 h)

theorem member_hidden {T : String → Option ZTy} {ds : List Src.Directive} {s : Src.Struct} {n : String}
    (h : n ∈ visible ds s) : memberNamed T s n = none := by
  simp only [visible, List.mem_filter, decide_eq_true_eq] at h
  rw [memberNamed, List.find?_eq_none]
  intro m hm he
  apply h.2
  simp only [membersOf, List.mem_append, List.mem_map, Prod.exists, decide_eq_true_eq] at hm he
  subst he
  rcases hm with ⟨p, i, hp, rfl⟩ | ⟨f, i, hf, rfl⟩
  · exact List.mem_append_left _ (List.mem_append_left _ (List.mem_map_of_mem (mem_zipIdx hp)))
  · exact List.mem_append_left _ (List.mem_append_right _ (List.mem_map_of_mem
      (f := fun f : Src.StructField => f.typeId.name) (mem_zipIdx hf)))

theorem func_hidden {ds : List Src.Directive} {s : Src.Struct} {n : String} (h : n ∈ visible ds s) :
    funcNamed s n = none := by
  simp only [visible, List.mem_filter, decide_eq_true_eq] at h
  rw [funcNamed, List.find?_eq_none]
  intro f hf he
  apply h.2
  simp only [decide_eq_true_eq] at he
  subst he
  exact List.mem_append_right _ (List.mem_map_of_mem hf)

theorem named_zip {b : NumRef} : ∀ {ns : List String} {vs : List Int} {i : Nat} {n : String} {k : Int}, ns.Nodup →
    ns[i]? = some n → vs[i]? = some k → Enumeration.named ⟨b, ns.zip vs⟩ n = some k
  | [], _, _, _, _, _, h, _ => by simp at h
  | _ :: _, [], _, _, _, _, _, h => by simp at h
  | m :: ns, v :: vs, 0, n, k, _, h, h' => by
    simp only [List.getElem?_cons_zero, Option.some.injEq] at h h'
    subst h h'
    simp [Enumeration.named]
  | m :: ns, v :: vs, i + 1, n, k, hn, h, h' => by
    simp only [List.getElem?_cons_succ] at h h'
    have hne : m ≠ n := by
      rintro rfl
      exact (List.nodup_cons.1 hn).1 (List.mem_of_getElem? h)
    have := named_zip (b := b) (List.nodup_cons.1 hn).2 h h'
    simpa [Enumeration.named, hne] using this

/-! ## Values of constants -/

/-- The value of a constant in Rust is the value of its expression. -/
theorem const_value (hs : ConstsStand round P.directives K) (hf : ConstsFit md round P.directives K)
    {c : Src.Const} (hc : c ∈ constsIn P.directives) {x : Expr fo.F} {R : RTy} {z : ZTy}
    (hz : K.ty c.name = some z) (hx : Stands round (globals P.directives) c.value x)
    (hR : constRust z = some R) {v : Datum fo.F Object} (hv : means (constWorld K) x = some v) (build : Mode)
    (o : Res (Datum fo.F Object)) :
    Evals (constWorld K) (rscope (constScope K.names)) build (code md (constScope K.names) x) R o ↔ o = .ok v := by
  obtain ⟨ht, hfit⟩ := hf c hc z x R hz hx hR
  exact (C70_value_partial (constScope_ordinary K) (constWorld_conforms (stand_good hs)) build x R v ht hv hfit).1 o

theorem constRust_some {z : ZTy} {v : Datum fo.F Object} (h : ConstHas z v) : ∃ R, constRust z = some R := by
  cases z <;> cases v <;> simp_all [ConstHas, constRust, valueTy]

theorem consts_unique (hQ : visitPackage (floatText fo round display) P = .ok Q)
    (hn : ((P.directives.filterMap declares).map Prod.fst).Nodup) (hs : ConstsStand round P.directives K)
    (hf : ConstsFit md round P.directives K) (hK' : ConstsSeen md esc (fileSymbols Q) K')
    (hu : K'.calls = K.calls) : K' = K := by
  have he : K'.enums = K.enums := (enums_seen hQ hn hs.enums).1 hK'.enums
  have hb : K'.masks = K.masks := (masks_seen hQ hn hs.masks).1 hK'.masks
  have ho := (types_unique he hb hs.objects ((objects_seen hQ hn).1 hK'.objects)).2
  obtain ⟨ty', val', enums', masks', objects', calls'⟩ := K'
  obtain rfl : calls' = K.calls := hu
  obtain rfl : enums' = K.enums := he
  obtain rfl : masks' = K.masks := hb
  obtain rfl : objects' = K.objects := ho
  have hty : ty' = K.ty := (funext hK'.ty).trans (constType_stand hQ hn hs)
  subst hty
  obtain ⟨rank, hrank⟩ := hK'.acyclic
  have key : ∀ k n, rank n < k → val' n = K.value n := by
    intro k
    induction k with
    | zero => exact fun n h => absurd h (by omega)
    | succ k ih =>
      intro n hk
      by_cases hm : n ∈ (constsIn P.directives).map Src.Const.name
      · obtain ⟨c, hc, rfl⟩ := List.mem_map.1 hm
        obtain ⟨d, hd, hdt, hdx⟩ := const_found hQ hn hc
        obtain ⟨t, z, x, v, ht, hz, hx, hmean, hhas, hk1, hk2⟩ := hs.declared c hc
        rw [ht] at hdt
        obtain ⟨e, R, v', he, hR, -, hev, hv'⟩ := hK'.value _ _ _ hd ((hdt K).trans (typeIn_num hz))
        obtain rfl : x = e := by simpa [hdx _ _ hx] using he
        have hag := evals_agree (f := K.value) (g := fun _ => none) _ _ _ (fun m hm => ⟨?_, rfl⟩) hev
        · have := (const_value hs hf hc hk1 hx hR hmean .debug (.ok v')).1 hag
          cases this
          exact hv'.trans hk2.symm
        · by_cases h0 : K.ty m = none
          · rw [(stand_good hs).none m h0]
            exact hK'.others m h0
          · exact ih m (by have := hrank _ _ _ hd he m hm h0; omega)
      · rw [(hs.others n hm).2]
        exact hK'.others n (hs.others n hm).1
  obtain ⟨ty, val, enums, masks, objects, calls⟩ := K
  have : val' = val := funext fun n => key (rank n + 1) n (by omega)
  rw [this]

theorem consts_exist (hQ : visitPackage (floatText fo round display) P = .ok Q)
    (hn : ((P.directives.filterMap declares).map Prod.fst).Nodup) (hs : ConstsStand round P.directives K)
    (hf : ConstsFit md round P.directives K) (ha : ConstsAcyclic md round P.directives K) :
    ConstsSeen md esc (fileSymbols Q) K where
  enums := (enums_seen hQ hn hs.enums).2 rfl
  masks := (masks_seen hQ hn hs.masks).2 rfl
  objects := (objects_seen hQ hn).2 hs.objects
  ty n := by rw [constType_stand hQ hn hs]
  value n d t hd ht := by
    obtain ⟨c, hc, rfl⟩ := const_declared (fl := floatText fo round display) hQ hd
    obtain ⟨d', hd', hdt, hdx⟩ := const_found hQ hn hc
    obtain rfl : d' = d := by simpa [hd'] using hd
    obtain ⟨t', z, x, v, ht', hz, hx, hmean, hhas, hk1, hk2⟩ := hs.declared c hc
    have hdt := hdt K
    rw [ht', ht, typeIn_num hz] at hdt
    cases hdt
    obtain ⟨R, hR⟩ := constRust_some hhas
    exact ⟨x, R, v, hdx _ _ hx, hR, (hf c hc _ x R hk1 hx hR).1,
      (const_value hs hf hc hk1 hx hR hmean .debug _).2 rfl, hk2⟩
  others n h := (stand_good hs).none n h
  acyclic := by
    obtain ⟨rank, hr⟩ := ha
    refine ⟨rank, fun n d e hd he m hm => ?_⟩
    obtain ⟨c, hc, rfl⟩ := const_declared (fl := floatText fo round display) hQ hd
    obtain ⟨d', hd', hdt, hdx⟩ := const_found hQ hn hc
    obtain rfl : d' = d := by simpa [hd'] using hd
    obtain ⟨t', z, x, v, ht', hz, hx, -⟩ := hs.declared c hc
    obtain rfl : x = e := by simpa [hdx _ _ hx] using he
    exact hr c hc x hx m hm

end

end Zs
