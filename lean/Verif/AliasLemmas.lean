import Verif.Alias
import Verif.AliasSpec
import Verif.PackageLemmas
import Verif.ResolveLemmas

/-!
# Lemmas: subtypes
-/

namespace Zs

open Ast Spec

/-! ## `get_fundamental_type` has one result -/

section
variable {F : Type} {T T' : Map (Symbol F)}

theorem underlying_more : ∀ {n m : Nat} {t : Ast.TypeRef F} {r : Res (Ast.TypeRef F)}, underlying T n t = some r →
    n ≤ m → underlying T m t = some r
  | 0, _, _, _, h, _ => by simp [underlying] at h
  | n + 1, 0, _, _, _, hm => absurd hm (by omega)
  | n + 1, m + 1, .mk b p name bits ts as l, r, h, hm => by
    cases b with
    | true => simpa [underlying] using h
    | false =>
      simp only [underlying, Bool.false_eq_true, if_false] at h ⊢
      split at h
      · exact underlying_more h (by omega)
      all_goals first | exact h | (split <;> simp_all)

theorem Spec.Underlies.unique {t a b : Ast.TypeRef F} : Underlies T t a → Underlies T t b → a = b
  | ⟨n, h1⟩, ⟨m, h2⟩ => by
    rcases Nat.le_total n m with hl | hl
    · have := (underlying_more h1 hl).symm.trans h2
      simpa using this
    · have := h1.symm.trans (underlying_more h2 hl)
      simpa using this

theorem all2_unique {α β : Type} {R : α → β → Prop} (hR : ∀ a b b', R a b → R a b' → b = b') {as : List α}
    {bs bs' : List β} (h : All2 R as bs) (h' : All2 R as bs') : bs = bs' := by
  induction h generalizing bs' with
  | nil => cases h'; rfl
  | cons h1 _ ih =>
    cases h' with
    | cons h2 hs => rw [hR _ _ _ h1 h2, ih hs]

theorem opt2_unique {α β : Type} {R : α → β → Prop} (hR : ∀ a b b', R a b → R a b' → b = b') {a : Option α}
    {b b' : Option β} (h : Opt2 R a b) (h' : Opt2 R a b') : b = b' := by
  cases h <;> cases h'
  · rfl
  · rename_i h1 _ h2
    rw [hR _ _ _ h1 h2]

theorem fieldTo_unique (a b b' : Ast.Field F) : FieldTo (Underlies T) a b → FieldTo (Underlies T) a b' → b = b'
  | ⟨_, h1, e1⟩, ⟨_, h2, e2⟩ => by rw [e1, e2, h1.unique h2]

theorem paramTo_unique (a b b' : Ast.Param F) : ParamTo (Underlies T) a b → ParamTo (Underlies T) a b' → b = b'
  | ⟨_, h1, e1⟩, ⟨_, h2, e2⟩ => by rw [e1, e2, h1.unique h2]

theorem funcTo_unique (a b b' : Ast.Func F) : FuncTo (Underlies T) a b → FuncTo (Underlies T) a b' → b = b'
  | ⟨_, h1, e1⟩, ⟨_, h2, e2⟩ => by rw [e1, e2, h1.unique h2]

theorem caseTo_unique (a b b' : Ast.Case F) : CaseTo (Underlies T) a b → CaseTo (Underlies T) a b' → b = b'
  | ⟨_, h1, e1⟩, ⟨_, h2, e2⟩ => by rw [e1, e2, opt2_unique fieldTo_unique h1 h2]

theorem symbolUnder_unique (a b b' : Symbol F) (h : SymbolUnder T a b) (h' : SymbolUnder T a b') : b = b' := by
  cases h <;> cases h'
  case struct.struct h1 _ h2 =>
    obtain ⟨_, _, _, a1, a2, a3, e1⟩ := h1
    obtain ⟨_, _, _, b1, b2, b3, e2⟩ := h2
    rw [e1, e2, all2_unique fieldTo_unique a1 b1, all2_unique paramTo_unique a2 b2,
      all2_unique funcTo_unique a3 b3]
  case choice.choice h1 _ h2 =>
    obtain ⟨_, _, _, _, a1, a2, a3, a4, e1⟩ := h1
    obtain ⟨_, _, _, _, b1, b2, b3, b4, e2⟩ := h2
    rw [e1, e2, all2_unique caseTo_unique a1 b1, opt2_unique caseTo_unique a2 b2,
      all2_unique paramTo_unique a3 b3, all2_unique funcTo_unique a4 b4]
  case union.union h1 _ h2 =>
    obtain ⟨_, _, _, a1, a2, a3, e1⟩ := h1
    obtain ⟨_, _, _, b1, b2, b3, e2⟩ := h2
    rw [e1, e2, all2_unique fieldTo_unique a1 b1, all2_unique paramTo_unique a2 b2,
      all2_unique funcTo_unique a3 b3]
  case const.const h1 _ h2 =>
    obtain ⟨_, a1, e1⟩ := h1
    obtain ⟨_, b1, e2⟩ := h2
    rw [e1, e2, a1.unique b1]
  all_goals rfl

/-- The generator sees one table. -/
theorem tableUnder_unique {T1 T2 : Map (Symbol F)} (h1 : TableUnder T T1) (h2 : TableUnder T T2) : T1 = T2 :=
  funext fun n => opt2_unique symbolUnder_unique (h1 n) (h2 n)

end

/-! ## Lists -/

theorem visitList_out {α β : Type} {f : α → Res β} {R : α → α → Prop} {S : β → β → Prop}
    (hf : ∀ a a' b, R a a' → f a = .ok b → ∃ b', f a' = .ok b' ∧ S b b') {as as' : List α} (hs : All2 R as as') :
    ∀ {bs : List β}, visitList f as = .ok bs → ∃ bs', visitList f as' = .ok bs' ∧ All2 S bs bs' := by
  induction hs with
  | nil =>
    intro bs h
    simp only [visitList, Res.ok.injEq] at h
    exact ⟨[], rfl, h ▸ .nil⟩
  | cons h1 _ ih =>
    intro bs h
    simp only [visitList, Res.bind_eq_ok, Res.ok.injEq] at h
    obtain ⟨b, hb, bs, hbs, rfl⟩ := h
    obtain ⟨b', hb', hr⟩ := hf _ _ _ h1 hb
    obtain ⟨bs', hbs', hrs⟩ := ih hbs
    exact ⟨b' :: bs', by simp [visitList, hb', hbs'], .cons hr hrs⟩

theorem visitOption_out {α β : Type} {f : α → Res β} {R : α → α → Prop} {S : β → β → Prop}
    (hf : ∀ a a' b, R a a' → f a = .ok b → ∃ b', f a' = .ok b' ∧ S b b') {a a' : Option α} (hs : Opt2 R a a')
    {b : Option β} (h : visitOption f a = .ok b) : ∃ b', visitOption f a' = .ok b' ∧ Opt2 S b b' := by
  cases hs with
  | none =>
    simp only [visitOption, Res.ok.injEq] at h
    exact ⟨none, rfl, h ▸ .none⟩
  | some h1 =>
    simp only [visitOption, Res.bind_eq_ok, Res.ok.injEq] at h
    obtain ⟨b, hb, rfl⟩ := h
    obtain ⟨b', hb', hr⟩ := hf _ _ _ h1 hb
    exact ⟨some b', by simp [visitOption, hb'], .some hr⟩

/-! ## Types -/

section
variable {fl : FloatText} {P P' : Src.Package} {Q : Ast.Package fl.F}

theorem withArgs_withArgs {F : Type} (t : Ast.TypeRef F) (as bs : List (Ast.Node F)) :
    (t.withArgs as).withArgs bs = t.withArgs bs := by
  cases t; rfl

/-- The declared type of the name. -/
theorem declared_symbol (hQ : visitPackage fl P = .ok Q) (hn : ((P.directives.filterMap declares).map Prod.fst).Nodup)
    {n : String} (h : TypeDeclared P.directives n) (p : List String) (as : List (Ast.Node fl.F)) :
    Underlies (fileSymbols Q) (.mk false p n 0 [] as none) (.mk false p n 0 [] as none) := by
  rcases h with ⟨d, hd, e⟩ | ⟨d, hd, e⟩ | ⟨d, hd, e⟩ | ⟨d, hd, e⟩ | ⟨d, hd, e⟩ <;>
    obtain ⟨s, hs, hv⟩ := symbol_found hQ hn hd (n := n) (by simp [declares, e]) <;> cases hv <;>
    exact ⟨1, by simp [underlying, hs]⟩

theorem alias_under (hQ : visitPackage fl P = .ok Q) (hn : ((P.directives.filterMap declares).map Prod.fst).Nodup)
    {t t' : Src.Ty} (h : AliasFor P.directives t t') : ∀ {r : Ast.TypeRef fl.F}, visitTy t = .ok r →
    ∃ r', visitTy t' = .ok r' ∧ ∀ as, Underlies (fileSymbols Q) (r.withArgs as) (r'.withArgs as) := by
  induction h with
  | builtin =>
    intro r hr
    refine ⟨r, hr, fun as => ⟨1, ?_⟩⟩
    simp only [visitTy, Res.ok.injEq] at hr
    subst hr
    simp [underlying, Ast.TypeRef.withArgs]
  | bits =>
    intro r hr
    refine ⟨r, hr, fun as => ⟨1, ?_⟩⟩
    simp only [visitTy] at hr
    split at hr
    · simp only [Res.ok.injEq] at hr
      subst hr
      simp [underlying, Ast.TypeRef.withArgs]
    · cases hr
  | declared h =>
    intro r hr
    refine ⟨r, hr, fun as => ?_⟩
    simp [visitTy, visitTy.visitTys] at hr
    subst hr
    exact declared_symbol hQ hn h _ _
  | @subtype a t hd _ ih =>
    intro r hr
    simp [visitTy, visitTy.visitTys] at hr
    subst hr
    obtain ⟨s, hs, hv⟩ := symbol_found hQ hn hd (n := a.name) (by simp [declares])
    cases hv with
    | subtype hx =>
      simp only [visitAlias, Res.bind_eq_ok, Res.ok.injEq] at hx
      obtain ⟨r1, hr1, rfl⟩ := hx
      obtain ⟨r', hr', hu⟩ := ih hr1
      refine ⟨r', hr', fun as => ?_⟩
      obtain ⟨k, hk⟩ := hu as
      exact ⟨k + 1, by simpa [underlying, Ast.TypeRef.withArgs, hs] using hk⟩

theorem visitTy_noArgs {F : Type} {t : Src.Ty} {r : Ast.TypeRef F} (h : visitTy t = .ok r) :
    r.withArgs [] = r := by
  cases t with
  | builtin n => simp only [visitTy, Res.ok.injEq] at h; subst h; rfl
  | fixedBits s n =>
    simp only [visitTy] at h
    split at h
    · simp only [Res.ok.injEq] at h; subst h; rfl
    · cases h
  | named n rest args =>
    simp only [visitTy, Res.bind_eq_ok, Res.ok.injEq] at h
    obtain ⟨_, _, rfl⟩ := h
    rfl

theorem ty_under (hQ : visitPackage fl P = .ok Q) (hn : ((P.directives.filterMap declares).map Prod.fst).Nodup)
    {t t' : Src.Ty} (h : AliasFor P.directives t t') {r : Ast.TypeRef fl.F} (hr : visitTy t = .ok r) :
    ∃ r', visitTy t' = .ok r' ∧ Underlies (fileSymbols Q) r r' := by
  obtain ⟨r', hr', hu⟩ := alias_under hQ hn h hr
  have := hu []
  rw [visitTy_noArgs hr, visitTy_noArgs hr'] at this
  exact ⟨r', hr', this⟩

/-! ## Fields and declarations -/

theorem inst_under (hQ : visitPackage fl P = .ok Q) (hn : ((P.directives.filterMap declares).map Prod.fst).Nodup)
    {i i' : Src.Inst} (h : InstOut P.directives i i') {r : Ast.TypeRef fl.F} (hr : visitInst fl i = .ok r) :
    ∃ r', visitInst fl i' = .ok r' ∧ Underlies (fileSymbols Q) r r' := by
  obtain ⟨ha, hargs, hl⟩ := h
  obtain ⟨t', as'⟩ := i'
  obtain ⟨t, as⟩ := i
  simp only at ha hargs hl
  subst hargs
  simp only [visitInst, Res.bind_eq_ok] at hr
  obtain ⟨r0, hr0, hr⟩ := hr
  obtain ⟨r', hr', hu⟩ := alias_under hQ hn ha hr0
  have h0 := hu []
  rw [visitTy_noArgs hr0, visitTy_noArgs hr'] at h0
  cases as' with
  | none =>
    simp only [Res.ok.injEq] at hr
    subst hr
    exact ⟨r', by simp [visitInst, hr'], h0⟩
  | args a as =>
    obtain ⟨b0, p0, n0, w0, ts0, as0, l0⟩ := r0
    obtain ⟨b1, p1, n1, w1, ts1, as1, l1⟩ := r'
    simp only [Res.bind_eq_ok, Res.ok.injEq] at hr
    obtain ⟨xs, hxs, rfl⟩ := hr
    refine ⟨.mk b1 p1 n1 w1 ts1 xs l1, ?_, hu xs⟩
    simp only [visitInst]
    rw [hr']
    show (visitList (visitArg fl) (a :: as) >>= _) = _
    rw [hxs]
    rfl
  | length e =>
    obtain ⟨n, rfl⟩ := hl e rfl
    cases ha
    obtain rfl : r0 = r' := by simpa using hr0.symm.trans hr'
    refine ⟨r, by simpa [visitInst, hr0] using hr, 1, ?_⟩
    simp only [visitTy, Res.ok.injEq] at hr0
    subst hr0
    simp only [Res.bind_eq_ok, Res.ok.injEq] at hr
    obtain ⟨x, hx, rfl⟩ := hr
    simp [underlying]

theorem typeId_under (hQ : visitPackage fl P = .ok Q) (hn : ((P.directives.filterMap declares).map Prod.fst).Nodup)
    {f : Src.FieldTypeId} {i : Src.Inst} (h : InstOut P.directives f.type i) {x : Ast.Field fl.F}
    (hx : visitFieldTypeId fl f = .ok x) :
    ∃ r', visitFieldTypeId fl { f with type := i } = .ok { x with type := r' } ∧
      Underlies (fileSymbols Q) x.type r' := by
  simp only [visitFieldTypeId, Res.bind_eq_ok, Res.ok.injEq] at hx
  obtain ⟨r, hr, array, harray, rfl⟩ := hx
  obtain ⟨r', hr', hu⟩ := inst_under hQ hn h hr
  refine ⟨r', ?_, hu⟩
  simp only [visitFieldTypeId, Res.bind_eq_ok]
  exact ⟨r', hr', array, harray, rfl⟩

theorem field_under (hQ : visitPackage fl P = .ok Q) (hn : ((P.directives.filterMap declares).map Prod.fst).Nodup)
    (f f' : Src.StructField) (x : Ast.Field fl.F) (h : FieldOut P.directives f f')
    (hx : visitStructField fl f = .ok x) :
    ∃ x', visitStructField fl f' = .ok x' ∧ FieldTo (Underlies (fileSymbols Q)) x x' := by
  obtain ⟨i, hi, rfl⟩ := h
  simp only [visitStructField, Res.bind_eq_ok] at hx
  obtain ⟨y, hy, a, ha, o, ho, ini, hini, cl, hcl, co, hco, hx⟩ := hx
  obtain ⟨r', hr', hu⟩ := typeId_under hQ hn hi hy
  simp only [Res.ok.injEq] at hx
  subst hx
  refine ⟨_, ?_, r', hu, rfl⟩
  simp only [visitStructField, Res.bind_eq_ok]
  exact ⟨_, hr', a, ha, o, ho, ini, hini, cl, hcl, co, hco, rfl⟩

theorem member_under (hQ : visitPackage fl P = .ok Q) (hn : ((P.directives.filterMap declares).map Prod.fst).Nodup)
    (f f' : Src.ChoiceField) (x : Ast.Field fl.F) (h : MemberOut P.directives f f')
    (hx : visitChoiceField fl f = .ok x) :
    ∃ x', visitChoiceField fl f' = .ok x' ∧ FieldTo (Underlies (fileSymbols Q)) x x' := by
  obtain ⟨i, hi, rfl⟩ := h
  obtain ⟨r', hr', hu⟩ := typeId_under hQ hn hi hx
  exact ⟨_, hr', r', hu, rfl⟩

theorem case_under (hQ : visitPackage fl P = .ok Q) (hn : ((P.directives.filterMap declares).map Prod.fst).Nodup)
    (c c' : Src.Cases) (x : Ast.Case fl.F) (h : CasesOut P.directives c c') (hx : visitCases fl c = .ok x) :
    ∃ x', visitCases fl c' = .ok x' ∧ CaseTo (Underlies (fileSymbols Q)) x x' := by
  obtain ⟨f, hf, rfl⟩ := h
  simp only [visitCases, Res.bind_eq_ok, Res.ok.injEq] at hx
  obtain ⟨cs, hcs, y, hy, rfl⟩ := hx
  obtain ⟨y', hy', hu⟩ := visitOption_out (member_under hQ hn) hf hy
  refine ⟨⟨cs, y'⟩, ?_, y', hu, rfl⟩
  simp only [visitCases, Res.bind_eq_ok]
  exact ⟨cs, hcs, y', hy', rfl⟩

theorem param_under (hQ : visitPackage fl P = .ok Q) (hn : ((P.directives.filterMap declares).map Prod.fst).Nodup)
    (p p' : Src.Param) (x : Ast.Param fl.F) (h : ParamOut P.directives p p') (hx : visitParam p = .ok x) :
    ∃ x', visitParam p' = .ok x' ∧ ParamTo (Underlies (fileSymbols Q)) x x' := by
  obtain ⟨t, ht, rfl⟩ := h
  simp only [visitParam, Res.bind_eq_ok, Res.ok.injEq] at hx
  obtain ⟨r, hr, rfl⟩ := hx
  obtain ⟨r', hr', hu⟩ := ty_under hQ hn ht hr
  exact ⟨⟨p.name, r'⟩, by simp [visitParam, hr'], r', hu, rfl⟩

theorem func_under (hQ : visitPackage fl P = .ok Q) (hn : ((P.directives.filterMap declares).map Prod.fst).Nodup)
    (f f' : Src.Func) (x : Ast.Func fl.F) (h : FuncOut P.directives f f') (hx : visitFunc fl f = .ok x) :
    ∃ x', visitFunc fl f' = .ok x' ∧ FuncTo (Underlies (fileSymbols Q)) x x' := by
  obtain ⟨t, ht, rfl⟩ := h
  simp only [visitFunc, Res.bind_eq_ok, Res.ok.injEq] at hx
  obtain ⟨b, hb, r, hr, rfl⟩ := hx
  obtain ⟨r', hr', hu⟩ := ty_under hQ hn ht hr
  exact ⟨⟨f.name, b, r'⟩, by simp [visitFunc, hb, hr'], r', hu, rfl⟩

/-- What the generator sees of a declaration is the declaration without subtypes. -/
theorem visited_under (hQ : visitPackage fl P = .ok Q) (hn : ((P.directives.filterMap declares).map Prod.fst).Nodup)
    {d d' : Src.Directive} (h : DirectiveOut P.directives d d') {s : Symbol fl.F} (hs : Visited fl d s) :
    ∃ s', Visited fl d' s' ∧ SymbolUnder (fileSymbols Q) s s' := by
  cases h with
  | struct hps hfs hgs =>
    cases hs with
    | struct hx =>
      simp only [visitStruct, Res.bind_eq_ok, Res.ok.injEq] at hx
      obtain ⟨ps, h1, fs, h2, gs, h3, rfl⟩ := hx
      obtain ⟨ps', h1', u1⟩ := visitList_out (param_under hQ hn) hps h1
      obtain ⟨fs', h2', u2⟩ := visitList_out (field_under hQ hn) hfs h2
      obtain ⟨gs', h3', u3⟩ := visitList_out (func_under hQ hn) hgs h3
      exact ⟨_, .struct (by simp only [visitStruct, Res.bind_eq_ok]; exact ⟨_, h1', _, h2', _, h3', rfl⟩),
        .struct ⟨_, _, _, u2, u1, u3, rfl⟩⟩
  | choice hps hcs hgs =>
    cases hs with
    | choice hx =>
      simp only [visitChoice, Res.bind_eq_ok, Res.ok.injEq] at hx
      obtain ⟨e, he, ps, h1, cs, h2, gs, h3, rfl⟩ := hx
      obtain ⟨ps', h1', u1⟩ := visitList_out (param_under hQ hn) hps h1
      obtain ⟨cs', h2', u2⟩ := visitList_out (case_under hQ hn) hcs h2
      obtain ⟨gs', h3', u3⟩ := visitList_out (func_under hQ hn) hgs h3
      exact ⟨_, .choice (by simp only [visitChoice, Res.bind_eq_ok]; exact ⟨_, he, _, h1', _, h2', _, h3', rfl⟩),
        .choice ⟨_, _, _, _, u2, .none, u1, u3, rfl⟩⟩
  | union hps hfs hgs =>
    cases hs with
    | union hx =>
      simp only [visitUnion, Res.bind_eq_ok, Res.ok.injEq] at hx
      obtain ⟨ps, h1, fs, h2, gs, h3, rfl⟩ := hx
      obtain ⟨ps', h1', u1⟩ := visitList_out (param_under hQ hn) hps h1
      obtain ⟨fs', h2', u2⟩ := visitList_out (member_under hQ hn) hfs h2
      obtain ⟨gs', h3', u3⟩ := visitList_out (func_under hQ hn) hgs h3
      exact ⟨_, .union (by simp only [visitUnion, Res.bind_eq_ok]; exact ⟨_, h1', _, h2', _, h3', rfl⟩),
        .union ⟨_, _, _, u2, u1, u3, rfl⟩⟩
  | enum => cases hs with | enum hx => exact ⟨_, .enum hx, .enum⟩
  | bitmask => cases hs with | bitmask hx => exact ⟨_, .bitmask hx, .bitmask⟩
  | const hi =>
    cases hs with
    | const hx =>
      simp only [visitConst, Res.bind_eq_ok, Res.ok.injEq] at hx
      obtain ⟨r, hr, v, hv, rfl⟩ := hx
      obtain ⟨r', hr', hu⟩ := inst_under hQ hn hi hr
      exact ⟨_, .const (by simp only [visitConst, Res.bind_eq_ok]; exact ⟨_, hr', _, hv, rfl⟩), .const ⟨_, hu, rfl⟩⟩
  | subtype => cases hs with | subtype hx => exact ⟨_, .subtype hx, .subtype⟩
  | instantiate => cases hs
  | other => cases hs

/-! ## Packages -/

theorem directiveOut_name {ds : List Src.Directive} {d d' : Src.Directive} (h : DirectiveOut ds d d') :
    (declares d').map Prod.fst = (declares d).map Prod.fst := by
  cases h <;> simp [declares]

theorem directivesOut_names {ds as bs : List Src.Directive} (h : All2 (DirectiveOut ds) as bs) :
    (bs.filterMap declares).map Prod.fst = (as.filterMap declares).map Prod.fst := by
  induction h with
  | nil => rfl
  | @cons a b as bs h _ ih =>
    have e := directiveOut_name h
    cases ha : declares a <;> cases hb : declares b <;> simp_all

theorem all2_mem {α β : Type} {R : α → β → Prop} {as : List α} {bs : List β} (h : All2 R as bs) {a : α} (ha : a ∈ as) :
    ∃ b ∈ bs, R a b := by
  induction h with
  | nil => cases ha
  | cons h _ ih =>
    rcases List.mem_cons.1 ha with rfl | ha
    · exact ⟨_, by simp, h⟩
    · obtain ⟨b, hb, hr⟩ := ih ha
      exact ⟨b, by simp [hb], hr⟩

theorem all2_mem' {α β : Type} {R : α → β → Prop} {as : List α} {bs : List β} (h : All2 R as bs) {b : β} (hb : b ∈ bs) :
    ∃ a ∈ as, R a b := by
  induction h with
  | nil => cases hb
  | cons h _ ih =>
    rcases List.mem_cons.1 hb with rfl | hb
    · exact ⟨_, by simp, h⟩
    · obtain ⟨a, ha, hr⟩ := ih hb
      exact ⟨a, by simp [ha], hr⟩

/-- Whether a declaration is accepted does not depend on those in front of it. -/
theorem addDirective_any {p q p' : Ast.Package fl.F} {d : Src.Directive} (h : addDirective fl p d = .ok q) :
    ∃ q', addDirective fl p' d = .ok q' := by
  cases d <;> simp only [addDirective, Res.bind_eq_ok] at h ⊢ <;> obtain ⟨x, hx, -⟩ := h <;> exact ⟨_, x, hx, rfl⟩

theorem addDirective_out (hQ : visitPackage fl P = .ok Q)
    (hn : ((P.directives.filterMap declares).map Prod.fst).Nodup) {p q p' : Ast.Package fl.F} {d d' : Src.Directive}
    (ho : DirectiveOut P.directives d d') (h : addDirective fl p d = .ok q) : ∃ q', addDirective fl p' d' = .ok q' := by
  cases ho
  case struct hps hfs hgs =>
    simp only [addDirective, Res.bind_eq_ok] at h
    obtain ⟨x, hx, -⟩ := h
    obtain ⟨s', hv, -⟩ := visited_under hQ hn (.struct hps hfs hgs) (.struct hx)
    cases hv with
    | struct hx' => exact ⟨_, by simp only [addDirective, Res.bind_eq_ok]; exact ⟨_, hx', rfl⟩⟩
  case choice hps hfs hgs =>
    simp only [addDirective, Res.bind_eq_ok] at h
    obtain ⟨x, hx, -⟩ := h
    obtain ⟨s', hv, -⟩ := visited_under hQ hn (.choice hps hfs hgs) (.choice hx)
    cases hv with
    | choice hx' => exact ⟨_, by simp only [addDirective, Res.bind_eq_ok]; exact ⟨_, hx', rfl⟩⟩
  case union hps hfs hgs =>
    simp only [addDirective, Res.bind_eq_ok] at h
    obtain ⟨x, hx, -⟩ := h
    obtain ⟨s', hv, -⟩ := visited_under hQ hn (.union hps hfs hgs) (.union hx)
    cases hv with
    | union hx' => exact ⟨_, by simp only [addDirective, Res.bind_eq_ok]; exact ⟨_, hx', rfl⟩⟩
  case const hi =>
    simp only [addDirective, Res.bind_eq_ok] at h
    obtain ⟨x, hx, -⟩ := h
    obtain ⟨s', hv, -⟩ := visited_under hQ hn (.const hi) (.const hx)
    cases hv with
    | const hx' => exact ⟨_, by simp only [addDirective, Res.bind_eq_ok]; exact ⟨_, hx', rfl⟩⟩
  all_goals exact addDirective_any h

theorem addDirectives_out (hQ : visitPackage fl P = .ok Q)
    (hn : ((P.directives.filterMap declares).map Prod.fst).Nodup) {as bs : List Src.Directive}
    (ho : All2 (DirectiveOut P.directives) as bs) : ∀ {p q p' : Ast.Package fl.F}, addDirectives fl p as = .ok q →
    ∃ q', addDirectives fl p' bs = .ok q' := by
  induction ho with
  | nil => exact fun {p q p'} _ => ⟨p', rfl⟩
  | cons h _ ih =>
    intro p q p' hq
    simp only [addDirectives, Res.bind_eq_ok] at hq
    obtain ⟨p1, h1, h2⟩ := hq
    obtain ⟨p1', h1'⟩ := addDirective_out (p' := p') hQ hn h h1
    obtain ⟨q', h2'⟩ := ih (p' := p1') h2
    exact ⟨q', by simp only [addDirectives, Res.bind_eq_ok]; exact ⟨_, h1', h2'⟩⟩

/-- The package without subtypes is accepted too. -/
theorem visit_out (hQ : visitPackage fl P = .ok Q) (hn : ((P.directives.filterMap declares).map Prod.fst).Nodup)
    (hw : WrittenOut P P') : ∃ Q', visitPackage fl P' = .ok Q' := by
  obtain ⟨ds, hds, rfl⟩ := hw
  have h := hQ
  simp only [visitPackage] at h ⊢
  split at h
  · cases h
  · rename_i name hname
    exact addDirectives_out hQ hn hds h

theorem names_out (hn : ((P.directives.filterMap declares).map Prod.fst).Nodup) (hw : WrittenOut P P') :
    ((P'.directives.filterMap declares).map Prod.fst).Nodup := by
  obtain ⟨ds, hds, rfl⟩ := hw
  rwa [directivesOut_names hds]

theorem visited_same {d : Src.Directive} {s s' : Symbol fl.F} (h : Visited fl d s) (h' : Visited fl d s') : s = s' := by
  cases h <;> cases h' <;> rename_i h1 _ h2 <;> have := h1.symm.trans h2 <;> simp_all

/-- What the generator sees of the symbols of a package are the symbols of the package without subtypes. -/
theorem table_out (hQ : visitPackage fl P = .ok Q) (hn : ((P.directives.filterMap declares).map Prod.fst).Nodup)
    (hw : WrittenOut P P') {Q' : Ast.Package fl.F} (hQ' : visitPackage fl P' = .ok Q') :
    TableUnder (fileSymbols Q) (fileSymbols Q') := by
  have hn' := names_out hn hw
  obtain ⟨ds, hds, rfl⟩ := hw
  intro n
  cases hs : fileSymbols Q n with
  | some s =>
    obtain ⟨d, hd, e, hv⟩ := symbol_visited (components hQ) hs
    obtain ⟨d', hd', ho⟩ := all2_mem hds hd
    obtain ⟨s1, hv1, hu⟩ := visited_under hQ hn ho hv
    obtain ⟨s', hs', hv'⟩ := symbol_found hQ' hn' (d := d') hd' ((directiveOut_name ho).trans e)
    rw [hs', ← visited_same hv1 hv']
    exact .some hu
  | none =>
    cases hs' : fileSymbols Q' n with
    | none => exact .none
    | some s' =>
      obtain ⟨d', hd', e, _⟩ := symbol_visited (components hQ') hs'
      obtain ⟨d, hd, ho⟩ := all2_mem' hds hd'
      rw [directiveOut_name ho] at e
      obtain ⟨s, hs1, _⟩ := symbol_found hQ hn hd e
      rw [hs] at hs1
      cases hs1

end

end Zs
