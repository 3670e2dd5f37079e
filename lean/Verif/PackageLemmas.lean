import Verif.PackageSpec
import Verif.PackageCode
import Verif.TextLemmas
import Verif.LabelLemmas

/-!
# Lemmas: from the text of a package to the functions that are emitted
-/

namespace Zs

open Ast Spec Emit

variable {fo : FloatOps} {K : Constants fo.F} {round : List Char → fo.F} {display : fo.F → List Char} {float : Val → fo.F}

/-! ## Declarations in the symbol table -/

/-- The symbol is the visited declaration. -/
inductive Visited (fl : FloatText) : Src.Directive → Ast.Symbol fl.F → Prop
  | struct {s x} : visitStruct fl s = .ok x → Visited fl (.struct s) (.struct x)
  | choice {s x} : visitChoice fl s = .ok x → Visited fl (.choice s) (.choice x)
  | union {s x} : visitUnion fl s = .ok x → Visited fl (.union s) (.union x)
  | enum {s x} : visitEnum fl s = .ok x → Visited fl (.enum s) (.enum x)
  | bitmask {s x} : visitBitmask fl s = .ok x → Visited fl (.bitmask s) (.bitmask x)
  | const {s x} : visitConst fl s = .ok x → Visited fl (.const s) (.const x)
  | subtype {s x} : visitAlias s = .ok x → Visited fl (.subtype s) (.subtype x)

section
variable {fl : FloatText}

theorem symbol_visited {p : Src.Package} {q : Ast.Package fl.F} (c : Components fl p q) {n : String}
    {s : Symbol fl.F} (h : fileSymbols q n = some s) :
    ∃ d ∈ p.directives, (declares d).map Prod.fst = some n ∧ Visited fl d s := by
  simp only [fileSymbols] at h
  rcases insertAll_mem h with ⟨x, hx, rfl, rfl⟩ | h
  · obtain ⟨d, hd, e⟩ := visitList_mem' c.subtypes x hx
    exact ⟨_, mem_subtypesOf.1 hd, by simp [declares, visitAlias_name e], .subtype e⟩
  rcases insertAll_mem h with ⟨x, hx, rfl, rfl⟩ | h
  · obtain ⟨d, hd, e⟩ := visitList_mem' c.enums x hx
    exact ⟨_, mem_enumsOf.1 hd, by simp [declares, visitEnum_name e], .enum e⟩
  rcases insertMap_mem h with ⟨x, hx, rfl⟩ | h
  · obtain ⟨xs, h1, h2⟩ := c.unions
    rw [h2] at hx
    obtain ⟨hy, rfl⟩ := insertAll_empty_mem hx
    obtain ⟨d, hd, e⟩ := visitList_mem' h1 x hy
    exact ⟨_, mem_unionsOf.1 hd, by simp [declares, visitUnion_name e], .union e⟩
  rcases insertMap_mem h with ⟨x, hx, rfl⟩ | h
  · obtain ⟨xs, h1, h2⟩ := c.choices
    rw [h2] at hx
    obtain ⟨hy, rfl⟩ := insertAll_empty_mem hx
    obtain ⟨d, hd, e⟩ := visitList_mem' h1 x hy
    exact ⟨_, mem_choicesOf.1 hd, by simp [declares, visitChoice_name e], .choice e⟩
  rcases insertMap_mem h with ⟨x, hx, rfl⟩ | h
  · obtain ⟨xs, h1, h2⟩ := c.structs
    rw [h2] at hx
    obtain ⟨hy, rfl⟩ := insertAll_empty_mem hx
    obtain ⟨d, hd, e⟩ := visitList_mem' h1 x hy
    exact ⟨_, mem_structsOf.1 hd, by simp [declares, visitStruct_name e], .struct e⟩
  rcases insertAll_mem h with ⟨x, hx, rfl, rfl⟩ | h
  · obtain ⟨d, hd, e⟩ := visitList_mem' c.bitmasks x hx
    exact ⟨_, mem_bitmasksOf.1 hd, by simp [declares, visitBitmask_name e], .bitmask e⟩
  rcases insertAll_mem h with ⟨x, hx, rfl, rfl⟩ | h
  · obtain ⟨d, hd, e⟩ := visitList_mem' c.consts x hx
    exact ⟨_, mem_constsOf.1 hd, by simp [declares, visitConst_name e], .const e⟩
  · simp [Map.empty] at h

theorem directive_unique : ∀ {ds : List Src.Directive}, ((ds.filterMap declares).map Prod.fst).Nodup →
    ∀ {d d' : Src.Directive} {n : String}, d ∈ ds → d' ∈ ds → (declares d).map Prod.fst = some n →
    (declares d').map Prod.fst = some n → d = d'
  | [], _, d, _, _, hd, _, _, _ => by cases hd
  | x :: ds, h, d, d', n, hd, hd', e, e' => by
    have hmem : ∀ y ∈ ds, (declares y).map Prod.fst = some n → n ∈ (ds.filterMap declares).map Prod.fst := by
      intro y hy ey
      obtain ⟨D, hD, rfl⟩ := Option.map_eq_some_iff.1 ey
      exact List.mem_map.2 ⟨D, List.mem_filterMap.2 ⟨y, hy, hD⟩, rfl⟩
    have hx : (declares x).map Prod.fst = some n → n ∉ (ds.filterMap declares).map Prod.fst := by
      intro ex
      obtain ⟨D, hD, rfl⟩ := Option.map_eq_some_iff.1 ex
      rw [List.filterMap_cons_some hD, List.map_cons, List.nodup_cons] at h
      exact h.1
    have hrest : ((ds.filterMap declares).map Prod.fst).Nodup := by
      cases hD : declares x with
      | none => rwa [List.filterMap_cons_none hD] at h
      | some D =>
        rw [List.filterMap_cons_some hD, List.map_cons, List.nodup_cons] at h
        exact h.2
    rcases List.mem_cons.1 hd with h1 | h1 <;> rcases List.mem_cons.1 hd' with h2 | h2
    · rw [h1, h2]
    · exact absurd (hmem _ h2 e') (hx (h1 ▸ e))
    · exact absurd (hmem _ h1 e) (hx (h2 ▸ e'))
    · exact directive_unique hrest h1 h2 e e'

/-- Under the name of a declaration is the visited declaration. -/
theorem symbol_found {p : Src.Package} {q : Ast.Package fl.F} (h : visitPackage fl p = .ok q)
    (hn : ((p.directives.filterMap declares).map Prod.fst).Nodup) {d : Src.Directive} (hd : d ∈ p.directives)
    {n : String} (e : (declares d).map Prod.fst = some n) : ∃ s, fileSymbols q n = some s ∧ Visited fl d s := by
  obtain ⟨⟨m, D⟩, hD, rfl⟩ := Option.map_eq_some_iff.1 e
  cases hs : fileSymbols q m with
  | none => exact absurd hs (fileSymbols_some (components h) hd hD)
  | some s =>
    obtain ⟨d', hd', e', hv⟩ := symbol_visited (components h) hs
    rw [directive_unique hn hd hd' e e']
    exact ⟨s, rfl, hv⟩

/-! ## Unions and choices as structures -/

theorem visit_bare {f : Src.ChoiceField} {x : Ast.Field fl.F} (h : visitChoiceField fl f = .ok x) :
    visitStructField fl (bare f) = .ok x := by
  simp only [visitChoiceField] at h
  have h' := h
  simp only [visitFieldTypeId, Res.bind_eq_ok, Res.ok.injEq] at h
  obtain ⟨t, ht, a, ha, rfl⟩ := h
  simp [visitStructField, bare, h', visitOption]

theorem visit_bares : ∀ {fs : List Src.ChoiceField} {xs : List (Ast.Field fl.F)},
    visitList (visitChoiceField fl) fs = .ok xs → visitList (visitStructField fl) (fs.map bare) = .ok xs
  | [], xs, h => by simpa [visitList] using h
  | f :: fs, xs, h => by
    simp only [visitList, Res.bind_eq_ok, Res.ok.injEq] at h
    obtain ⟨x, hx, ys, hys, rfl⟩ := h
    simp [visitList, visit_bare hx, visit_bares hys]

theorem visit_union {u : Src.Union} {x : Ast.Union fl.F} (h : visitUnion fl u = .ok x) :
    visitStruct fl (Union.shape u) = .ok x.asStruct := by
  simp only [visitUnion, Res.bind_eq_ok, Res.ok.injEq] at h
  obtain ⟨ps, hps, fs, hfs, us, hus, rfl⟩ := h
  simp [visitStruct, Union.shape, hps, visit_bares hfs, hus, Ast.Union.asStruct]

theorem visit_cases : ∀ {cs : List Src.Cases} {xs : List (Ast.Case fl.F)},
    visitList (visitCases fl) cs = .ok xs →
    visitList (visitStructField fl) ((cs.filterMap Src.Cases.field).map bare) = .ok (xs.filterMap Ast.Case.field)
  | [], xs, h => by
    simp only [visitList, Res.ok.injEq] at h
    subst h
    rfl
  | c :: cs, xs, h => by
    simp only [visitList, Res.bind_eq_ok, Res.ok.injEq] at h
    obtain ⟨x, hx, ys, hys, rfl⟩ := h
    simp only [visitCases, Res.bind_eq_ok, Res.ok.injEq] at hx
    obtain ⟨ls, hls, f, hf, rfl⟩ := hx
    have ih := visit_cases hys
    cases hc : c.field with
    | none =>
      rw [hc] at hf
      simp only [visitOption, Res.ok.injEq] at hf
      subst hf
      rw [List.filterMap_cons_none hc, List.filterMap_cons_none rfl]
      exact ih
    | some g =>
      rw [hc] at hf
      simp only [visitOption, Res.bind_eq_ok, Res.ok.injEq] at hf
      obtain ⟨y, hy, rfl⟩ := hf
      rw [List.filterMap_cons_some hc, List.filterMap_cons_some (f := Ast.Case.field) (b := y) rfl]
      simp [visitList, visit_bare hy, ih]

theorem visit_choice {c : Src.Choice} {x : Ast.Choice fl.F} (h : visitChoice fl c = .ok x) :
    visitStruct fl (Choice.shape c) = .ok x.asStruct := by
  simp only [visitChoice, Res.bind_eq_ok, Res.ok.injEq] at h
  obtain ⟨e, he, ps, hps, cs, hcs, us, hus, rfl⟩ := h
  simp [visitStruct, Choice.shape, hps, visit_cases hcs, hus, Ast.Choice.asStruct]

/-! ## What expressions see -/

theorem visitList_zip {α β γ : Type} {f : α → Res β} {u : α × Nat → γ} {v : β × Nat → γ}
    (h : ∀ a b k, f a = .ok b → v (b, k) = u (a, k)) : ∀ {as : List α} {bs : List β} (k : Nat),
    visitList f as = .ok bs → (bs.zipIdx k).map v = (as.zipIdx k).map u
  | [], bs, k, hb => by
    simp only [visitList, Res.ok.injEq] at hb
    subst hb
    rfl
  | a :: as, bs, k, hb => by
    simp only [visitList, Res.bind_eq_ok, Res.ok.injEq] at hb
    obtain ⟨b, h1, cs, h2, rfl⟩ := hb
    simp [List.zipIdx_cons, h a b k h1, visitList_zip h (k + 1) h2]

theorem members_visit {K : Constants fl.F} {s : Src.Struct} {d : Ast.Struct fl.F} (h : visitStruct fl s = .ok d) :
    d.members K = membersOf K.types s := by
  simp only [visitStruct, Res.bind_eq_ok, Res.ok.injEq] at h
  obtain ⟨ps, hps, fs, hfs, us, hus, rfl⟩ := h
  unfold Ast.Struct.members membersOf
  congr 1
  · refine visitList_zip (f := visitParam) ?_ 0 hps
    intro a b k hb
    simp only [visitParam, Res.bind_eq_ok, Res.ok.injEq] at hb
    obtain ⟨t, ht, rfl⟩ := hb
    simp [Ast.Symbol.symb, names_types, zty_visit ht]
  · refine visitList_zip (f := visitStructField fl) ?_ 0 hfs
    intro a b k hb
    obtain ⟨h1, h2, -⟩ := visitStructField_parts hb
    simp [Ast.Symbol.symb, h1, names_types, zty_inst h2, shape_visit hb]

theorem methods_visit {K : Constants fl.F} {s : Src.Struct} {d : Ast.Struct fl.F} (h : visitStruct fl s = .ok d) :
    d.methods K = methodsOf K.types s := by
  simp only [visitStruct, Res.bind_eq_ok, Res.ok.injEq] at h
  obtain ⟨ps, hps, fs, hfs, us, hus, rfl⟩ := h
  unfold Ast.Struct.methods methodsOf
  simp only
  generalize s.functions = as at hus
  induction as generalizing us with
  | nil =>
    simp only [visitList, Res.ok.injEq] at hus
    subst hus
    rfl
  | cons a as ih =>
    simp only [visitList, Res.bind_eq_ok, Res.ok.injEq] at hus
    obtain ⟨b, h1, bs, h2, rfl⟩ := hus
    obtain ⟨h3, h4, -⟩ := visitFunc_parts h1
    simp only [List.map_cons]
    rw [ih bs h2]
    simp [Ast.Symbol.symb, h3, names_types, zty_visit h4]

theorem look_visit {s : Src.Struct} {d : Ast.Struct fl.F} (h : visitStruct fl s = .ok d) (float : Val → fl.F)
    {K : Constants fl.F} (hs : Heads K.enums s) : d.look float K = textLook float K s := by
  have hname : d.name = s.name := by
    simp only [visitStruct, Res.bind_eq_ok, Res.ok.injEq] at h
    obtain ⟨ps, hps, fs, hfs, us, hus, rfl⟩ := h
    rfl
  funext env
  have hfun := func_visit h
  simp only [Ast.Struct.look, textLook, members_visit h, scope_visit h hs.names, World.mk.injEq, and_true]
  constructor
  · funext n
    have hf := hfun n
    cases hm : memberNamed K.types s n with
    | some m =>
      simp only [memberNamed] at hm
      simp only [hm]
    | none =>
      simp only [memberNamed] at hm
      simp only [hm]
      cases hu : funcNamed s n <;> cases hd : d.functions.find? (fun f => f.name = n) <;> rw [hu, hd] at hf <;>
        exact hf.elim
  · funext n
    have hf := hfun n
    cases hu : funcNamed s n <;> cases hd : d.functions.find? (fun f => f.name = n) <;> rw [hu, hd] at hf
    · split <;> rfl
    · exact hf.elim
    · exact hf.elim
    · simp only [func_no_member K.types hs.names hu, Option.bind_some, names_types, zty_visit (visitFunc_parts hf).2.1,
        hname]

end

/-! ## Numbers -/

theorem int_stands {known : List String} {e : Src.Exp} {k : Int} (h : IntText e k) :
    ∃ x : Expr fo.F, Stands round known e x ∧ ((x = .intLit k) ∨ ∃ n, 0 ≤ n ∧ x = .neg (.intLit n) ∧ k = -n) := by
  cases h with
  | lit hw hb => exact ⟨_, .int hw hb, .inl rfl⟩
  | neg hw hb => exact ⟨_, .unary (op := .minus) (.int hw hb), .inr ⟨_, Int.natCast_nonneg _, rfl, rfl⟩⟩

theorem int_evaluates {md : Mode} {sc : EScope fo.F} {x : Expr fo.F} {k : Int}
    (h : (x = .intLit k) ∨ ∃ n, 0 ≤ n ∧ x = .neg (.intLit n) ∧ k = -n) : ∃ r, x.evaluate md sc = .ok (.int k, r) := by
  rcases h with rfl | ⟨n, hn, rfl, rfl⟩
  · exact ⟨_, rfl⟩
  · have : ¬ n = IntTy.i32.min := by
      simp only [IntTy.min, IntTy.i32, if_true]
      omega
    exact ⟨true, by simp [Expr.evaluate, evalNeg, this]⟩

/-- The visited number. -/
theorem int_visit {e : Src.Exp} {k : Int} (h : IntText e k) {n : Ast.Node fo.F}
    (hn : visitExp (floatText fo round display) e = .ok n) :
    ∃ x, n.expr = some x ∧ ((x = .intLit k) ∨ ∃ n, 0 ≤ n ∧ x = .neg (.intLit n) ∧ k = -n) := by
  obtain ⟨x, hx, hk⟩ := int_stands (round := round) (known := []) h
  exact ⟨x, expr_visit hx n hn, hk⟩

theorem enum_values {md : Mode} {sc : EScope fo.F} : ∀ {is : List Src.Item} {items : List (Option Int)} {next : Int},
    ItemsStand is items → (∀ k ∈ enumValuesFrom next items, -2 ^ 31 ≤ k ∧ k < 2 ^ 31 - 1) →
    ∀ {ys : List (Ast.Item fo.F)}, visitList (visitItem (floatText fo round display)) is = .ok ys →
    ∃ xs, ys.map (fun i => exprOption i.value) = xs.map some ∧
      enumItemValues md sc next xs = .ok (enumValuesFrom next items)
  | [], [], _, _, _, ys, hy => by
    simp only [visitList, Res.ok.injEq] at hy
    subst hy
    exact ⟨[], rfl, rfl⟩
  | [], _ :: _, _, h, _, _, _ => h.elim
  | _ :: _, [], _, h, _, _, _ => h.elim
  | i :: is, k :: ks, next, h, hr, ys, hy => by
    simp only [visitList, visitItem, Res.bind_eq_ok, Res.ok.injEq] at hy
    obtain ⟨y, ⟨v, hv, rfl⟩, ys, hys, rfl⟩ := hy
    obtain ⟨h1, h2⟩ := h
    simp only [enumValuesFrom, List.mem_cons, forall_eq_or_imp] at hr
    obtain ⟨xs, hxs, hvs⟩ := enum_values (md := md) (sc := sc) h2 hr.2 hys
    have hadd : ArithOp.compile .add md (k.getD next) 1 = .ok (k.getD next + 1) := by
      have : IntTy.i32.Contains (k.getD next + 1) := by
        simp only [IntTy.Contains, IntTy.min, IntTy.max, IntTy.i32, if_true]
        omega
      simp [ArithOp.compile, ArithOp.undefined, ArithOp.exact, this]
    cases hi : i.value with
    | none =>
      rw [hi] at h1 hv
      cases k with
      | some _ => exact h1.elim
      | none =>
        simp only [visitOption, Res.ok.injEq] at hv
        subst hv
        refine ⟨none :: xs, by simpa [exprOption] using hxs, ?_⟩
        simp only [Option.getD_none] at hadd hvs
        simp [enumItemValues, enumValuesFrom, hadd, hvs]
    | some e =>
      rw [hi] at h1 hv
      cases k with
      | none => exact h1.elim
      | some k =>
        simp only [visitOption, Res.bind_eq_ok, Res.ok.injEq] at hv
        obtain ⟨n, hn, rfl⟩ := hv
        obtain ⟨x, hx, hk⟩ := int_visit h1 hn
        obtain ⟨r, hev⟩ := int_evaluates (md := md) (sc := sc) hk
        refine ⟨some x :: xs, by simpa [exprOption, hx] using hxs, ?_⟩
        simp only [Option.getD_some] at hadd hvs
        simp [enumItemValues, enumValuesFrom, hev, hadd, hvs]

theorem bitmask_values {md : Mode} {sc : EScope fo.F} : ∀ {is : List (String × Option Src.Exp)} {ks : List Nat}
    {next : Nat}, ValuesStand next is ks →
    ∀ {ys : List (Ast.Item fo.F)}, visitList (visitBitmaskValue (floatText fo round display)) is = .ok ys →
    ∃ xs, ys.map (fun i => exprOption i.value) = xs.map some ∧ bitmaskItemValues md sc next xs = .ok ks
  | [], [], _, _, ys, hy => by
    simp only [visitList, Res.ok.injEq] at hy
    subst hy
    exact ⟨[], rfl, rfl⟩
  | [], _ :: _, _, h, _, _ => h.elim
  | (_, _) :: _, [], _, h, _, _ => h.elim
  | (m, e) :: is, k :: ks, next, h, ys, hy => by
    simp only [visitList, visitBitmaskValue, Res.bind_eq_ok, Res.ok.injEq] at hy
    obtain ⟨y, ⟨v, hv, rfl⟩, ys, hys, rfl⟩ := hy
    obtain ⟨h1, hk, h2⟩ := h
    have hnext : (if k = 0 then 1 else k * 2 % 2 ^ 64) = if k = 0 then 1 else 2 * k := by
      split
      · rfl
      · rw [Nat.mod_eq_of_lt (by omega), Nat.mul_comm]
    obtain ⟨xs, hxs, hvs⟩ := bitmask_values (md := md) (sc := sc) h2 hys
    cases e with
    | none =>
      have h1 : k = next := h1
      subst h1
      simp only [visitOption, Res.ok.injEq] at hv
      subst hv
      refine ⟨none :: xs, by simpa [exprOption] using hxs, ?_⟩
      simp only [bitmaskItemValues, Res.ok_bind, hnext, hvs]
      rfl
    | some e =>
      obtain ⟨h1, hle⟩ := (show IntText e k ∧ (k = 0 ∨ next ≤ k) from h1)
      simp only [visitOption, Res.bind_eq_ok, Res.ok.injEq] at hv
      obtain ⟨n, hn, rfl⟩ := hv
      obtain ⟨x, hx, hk'⟩ := int_visit h1 hn
      obtain ⟨r, hev⟩ := int_evaluates (md := md) (sc := sc) hk'
      have hu : asU64 (k : Int) = k := by
        unfold asU64
        omega
      have hn : ¬ (k < next ∧ k ≠ 0) := by omega
      refine ⟨some x :: xs, by simpa [exprOption, hx] using hxs, ?_⟩
      simp only [bitmaskItemValues, hev, Res.ok_bind, hu, if_neg hn, pure_bind, hnext, hvs]
      rfl

end Zs
