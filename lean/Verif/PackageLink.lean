import Verif.PackageLemmas
import Verif.PropsCompile
import Verif.PropsLink

/-!
# Lemmas: the functions that are emitted for a package are those of its types
-/

namespace Zs

open Ast Spec Emit

variable {fo : FloatOps} {K : Constants fo.F} {round : List Char → fo.F} {display : fo.F → List Char} {float : Val → fo.F}
variable {cfg : Cfg} {md build : Mode} {esc : EScope fo.F}

/-! ## Builtin types -/

theorem scalar_named {t : Src.Ty} {s : Scalar} (h : scalarOf t = some s) {F : Type} {r : Ast.TypeRef F}
    (hr : visitTy t = .ok r) : ∃ name bits n, r = .mk true [] name bits [] [] none ∧
      BName.ofString name = some n ∧ ∀ E, IsScalar E n bits none s := by
  unfold scalarOf at h
  split at h <;> try simp only [Option.some.injEq, reduceCtorEq] at h
  all_goals first
    | (subst h
       simp only [visitTy, Res.ok.injEq] at hr
       subst hr
       exact ⟨_, _, _, rfl, rfl, fun E => by constructor⟩)
    | (split at h <;> simp only [Option.some.injEq, reduceCtorEq] at h
       subst h
       simp only [visitTy] at hr
       split at hr <;> simp only [Res.ok.injEq, reduceCtorEq] at hr
       subst hr
       split
       · exact ⟨_, _, _, rfl, rfl, fun E => .ints _ (by omega)⟩
       · exact ⟨_, _, _, rfl, rfl, fun E => .bits _ (by omega)⟩)

theorem scalar_unique {E E' : Env → Prop} {n : BName} {bits : Nat} {s s' : Scalar} (h : IsScalar E n bits none s)
    (h' : IsScalar E' n bits none s') : s = s' := by
  cases h <;> cases h' <;> first | rfl | omega

theorem scalar_default {E : Env → Prop} {n : BName} {bits : Nat} {s : Scalar} (h : IsScalar E n bits none s) :
    (RefTy.builtin n bits none).rust.default = s.dflt := by
  cases h <;> rfl

/-! ## Parameters -/

theorem named_ref {id : String} {F : Type} {r : Ast.TypeRef F} (h : visitTy (.named id [] []) = .ok r) :
    r = .mk false [] id 0 [] [] none := by
  simp only [visitTy] at h
  cases h
  rfl

/-- The parameter has a builtin type or an enumeration as its type. -/
def ParamKnown (K : Constants fo.F) (p : Src.Param) : Prop :=
  (∃ t, scalarOf p.type = some t) ∨ ∃ id e, p.type = .named id [] [] ∧ K.enums id = some e

theorem params_seen : ∀ {ps : List Src.Param} {qs : List (Ast.Param fo.F)} {vs : List Val},
    (∀ p ∈ ps, ParamKnown K p) → visitList visitParam ps = .ok qs → ParamsSeen K qs vs →
    vs = ps.map paramDefault
  | [], qs, vs, _, hq, h => by
    simp only [visitList, Res.ok.injEq] at hq
    subst hq
    cases vs with
    | nil => rfl
    | cons _ _ => exact h.elim
  | p :: ps, qs, vs, hp, hq, h => by
    simp only [visitList, visitParam, Res.bind_eq_ok, Res.ok.injEq] at hq
    obtain ⟨q, ⟨r, hr, rfl⟩, qs, hqs, rfl⟩ := hq
    cases vs with
    | nil => exact h.elim
    | cons v vs =>
      obtain ⟨h0, h⟩ := h
      rw [params_seen (fun p hp' => hp p (List.mem_cons_of_mem _ hp')) hqs h]
      rcases hp p List.mem_cons_self with ⟨t, ht⟩ | ⟨id, e, ht, -⟩
      · obtain ⟨name', bits', n', h1', h2', hs⟩ := scalar_named ht hr
        rcases h0 with ⟨name, bits, n, h1, h2, rfl⟩ | ⟨name, e, h1, -, -⟩
        · simp only at h1
          rw [h1'] at h1
          cases h1
          rw [h2'] at h2
          cases h2
          simp [paramDefault, ht, scalar_default (hs NoObject)]
        · simp only at h1
          rw [h1'] at h1
          cases h1
      · rw [ht] at hr
        have hr := named_ref hr
        rcases h0 with ⟨name, bits, n, h1, -, -⟩ | ⟨name, e, h1, -, rfl⟩
        · simp only at h1
          rw [hr] at h1
          cases h1
        · simp [paramDefault, ht, scalarOf]

theorem params_exist : ∀ {ps : List Src.Param} {qs : List (Ast.Param fo.F)},
    (∀ p ∈ ps, ParamKnown K p) → visitList visitParam ps = .ok qs → ∃ vs, ParamsSeen K qs vs
  | [], qs, _, hq => by
    simp only [visitList, Res.ok.injEq] at hq
    subst hq
    exact ⟨[], trivial⟩
  | p :: ps, qs, hp, hq => by
    simp only [visitList, visitParam, Res.bind_eq_ok, Res.ok.injEq] at hq
    obtain ⟨q, ⟨r, hr, rfl⟩, qs, hqs, rfl⟩ := hq
    obtain ⟨vs, hvs⟩ := params_exist (fun p hp' => hp p (List.mem_cons_of_mem _ hp')) hqs
    rcases hp p List.mem_cons_self with ⟨t, ht⟩ | ⟨id, e, ht, he⟩
    · obtain ⟨name, bits, n, h1, h2, hs⟩ := scalar_named ht hr
      exact ⟨_ :: vs, .inl ⟨name, bits, n, h1, h2, rfl⟩, hvs⟩
    · rw [ht] at hr
      exact ⟨_ :: vs, .inr ⟨id, e, named_ref hr, he, rfl⟩, hvs⟩

theorem visitList_length {α β : Type} {f : α → Res β} : ∀ {as : List α} {bs : List β}, visitList f as = .ok bs →
    bs.length = as.length
  | [], bs, h => by
    simp only [visitList, Res.ok.injEq] at h
    subst h
    rfl
  | a :: as, bs, h => by
    simp only [visitList, Res.bind_eq_ok, Res.ok.injEq] at h
    obtain ⟨b, h1, cs, h2, rfl⟩ := h
    simp [visitList_length h2]

theorem visitList_get {α β : Type} {f : α → Res β} : ∀ {as : List α} {bs : List β}, visitList f as = .ok bs →
    ∀ {i : Nat} {b : β}, bs[i]? = some b → ∃ a, as[i]? = some a ∧ f a = .ok b
  | [], bs, h, i, b, hb => by
    simp only [visitList, Res.ok.injEq] at h
    subst h
    simp at hb
  | a :: as, bs, h, i, b, hb => by
    simp only [visitList, Res.bind_eq_ok, Res.ok.injEq] at h
    obtain ⟨c, h1, cs, h2, rfl⟩ := h
    cases i with
    | zero =>
      simp only [List.getElem?_cons_zero, Option.some.injEq] at hb
      subst hb
      exact ⟨a, by simp, h1⟩
    | succ i =>
      simp only [List.getElem?_cons_succ] at hb
      obtain ⟨a', ha, he⟩ := visitList_get h2 hb
      exact ⟨a', by simpa using ha, he⟩

theorem visitList_get' {α β : Type} {f : α → Res β} {as : List α} {bs : List β} (h : visitList f as = .ok bs)
    {i : Nat} {a : α} (ha : as[i]? = some a) : ∃ b, bs[i]? = some b ∧ f a = .ok b := by
  have hl := visitList_length h
  obtain ⟨hi, -⟩ := List.getElem?_eq_some_iff.1 ha
  have hb : bs[i]? = some (bs[i]'(hl ▸ hi)) := List.getElem?_eq_getElem _
  obtain ⟨a', ha', he⟩ := visitList_get h hb
  rw [ha] at ha'
  cases ha'
  exact ⟨_, hb, he⟩

/-! ## Arguments -/

theorem stands_index {known : List String} {e : Src.Exp} {x : Expr fo.F} (h : Stands round known e x) :
    ∀ n, visitExp (floatText fo round display) e = .ok n → n.hasIndex = false := by
  induction h with
  | paren _ ih | lengthof _ ih | valueof _ ih | numbits _ ih =>
    intro n hn
    simp only [visitExp, Res.bind_eq_ok, Res.ok.injEq] at hn
    obtain ⟨a, ha, rfl⟩ := hn
    simp [operatorNode, Ast.Node.hasIndex, nodesHaveIndex, ih a ha]
  | call _ =>
    intro n hn
    simp only [visitExp, Res.bind_eq_ok, Res.ok.injEq] at hn
    obtain ⟨a, rfl, rfl⟩ := hn
    simp [operatorNode, Ast.Node.hasIndex, nodesHaveIndex]
  | method _ ih =>
    intro n hn
    simp only [visitExp, Res.bind_eq_ok, Res.ok.injEq] at hn
    obtain ⟨a, ⟨b, hb, rfl⟩, rfl⟩ := hn
    simp [operatorNode, Ast.Node.hasIndex, nodesHaveIndex, ih b hb]
  | unary _ ih =>
    rename_i op _ _ _
    intro n hn
    simp only [visitExp, Res.bind_eq_ok, Res.ok.injEq] at hn
    obtain ⟨a, ha, rfl⟩ := hn
    cases op <;> simp [operatorNode, Src.UnOp.token, Ast.Node.hasIndex, nodesHaveIndex, ih a ha]
  | elem _ _ ih1 ih2 | isset _ _ ih1 ih2 =>
    intro n hn
    simp only [visitExp, Res.bind_eq_ok, Res.ok.injEq] at hn
    obtain ⟨a, ha, b, hb, rfl⟩ := hn
    simp [operatorNode, Ast.Node.hasIndex, nodesHaveIndex, ih1 a ha, ih2 b hb]
  | binary _ _ ih1 ih2 =>
    rename_i op _ _ _ _ _ _
    intro n hn
    simp only [visitExp, Res.bind_eq_ok, Res.ok.injEq] at hn
    obtain ⟨a, ha, b, hb, rfl⟩ := hn
    cases op <;> simp [operatorNode, binaryNode, shiftToken, Src.BinOp.token, Ast.Node.hasIndex, nodesHaveIndex, ih1 a ha,
      ih2 b hb]
  | ternary _ _ _ ih1 ih2 ih3 =>
    intro n hn
    simp only [visitExp, Res.bind_eq_ok, Res.ok.injEq] at hn
    obtain ⟨a, ha, b, hb, c, hc, rfl⟩ := hn
    simp [operatorNode, Ast.Node.hasIndex, nodesHaveIndex, ih1 a ha, ih2 b hb, ih3 c hc]
  | int _ _ | true_ | false_ | string _ | float _ =>
    intro n hn
    simp only [visitExp, Res.bind_eq_ok, Res.ok.injEq] at hn
    obtain ⟨v, hv, rfl⟩ := hn
    simp [Ast.Node.hasIndex, nodesHaveIndex]
  | id _ =>
    intro n hn
    simp only [visitExp, Res.ok.injEq] at hn
    subst hn
    simp [Ast.Node.hasIndex, nodesHaveIndex]
  | dot _ ih =>
    intro n hn
    simp only [visitExp, Res.bind_eq_ok, Res.ok.injEq] at hn
    obtain ⟨a, ha, rfl⟩ := hn
    simp [operatorNode, Ast.Node.hasIndex, nodesHaveIndex, ih a ha]

theorem paramIs_ty {t : Src.Ty} {q : ParamTy} (h : ParamIs K.enums t q) :
    typeIn K.types t = some q.ty := by
  cases q with
  | num n => exact typeIn_num h.1
  | bool => exact typeIn_num h
  | string => exact typeIn_num h
  | enum id base ks =>
    obtain ⟨rfl, e, he, rfl, -⟩ := h
    simp [typeIn, Constants.types, he, ParamTy.ty]

theorem paramIs_seen {t : Src.Ty} {q : ParamTy} (h : ParamIs K.enums t q) {r : Ast.TypeRef fo.F}
    (hr : visitTy t = .ok r) : ParamSeen K r q := by
  refine ⟨(zty_names hr).trans (paramIs_ty h), ?_⟩
  rintro id base ks rfl
  obtain ⟨-, e, he, -, rfl, -⟩ := h
  exact ⟨e, he, rfl⟩

/-- The generator sees the type of the parameter, and no other. -/
theorem paramSeen_unique {t : Src.Ty} {q q' : ParamTy} (h : ParamIs K.enums t q) {r : Ast.TypeRef fo.F}
    (hr : visitTy t = .ok r) (h' : ParamSeen K r q') : q' = q := by
  obtain ⟨hz, hk⟩ := h'
  rw [zty_names hr, paramIs_ty h, Option.some.injEq] at hz
  cases q <;> cases q' <;> cases hz
  · rfl
  · rfl
  · rfl
  · obtain ⟨e, he, rfl⟩ := hk _ _ _ rfl
    obtain ⟨-, e', he', -, rfl, -⟩ := h
    rw [he] at he'
    cases he'
    rfl

theorem args_seen {sc : TScope} {look : Env → World fo.F Object} {known : List String} :
    ∀ {ps : List Src.Param} {as : List Src.Arg} {xs : List (ParamTy × Expr fo.F)} {qs : List (Ast.Param fo.F)}
      {ns : List (Ast.Node fo.F)} {gs : List Emit.Arg}, ArgsStand round K.enums known ps as xs →
    visitList visitParam ps = .ok qs → visitList (visitArg (floatText fo round display)) as = .ok ns →
    ArgsSeen md K sc build look qs ns gs → RunsArgs md sc build look xs gs ∧ gs.length = ps.length
  | [], [], [], qs, ns, gs, _, hq, hn, h => by
    simp only [visitList, Res.ok.injEq] at hq hn
    subst hq hn
    have h : gs = [] := h
    subst h
    exact ⟨trivial, rfl⟩
  | [], [], _ :: _, _, _, _, h, _, _, _ => h.elim
  | [], _ :: _, _, _, _, _, h, _, _, _ => h.elim
  | _ :: _, [], _, _, _, _, h, _, _, _ => h.elim
  | _ :: _, .explicit _ :: _, _, _, _, _, h, _, _, _ => h.elim
  | _ :: _, .expr _ :: _, [], _, _, _, h, _, _, _ => h.elim
  | p :: ps, .expr e :: as, (n, x) :: xs, qs, ns, gs, ⟨ht, hx, hs⟩, hq, hn, h => by
    simp only [visitList, visitParam, Res.bind_eq_ok, Res.ok.injEq] at hq
    obtain ⟨q, ⟨r, hr, rfl⟩, qs, hqs, rfl⟩ := hq
    simp only [visitList, visitArg, Res.bind_eq_ok, Res.ok.injEq] at hn
    obtain ⟨m, hm, ns, hns, rfl⟩ := hn
    obtain ⟨y, t, a, gs, rfl, hy, hz, hu, hrun, h⟩ := h
    obtain ⟨hrs, hl⟩ := args_seen hs hqs hns h
    rw [expr_visit hx m hm] at hy
    cases hy
    cases paramSeen_unique ht hr hz
    have hfalse := stands_index hx m hm
    exact ⟨⟨hu.trans hfalse, hrun hfalse, hrs⟩, by simp [hl]⟩

theorem args_exist {sc : TScope} {look : Env → World fo.F Object} {known : List String} :
    ∀ {ps : List Src.Param} {as : List Src.Arg} {xs : List (ParamTy × Expr fo.F)} {qs : List (Ast.Param fo.F)}
      {ns : List (Ast.Node fo.F)}, ArgsStand round K.enums known ps as xs →
    visitList visitParam ps = .ok qs → visitList (visitArg (floatText fo round display)) as = .ok ns →
    ∃ gs, ArgsSeen md K sc build look qs ns gs
  | [], [], [], qs, ns, _, hq, hn => by
    simp only [visitList, Res.ok.injEq] at hq hn
    subst hq hn
    exact ⟨[], rfl⟩
  | [], [], _ :: _, _, _, h, _, _ => h.elim
  | [], _ :: _, _, _, _, h, _, _ => h.elim
  | _ :: _, [], _, _, _, h, _, _ => h.elim
  | _ :: _, .explicit _ :: _, _, _, _, h, _, _ => h.elim
  | _ :: _, .expr _ :: _, [], _, _, h, _, _ => h.elim
  | p :: ps, .expr e :: as, (n, x) :: xs, qs, ns, ⟨ht, hx, hs⟩, hq, hn => by
    simp only [visitList, visitParam, Res.bind_eq_ok, Res.ok.injEq] at hq
    obtain ⟨q, ⟨r, hr, rfl⟩, qs, hqs, rfl⟩ := hq
    simp only [visitList, visitArg, Res.bind_eq_ok, Res.ok.injEq] at hn
    obtain ⟨m, hm, ns, hns, rfl⟩ := hn
    obtain ⟨gs, hgs⟩ := args_exist hs hqs hns
    obtain ⟨run, hrun⟩ := runs_exists (look := look) (build := build) (rscope sc) (argumentCode md sc n.ty x)
      (· = n.rust) id (fun a b h => h)
    exact ⟨_, x, n, ⟨fun env _ => (run env).bind fun v => .ok (n.val v), false⟩, gs, rfl, expr_visit hx m hm,
      paramIs_seen ht hr, (stands_index hx m hm).symm, fun _ => ⟨run, fun _ _ => rfl, hrun⟩, hgs⟩

/-! ## Choices -/

theorem find_named {α : Type} (name : α → String) : ∀ {l : List α} {i : Nat} {a : α}, (l.map name).Nodup →
    l[i]? = some a → (l.find? fun b => name b = name a) = some a
  | b :: l, 0, a, _, h => by
    simp only [List.getElem?_cons_zero, Option.some.injEq] at h
    subst h
    simp
  | b :: l, i + 1, a, hn, h => by
    simp only [List.getElem?_cons_succ] at h
    simp only [List.map_cons, List.nodup_cons] at hn
    have hne : name b ≠ name a := fun he => hn.1 (he ▸ List.mem_map.2 ⟨a, List.mem_of_getElem? h, rfl⟩)
    simp [hne, find_named name hn.2 h]

theorem name_index {α : Type} (name : α → String) {l : List α} (hn : (l.map name).Nodup) {i j : Nat} {a b : α}
    (ha : l[i]? = some a) (hb : l[j]? = some b) (h : name a = name b) : i = j := by
  obtain ⟨hi, ei⟩ := List.getElem?_eq_some_iff.1 ha
  obtain ⟨hj, ej⟩ := List.getElem?_eq_some_iff.1 hb
  exact (List.getElem?_inj (i := i) (j := j) (by simpa using hi) hn).1 (by simp [ha, hb, h])

theorem map_some_inj {α : Type} {xs ys : List α} (h : xs.map some = ys.map some) : xs = ys := by
  have := congrArg (List.filterMap id) h
  simpa [List.filterMap_map, Function.comp_def] using this

/-- No values of labels. -/
def noLabels : LabelEnv := ⟨fun _ _ => 0, fun _ => none⟩

/-- A label that the generator writes as a pattern with the value; `t`: the name of the type of the selector. -/
structure IsLabel (K : Constants fo.F) (sc : TScope) (t : String) (x : Expr fo.F) (v : Datum fo.F Object) : Prop where
  plain : Plain noLabels sc t x
  value : (altsOf (completed t x)).map (altDatum K sc) = [some v]

/-- The selector is a parameter of the type. -/
def Selects (d : Ast.Choice fo.F) (q : ParamTy) : Prop :=
  ∃ (x : String) (i : Nat) (p : Ast.Param fo.F), d.selector.expr = some (.ident x) ∧ (d.params.map Ast.Param.name).Nodup ∧ d.params[i]? = some p ∧
    p.name = x ∧ ∀ id base ks, q = .enum id base ks → p.type.typeName = id

theorem item_label {sc : TScope} {id a : String} {base : NumRef} {e : Enumeration} {k : Int}
    (hi : sc.ident id = some ⟨.enum id base, .typeName⟩) (hsc : sc.hasItem = K.hasItem) (he : K.enums id = some e)
    (hk : e.named a = some k) : (itemVal noLabels sc id a).isSome ∧ K.item sc (.ident id) a = some (.enum k) := by
  constructor
  · simp [itemVal, hi, hsc, Constants.hasItem, he, hk]
  · simp [Constants.item, Expr.symbol, hi, he, hk]

theorem label_visit {s : Src.Struct} {q : ParamTy} {e : Src.Exp} {v : Datum fo.F Object} (h : LabelIs K s q e v)
    {n : Ast.Node fo.F} (hn : visitExp (floatText fo round display) e = .ok n) {t : String}
    (ht : ∀ id base ks, q = .enum id base ks → t = id) :
    ∃ x, n.expr = some x ∧ IsLabel K (textScope K s) t x v := by
  cases h with
  | int hk =>
    obtain ⟨x, hx, hxk⟩ := int_visit hk hn
    refine ⟨x, hx, ?_⟩
    rcases hxk with rfl | ⟨n, hn, rfl, rfl⟩
    · exact ⟨trivial, rfl⟩
    · exact ⟨hn, rfl⟩
  | true_ => exact ⟨_, expr_visit (round := round) (known := []) .true_ n hn, trivial, rfl⟩
  | false_ => exact ⟨_, expr_visit (round := round) (known := []) .false_ n hn, trivial, rfl⟩
  | @item id base ks e a k hq hi he hk =>
    have := ht _ _ _ hq
    subst this
    obtain ⟨h1, h2⟩ := item_label (K := K) hi rfl he hk
    exact ⟨_, expr_visit (round := round) (known := [a]) (.id (by simp)) n hn, h1, by simp [completed, altsOf, altDatum, h2]⟩
  | @dotted id base ks e a k hq hi he hk =>
    obtain ⟨h1, h2⟩ := item_label (K := K) hi rfl he hk
    exact ⟨_, expr_visit (round := round) (known := [id]) (.dot (.id (by simp))) n hn, h1,
      by simp [completed, altsOf, altDatum, h2]⟩

theorem labels_visit {s : Src.Struct} {q : ParamTy} {t : String} (ht : ∀ id base ks, q = .enum id base ks → t = id) :
    ∀ {es : List Src.Exp} {vs : List Val} {ns : List (Ast.Node fo.F)},
    LabelsStand K s q es vs → visitList (visitExp (floatText fo round display)) es = .ok ns →
    ∃ (xs : List (Expr fo.F)) (ks : List (Datum fo.F Object)), ns.map Ast.Node.expr = xs.map some ∧ vs = ks.map q.val ∧
      ((xs.map (completed t)).flatMap altsOf).map (altDatum K (textScope K s)) = ks.map some ∧
      (∀ x ∈ xs, Plain noLabels (textScope K s) t x) ∧ xs.length = es.length
  | [], [], ns, _, hn => by
    simp only [visitList, Res.ok.injEq] at hn
    subst hn
    exact ⟨[], [], rfl, rfl, rfl, by simp, rfl⟩
  | [], _ :: _, _, h, _ => h.elim
  | _ :: _, [], _, h, _ => h.elim
  | e :: es, v :: vs, ns, ⟨⟨k, hk, _, hv⟩, h⟩, hn => by
    subst hv
    simp only [visitList, Res.bind_eq_ok, Res.ok.injEq] at hn
    obtain ⟨m, hm, ns, hns, rfl⟩ := hn
    obtain ⟨xs, ks, h1, rfl, h3, h4, h5⟩ := labels_visit ht h hns
    obtain ⟨x, hx, hxk⟩ := label_visit hk hm ht
    refine ⟨x :: xs, k :: ks, by simp [hx, h1], rfl, ?_, ?_, by simp [h5]⟩
    · rw [List.map_cons, List.flatMap_cons, List.map_append, hxk.value, h3]
      rfl
    intro y hy
    rcases List.mem_cons.1 hy with rfl | hy
    · exact hxk.plain
    · exact h4 y hy

theorem arm_values {sc : TScope} {param : String → Option String} {x t : String} (hp : param x = some t)
    {xs : List (Expr fo.F)} (hx : ∀ x ∈ xs, Plain noLabels sc t x) (hne : xs ≠ []) {ts : List (Zs.Tok fo.F)}
    (h : armText md sc param (.ident x) xs = .ok ts) :
    alternatives sc 0 true ts = some ((xs.map (completed t)).flatMap altsOf) := by
  unfold armText at h
  obtain ⟨tss, htss, h⟩ := Res.bind_eq_ok.mp h
  cases h
  have hm := mapM_eq_ok htss
  have ht : (xs.map (completed t)).map (fun l => l.text md sc.erase (textInfo md sc)) = tss.map some := by
    clear hne htss h hx
    induction xs generalizing tss with
    | nil =>
      cases tss with
      | nil => rfl
      | cons _ _ => simp at hm
    | cons y xs ih =>
      cases tss with
      | nil => simp at hm
      | cons u tss =>
        simp only [List.map_cons, List.cons.injEq] at hm
        obtain ⟨l, hl, htext⟩ := labelText_eq hm.1
        rw [prefixLabel_completed hp] at hl
        cases hl
        simp only [List.map_cons, List.cons.injEq]
        exact ⟨htext, ih _ hm.2⟩
  refine (joinBar_patterned (xs.map (completed t)) tss (by simpa using hne) ht ?_).1 ?_
  · intro l hl
    obtain ⟨y, hy, rfl⟩ := List.mem_map.1 hl
    exact (plain_facts (md := md) y (hx y hy)).parsed
  · intro l hl
    obtain ⟨y, hy, rfl⟩ := List.mem_map.1 hl
    exact (plain_facts (md := md) y (hx y hy)).patterned

theorem labels_seen {s : Src.Struct} {q : ParamTy} {es : List Src.Exp} {vs : List Val} {c : Ast.Case fo.F}
    (hs : LabelsStand K s q es vs)
    (hne : es ≠ []) (hv : visitList (visitExp (floatText fo round display)) es = .ok c.conditions)
    {d : Ast.Choice fo.F} (hsc : d.asStruct.scope K.names = textScope K s) (hsel : Selects d q)
    {labels : List Val} (h : LabelsSeen md K d q c labels) : labels = vs := by
  obtain ⟨e, xs, ts, as, ks, he, hxs, harm, halt, hks, rfl⟩ := h
  obtain ⟨x, i, p, he', hnm, hp, rfl, ht⟩ := hsel
  obtain ⟨xs', ks', h1, rfl, h3, h4, h5⟩ := labels_visit ht hs hv
  rw [h1] at hxs
  have := map_some_inj hxs
  subst this
  have hx : xs' ≠ [] := by
    rintro rfl
    exact hne (List.length_eq_zero_iff.1 h5.symm)
  rw [he'] at he
  cases he
  rw [hsc] at harm halt hks
  rw [arm_values (by rw [find_named Ast.Param.name hnm hp]; rfl) h4 hx harm, Option.some.injEq] at halt
  subst halt
  rw [h3] at hks
  rw [map_some_inj hks]

theorem labels_exist {s : Src.Struct} {q : ParamTy} {es : List Src.Exp} {vs : List Val} {c : Ast.Case fo.F}
    (hs : LabelsStand K s q es vs)
    (hne : es ≠ []) (hv : visitList (visitExp (floatText fo round display)) es = .ok c.conditions)
    {d : Ast.Choice fo.F} (hsc : d.asStruct.scope K.names = textScope K s) (hsel : Selects d q) :
    ∃ labels, LabelsSeen md K d q c labels := by
  obtain ⟨x, i, p, he, hn, hp, hpx, ht⟩ := hsel
  obtain ⟨xs, ks, h1, rfl, h3, h4, h5⟩ := labels_visit ht hs hv
  have hx : xs ≠ [] := by
    rintro rfl
    exact hne (List.length_eq_zero_iff.1 h5.symm)
  have hparam : ((d.params.find? fun p => p.name = x).map fun p => p.type.typeName) = some p.type.typeName := by
    subst hpx
    rw [find_named Ast.Param.name hn hp]
    rfl
  have hlabel : ∀ y ∈ xs, ∃ ts, labelText md (textScope K s)
      (fun x => (d.params.find? fun p => p.name = x).map fun p => p.type.typeName) (.ident x) y = .ok ts := by
    intro y hy
    obtain ⟨ts, hts, -⟩ := plain_text (md := md) (sc := textScope K s) (env := noLabels)
      (param := fun x => (d.params.find? fun p => p.name = x).map fun p => p.type.typeName) hparam y (h4 y hy)
    exact ⟨ts, hts⟩
  obtain ⟨ts, hts⟩ : ∃ ts, armText md (textScope K s)
      (fun x => (d.params.find? fun p => p.name = x).map fun p => p.type.typeName) (.ident x) xs = .ok ts := by
    obtain ⟨tss, htss⟩ : ∃ tss, xs.mapM (labelText md (textScope K s)
      (fun x => (d.params.find? fun p => p.name = x).map fun p => p.type.typeName) (.ident x)) = .ok tss := by
      clear h1 h3 h4 h5 hx
      induction xs with
      | nil => exact ⟨[], rfl⟩
      | cons y ys ih =>
        obtain ⟨t, ht⟩ := hlabel y List.mem_cons_self
        obtain ⟨tss, htss⟩ := ih fun z hz => hlabel z (List.mem_cons_of_mem _ hz)
        exact ⟨t :: tss, by rw [List.mapM_cons, ht, htss]; rfl⟩
    exact ⟨joinBar tss, by unfold armText; rw [htss]; rfl⟩
  refine ⟨_, _, xs, ts, (xs.map (completed p.type.typeName)).flatMap altsOf, ks, he, h1, ?_, ?_, ?_, rfl⟩
  · rw [hsc]
    exact hts
  · rw [hsc]
    exact arm_values hparam h4 hx hts
  · rw [hsc]
    exact h3

/-- An enumeration as the type of a parameter is known by its name. -/
theorem param_named {t : Src.Ty} {q : ParamTy} (h : ParamIs K.enums t q) {r : Ast.TypeRef fo.F}
    (hr : visitTy t = .ok r) : ∀ id base ks, q = .enum id base ks → r.typeName = id := by
  rintro id base ks rfl
  obtain ⟨rfl, -⟩ := h
  rw [named_ref hr]
  rfl

theorem selects {c : Src.Choice} {d : Ast.Choice fo.F} (hd : visitChoice (floatText fo round display) c = .ok d)
    (hn : (c.params.map Src.Param.name).Nodup) {q : ParamTy} {sel : List Val → Val}
    (hs : SelectorIs K.enums c.params c.selector q sel) : Selects d q ∧ SelectorSeen K d q sel := by
  obtain ⟨i, p, hp, he, ht, -, rfl⟩ := hs
  simp only [visitChoice, Res.bind_eq_ok, Res.ok.injEq] at hd
  obtain ⟨m, hm, ps, hps, cs, hcs, us, hus, rfl⟩ := hd
  rw [he] at hm
  simp only [visitExp, Res.ok.injEq] at hm
  subst hm
  obtain ⟨p', hp', hqp⟩ := visitList_get' hps hp
  simp only [visitParam, Res.bind_eq_ok, Res.ok.injEq] at hqp
  obtain ⟨r, hr, rfl⟩ := hqp
  have hpn : ps.map Ast.Param.name = c.params.map Src.Param.name :=
    visitList_map (f := visitParam) (by
      intro a b hb
      simp only [visitParam, Res.bind_eq_ok, Res.ok.injEq] at hb
      obtain ⟨t, ht, rfl⟩ := hb
      rfl) hps
  exact ⟨⟨p.name, i, _, by simp [Ast.Node.expr], hpn ▸ hn, hp', rfl, param_named ht hr⟩,
    _, _, i, _, by simp [Ast.Node.expr]; rfl, rfl, hp', rfl, paramIs_seen ht hr, rfl⟩

theorem selector_seen {c : Src.Choice} {d : Ast.Choice fo.F} (hd : visitChoice (floatText fo round display) c = .ok d)
    (hn : (c.params.map Src.Param.name).Nodup) {n t : ParamTy} {sel sel' : List Val → Val}
    (hs : SelectorIs K.enums c.params c.selector n sel) (h : SelectorSeen K d t sel') : t = n ∧ sel' = sel := by
  obtain ⟨i, p, hp, he, ht, -, rfl⟩ := hs
  obtain ⟨e, x, j, q, h1, h2, h3, h4, h5, rfl⟩ := h
  simp only [visitChoice, Res.bind_eq_ok, Res.ok.injEq] at hd
  obtain ⟨m, hm, ps, hps, cs, hcs, us, hus, rfl⟩ := hd
  rw [he] at hm
  simp only [visitExp, Res.ok.injEq] at hm
  subst hm
  simp only [Ast.Node.expr, String.ofList_toList, Option.some.injEq] at h1
  subst h1
  simp only [selectorText, Option.some.injEq] at h2
  subst h2
  obtain ⟨p', hp', hq⟩ := visitList_get hps h3
  simp only [visitParam, Res.bind_eq_ok, Res.ok.injEq] at hq
  obtain ⟨r, hr, rfl⟩ := hq
  simp only at h4 h5
  have hij : i = j := name_index Src.Param.name hn hp hp' h4.symm
  subst hij
  rw [hp] at hp'
  cases hp'
  exact ⟨paramSeen_unique ht hr h5, rfl⟩

/-! ## Fields -/

section
variable {s : Src.Struct} {d : Ast.Struct fo.F} {known : List String} {f : Src.StructField} {m : Modifiers fo.F}
  {x : Ast.Field fo.F} {g : Emit.Field}

theorem mods_seen (hd : visitStruct (floatText fo round display) s = .ok d) (hh : Heads K.enums s)
    (ho : ∀ f ∈ s.fields, ∃ o, OffsetStands s f.offset o) (hf : ModsStand round s known f m)
    (hx : visitStructField (floatText fo round display) f = .ok x)
    (hg : SeenMods md build (d.look float K) K d x g)
    (ha : RunsArgs md (textScope K s) build (textLook float K s) m.args g.args)
    (har : g.args ≠ [] → ∃ c, g.ty = .compound c g.args.length ∧ c.dflt.params.length = g.args.length) :
    EmittedMods md (textScope K s) build (textLook float K s) m g := by
  have hsc : (d.scope K.names) = textScope K s := scope_visit hd hh.names
  have hlk : d.look float K = textLook float K s := look_visit hd float hh
  rw [hlk] at hg
  obtain ⟨h1, h2, h3, h4, h5, h6, h7⟩ := visitStructField_parts hx
  refine ⟨?_, ?_, ?_, ?_, ?_, ha, ?_, har⟩
  · rw [hg.optional, h4, hf.optional]
  · obtain ⟨e, he, hr⟩ := hg.clause
    rw [exprOption_visit hf.clause _ h7] at he
    cases he
    rw [← hsc]
    exact hr
  · rw [hg.alignment, h5, hf.alignment]
  · rw [hg.offset]
    exact offset_visit hf.offset h6
  · have ha := hf.array
    have hga := hg.array
    cases hw : m.array with
    | none =>
      rw [hw] at ha
      have ha : f.typeId.array = none := ha
      rw [ha] at h3
      simp only [visitOption, Res.ok.injEq] at h3
      rw [← h3] at hga
      have hga : g.array = none := hga
      rw [hga]
      trivial
    | some a =>
      obtain ⟨p, e⟩ := a
      rw [hw] at ha
      obtain ⟨rfl, -, e', he', hm⟩ := ha
      rw [he'] at h3
      simp only [visitOption, Res.bind_eq_ok, Res.ok.injEq] at h3
      obtain ⟨_, ⟨l, hl, rfl⟩, h3⟩ := h3
      rw [← h3] at hga
      obtain ⟨y, hy, hr⟩ := hga
      rw [exprOption_visit hm l hl] at hy
      cases hy
      rw [← hsc]
      exact hr
  · rw [hg.isOffsetField, Bool.eq_iff_iff, hf.isOffsetField]
    simp only [visitStruct, Res.bind_eq_ok, Res.ok.injEq] at hd
    obtain ⟨ps, hps, fs, hfs, us, hus, rfl⟩ := hd
    refine visitList_any ?_ hfs
    intro a ha b hb
    obtain ⟨_, hst⟩ := ho a ha
    obtain ⟨-, -, -, -, -, hb6, -⟩ := visitStructField_parts hb
    rw [h1]
    exact offset_marks hst hb6 _

theorem mods_exist (hf : ModsStand round s known f m) (hx : visitStructField (floatText fo round display) f = .ok x)
    {look : Env → World fo.F Object} (ref : RefTy) (args : List Emit.Arg) :
    ∃ g : Emit.Field, SeenMods md build look K d x g ∧ g.ty = ref ∧ g.args = args := by
  obtain ⟨-, -, h3, -, -, -, h7⟩ := visitStructField_parts hx
  obtain ⟨c, hc⟩ := exprOption_clause (md := md) (build := build) (look := look) (sc := d.scope K.names) m.clause
  obtain ⟨a, ha⟩ : ∃ a, ArraySeen md (d.scope K.names) build look x.array a := by
    have har := hf.array
    cases hwa : m.array with
    | none =>
      rw [hwa] at har
      rw [show f.typeId.array = none from har] at h3
      simp only [visitOption, Res.ok.injEq] at h3
      rw [← h3]
      exact ⟨none, rfl⟩
    | some px =>
      obtain ⟨p, y⟩ := px
      rw [hwa] at har
      obtain ⟨-, -, e, he, hy⟩ := har
      rw [he] at h3
      simp only [visitOption, Res.bind_eq_ok, Res.ok.injEq] at h3
      obtain ⟨_, ⟨l, hl, rfl⟩, h3⟩ := h3
      rw [← h3]
      obtain ⟨g, hg⟩ := runsArray_exists (md := md) (build := build) (look := look) (sc := d.scope K.names) f.typeId.packed y
      exact ⟨g, y, exprOption_visit hy _ hl, hg⟩
  exact ⟨⟨ref, x.optional, c, x.alignment, Ast.offsetKind x.offset, a, args, d.marks x⟩,
    ⟨rfl, rfl, rfl, rfl, ⟨_, exprOption_visit hf.clause _ h7, hc⟩, ha⟩, rfl, rfl⟩

end

/-- A builtin type is read as a builtin type. -/
theorem builtin_visit {known : List String} {i : Src.Inst} {t : WrittenTy fo.F} (h : TypeStands round known i t)
    {r : Ast.TypeRef fo.F} (hr : visitInst (floatText fo round display) i = .ok r) :
    ∃ name bits l, r = .mk true [] name bits [] [] l := by
  cases h with
  | scalar hsc =>
    simp only [visitInst, Res.bind_eq_ok, Res.ok.injEq] at hr
    obtain ⟨r', hr, rfl⟩ := hr
    obtain ⟨name, bits, n, rfl, -⟩ := scalar_named hsc hr
    exact ⟨_, _, _, rfl⟩
  | bit he | int he =>
    simp only [visitInst, visitTy, Res.bind_eq_ok, Res.ok.injEq] at hr
    obtain ⟨_, rfl, hr⟩ := hr
    simp only [Res.bind_eq_ok, Res.ok.injEq] at hr
    obtain ⟨l, hl, rfl⟩ := hr
    exact ⟨_, _, _, rfl⟩

/-- The name of a type with arguments. -/
theorem named_visit {i : Src.Inst} {name : String} {as : List Src.Arg} (hi : i.type = .named name [] [])
    (ha : argList i.args = some as) {r : Ast.TypeRef fo.F} (hr : visitInst (floatText fo round display) i = .ok r) :
    ∃ ns, r = .mk false [] name 0 [] ns none ∧ visitList (visitArg (floatText fo round display)) as = .ok ns := by
  simp only [visitInst, hi, visitTy, visitTy.visitTys, Res.bind_eq_ok, Res.ok.injEq] at hr
  obtain ⟨_, ⟨_, rfl, rfl⟩, hr⟩ := hr
  cases hargs : i.args with
  | none =>
    rw [hargs] at hr ha
    simp only [argList, Option.some.injEq] at ha
    subst ha
    simp only [Res.ok.injEq] at hr
    exact ⟨[], hr.symm, rfl⟩
  | args a as' =>
    rw [hargs] at hr ha
    simp only [argList, Option.some.injEq] at ha
    subst ha
    simp only [Res.bind_eq_ok, Res.ok.injEq] at hr
    obtain ⟨ns, hns, rfl⟩ := hr
    exact ⟨ns, rfl, hns⟩
  | length e =>
    rw [hargs] at ha
    simp [argList] at ha

/-! ## Types -/

section
variable {P : Src.Package} {Q : Ast.Package fo.F}

/-- What is to be known about the functions of a type. -/
def LinkedAs (cfg : Cfg) (md build : Mode) (float : Val → fo.F) (K : Constants fo.F) (esc : EScope fo.F) (round : List Char → fo.F)
    (ds : List Src.Directive) (Q : Ast.Package fo.F) (t : SourceTy fo.F Object) : Prop :=
  ∀ {name : String} {ps : List Src.Param} {c : Codec} {qs : List (Ast.Param fo.F)},
    t.Declares round float K ds name ps → CodeOf cfg md build float K esc (fileSymbols Q) name c qs →
    t.Linked cfg md build c ∧ visitList visitParam ps = .ok qs ∧ t.numParams = ps.length ∧
      c.dflt.params.length = ps.length

theorem field_linked {s : Src.Struct} {d : Ast.Struct fo.F} {known : List String} {f : Src.StructField}
    {m : Modifiers fo.F} {ty : SourceTy fo.F Object} {x : Ast.Field fo.F} {g : Emit.Field}
    (ih : LinkedAs cfg md build float K esc round P.directives Q ty)
    (hd : visitStruct (floatText fo round display) s = .ok d) (hh : Heads K.enums s)
    (ho : ∀ f ∈ s.fields, ∃ o, OffsetStands s f.offset o) (hf : ModsStand round s known f m)
    (ht : TypeIs round K.enums known f.typeId.type m.args (ty.Declares round float K P.directives) ty)
    (hx : visitStructField (floatText fo round display) f = .ok x) (h : FieldCode cfg md build float K esc (fileSymbols Q) d x g) :
    EmittedMods md (textScope K s) build (textLook float K s) m g ∧
      ty.Refers cfg md build (textScope K s) (textLook float K s) (ty.Linked cfg md build) g.ty := by
  have hsc : (d.scope K.names) = textScope K s := scope_visit hd hh.names
  have hlk : d.look float K = textLook float K s := look_visit hd float hh
  obtain ⟨-, h2, -⟩ := visitStructField_parts hx
  -- Builtin types.
  have hbuiltin : ∀ w : WrittenTy fo.F, TypeStands round known f.typeId.type w → m.args = [] →
      EmittedMods md (textScope K s) build (textLook float K s) m g ∧
      RunsType cfg md (textScope K s) build (textLook float K s) w g.ty := by
    intro w hw hargs
    cases h with
    | builtin hm hty ha =>
      refine ⟨mods_seen hd hh ho hf hx hm ?_ fun h => absurd ha h, type_seen hw h2 (by rw [← hsc, ← hlk]; exact hty)⟩
      rw [hargs, ha]
      trivial
    | named hm hty _ _ _ =>
      obtain ⟨name, bits, l, hr⟩ := builtin_visit hw h2
      rw [hr] at hty
      cases hty
  -- Types that have a declaration.
  have hnamed : (∃ name ps as, ty.Declares round float K P.directives name ps ∧ f.typeId.type.type = .named name [] [] ∧
      argList f.typeId.type.args = some as ∧ ArgsStand round K.enums known ps as m.args) →
      EmittedMods md (textScope K s) build (textLook float K s) m g ∧
      ∃ c, ty.Linked cfg md build c ∧ g.ty = .compound c ty.numParams := by
    rintro ⟨name, ps, as, hdecl, hn, ha, hargs⟩
    obtain ⟨ns, hr, hns⟩ := named_visit hn ha h2
    cases h with
    | builtin hm hty _ =>
      rw [hr] at hty
      exact absurd hty.1 (by decide)
    | named hm hty hcode hg hseen =>
      rw [hr] at hty
      cases hty
      obtain ⟨h1, h2, h3, h4⟩ := ih hdecl hcode
      rw [hsc, hlk] at hseen
      obtain ⟨h5, h6⟩ := args_seen hargs h2 hns hseen
      have hl := visitList_length h2
      refine ⟨mods_seen hd hh ho hf hx hm h5 fun _ => ⟨_, by rw [hg, hl, h6], by rw [h4, h6]⟩, _, h1, ?_⟩
      rw [hg, hl, h3]
  cases ty with
  | builtin s => exact hbuiltin _ ht.1 ht.2
  | bit e => exact hbuiltin _ ht.1 ht.2
  | int e => exact hbuiltin _ ht.1 ht.2
  | enum base items => exact hnamed ht
  | bitmask base first => exact hnamed ht
  | struct sc look dflts fields => exact hnamed ht
  | choice sc look dflts sel cases => exact hnamed ht
  | union sc look dflts members => exact hnamed ht

theorem fields_offsets {s : Src.Struct} {grow : Bool} : ∀ {fields : SourceFields fo.F Object} {known : List String}
    {fs : List Src.StructField}, fields.Declares round float K P.directives s grow known fs →
    ∀ f ∈ fs, ∃ o, OffsetStands s f.offset o
  | .nil, known, fs, h, f, hf => by
    have h : fs = [] := h
    subst h
    cases hf
  | .cons m ty rest, known, fs, h, f, hf => by
    obtain ⟨g, gs, rfl, hm, -, h⟩ := h
    rcases List.mem_cons.1 hf with rfl | hf
    · exact ⟨_, hm.offset⟩
    · exact fields_offsets h f hf

theorem bare_offsets {s : Src.Struct} {fs : List Src.ChoiceField} : ∀ f ∈ fs.map bare, ∃ o, OffsetStands s f.offset o := by
  intro f hf
  obtain ⟨g, -, rfl⟩ := List.mem_map.1 hf
  exact ⟨_, .none⟩

theorem enumValues_some : ∀ (vs : List Int) (next : Int), enumValuesFrom next (vs.map some) = vs
  | [], _ => rfl
  | v :: vs, next => by simp [enumValuesFrom, enumValues_some vs]

theorem enumNumber_values {base : Scalar} {is is' : List (Option Int)} (h : enumValues is = enumValues is') :
    enumNumber base is = enumNumber base is' ∧ enumItem is = enumItem is' := by
  constructor
  · funext v
    unfold enumNumber
    rw [h]
  · funext v
    unfold enumItem enumTryFrom
    rw [h]

variable (hQ : visitPackage (floatText fo round display) P = .ok Q)
  (hn : ((P.directives.filterMap declares).map Prod.fst).Nodup)

include hQ hn

mutual
theorem type_linked : ∀ (t : SourceTy fo.F Object), LinkedAs cfg md build float K esc round P.directives Q t
  | .builtin _, _, _, _, _, h, _ | .bit _, _, _, _, _, h, _ | .int _, _, _, _, _, h, _ => h.elim
  | .enum base items, name, ps, c, qs, h, hc => by
    obtain ⟨rfl, e, t, hmem, rfl, hty, hb, hitems, hr⟩ := h
    obtain ⟨sym, hsym, hvis⟩ := symbol_found hQ hn hmem rfl
    cases hvis with
    | enum hv =>
      cases hc with
      | enum hs ht' hnm hsc hxs hvs =>
        rw [hs] at hsym
        cases hsym
        simp only [visitEnum, hty, visitInst, Res.bind_eq_ok, Res.ok.injEq] at hv
        obtain ⟨r, ⟨r', hr', rfl⟩, ys, hys, rfl⟩ := hv
        obtain ⟨name', bits', n', rfl, hnm', hsc'⟩ := scalar_named hb hr'
        cases ht'
        rw [hnm'] at hnm
        cases hnm
        cases scalar_unique hsc (hsc' NoObject)
        obtain ⟨xs', hxs', hvs'⟩ := enum_values (md := md) (sc := esc) hitems hr hys
        simp only at hxs
        rw [hxs'] at hxs
        cases map_some_inj hxs
        rw [hvs'] at hvs
        cases hvs
        have hvals : enumValues ((enumValuesFrom 0 items).map some) = enumValues items := enumValues_some _ _
        obtain ⟨e1, e2⟩ := enumNumber_values (base := base) hvals
        exact ⟨⟨_, _, none, hsc, by rw [e1, e2]⟩, rfl, rfl, rfl⟩
      | struct hs | union hs | choice hs | bitmask hs => rw [hs] at hsym; cases hsym
  | .bitmask base first, name, ps, c, qs, h, hc => by
    obtain ⟨rfl, e, t, k, ks, hmem, rfl, hty, hb, hitems, rfl⟩ := h
    obtain ⟨sym, hsym, hvis⟩ := symbol_found hQ hn hmem rfl
    cases hvis with
    | bitmask hv =>
      cases hc with
      | bitmask hs ht' hnm hsc hxs hvs =>
        rw [hs] at hsym
        cases hsym
        simp only [visitBitmask, hty, visitInst, Res.bind_eq_ok, Res.ok.injEq] at hv
        obtain ⟨r, ⟨r', hr', rfl⟩, ys, hys, rfl⟩ := hv
        obtain ⟨name', bits', n', rfl, hnm', hsc'⟩ := scalar_named hb hr'
        cases ht'
        rw [hnm'] at hnm
        cases hnm
        cases scalar_unique hsc (hsc' NoObject)
        obtain ⟨xs', hxs', hvs'⟩ := bitmask_values (md := md) (sc := esc) hitems hys
        simp only at hxs
        rw [hxs'] at hxs
        cases map_some_inj hxs
        rw [hvs'] at hvs
        cases hvs
        refine ⟨⟨_, _, none, hsc, rfl⟩, rfl, rfl, ?_⟩
        show (base.ofInt _).params.length = 0
        cases base <;> rfl
      | struct hs | union hs | choice hs | enum hs => rw [hs] at hsym; cases hsym
  | .struct sc look dflts fields, name, ps, c, qs, h, hc => by
    obtain ⟨s, hmem, rfl, rfl, hh, rfl, rfl, rfl, hfs⟩ := h
    obtain ⟨sym, hsym, hvis⟩ := symbol_found hQ hn hmem rfl
    cases hvis with
    | struct hv =>
      cases hc with
      | struct hs hp hcode =>
        rw [hs] at hsym
        cases hsym
        have hv' := hv
        simp only [visitStruct, Res.bind_eq_ok, Res.ok.injEq] at hv'
        obtain ⟨ps, hps, fs, hfs', us, hus, rfl⟩ := hv'
        have := params_seen hh.params hps hp
        subst this
        refine ⟨⟨_, fields_linked fields hfs hv hh (fields_offsets hfs) hfs' hcode, rfl⟩, hps, ?_, ?_⟩
        · simp [SourceTy.numParams]
        · show (s.params.map paramDefault).length = _
          simp
      | enum hs | union hs | choice hs | bitmask hs => rw [hs] at hsym; cases hsym
  | .union sc look dflts members, name, ps, c, qs, h, hc => by
    obtain ⟨u, hmem, rfl, rfl, hh, rfl, rfl, rfl, hfs⟩ := h
    obtain ⟨sym, hsym, hvis⟩ := symbol_found hQ hn hmem rfl
    cases hvis with
    | union hv =>
      cases hc with
      | union hs hp hcode =>
        rw [hs] at hsym
        cases hsym
        have hv' := hv
        simp only [visitUnion, Res.bind_eq_ok, Res.ok.injEq] at hv'
        obtain ⟨ps, hps, fs, hfs', us, hus, rfl⟩ := hv'
        have := params_seen hh.params hps hp
        subst this
        refine ⟨⟨_, fields_linked members hfs (visit_union hv) hh bare_offsets (visit_bares hfs') hcode, rfl⟩, hps, ?_, ?_⟩
        · simp [SourceTy.numParams]
        · show ((Union.shape u).params.map paramDefault).length = _
          simp [Union.shape]
      | enum hs | struct hs | choice hs | bitmask hs => rw [hs] at hsym; cases hsym
  | .choice sc look dflts sel cases, name, ps, c, qs, h, hc => by
    obtain ⟨u, n, hmem, rfl, rfl, hh, rfl, rfl, rfl, hdef, hsel, hcs⟩ := h
    obtain ⟨sym, hsym, hvis⟩ := symbol_found hQ hn hmem rfl
    cases hvis with
    | choice hv =>
      cases hc with
      | choice hs hp hsel' hcode =>
        rw [hs] at hsym
        cases hsym
        have hnames : (u.params.map Src.Param.name).Nodup := (List.nodup_append.1 (List.nodup_append.1 hh.names).1).1
        obtain ⟨rfl, rfl⟩ := selector_seen hv hnames hsel hsel'
        have hq := (selects hv hnames hsel).1
        have hv' := hv
        simp only [visitChoice, Res.bind_eq_ok, Res.ok.injEq] at hv'
        obtain ⟨e, he, ps, hps, cs, hcs', us, hus, rfl⟩ := hv'
        have := params_seen hh.params hps hp
        subst this
        refine ⟨⟨_, cases_linked cases hcs (visit_choice hv) hh bare_offsets hcs' hq hcode, rfl⟩, hps, ?_, ?_⟩
        · simp [SourceTy.numParams]
        · show ((Choice.shape u).params.map paramDefault).length = _
          simp [Choice.shape]
      | enum hs | struct hs | union hs | bitmask hs => rw [hs] at hsym; cases hsym
theorem fields_linked : ∀ (fields : SourceFields fo.F Object) {s : Src.Struct} {d : Ast.Struct fo.F} {grow : Bool}
    {known : List String} {fs : List Src.StructField} {xs : List (Ast.Field fo.F)} {gs : List Emit.Field},
    fields.Declares round float K P.directives s grow known fs →
    visitStruct (floatText fo round display) s = .ok d → Heads K.enums s →
    (∀ f ∈ s.fields, ∃ o, OffsetStands s f.offset o) →
    visitList (visitStructField (floatText fo round display)) fs = .ok xs →
    FieldsCode cfg md build float K esc (fileSymbols Q) d xs gs → fields.Emitted cfg md build (textScope K s) (textLook float K s) gs
  | .nil, s, d, grow, known, fs, xs, gs, h, _, _, _, hx, hc => by
    have h : fs = [] := h
    subst h
    simp only [visitList, Res.ok.injEq] at hx
    subst hx
    cases hc
    exact rfl
  | .cons m ty rest, s, d, grow, known, fs, xs, gs, h, hd, hh, ho, hx, hc => by
    obtain ⟨f, fs, rfl, hm, ht, h⟩ := h
    simp only [visitList, Res.bind_eq_ok, Res.ok.injEq] at hx
    obtain ⟨x, hx, xs, hxs, rfl⟩ := hx
    cases hc with
    | cons hf hfs =>
      obtain ⟨h1, h2⟩ := field_linked (type_linked ty) hd hh ho hm ht hx hf
      exact ⟨_, _, rfl, h1, h2, fields_linked rest h hd hh ho hxs hfs⟩
theorem cases_linked : ∀ (cases : SourceCases fo.F Object) {s : Src.Struct} {d : Ast.Choice fo.F} {n : ParamTy}
    {known : List String} {cs : List Src.Cases} {xs : List (Ast.Case fo.F)} {es : List Emit.Case},
    cases.Declares round float K P.directives s n known cs →
    visitStruct (floatText fo round display) s = .ok d.asStruct → Heads K.enums s →
    (∀ f ∈ s.fields, ∃ o, OffsetStands s f.offset o) →
    visitList (visitCases (floatText fo round display)) cs = .ok xs → Selects d n →
    CasesCode cfg md build float K esc (fileSymbols Q) d n xs es → cases.Emitted cfg md build (textScope K s) (textLook float K s) es
  | .nil, s, d, n, known, cs, xs, es, h, _, _, _, hx, _, hc => by
    have h : cs = [] := h
    subst h
    simp only [visitList, Res.ok.injEq] at hx
    subst hx
    cases hc
    exact rfl
  | .field labels m ty rest, s, d, n, known, cs, xs, es, h, hd, hh, ho, hx, hq, hc => by
    obtain ⟨c, f, cs, rfl, hne, hl, hf, hm, ht, h⟩ := h
    simp only [visitList, visitCases, Res.bind_eq_ok, Res.ok.injEq] at hx
    obtain ⟨x, ⟨ls, hls, y, hy, rfl⟩, xs, hxs, rfl⟩ := hx
    rw [hf] at hy
    simp only [visitOption, Res.bind_eq_ok, Res.ok.injEq] at hy
    obtain ⟨z, hz, rfl⟩ := hy
    cases hc with
    | field hlab hfield hcode hrest =>
      cases hfield
      cases labels_seen hl hne hls (scope_visit hd hh.names) hq hlab
      obtain ⟨h1, h2⟩ := field_linked (f := bare f) (type_linked ty) hd hh ho hm ht (visit_bare hz) hcode
      exact ⟨_, _, rfl, h1, h2, cases_linked rest h hd hh ho hxs hq hrest⟩
    | empty _ hfield _ => cases hfield
  | .empty labels rest, s, d, n, known, cs, xs, es, h, hd, hh, ho, hx, hq, hc => by
    obtain ⟨c, cs, rfl, hne, hl, hf, h⟩ := h
    simp only [visitList, visitCases, Res.bind_eq_ok, Res.ok.injEq] at hx
    obtain ⟨x, ⟨ls, hls, y, hy, rfl⟩, xs, hxs, rfl⟩ := hx
    rw [hf] at hy
    simp only [visitOption, Res.ok.injEq] at hy
    subst hy
    cases hc with
    | field _ hfield _ _ => cases hfield
    | empty hlab _ hrest =>
      cases labels_seen hl hne hls (scope_visit hd hh.names) hq hlab
      exact ⟨_, rfl, cases_linked rest h hd hh ho hxs hq hrest⟩
end

/-! ## There are such functions -/

omit hQ hn in
theorem field_code {s : Src.Struct} {d : Ast.Struct fo.F} {known : List String} {f : Src.StructField}
    {m : Modifiers fo.F} {ty : SourceTy fo.F Object} {x : Ast.Field fo.F}
    (hl : LinkedAs cfg md build float K esc round P.directives Q ty)
    (ih : ∀ {name ps}, ty.Declares round float K P.directives name ps → ∃ c qs, CodeOf cfg md build float K esc (fileSymbols Q) name c qs)
    (hf : ModsStand round s known f m)
    (ht : TypeIs round K.enums known f.typeId.type m.args (ty.Declares round float K P.directives) ty)
    (hx : visitStructField (floatText fo round display) f = .ok x) : ∃ g, FieldCode cfg md build float K esc (fileSymbols Q) d x g := by
  obtain ⟨-, h2, -⟩ := visitStructField_parts hx
  have hbuiltin : ∀ w : WrittenTy fo.F, TypeStands round known f.typeId.type w →
      ∃ g, FieldCode cfg md build float K esc (fileSymbols Q) d x g := by
    intro w hw
    obtain ⟨ref, href⟩ := typeSeen_exists (md := md) (build := build) (look := d.look float K) (sc := d.scope K.names) hw h2
    obtain ⟨g, h3, h4, h5⟩ := mods_exist (md := md) (build := build) (d := d) hf hx (look := d.look float K) ref []
    exact ⟨g, .builtin h3 (h4 ▸ href) h5⟩
  have hnamed : (∃ name ps as, ty.Declares round float K P.directives name ps ∧ f.typeId.type.type = .named name [] [] ∧
      argList f.typeId.type.args = some as ∧ ArgsStand round K.enums known ps as m.args) →
      ∃ g, FieldCode cfg md build float K esc (fileSymbols Q) d x g := by
    rintro ⟨name, ps, as, hdecl, hn, ha, hargs⟩
    obtain ⟨ns, hr, hns⟩ := named_visit hn ha h2
    obtain ⟨c, qs, hc⟩ := ih hdecl
    obtain ⟨-, hps, -⟩ := hl hdecl hc
    obtain ⟨args, hargs⟩ := args_exist (md := md) (build := build) (look := d.look float K) (sc := d.scope K.names) hargs hps hns
    obtain ⟨g, h3, h4, h5⟩ := mods_exist (md := md) (build := build) (d := d) hf hx (look := d.look float K)
      (.compound c qs.length) args
    exact ⟨g, .named h3 hr hc h4 (h5 ▸ hargs)⟩
  cases ty with
  | builtin s => exact hbuiltin _ ht.1
  | bit e => exact hbuiltin _ ht.1
  | int e => exact hbuiltin _ ht.1
  | enum base items => exact hnamed ht
  | bitmask base first => exact hnamed ht
  | struct sc look dflts fields => exact hnamed ht
  | choice sc look dflts sel cases => exact hnamed ht
  | union sc look dflts members => exact hnamed ht

mutual
theorem type_code (cfg : Cfg) (md build : Mode) (esc : EScope fo.F) : ∀ (t : SourceTy fo.F Object) {name : String}
    {ps : List Src.Param}, t.Declares round float K P.directives name ps →
    ∃ c qs, CodeOf cfg md build float K esc (fileSymbols Q) name c qs
  | .builtin _, _, _, h | .bit _, _, _, h | .int _, _, _, h => h.elim
  | .enum base items, name, ps, h => by
    obtain ⟨rfl, e, t, hmem, rfl, hty, hb, hitems, hr⟩ := h
    obtain ⟨sym, hsym, hvis⟩ := symbol_found hQ hn hmem rfl
    cases hvis with
    | enum hv =>
      simp only [visitEnum, hty, visitInst, Res.bind_eq_ok, Res.ok.injEq] at hv
      obtain ⟨r, ⟨r', hr', rfl⟩, ys, hys, rfl⟩ := hv
      obtain ⟨name', bits', n', rfl, hnm', hsc'⟩ := scalar_named hb hr'
      obtain ⟨xs', hxs', hvs'⟩ := enum_values (md := md) (sc := esc) hitems hr hys
      exact ⟨_, _, .enum hsym rfl hnm' (hsc' _) hxs' hvs'⟩
  | .bitmask base first, name, ps, h => by
    obtain ⟨rfl, e, t, k, ks, hmem, rfl, hty, hb, hitems, rfl⟩ := h
    obtain ⟨sym, hsym, hvis⟩ := symbol_found hQ hn hmem rfl
    cases hvis with
    | bitmask hv =>
      simp only [visitBitmask, hty, visitInst, Res.bind_eq_ok, Res.ok.injEq] at hv
      obtain ⟨r, ⟨r', hr', rfl⟩, ys, hys, rfl⟩ := hv
      obtain ⟨name', bits', n', rfl, hnm', hsc'⟩ := scalar_named hb hr'
      obtain ⟨xs', hxs', hvs'⟩ := bitmask_values (md := md) (sc := esc) hitems hys
      exact ⟨_, _, .bitmask hsym rfl hnm' (hsc' _) hxs' hvs'⟩
  | .struct sc look dflts fields, name, ps, h => by
    obtain ⟨s, hmem, rfl, rfl, hh, rfl, rfl, rfl, hfs⟩ := h
    obtain ⟨sym, hsym, hvis⟩ := symbol_found hQ hn hmem rfl
    cases hvis with
    | @struct _ d hv =>
      simp only [visitStruct, Res.bind_eq_ok, Res.ok.injEq] at hv
      obtain ⟨ps, hps, fs, hfs', us, hus, rfl⟩ := hv
      obtain ⟨vs, hvs⟩ := params_exist hh.params hps
      obtain ⟨gs, hgs⟩ := fields_code cfg md build esc fields hfs hfs'
      exact ⟨_, _, .struct hsym hvs hgs⟩
  | .union sc look dflts members, name, ps, h => by
    obtain ⟨u, hmem, rfl, rfl, hh, rfl, rfl, rfl, hfs⟩ := h
    obtain ⟨sym, hsym, hvis⟩ := symbol_found hQ hn hmem rfl
    cases hvis with
    | union hv =>
      simp only [visitUnion, Res.bind_eq_ok, Res.ok.injEq] at hv
      obtain ⟨ps, hps, fs, hfs', us, hus, rfl⟩ := hv
      obtain ⟨vs, hvs⟩ := params_exist hh.params hps
      obtain ⟨gs, hgs⟩ := fields_code cfg md build esc members hfs (visit_bares hfs')
      exact ⟨_, _, .union hsym hvs hgs⟩
  | .choice sc look dflts sel cases, name, ps, h => by
    obtain ⟨u, n, hmem, rfl, rfl, hh, rfl, rfl, rfl, hdef, hsel, hcs⟩ := h
    obtain ⟨sym, hsym, hvis⟩ := symbol_found hQ hn hmem rfl
    cases hvis with
    | choice hv =>
      have hnames : (u.params.map Src.Param.name).Nodup := (List.nodup_append.1 (List.nodup_append.1 hh.names).1).1
      obtain ⟨hq, hseen⟩ := selects hv hnames hsel
      have hsc := scope_visit (K := K) (visit_choice hv) hh.names
      simp only [visitChoice, Res.bind_eq_ok, Res.ok.injEq] at hv
      obtain ⟨e, he', ps, hps, cs, hcs', us, hus, rfl⟩ := hv
      obtain ⟨vs, hvs⟩ := params_exist hh.params hps
      obtain ⟨es, hes⟩ := cases_code cfg md build esc cases hcs hcs' hsc hq
      exact ⟨_, _, .choice hsym hvs hseen hes⟩
theorem fields_code (cfg : Cfg) (md build : Mode) (esc : EScope fo.F) : ∀ (fields : SourceFields fo.F Object)
    {s : Src.Struct} {d : Ast.Struct fo.F} {grow : Bool} {known : List String} {fs : List Src.StructField}
    {xs : List (Ast.Field fo.F)}, fields.Declares round float K P.directives s grow known fs →
    visitList (visitStructField (floatText fo round display)) fs = .ok xs →
    ∃ gs, FieldsCode cfg md build float K esc (fileSymbols Q) d xs gs
  | .nil, s, d, grow, known, fs, xs, h, hx => by
    have h : fs = [] := h
    subst h
    simp only [visitList, Res.ok.injEq] at hx
    subst hx
    exact ⟨_, .nil⟩
  | .cons m ty rest, s, d, grow, known, fs, xs, h, hx => by
    obtain ⟨f, fs, rfl, hm, ht, h⟩ := h
    simp only [visitList, Res.bind_eq_ok, Res.ok.injEq] at hx
    obtain ⟨x, hx, xs, hxs, rfl⟩ := hx
    obtain ⟨g, hg⟩ := field_code (d := d) (type_linked hQ hn ty) (fun h => type_code cfg md build esc ty h) hm ht hx
    obtain ⟨gs, hgs⟩ := fields_code cfg md build esc rest h hxs
    exact ⟨_, .cons hg hgs⟩
theorem cases_code (cfg : Cfg) (md build : Mode) (esc : EScope fo.F) : ∀ (cases : SourceCases fo.F Object)
    {s : Src.Struct} {d : Ast.Choice fo.F} {n : ParamTy} {known : List String} {cs : List Src.Cases}
    {xs : List (Ast.Case fo.F)},
    cases.Declares round float K P.directives s n known cs →
    visitList (visitCases (floatText fo round display)) cs = .ok xs →
    d.asStruct.scope K.names = textScope K s → Selects d n →
    ∃ es, CasesCode cfg md build float K esc (fileSymbols Q) d n xs es
  | .nil, s, d, n, known, cs, xs, h, hx, _, _ => by
    have h : cs = [] := h
    subst h
    simp only [visitList, Res.ok.injEq] at hx
    subst hx
    exact ⟨_, .nil⟩
  | .field labels m ty rest, s, d, n, known, cs, xs, h, hx, hsc, hq => by
    obtain ⟨c, f, cs, rfl, hne, hl, hf, hm, ht, h⟩ := h
    simp only [visitList, visitCases, Res.bind_eq_ok, Res.ok.injEq] at hx
    obtain ⟨_, ⟨ls, hls, y, hy, rfl⟩, xs, hxs, rfl⟩ := hx
    rw [hf] at hy
    simp only [visitOption, Res.bind_eq_ok, Res.ok.injEq] at hy
    obtain ⟨z, hz, rfl⟩ := hy
    obtain ⟨lab, hlab⟩ := labels_exist (md := md) (c := ⟨ls, some z⟩) hl hne hls hsc hq
    obtain ⟨g, hg⟩ := field_code (d := d.asStruct) (f := bare f) (type_linked hQ hn ty)
      (fun h => type_code cfg md build esc ty h) hm ht (visit_bare hz)
    obtain ⟨es, hes⟩ := cases_code cfg md build esc rest h hxs hsc hq
    exact ⟨_, .field hlab rfl hg hes⟩
  | .empty labels rest, s, d, n, known, cs, xs, h, hx, hsc, hq => by
    obtain ⟨c, cs, rfl, hne, hl, hf, h⟩ := h
    simp only [visitList, visitCases, Res.bind_eq_ok, Res.ok.injEq] at hx
    obtain ⟨_, ⟨ls, hls, y, hy, rfl⟩, xs, hxs, rfl⟩ := hx
    rw [hf] at hy
    simp only [visitOption, Res.ok.injEq] at hy
    subst hy
    obtain ⟨lab, hlab⟩ := labels_exist (md := md) (c := ⟨ls, none⟩) hl hne hls hsc hq
    obtain ⟨es, hes⟩ := cases_code cfg md build esc rest h hxs hsc hq
    exact ⟨_, .empty hlab rfl hes⟩
end

end

end Zs
