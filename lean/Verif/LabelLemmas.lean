import Verif.LabelSpec

/-!
# Lemmas about labels
-/

namespace Zs

open Spec

variable {fo : FloatOps} {md : Mode} {sc : TScope}

/-- The alternatives of a label that is a pattern. -/
def altsOf {F : Type} : Expr F → List (Alt F)
  | .intLit n => [.int n]
  | .boolLit b => [.bool b]
  | .strLit _ | .floatLit _ | .neg (.floatLit _) => [.foreign]
  | .neg (.intLit n) => [.int (-n)]
  | .index => [.any]
  | .paren e => altsOf e
  | .bit .or a b => altsOf a ++ altsOf b
  | .dot e a => [.item e a]
  | .ident x => [.const x]
  | _ => []

/-- The text is that of a pattern, whatever follows. -/
def Opens (sc : TScope) (ts : List (Tok fo.F)) (as : List (Alt fo.F)) : Prop :=
  ∀ d rest, alternatives sc d true (ts ++ rest) = (alternatives sc d false rest).map (as ++ ·)

/-- No pattern begins with the text. -/
def Blocks (sc : TScope) (ts : List (Tok fo.F)) : Prop :=
  ∀ d rest, alternatives sc d true (ts ++ rest) = none

theorem Blocks.append {ts : List (Tok fo.F)} (h : Blocks sc ts) (us : List (Tok fo.F)) :
    Blocks sc (ts ++ us) := by
  intro d rest
  rw [List.append_assoc]
  exact h d _

theorem Blocks.lpar {ts : List (Tok fo.F)} (h : Blocks sc ts) : Blocks sc (.lpar :: ts) := by
  intro d rest
  show alternatives sc d true (.lpar :: (ts ++ rest)) = none
  rw [alternatives]
  exact h _ _

/-- Tokens that end a pattern for good. -/
def Tok.stops {F : Type} : Tok F → Bool
  | .op (.bit .or) | .rpar => false
  | _ => true

theorem alternatives_stop {F : Type} (sc : TScope) (d : Nat) (t : Tok F) (ht : t.stops = true) (ts : List (Tok F)) :
    alternatives sc d false (t :: ts) = none := by
  rcases t with a | o | _ | _ | _ | _ | _ | _ | _ | _ | _ | _ | _ | _ | _ | _ | _
  case op => rcases o with o | o | o | o <;> cases o <;> simp_all [Tok.stops, alternatives]
  all_goals (cases d <;> simp_all [Tok.stops, alternatives])

theorem Opens.stop {ts : List (Tok fo.F)} {as} (h : Opens sc ts as) (t : Tok fo.F) (ht : t.stops = true)
    (us : List (Tok fo.F)) : Blocks sc (ts ++ (t :: us)) := by
  intro d rest
  rw [List.append_assoc, h, List.cons_append, alternatives_stop sc d t ht]
  rfl

/-- Opens or blocks, and then a token that ends it. -/
theorem blocks_stop {ts : List (Tok fo.F)} (h : (∃ as, Opens sc ts as) ∨ Blocks sc ts) (t : Tok fo.F)
    (ht : t.stops = true) (us : List (Tok fo.F)) : Blocks sc (ts ++ (t :: us)) := by
  rcases h with ⟨as, h⟩ | h
  · exact h.stop t ht us
  · exact h.append _

theorem alternatives_minus {F : Type} (sc : TScope) (d : Nat) (ts : List (Tok F))
    (h : alternatives sc d true ts = none) : alternatives sc d true (.op (.arith .sub) :: ts) = none := by
  match ts with
  | .atom (.int n) :: ts =>
    simp only [alternatives, Option.map_eq_none_iff] at h ⊢
    exact h
  | .atom (.float n) :: ts =>
    simp only [alternatives, Option.map_eq_none_iff] at h ⊢
    exact h
  | [] => simp [alternatives]
  | .atom (.bool _) :: _ | .atom (.str _) :: _ | .atom (.name _) :: _ | .atom (.item ..) :: _ | .atom .index :: _
  | .op _ :: _ | .bang :: _ | .tilde :: _ | .lpar :: _ | .rpar :: _ | .lbrack :: _ | .rbrack :: _
  | .lbrace :: _ | .rbrace :: _ | .comma :: _ | .dot _ :: _ | .as _ :: _ | .func _ :: _ | .kwIf :: _
  | .kwElse :: _ | .format :: _ => simp [alternatives]

theorem castText_blocks {ts : List (Tok fo.F)} (h : (∃ as, Opens sc ts as) ∨ Blocks sc ts) (cast : Option String)
    (t : Tok fo.F) (ht : t.stops = true) (us : List (Tok fo.F)) :
    Blocks sc (castText cast ts ++ (t :: us)) := by
  cases cast with
  | none => exact blocks_stop h t ht us
  | some ty =>
    have : castText (some ty) ts ++ (t :: us) = .lpar :: .lpar :: (ts ++ ([.rpar, .as ty, .rpar] ++ (t :: us))) := by
      simp [castText]
    rw [this]
    rcases h with ⟨as, h⟩ | h
    · intro d rest
      simp only [List.cons_append, List.append_assoc, List.nil_append]
      rw [alternatives, alternatives, h, alternatives, alternatives_stop _ _ _ rfl]
      rfl
    · exact ((h.append _).lpar).lpar

/-- Every label's text opens a pattern, with the alternatives of the label, or blocks one. -/
theorem text_patterned (e : Expr fo.F) (hp : e.Parsed) : ∀ ts, e.text md sc.erase (textInfo md sc) = some ts →
    (Patterned md sc e → Opens sc ts (altsOf e)) ∧ (¬ Patterned md sc e → Blocks sc ts) := by
  have both : ∀ {e : Expr fo.F} {ts : List (Tok fo.F)},
      ((Patterned md sc e → Opens sc ts (altsOf e)) ∧ (¬ Patterned md sc e → Blocks sc ts)) →
      (∃ as, Opens sc ts as) ∨ Blocks sc ts := by
    intro e ts h
    by_cases hc : Patterned md sc e
    · exact .inl ⟨_, h.1 hc⟩
    · exact .inr (h.2 hc)
  induction e with
  | intLit n =>
    intro ts h
    cases h
    refine ⟨fun _ d rest => ?_, fun h => absurd trivial h⟩
    simp [alternatives, altsOf]
  | boolLit n =>
    intro ts h
    cases h
    refine ⟨fun _ d rest => ?_, fun h => absurd trivial h⟩
    simp [alternatives, altsOf]
  | strLit n =>
    intro ts h
    cases h
    refine ⟨fun _ d rest => ?_, fun h => absurd trivial h⟩
    simp [alternatives, altsOf]
  | floatLit n =>
    intro ts h
    cases h
    refine ⟨fun _ d rest => ?_, fun h => absurd trivial h⟩
    simp [alternatives, altsOf]
  | index =>
    intro ts h
    cases h
    refine ⟨fun _ d rest => ?_, fun h => absurd trivial h⟩
    simp [alternatives, altsOf]
  | ident x =>
    intro ts h
    cases h
    refine ⟨fun ⟨t, ht⟩ d rest => ?_, fun hn d rest => ?_⟩
    · simp [alternatives, altsOf, ht]
    · simp only [List.cons_append, List.nil_append, alternatives]
      split
      · rename_i t ht
        exact absurd ⟨t, ht⟩ hn
      · rfl
  | paren e ih =>
    intro ts h
    simp only [Expr.text, Option.map_eq_some_iff] at h
    obtain ⟨t, ht, rfl⟩ := h
    have ih := ih hp t ht
    refine ⟨fun hq d rest => ?_, fun hq => ?_⟩
    · have := ih.1 hq
      simp only [List.cons_append, List.append_assoc, List.nil_append]
      rw [alternatives, this, alternatives]
      rfl
    · have := ((ih.2 hq).append [.rpar]).lpar
      simpa using this
  | call e ih =>
    intro ts h
    simp only [Expr.text, Option.map_eq_some_iff] at h
    obtain ⟨t, ht, rfl⟩ := h
    exact ⟨False.elim, fun _ => blocks_stop (both (ih hp.1 t ht)) _ rfl _⟩
  | elem e i ih _ =>
    intro ts h
    simp only [Expr.text, Option.map_eq_some_iff, Option.bind_eq_some_iff] at h
    obtain ⟨t, ht, u, _, rfl⟩ := h
    refine ⟨False.elim, fun _ => ?_⟩
    have := blocks_stop (both (ih hp.1 t ht)) .lbrack rfl (u ++ [.rbrack])
    simpa using this
  | dot e name ih =>
    intro ts h
    simp only [Expr.text] at h
    have hitem : ∀ k, (e.evaluate md sc.erase = .ok (.enum, k) ∨ e.evaluate md sc.erase = .ok (.bitmask, k)) →
        ts = [.atom (.item e name)] →
        (Patterned md sc (.dot e name) → Opens sc ts (altsOf (.dot e name))) ∧
          (¬ Patterned md sc (.dot e name) → Blocks sc ts) := by
      intro k hk hts
      subst hts
      refine ⟨fun _ d rest => ?_, fun hn => absurd ⟨k, hk⟩ hn⟩
      simp [alternatives, altsOf]
    split at h
    · rename_i k hk
      cases h
      exact hitem k (.inl hk) rfl
    · rename_i k hk
      cases h
      exact hitem k (.inr hk) rfl
    · rename_i k hk
      simp only [Option.map_eq_some_iff] at h
      obtain ⟨t, ht, rfl⟩ := h
      refine ⟨?_, fun _ => blocks_stop (both (ih hp.1 t ht)) _ rfl _⟩
      rintro ⟨k', h | h⟩ <;> rw [hk] at h <;> cases h
    · cases h
  | isset e x ih _ =>
    intro ts h
    simp only [Expr.text, Option.map_eq_some_iff, Option.bind_eq_some_iff] at h
    obtain ⟨t, ht, u, _, rfl⟩ := h
    refine ⟨False.elim, fun _ => ?_⟩
    have := blocks_stop (both (ih hp.1 t ht)) (.op (.bit .and)) rfl ([.lpar] ++ u ++ [.rpar, .op (.cmp .ne), .atom (.int 0)])
    simpa using this
  | valueof e ih =>
    intro ts h
    simp only [Expr.text, Option.map_eq_some_iff] at h
    obtain ⟨t, ht, rfl⟩ := h
    refine ⟨False.elim, fun _ => ?_⟩
    split
    · have := blocks_stop (both (ih hp t ht)) (.dot "bits") rfl ([.lpar, .rpar] ++ [.as ((textInfo md sc).valueType e)])
      simpa using this
    · have := blocks_stop (both (ih hp t ht)) (.as ((textInfo md sc).valueType e)) rfl []
      simpa using this
  | lengthof e ih =>
    intro ts h
    simp only [Expr.text, Option.map_eq_some_iff] at h
    obtain ⟨t, ht, rfl⟩ := h
    refine ⟨False.elim, fun _ => ?_⟩
    have := (blocks_stop (both (ih hp t ht)) (.dot "len") rfl [.lpar, .rpar, .as "u32", .rpar]).lpar
    simpa using this
  | numbits e ih =>
    intro ts h
    simp only [Expr.text, Option.map_eq_some_iff] at h
    obtain ⟨t, ht, rfl⟩ := h
    refine ⟨False.elim, fun _ d rest => ?_⟩
    simp [alternatives]
  | plus e ih =>
    intro ts h
    simp only [Expr.text, Option.map_eq_some_iff] at h
    obtain ⟨t, ht, rfl⟩ := h
    refine ⟨False.elim, fun _ d rest => ?_⟩
    simp [alternatives]
  | not e ih =>
    intro ts h
    simp only [Expr.text, Option.map_eq_some_iff] at h
    obtain ⟨t, ht, rfl⟩ := h
    refine ⟨False.elim, fun _ d rest => ?_⟩
    simp [alternatives]
  | compl e ih =>
    intro ts h
    simp only [Expr.text, Option.map_eq_some_iff] at h
    obtain ⟨t, ht, rfl⟩ := h
    refine ⟨False.elim, fun _ d rest => ?_⟩
    simp [alternatives]
  | neg e ih =>
    intro ts h
    simp only [Expr.text, Option.map_eq_some_iff] at h
    obtain ⟨t, ht, rfl⟩ := h
    have ih := ih hp.1 t ht
    by_cases hq : Patterned md sc e
    · have hl := hp.2
      cases e with
      | intLit n =>
        cases ht
        refine ⟨fun _ d rest => ?_, fun h => absurd trivial h⟩
        simp [alternatives, altsOf]
      | floatLit n =>
        cases ht
        refine ⟨fun _ d rest => ?_, fun h => absurd trivial h⟩
        simp [alternatives, altsOf]
      | boolLit _ | strLit _ | index =>
        cases ht
        refine ⟨False.elim, fun _ d rest => ?_⟩
        simp [alternatives]
      | ident x =>
        cases ht
        refine ⟨False.elim, fun _ d rest => ?_⟩
        simp [alternatives]
      | paren e =>
        simp only [Expr.text, Option.map_eq_some_iff] at ht
        obtain ⟨t, ht, rfl⟩ := ht
        refine ⟨False.elim, fun _ d rest => ?_⟩
        simp [alternatives]
      | neg e =>
        simp only [Expr.text, Option.map_eq_some_iff] at ht
        obtain ⟨t, ht, rfl⟩ := ht
        refine ⟨False.elim, fun _ d rest => ?_⟩
        simp [alternatives]
      | dot e a =>
        obtain ⟨k, hk⟩ := hq
        have : t = [.atom (.item e a)] := by
          simp only [Expr.text] at ht
          rcases hk with hk | hk <;> rw [hk] at ht <;> cases ht <;> rfl
        subst this
        refine ⟨False.elim, fun _ d rest => ?_⟩
        simp [alternatives]
      | bit op a b => cases op <;> first | exact absurd hq id | (simp [Expr.level] at hl)
      | _ => exact absurd hq id
    · refine ⟨fun h => ?_, fun _ d rest => ?_⟩
      · exfalso
        cases e with
        | intLit _ | floatLit _ => exact hq trivial
        | _ => exact h
      · exact alternatives_minus sc d _ (ih.2 hq d rest)
  | cmp op a b iha _ =>
    intro ts h
    simp only [Expr.text, Option.map_eq_some_iff, Option.bind_eq_some_iff] at h
    obtain ⟨t, ht, u, _, rfl⟩ := h
    refine ⟨False.elim, fun _ => ?_⟩
    have := blocks_stop (both (iha hp.1 t ht)) (.op (.cmp op)) rfl u
    simpa using this
  | logic op a b iha _ =>
    intro ts h
    simp only [Expr.text, Option.map_eq_some_iff, Option.bind_eq_some_iff] at h
    obtain ⟨t, ht, u, _, rfl⟩ := h
    refine ⟨False.elim, fun _ => ?_⟩
    have := blocks_stop (both (iha hp.1 t ht)) (.op (.logic op)) rfl u
    simpa using this
  | arith op a b iha _ =>
    intro ts h
    simp only [Expr.text, Option.bind_eq_some_iff] at h
    obtain ⟨t, ht, u, _, h⟩ := h
    refine ⟨False.elim, fun _ => ?_⟩
    split at h
    · split at h
      · cases h
        intro d rest
        simp [alternatives]
      · cases h
    · cases h
      have := castText_blocks (both (iha hp.1 t ht)) ((textInfo md sc).castLeft (.arith op a b)) (.op (.arith op)) rfl
        (castText ((textInfo md sc).castRight (.arith op a b)) u)
      simpa using this
  | tern c a b _ _ _ =>
    intro ts h
    simp only [Expr.text, Option.map_eq_some_iff, Option.bind_eq_some_iff] at h
    obtain ⟨t, ht, u, _, v, _, rfl⟩ := h
    refine ⟨False.elim, fun _ d rest => ?_⟩
    simp [alternatives]
  | bit op a b iha ihb =>
    intro ts h
    simp only [Expr.text, Option.map_eq_some_iff, Option.bind_eq_some_iff] at h
    obtain ⟨t, ht, u, hu, rfl⟩ := h
    have iha := iha hp.1 t ht
    have ihb := ihb hp.2.1 u hu
    cases op with
    | or =>
      by_cases ha : Patterned md sc a
      · have step : ∀ d rest, alternatives sc d true (t ++ [.op (.bit .or)] ++ u ++ rest) =
            (alternatives sc d true (u ++ rest)).map (altsOf a ++ ·) := by
          intro d rest
          simp only [List.append_assoc, List.cons_append, List.nil_append]
          rw [iha.1 ha, alternatives]
        refine ⟨fun hq d rest => ?_, fun hq d rest => ?_⟩
        · rw [step, ihb.1 hq.2]
          simp [altsOf, Function.comp_def]
        · rw [step, ihb.2 fun hb => hq ⟨ha, hb⟩]
          rfl
      · refine ⟨fun hq => absurd hq.1 ha, fun _ => ?_⟩
        have := ((iha.2 ha).append [.op (.bit .or)]).append u
        exact this
    | _ =>
      refine ⟨False.elim, fun _ => ?_⟩
      rw [List.append_assoc]
      exact blocks_stop (both iha) _ (by rfl) u

/-! ## Arms -/

theorem mapM_eq_ok {α β : Type} {f : α → Res β} : ∀ {l : List α} {r : List β}, l.mapM f = .ok r →
    l.map f = r.map .ok
  | [], r, h => by
    simp only [List.mapM_nil] at h
    cases h
    rfl
  | a :: l, r, h => by
    rw [List.mapM_cons] at h
    obtain ⟨b, hb, h⟩ := Res.bind_eq_ok.mp h
    obtain ⟨bs, hbs, h⟩ := Res.bind_eq_ok.mp h
    cases h
    simp [hb, mapM_eq_ok hbs]

theorem mapM_ok {α β : Type} {f : α → Res β} {g : α → β} : ∀ {l : List α}, (∀ a ∈ l, f a = .ok (g a)) →
    l.mapM f = .ok (l.map g)
  | [], _ => rfl
  | a :: l, h => by
    rw [List.mapM_cons, h a (List.mem_cons_self), mapM_ok fun b hb => h b (List.mem_cons_of_mem _ hb)]
    rfl

theorem mapM_panic {α β : Type} {f : α → Res β} : ∀ {l : List α} {a : α}, a ∈ l → f a = .panic →
    (∀ b e, f b ≠ .err e) → l.mapM f = .panic
  | b :: l, a, h, ha, hn => by
    rw [List.mapM_cons]
    rcases List.mem_cons.mp h with rfl | h
    · rw [ha]; rfl
    · have ih := mapM_panic h ha hn
      rw [ih]
      cases hb : f b with
      | ok => rfl
      | panic => rfl
      | err e => exact absurd hb (hn b e)

/-- The text of a label that is accepted comes from the completed label. -/
theorem labelText_eq {param : String → Option String} {sel e : Expr fo.F} {ts : List (Tok fo.F)}
    (h : labelText md sc param sel e = .ok ts) : ∃ l, prefixLabel param sel e = .ok l ∧
      l.text md sc.erase (textInfo md sc) = some ts := by
  unfold labelText at h
  obtain ⟨l, hl, h⟩ := Res.bind_eq_ok.mp h
  obtain ⟨_, _, h⟩ := Res.bind_eq_ok.mp h
  obtain ⟨_, _, h⟩ := Res.bind_eq_ok.mp h
  refine ⟨l, hl, ?_⟩
  split at h
  · rename_i ts' hts
    cases h
    exact hts
  · cases h

theorem prefixLabel_parsed {param : String → Option String} {sel e l : Expr fo.F} (hp : e.Parsed)
    (h : prefixLabel param sel e = .ok l) : l.Parsed := by
  cases e with
  | ident a =>
    simp only [prefixLabel] at h
    split at h <;> cases h
    exact ⟨trivial, Nat.le_refl 12⟩
  | _ =>
    cases h
    exact hp

/-- The text of an arm is a pattern exactly if the texts of all its labels are. -/
theorem joinBar_patterned : ∀ (ls : List (Expr fo.F)) (tss : List (List (Tok fo.F))), ls ≠ [] →
    ls.map (fun l => l.text md sc.erase (textInfo md sc)) = tss.map some → (∀ l ∈ ls, l.Parsed) →
    ((∀ l ∈ ls, Patterned md sc l) → alternatives sc 0 true (joinBar tss) = some (ls.flatMap altsOf)) ∧
      (¬ (∀ l ∈ ls, Patterned md sc l) → alternatives sc 0 true (joinBar tss) = none)
  | [], _, h, _, _ => absurd rfl h
  | [l], tss, _, h, hp => by
    match tss, h with
    | [ts], h =>
      simp only [List.map_cons, List.map_nil, List.cons.injEq, and_true] at h
      have := text_patterned l (hp l List.mem_cons_self) ts h
      refine ⟨fun hq => ?_, fun hq => ?_⟩
      · have := this.1 (hq l List.mem_cons_self) 0 []
        simp only [List.append_nil] at this
        simp [joinBar, this, alternatives]
      · have := this.2 (fun h => hq fun x hx => by
          rw [List.mem_singleton.mp hx]
          exact h) 0 []
        simpa [joinBar] using this
    | _ :: _ :: _, h => simp at h
  | l :: l' :: ls, tss, _, h, hp => by
    match tss, h with
    | ts :: ts' :: tss, h =>
      simp only [List.map_cons, List.cons.injEq] at h
      have ih := joinBar_patterned (l' :: ls) (ts' :: tss) (by simp) (by simp [h.2])
        (fun x hx => hp x (List.mem_cons_of_mem _ hx))
      have hl := text_patterned l (hp l List.mem_cons_self) ts h.1
      have hj : joinBar (ts :: ts' :: tss) = ts ++ (.op (.bit .or) :: joinBar (ts' :: tss)) := by
        simp [joinBar]
      by_cases hq : Patterned md sc l
      · have step : alternatives sc 0 true (joinBar (ts :: ts' :: tss)) =
            (alternatives sc 0 true (joinBar (ts' :: tss))).map (altsOf l ++ ·) := by
          rw [hj, hl.1 hq, alternatives]
        refine ⟨fun hall => ?_, fun hall => ?_⟩
        · rw [step, ih.1 fun x hx => hall x (List.mem_cons_of_mem _ hx)]
          rfl
        · rw [step, ih.2 fun hrest => hall fun x hx => by
            rcases List.mem_cons.mp hx with rfl | hx
            · exact hq
            · exact hrest x hx]
          rfl
      · refine ⟨fun hall => absurd (hall l List.mem_cons_self) hq, fun _ => ?_⟩
        rw [hj, hl.2 hq]
    | [_], h => simp at h

/-! ## Plain labels -/

/-- The completed label. -/
def completed {F : Type} (t : String) : Expr F → Expr F
  | .ident a => .dot (.ident t) a
  | e => e

theorem prefixLabel_completed {param : String → Option String} {x t : String} (hx : param x = some t)
    (e : Expr fo.F) : prefixLabel param (.ident x) e = .ok (completed t e) := by
  cases e <;> simp [prefixLabel, completed, selectorType, hx]

/-- What is known about a plain label. -/
structure PlainFacts (md : Mode) (env : LabelEnv) (sc : TScope) (t : String) (e l : Expr fo.F) : Prop where
  parsed : l.Parsed
  evaluates : ∃ c, l.evaluate md sc.erase = .ok c
  native : ∃ n, l.native md sc = .ok n
  text : ∃ ts, l.text md sc.erase (textInfo md sc) = some ts
  patterned : Patterned md sc l
  alt : ∃ a, altsOf l = [a] ∧ (∀ v, a.Matches env sc v ↔ labelVal env sc t e = some v) ∧
    (∀ ty, a.Fits env sc ty ↔ ∃ v, labelVal env sc t e = some v ∧ v.HasTy ty)

theorem item_facts {env : LabelEnv} {t u a : String} {e : Expr fo.F} (h : (itemVal env sc u a).isSome)
    (he : labelVal env sc t e = itemVal env sc u a) :
    PlainFacts md env sc t e (.dot (.ident u) a : Expr fo.F) := by
  have hk : ∃ s, sc.ident u = some s ∧ ((s.ty.sym = .enum ∧ s.ty.sym.dummy fo = .enum) ∨
      (s.ty.sym = .bitmask ∧ s.ty.sym.dummy fo = .bitmask)) ∧
      (sc.erase : EScope fo.F).hasItem (.ident u) a = true := by
    unfold itemVal at h
    split at h
    · rename_i id b hs
      refine ⟨_, hs, .inl ⟨rfl, rfl⟩, ?_⟩
      simp only [TScope.erase, Expr.symbol, hs]
      split at h
      · assumption
      · cases h
    · rename_i id b hs
      refine ⟨_, hs, .inr ⟨rfl, rfl⟩, ?_⟩
      simp only [TScope.erase, Expr.symbol, hs]
      split at h
      · assumption
      · cases h
    · cases h
  obtain ⟨s, hs, hty, hi⟩ := hk
  have hev : (Expr.ident u : Expr fo.F).evaluate md sc.erase = .ok (s.ty.sym.dummy fo, false) := by
    simp [Expr.evaluate, lookup, TScope.erase, hs]
  refine ⟨⟨trivial, Nat.le_refl 12⟩, ?_, ?_, ?_, ?_, ⟨_, rfl, fun v => ?_, fun ty => ?_⟩⟩
  · rcases hty with ⟨_, hd⟩ | ⟨_, hd⟩ <;> simp only [Expr.evaluate] at hev ⊢ <;>
      simp [hev, hd, hi]
  · rcases hty with ⟨_, hd⟩ | ⟨_, hd⟩ <;> simp [Expr.native, hev, hd]
  · rcases hty with ⟨_, hd⟩ | ⟨_, hd⟩ <;> simp [Expr.text, hev, hd]
  · rcases hty with ⟨_, hd⟩ | ⟨_, hd⟩
    · exact ⟨false, .inl (by rw [hev, hd])⟩
    · exact ⟨false, .inr (by rw [hev, hd])⟩
  · rw [he]
    rfl
  · rw [he]
    rfl

theorem inner_facts {env : LabelEnv} {t : String} (e : Expr fo.F) (h : Inner env sc t e) :
    PlainFacts md env sc t e e := by
  induction e with
  | intLit n =>
    exact ⟨trivial, ⟨_, rfl⟩, ⟨_, rfl⟩, ⟨_, rfl⟩, trivial, _, rfl, fun _ => Iff.rfl, fun _ => Iff.rfl⟩
  | boolLit n =>
    exact ⟨trivial, ⟨_, rfl⟩, ⟨_, rfl⟩, ⟨_, rfl⟩, trivial, _, rfl, fun _ => Iff.rfl, fun _ => Iff.rfl⟩
  | neg e _ =>
    cases e with
    | intLit n =>
      have h : 0 ≤ n := h
      refine ⟨⟨trivial, by simp [Expr.level]⟩, ?_, ⟨_, rfl⟩, ⟨_, rfl⟩, trivial, _, rfl, fun _ => Iff.rfl, fun _ => Iff.rfl⟩
      have : ¬ n = IntTy.i32.min := by
        simp only [IntTy.min, IntTy.i32, if_true]
        omega
      simp [Expr.evaluate, evalNeg, this]
    | _ => exact absurd h id
  | dot e a _ =>
    cases e with
    | ident u => exact item_facts h rfl
    | _ => exact absurd h id
  | paren e ih =>
    have lift : PlainFacts md env sc t e e → PlainFacts md env sc t (.paren e) (.paren e) := by
      intro ih
      obtain ⟨ts, hts⟩ := ih.text
      exact ⟨ih.parsed, ih.evaluates, ih.native, ⟨_, by rw [Expr.text, hts]; rfl⟩, ih.patterned, ih.alt⟩
    cases e with
    | ident c =>
      obtain ⟨⟨ty, hc⟩, hi⟩ := h
      refine ⟨trivial, ?_, ⟨_, rfl⟩, ⟨_, rfl⟩, ⟨ty, hc⟩, .const c, rfl, fun v => ?_, fun ty => ?_⟩
      · simp [Expr.evaluate, lookup, TScope.erase, hc]
      · simp [Alt.Matches, Alt.val, labelVal, hi]
      · simp [Alt.Fits, Alt.val, labelVal, hi]
    | _ => exact lift (ih h)
  | _ => exact absurd h id

theorem plain_facts {env : LabelEnv} {t : String} (e : Expr fo.F) (h : Plain env sc t e) :
    PlainFacts md env sc t e (completed t e) := by
  cases e with
  | ident a =>
    refine item_facts h ?_
    have h : (itemVal env sc t a).isSome := h
    obtain ⟨v, hv⟩ := Option.isSome_iff_exists.mp h
    simp [labelVal, hv]
  | _ => exact inner_facts _ h

theorem plain_text {env : LabelEnv} {param : String → Option String} {x t : String} (hx : param x = some t)
    (e : Expr fo.F) (h : Plain env sc t e) : ∃ ts, labelText md sc param (.ident x) e = .ok ts ∧
      (completed t e).text md sc.erase (textInfo md sc) = some ts := by
  have hf := plain_facts (md := md) e h
  obtain ⟨c, hc⟩ := hf.evaluates
  obtain ⟨n, hn⟩ := hf.native
  obtain ⟨ts, hts⟩ := hf.text
  refine ⟨ts, ?_, hts⟩
  simp [labelText, prefixLabel_completed hx, hc, hn, hts]

end Zs
