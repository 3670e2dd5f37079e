import Verif.LabelLemmas
import Verif.PropsTyping

/-!
# Properties of the labels of choices (C63)

The statement is in English in `properties.jsonl`; each theorem below repeats what it says.
-/

namespace Zs

open Spec

variable {fo : FloatOps} {md : Mode} {sc : TScope}

/-! ## C63: a choice takes the case whose label equals the selector -/

/-- C63, partial: a choice on one of its parameters, with labels of the plain kind (integer and boolean
literals, items with or without their type before them, constants in parentheses), is accepted; it is
written as a `match` on that parameter whose arms are patterns; every value takes the first case with a
label of that value, and the arm `_` if there is none; and the patterns have the type of the selector if
the labels have. -/
theorem C63_taken_partial (env : LabelEnv) (param : String → Option String) (x t : String)
    (hx : param x = some t) (hsel : (sc.ident x).isSome) (cases : List (List (Expr fo.F)))
    (hne : ∀ labels ∈ cases, labels ≠ []) (hplain : ∀ labels ∈ cases, ∀ e ∈ labels, Plain env sc t e) :
    ∃ arms alts, labelMatch md sc param (.ident x) cases = .ok (some x, arms) ∧
      alts.length = cases.length ∧
      arms.map (alternatives sc 0 true) = alts.map some ∧
      (∀ v, taken env sc alts v = chosen env sc t cases v) ∧
      ∀ ty, (∀ labels ∈ cases, ∀ e ∈ labels, ∃ v, labelVal env sc t e = some v ∧ v.HasTy ty) →
        ∀ as ∈ alts, ∀ a ∈ as, a.Fits env sc ty := by
  obtain ⟨s, hs⟩ := Option.isSome_iff_exists.mp hsel
  let text : Expr fo.F → List (Tok fo.F) := fun e =>
    ((completed t e).text md sc.erase (textInfo md sc)).getD []
  have htext : ∀ e, Plain env sc t e → labelText md sc param (.ident x) e = .ok (text e) ∧
      (completed t e).text md sc.erase (textInfo md sc) = some (text e) := by
    intro e he
    obtain ⟨ts, h1, h2⟩ := plain_text (md := md) hx e he
    have : text e = ts := by simp [text, h2]
    rw [this]
    exact ⟨h1, h2⟩
  let alts : List (List (Alt fo.F)) := cases.map fun labels => (labels.map (completed t)).flatMap altsOf
  let arms : List (List (Tok fo.F)) := cases.map fun labels => joinBar (labels.map text)
  have hevs : (Expr.ident x : Expr fo.F).evaluate md sc.erase = .ok (s.ty.sym.dummy fo, false) := by
    simp [Expr.evaluate, lookup, TScope.erase, hs]
  refine ⟨arms, alts, ?_, ?_, ?_, ?_, ?_⟩
  · have : cases.mapM (armText md sc param (.ident x)) = .ok arms :=
      mapM_ok fun labels hl => by
        simp only [armText]
        rw [mapM_ok fun e he => (htext e (hplain labels hl e he)).1]
        rfl
    simp only [labelMatch, hevs, this]
    rfl
  · simp [alts]
  · simp only [arms, alts, List.map_map]
    refine List.map_congr_left fun labels hl => ?_
    have := (joinBar_patterned (md := md) (sc := sc) (labels.map (completed t)) (labels.map text)
      (by simpa using hne labels hl) (by
        simp only [List.map_map]
        exact List.map_congr_left fun e he => (htext e (hplain labels hl e he)).2)
      (by
        intro l hl'
        obtain ⟨e, he, rfl⟩ := List.mem_map.mp hl'
        exact (plain_facts (md := md) e (hplain labels hl e he)).parsed)).1
    exact this (by
      intro l hl'
      obtain ⟨e, he, rfl⟩ := List.mem_map.mp hl'
      exact (plain_facts (md := md) e (hplain labels hl e he)).patterned)
  · intro v
    simp only [taken, chosen, alts, List.findIdx?_map]
    have key : ∀ labels ∈ cases,
        ((labels.map (completed t)).flatMap altsOf).any (fun a => decide (a.Matches env sc v)) =
          labels.any fun e => decide (labelVal env sc t e = some v) := by
      intro labels hl
      have hp := hplain labels hl
      clear hl
      induction labels with
      | nil => rfl
      | cons e labels ih =>
        obtain ⟨a, ha, hm, _⟩ := (plain_facts (md := md) e (hp e List.mem_cons_self)).alt
        simp only [List.map_cons, List.flatMap_cons, List.any_append, List.any_cons, ha, List.any_nil,
          Bool.or_false, ih fun e he => hp e (List.mem_cons_of_mem _ he)]
        congr 1
        exact decide_eq_decide.mpr (hm v)
    clear hplain hne
    induction cases with
    | nil => rfl
    | cons labels cases ih =>
      have ih := ih fun l hl => key l (List.mem_cons_of_mem _ hl)
      have k := key labels List.mem_cons_self
      simp only [Function.comp_def] at ih ⊢
      simp only [List.findIdx?_cons, k, ih]
  · intro ty hty as has a ha
    obtain ⟨labels, hl, rfl⟩ := List.mem_map.mp has
    obtain ⟨l, hl', ha⟩ := List.mem_flatMap.mp ha
    obtain ⟨e, he, rfl⟩ := List.mem_map.mp hl'
    obtain ⟨b, hb, _, hf⟩ := (plain_facts (md := md) e (hplain labels hl e he)).alt
    rw [hb] at ha
    rw [List.mem_singleton.mp ha]
    exact (hf ty).mpr (hty labels hl e he)

/-- C63, partial: of any case with labels that the schema parser can build, if it is accepted, the arm is
a pattern of Rust exactly if each label, completed with the type of the selector if it is a name, consists
of literals, items and constants with parentheses and `|` between them. -/
theorem C63_pattern_partial (param : String → Option String) (sel : Expr fo.F) (labels : List (Expr fo.F))
    (hne : labels ≠ []) (hp : ∀ e ∈ labels, e.Parsed) (ts : List (Tok fo.F))
    (h : armText md sc param sel labels = .ok ts) :
    (∃ as, IsPattern sc ts as) ↔ ∀ e ∈ labels, ∀ l, prefixLabel param sel e = .ok l → Patterned md sc l := by
  unfold armText at h
  obtain ⟨tss, htss, h⟩ := Res.bind_eq_ok.mp h
  cases h
  have hmap := mapM_eq_ok htss
  have hls : ∃ ls : List (Expr fo.F), labels.map (prefixLabel param sel) = ls.map .ok ∧
      ls.map (fun l => l.text md sc.erase (textInfo md sc)) = tss.map some := by
    clear htss hne hp h
    induction labels generalizing tss with
    | nil =>
      cases tss with
      | nil => exact ⟨[], rfl, rfl⟩
      | cons => simp at hmap
    | cons e labels ih =>
      cases tss with
      | nil => simp at hmap
      | cons ts tss =>
        simp only [List.map_cons, List.cons.injEq] at hmap
        obtain ⟨l, hl, ht⟩ := labelText_eq hmap.1
        obtain ⟨ls, h1, h2⟩ := ih tss hmap.2
        exact ⟨l :: ls, by simp [hl, h1], by simp [ht, h2]⟩
  obtain ⟨ls, h1, h2⟩ := hls
  have hlen : ls ≠ [] := by
    intro h0
    subst h0
    simp at h1
    exact hne h1
  have hmem : ∀ l, l ∈ ls ↔ ∃ e ∈ labels, prefixLabel param sel e = .ok l := by
    intro l
    have : (Res.ok l : Res (Expr fo.F)) ∈ ls.map .ok ↔ l ∈ ls := by simp
    rw [← this, ← h1]
    simp
  have hpar : ∀ l ∈ ls, l.Parsed := fun l hl => by
    obtain ⟨e, he, hl⟩ := (hmem l).mp hl
    exact prefixLabel_parsed (hp e he) hl
  have key := joinBar_patterned (md := md) (sc := sc) ls tss hlen h2 hpar
  constructor
  · rintro ⟨as, has⟩ e he l hl
    by_cases hall : ∀ l ∈ ls, Patterned md sc l
    · exact hall l ((hmem l).mpr ⟨e, he, hl⟩)
    · rw [IsPattern, key.2 hall] at has
      cases has
  · intro hall
    refine ⟨_, key.1 fun l hl => ?_⟩
    obtain ⟨e, he, hl⟩ := (hmem l).mp hl
    exact hall e he l hl

/-- C63 does not hold for computed labels: the label `m | n` is accepted and written as `m | n`, which as
a pattern takes the values `m` and `n` instead of the bitwise or of them.  Likewise for the items of a
bitmask. -/
theorem C63_or_violated (env : LabelEnv) (param : String → Option String) (x t : String)
    (hx : param x = some t) :
    (∀ m n : Int, ∃ ts as, armText md sc param (.ident x) [(.bit .or (.intLit m) (.intLit n) : Expr fo.F)] = .ok ts ∧
      IsPattern sc ts as ∧
      (∀ v, (∃ a ∈ as, a.Matches env sc v) ↔ v = .int m ∨ v = .int n) ∧
      labelVal env sc t (.bit .or (.intLit m) (.intLit n) : Expr fo.F) = some (.int (bitwise (· ||| ·) m n))) ∧
    (∀ u a b id base, sc.ident u = some ⟨.bitmask id base, .typeName⟩ → sc.hasItem id a = true →
      sc.hasItem id b = true →
      ∃ ts as, armText md sc param (.ident x)
          [(.bit .or (.dot (.ident u) a) (.dot (.ident u) b) : Expr fo.F)] = .ok ts ∧
      IsPattern sc ts as ∧
      (∀ v, (∃ a ∈ as, a.Matches env sc v) ↔ v = .mask id (env.bits id a) ∨ v = .mask id (env.bits id b)) ∧
      labelVal env sc t (.bit .or (.dot (.ident u) a) (.dot (.ident u) b) : Expr fo.F) =
        some (.mask id (env.bits id a ||| env.bits id b))) := by
  refine ⟨fun m n => ⟨_, _, rfl, rfl, fun v => ?_, rfl⟩, fun u a b id base hu ha hb => ?_⟩
  · simp [Alt.Matches, Alt.val, eq_comm]
  · have hev : (Expr.ident u : Expr fo.F).evaluate md sc.erase = .ok (.bitmask, false) := by
      simp [Expr.evaluate, lookup, TScope.erase, hu, ZTy.sym, SymTy.dummy]
    have hi : ∀ c, sc.hasItem id c = true → (sc.erase : EScope fo.F).hasItem (.ident u) c = true := by
      intro c hc
      simp [TScope.erase, Expr.symbol, hu, hc]
    have hd : ∀ c, sc.hasItem id c = true →
        (Expr.dot (.ident u) c : Expr fo.F).evaluate md sc.erase = .ok (.int 0, false) := by
      intro c hc
      rw [Expr.evaluate, hev]
      simp [hi c hc]
    have hv : ∀ c, sc.hasItem id c = true → itemVal env sc u c = some (.mask id (env.bits id c)) := by
      intro c hc
      simp [itemVal, hu, hc]
    refine ⟨[.atom (.item (.ident u) a), .op (.bit .or), .atom (.item (.ident u) b)],
      [.item (.ident u) a, .item (.ident u) b], ?_, rfl, fun v => ?_, ?_⟩
    · simp only [armText, labelText, prefixLabel, List.mapM_cons, List.mapM_nil]
      have hbit : (Expr.bit .or (.dot (.ident u) a) (.dot (.ident u) b) : Expr fo.F).evaluate md sc.erase =
          .ok (.int 0, false) := by
        rw [Expr.evaluate, hd a ha, hd b hb]
        rfl
      simp only [Res.ok_bind, hbit]
      simp [Expr.native, Expr.text, hev, joinBar]
    · simp [Alt.Matches, Alt.val, hv a ha, hv b hb, eq_comm]
    · simp [labelVal, hv a ha, hv b hb, bitVal]

/-- C63 does not hold for constants as labels: a name is always taken for an item of the type of the
selector, so that a choice with such a label makes the compiler panic if the type of the selector is not
the name of a type of the schema (`uint8`, `bool` ...). -/
theorem C63_constant_violated (param : String → Option String) (x t : String) (hx : param x = some t)
    (ht : sc.ident t = none) (cases : List (List (Expr fo.F))) (labels : List (Expr fo.F))
    (hl : labels ∈ cases) (c : String) (hc : .ident c ∈ labels) :
    ∀ s arms, labelMatch md sc param (.ident x) cases ≠ .ok (s, arms) := by
  intro s arms h
  unfold labelMatch at h
  obtain ⟨_, _, h⟩ := Res.bind_eq_ok.mp h
  obtain ⟨_, harms, h⟩ := Res.bind_eq_ok.mp h
  have h1 : armText md sc param (.ident x) labels ∈ cases.map (armText md sc param (.ident x)) :=
    List.mem_map_of_mem hl
  rw [mapM_eq_ok harms] at h1
  obtain ⟨ts, _, hts⟩ := List.mem_map.mp h1
  obtain ⟨_, htss, _⟩ := Res.bind_eq_ok.mp hts.symm
  have h2 : labelText md sc param (.ident x) (.ident c) ∈ labels.map (labelText md sc param (.ident x)) :=
    List.mem_map_of_mem hc
  rw [mapM_eq_ok htss] at h2
  obtain ⟨us, _, hus⟩ := List.mem_map.mp h2
  have : labelText md sc param (.ident x) (.ident c : Expr fo.F) = .panic := by
    simp [labelText, prefixLabel, selectorType, hx, Expr.evaluate, lookup, TScope.erase, ht]
  rw [this] at hus
  cases hus

/-- C63 does not hold for selectors other than names: what follows `self.` is not a name then, and if one
of the labels is a name, the compiler panics. -/
theorem C63_selector_violated (param : String → Option String) (sel : Expr fo.F)
    (hsel : ∀ x, sel ≠ .ident x) (cases : List (List (Expr fo.F))) (s : Option String)
    (arms : List (List (Tok fo.F))) (h : labelMatch md sc param sel cases = .ok (s, arms)) :
    s = none ∧ ∀ labels ∈ cases, ∀ c, .ident c ∉ labels := by
  unfold labelMatch at h
  obtain ⟨_, _, h⟩ := Res.bind_eq_ok.mp h
  obtain ⟨_, harms, h⟩ := Res.bind_eq_ok.mp h
  cases h
  refine ⟨?_, fun labels hl c hc => ?_⟩
  · cases sel with
    | ident x => exact absurd rfl (hsel x)
    | _ => rfl
  · have h1 : armText md sc param sel labels ∈ cases.map (armText md sc param sel) :=
      List.mem_map_of_mem hl
    rw [mapM_eq_ok harms] at h1
    obtain ⟨ts, _, hts⟩ := List.mem_map.mp h1
    obtain ⟨_, htss, _⟩ := Res.bind_eq_ok.mp hts.symm
    have h2 : labelText md sc param sel (.ident c) ∈ labels.map (labelText md sc param sel) :=
      List.mem_map_of_mem hc
    rw [mapM_eq_ok htss] at h2
    obtain ⟨us, _, hus⟩ := List.mem_map.mp h2
    have : labelText md sc param sel (.ident c : Expr fo.F) = .panic := by
      have : selectorType param sel = none := by
        cases sel with
        | ident x => exact absurd rfl (hsel x)
        | _ => rfl
      simp [labelText, prefixLabel, this]
    rw [this] at hus
    cases hus

/-- C63 does not hold for the label `@index` either: it is written as a plain name, which as a pattern
takes every value. -/
theorem C63_index_violated (env : LabelEnv) (param : String → Option String) (x : String) :
    ∃ ts as, armText md sc param (.ident x) [(.index : Expr fo.F)] = .ok ts ∧ IsPattern sc ts as ∧
      ∀ v, ∃ a ∈ as, a.Matches env sc v :=
  ⟨_, _, rfl, rfl, fun _ => ⟨.any, List.mem_cons_self, trivial⟩⟩

/-! ## Examples -/

/-- The scope of `choice C(E e, uint8 a, M m)`: `E` has the items `ONE` and `TWO`, the bitmask `M` has
`R` and `W`, `K` is a constant. -/
def labelScope : TScope where
  ident := fun x =>
    if x = "e" then some ⟨.enum "E" { name := .uint8 }, .plain⟩
    else if x = "a" then some ⟨.num .uint8, .plain⟩
    else if x = "m" then some ⟨.bitmask "M" { name := .uint8 }, .plain⟩
    else if x = "E" then some ⟨.enum "E" { name := .uint8 }, .typeName⟩
    else if x = "M" then some ⟨.bitmask "M" { name := .uint8 }, .typeName⟩
    else if x = "K" then some ⟨.num .uint8, .const⟩
    else none
  member := fun _ _ => none
  hasItem := fun id x => (id = "E" && (x = "ONE" || x = "TWO")) || (id = "M" && (x = "R" || x = "W"))
  index := false

/-- The types of the parameters. -/
def labelParams : String → Option String := fun x =>
  if x = "e" then some "E" else if x = "a" then some "uint8" else if x = "m" then some "M" else none

/-- `R` is 1, `W` is 2, `K` is 9. -/
def labelValues : LabelEnv where
  bits := fun _ x => if x = "R" then 1 else 2
  const := fun x => if x = "K" then some (.int 9) else none

-- `choice C(E e) on e { case ONE: ..; case (E.TWO): .. }`: both labels are plain, `TWO` takes the second
-- case, and the patterns have the type `E`.
example : let cases : List (List (Expr tenths.F)) := [[.ident "ONE"], [.paren (.dot (.ident "E") "TWO")]]
    (∀ labels ∈ cases, labels ≠ []) ∧
      (∀ labels ∈ cases, ∀ e ∈ labels, Plain labelValues labelScope "E" e) ∧
      chosen labelValues labelScope "E" cases (.item "E" "TWO") = some 1 ∧
      (∀ labels ∈ cases, ∀ e ∈ labels, ∃ v, labelVal labelValues labelScope "E" e = some v ∧
        v.HasTy (.enum "E")) := by
  intro cases
  refine ⟨by simp [cases], ?_, rfl, ?_⟩
  · intro labels hl e he
    rcases List.mem_cons.mp hl with rfl | hl
    · rw [List.mem_singleton.mp he]
      exact rfl
    · rw [List.mem_singleton.mp hl] at he
      rw [List.mem_singleton.mp he]
      exact rfl
  · intro labels hl e he
    rcases List.mem_cons.mp hl with rfl | hl
    · rw [List.mem_singleton.mp he]
      exact ⟨_, rfl, rfl⟩
    · rw [List.mem_singleton.mp hl] at he
      rw [List.mem_singleton.mp he]
      exact ⟨_, rfl, rfl⟩

-- `choice C(uint8 a) on a { case 1, 2: ..; case -3: ..; case (K): .. }`.
example : let cases : List (List (Expr tenths.F)) :=
      [[.intLit 1, .intLit 2], [.neg (.intLit 3)], [.paren (.ident "K")]]
    (∀ labels ∈ cases, ∀ e ∈ labels, Plain labelValues labelScope "uint8" e) ∧
      chosen labelValues labelScope "uint8" cases (.int 2) = some 0 ∧
      chosen labelValues labelScope "uint8" cases (.int 9) = some 2 ∧
      chosen labelValues labelScope "uint8" cases (.int 4) = none := by
  intro cases
  refine ⟨?_, rfl, rfl, rfl⟩
  intro labels hl e he
  simp only [cases, List.mem_cons, List.not_mem_nil, or_false] at hl
  rcases hl with rfl | rfl | rfl <;> simp only [List.mem_cons, List.not_mem_nil, or_false] at he
  · rcases he with rfl | rfl <;> exact trivial
  · subst he
    show (0 : Int) ≤ 3
    decide
  · subst he
    exact ⟨⟨_, rfl⟩, rfl⟩

-- `case 1 + 2:` is accepted, and not a pattern.
example : ∃ ts, armText .debug labelScope labelParams (.ident "a")
      [(.arith .add (.intLit 1) (.intLit 2) : Expr tenths.F)] = .ok ts ∧
    ¬ ∃ as, IsPattern labelScope ts as := by
  refine ⟨_, rfl, fun ⟨as, h⟩ => ?_⟩
  cases h

-- `case 1 | 2:` takes 1 and 2 where it ought to take 3.
example : ∃ ts as, armText .debug labelScope labelParams (.ident "a")
      [(.bit .or (.intLit 1) (.intLit 2) : Expr tenths.F)] = .ok ts ∧ IsPattern labelScope ts as ∧
    taken labelValues labelScope [as] (.int 3) = none ∧
    chosen labelValues labelScope "uint8" [[(.bit .or (.intLit 1) (.intLit 2) : Expr tenths.F)]] (.int 3) = some 0 ∧
    taken labelValues labelScope [as] (.int 1) = some 0 ∧
    chosen labelValues labelScope "uint8" [[(.bit .or (.intLit 1) (.intLit 2) : Expr tenths.F)]] (.int 1) = none :=
  ⟨_, _, rfl, rfl, by decide, by decide, by decide, by decide⟩

-- `case M.R | M.W:`.
example : labelScope.ident "M" = some ⟨.bitmask "M" { name := .uint8 }, .typeName⟩ ∧
    labelScope.hasItem "M" "R" = true ∧ labelScope.hasItem "M" "W" = true := ⟨rfl, rfl, rfl⟩

-- `choice C(uint8 a) on a { case K: ... }`.
example : labelParams "a" = some "uint8" ∧ labelScope.ident "uint8" = none ∧
    labelVal labelValues labelScope "uint8" (.ident "K" : Expr tenths.F) = some (.int 9) := ⟨rfl, rfl, rfl⟩

-- `choice C(uint8 a) on (a) { case 1: ... }` is accepted.
example : ∃ arms, labelMatch .debug labelScope labelParams (.paren (.ident "a"))
    [[(.intLit 1 : Expr tenths.F)]] = .ok (none, arms) := ⟨_, rfl⟩

end Zs
