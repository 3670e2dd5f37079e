import Verif.VisitReadLemmas

/-!
# Lemmas about the symbol tables
-/

namespace Zs

open Ast Spec

variable {fl : FloatText}

theorem insertAll_append {α β : Type} (name : α → String) (value : α → β) (as bs : List α) (m : Map β) :
    Map.insertAll name value (as ++ bs) m = Map.insertAll name value bs (Map.insertAll name value as m) := by
  induction as generalizing m with
  | nil => rfl
  | cons a as ih => simp [Map.insertAll, ih]

theorem insertAll_map {α β γ : Type} (name : β → String) (value : β → γ) (g : α → β) (as : List α) (m : Map γ) :
    Map.insertAll name value (as.map g) m = Map.insertAll (fun a => name (g a)) (fun a => value (g a)) as m := by
  induction as generalizing m with
  | nil => rfl
  | cons a as ih => simp [Map.insertAll, ih]

/-- A lookup finds the last element of the name. -/
theorem insertAll_get {α β : Type} (name : α → String) (value : α → β) (as : List α) (m : Map β) (n : String) :
    Map.insertAll name value as m n =
      match as.reverse.find? (fun a => name a = n) with
      | some a => some (value a)
      | none => m n := by
  induction as generalizing m with
  | nil => rfl
  | cons a as ih =>
    rw [Map.insertAll, ih, List.reverse_cons, List.find?_append]
    cases h : as.reverse.find? (fun a => name a = n) with
    | some b => simp
    | none =>
      by_cases hn : name a = n
      · simp [hn, Map.insert]
      · have : n ≠ name a := fun e => hn e.symm
        simp [hn, this, Map.insert]

theorem insertAll_mem {α β : Type} {name : α → String} {value : α → β} {as : List α} {m : Map β} {n : String}
    {b : β} (h : Map.insertAll name value as m n = some b) :
    (∃ a ∈ as, name a = n ∧ value a = b) ∨ m n = some b := by
  rw [insertAll_get] at h
  cases hf : as.reverse.find? (fun a => name a = n) with
  | none => rw [hf] at h; exact .inr h
  | some a =>
    rw [hf] at h
    have h1 := List.find?_some hf
    have h2 := List.mem_of_find?_eq_some hf
    exact .inl ⟨a, by simpa using h2, by simpa using h1, by simpa using h⟩

theorem insertAll_some {α β : Type} {name : α → String} {value : α → β} {as : List α} {m : Map β} {n : String}
    (h : (∃ a ∈ as, name a = n) ∨ m n ≠ none) : Map.insertAll name value as m n ≠ none := by
  rw [insertAll_get]
  cases hf : as.reverse.find? (fun a => name a = n) with
  | some a => simp
  | none =>
    rcases h with ⟨a, ha, hn⟩ | h
    · rw [List.find?_eq_none] at hf
      exact absurd (by simpa using hn) (hf a (by simpa using ha))
    · exact h

theorem insertMap_mem {α β : Type} {value : α → β} {e : Map α} {m : Map β} {n : String} {b : β}
    (h : Map.insertMap value e m n = some b) : (∃ a, e n = some a ∧ value a = b) ∨ m n = some b := by
  simp only [Map.insertMap] at h
  cases he : e n with
  | none => rw [he] at h; exact .inr h
  | some a => rw [he] at h; exact .inl ⟨a, rfl, by simpa using h⟩

theorem insertMap_some {α β : Type} {value : α → β} {e : Map α} {m : Map β} {n : String}
    (h : e n ≠ none ∨ m n ≠ none) : Map.insertMap value e m n ≠ none := by
  simp only [Map.insertMap]
  cases he : e n with
  | none => exact h.resolve_left (fun h => h he)
  | some a => simp

/-! ## Maps of declarations -/

theorem visitStruct_name {s : Src.Struct} {x : Ast.Struct fl.F} (h : visitStruct fl s = .ok x) : x.name = s.name := by
  simp only [visitStruct, Res.bind_eq_ok, Res.ok.injEq] at h
  obtain ⟨_, _, _, _, _, _, rfl⟩ := h
  rfl

theorem visitChoice_name {s : Src.Choice} {x : Ast.Choice fl.F} (h : visitChoice fl s = .ok x) :
    x.name = s.name := by
  simp only [visitChoice, Res.bind_eq_ok, Res.ok.injEq] at h
  obtain ⟨_, _, _, _, _, _, _, _, rfl⟩ := h
  rfl

theorem visitUnion_name {s : Src.Union} {x : Ast.Union fl.F} (h : visitUnion fl s = .ok x) : x.name = s.name := by
  simp only [visitUnion, Res.bind_eq_ok, Res.ok.injEq] at h
  obtain ⟨_, _, _, _, _, _, rfl⟩ := h
  rfl

theorem visitEnum_name {s : Src.Enum} {x : Ast.Enum fl.F} (h : visitEnum fl s = .ok x) : x.name = s.name := by
  simp only [visitEnum, Res.bind_eq_ok, Res.ok.injEq] at h
  obtain ⟨_, _, _, _, rfl⟩ := h
  rfl

theorem visitBitmask_name {s : Src.Bitmask} {x : Ast.Bitmask fl.F} (h : visitBitmask fl s = .ok x) :
    x.name = s.name := by
  simp only [visitBitmask, Res.bind_eq_ok, Res.ok.injEq] at h
  obtain ⟨_, _, _, _, rfl⟩ := h
  rfl

theorem visitConst_name {s : Src.Const} {x : Ast.Const fl.F} (h : visitConst fl s = .ok x) : x.name = s.name := by
  simp only [visitConst, Res.bind_eq_ok, Res.ok.injEq] at h
  obtain ⟨_, _, _, _, rfl⟩ := h
  rfl

theorem visitAlias_name {F : Type} {s : Src.Alias} {x : Ast.Alias F} (h : visitAlias s = .ok x) :
    x.name = s.name := by
  simp only [visitAlias, Res.bind_eq_ok, Res.ok.injEq] at h
  obtain ⟨_, _, rfl⟩ := h
  rfl

theorem visitList_append_inv {α β : Type} {f : α → Res β} {as bs : List α} {xs : List β}
    (h : visitList f (as ++ bs) = .ok xs) :
    ∃ ys zs, visitList f as = .ok ys ∧ visitList f bs = .ok zs ∧ xs = ys ++ zs := by
  induction as generalizing xs with
  | nil => exact ⟨[], xs, rfl, h, rfl⟩
  | cons a as ih =>
    simp only [List.cons_append, visitList, Res.bind_eq_ok, Res.ok.injEq] at h
    obtain ⟨b, hb, r, hr, rfl⟩ := h
    obtain ⟨ys, zs, h1, h2, rfl⟩ := ih hr
    exact ⟨b :: ys, zs, by simp [visitList, hb, h1], h2, rfl⟩

theorem visitList_reverse {α β : Type} {f : α → Res β} {as : List α} {xs : List β} (h : visitList f as = .ok xs) :
    visitList f as.reverse = .ok xs.reverse := by
  have happ : ∀ (as bs : List α) (xs ys : List β), visitList f as = .ok xs → visitList f bs = .ok ys →
      visitList f (as ++ bs) = .ok (xs ++ ys) := by
    intro as
    induction as with
    | nil => intro bs xs ys h1 h2; simp only [visitList, Res.ok.injEq] at h1; subst h1; simpa using h2
    | cons a as ih =>
      intro bs xs ys h1 h2
      simp only [visitList, Res.bind_eq_ok, Res.ok.injEq] at h1
      obtain ⟨b, hb, r, hr, rfl⟩ := h1
      simp [visitList, hb, ih _ _ _ hr h2]
  induction as generalizing xs with
  | nil => simp only [visitList, Res.ok.injEq] at h; subst h; rfl
  | cons a as ih =>
    simp only [visitList, Res.bind_eq_ok, Res.ok.injEq] at h
    obtain ⟨b, hb, r, hr, rfl⟩ := h
    rw [List.reverse_cons, List.reverse_cons]
    exact happ _ _ _ _ (ih hr) (by simp [visitList, hb])

/-- Looking for a name in what is visited is visiting what is found. -/
theorem visitList_find {α β γ : Type} {f : α → Res β} {r : β → Option γ} {s : α → γ} (hr : WrittenReads f r s)
    {nameA : α → String} {nameB : β → String} (hn : ∀ a b, f a = .ok b → nameB b = nameA a) (n : String) :
    ∀ {as : List α} {xs : List β}, visitList f as = .ok xs →
      (xs.find? (fun b => nameB b = n)).bind r = (as.find? (fun a => nameA a = n)).map s := by
  intro as
  induction as with
  | nil => intro xs h; simp only [visitList, Res.ok.injEq] at h; subst h; rfl
  | cons a as ih =>
    intro xs h
    simp only [visitList, Res.bind_eq_ok, Res.ok.injEq] at h
    obtain ⟨b, hb, ys, hys, rfl⟩ := h
    have e := hn a b hb
    by_cases hc : nameA a = n
    · have : nameB b = n := e.trans hc
      simp [List.find?_cons, hc, this, hr a b hb]
    · have : ¬ nameB b = n := fun h => hc (e.symm.trans h)
      simp only [List.find?_cons, hc, this, decide_false]
      exact ih hys

theorem map_lookup {α β γ : Type} {f : α → Res β} {r : β → Option γ} {s : α → γ} (hr : WrittenReads f r s)
    {nameA : α → String} {nameB : β → String} (hn : ∀ a b, f a = .ok b → nameB b = nameA a) (n : String)
    {as : List α} {xs : List β} (h : visitList f as = .ok xs) :
    (Map.insertAll nameB id xs Map.empty n).bind r = (as.reverse.find? (fun a => nameA a = n)).map s := by
  rw [← visitList_find hr hn n (visitList_reverse h), insertAll_get]
  cases xs.reverse.find? (fun b => nameB b = n) <;> rfl

/-! ## The symbols of a package -/

theorem mem_structsOf {ds : List Src.Directive} {d : Src.Struct} : d ∈ structsOf ds ↔ .struct d ∈ ds := by
  simp only [structsOf, List.mem_filterMap]
  constructor
  · rintro ⟨a, ha, h⟩; split at h <;> simp_all
  · intro h; exact ⟨_, h, rfl⟩

theorem mem_choicesOf {ds : List Src.Directive} {d : Src.Choice} : d ∈ choicesOf ds ↔ .choice d ∈ ds := by
  simp only [choicesOf, List.mem_filterMap]
  constructor
  · rintro ⟨a, ha, h⟩; split at h <;> simp_all
  · intro h; exact ⟨_, h, rfl⟩

theorem mem_unionsOf {ds : List Src.Directive} {d : Src.Union} : d ∈ unionsOf ds ↔ .union d ∈ ds := by
  simp only [unionsOf, List.mem_filterMap]
  constructor
  · rintro ⟨a, ha, h⟩; split at h <;> simp_all
  · intro h; exact ⟨_, h, rfl⟩

theorem mem_enumsOf {ds : List Src.Directive} {d : Src.Enum} : d ∈ enumsOf ds ↔ .enum d ∈ ds := by
  simp only [enumsOf, List.mem_filterMap]
  constructor
  · rintro ⟨a, ha, h⟩; split at h <;> simp_all
  · intro h; exact ⟨_, h, rfl⟩

theorem mem_bitmasksOf {ds : List Src.Directive} {d : Src.Bitmask} : d ∈ bitmasksOf ds ↔ .bitmask d ∈ ds := by
  simp only [bitmasksOf, List.mem_filterMap]
  constructor
  · rintro ⟨a, ha, h⟩; split at h <;> simp_all
  · intro h; exact ⟨_, h, rfl⟩

theorem mem_constsOf {ds : List Src.Directive} {d : Src.Const} : d ∈ constsOf ds ↔ .const d ∈ ds := by
  simp only [constsOf, List.mem_filterMap]
  constructor
  · rintro ⟨a, ha, h⟩; split at h <;> simp_all
  · intro h; exact ⟨_, h, rfl⟩

theorem mem_subtypesOf {ds : List Src.Directive} {d : Src.Alias} : d ∈ subtypesOf ds ↔ .subtype d ∈ ds := by
  simp only [subtypesOf, List.mem_filterMap]
  constructor
  · rintro ⟨a, ha, h⟩; split at h <;> simp_all
  · intro h; exact ⟨_, h, rfl⟩

theorem insertAll_empty_mem {β : Type} {name : β → String} {xs : List β} {n : String} {b : β}
    (h : Map.insertAll name id xs Map.empty n = some b) : b ∈ xs ∧ name b = n := by
  rcases insertAll_mem h with ⟨a, ha, hn, rfl⟩ | h
  · exact ⟨ha, hn⟩
  · simp [Map.empty] at h

theorem fileSymbols_declared {p : Src.Package} {q : Ast.Package fl.F} (c : Components fl p q) {n : String}
    {s : Symbol fl.F} (h : fileSymbols q n = some s) :
    ∃ d ∈ p.directives, ∃ D, declares d = some (n, D) ∧ readSymbol s = some D := by
  simp only [fileSymbols] at h
  rcases insertAll_mem h with ⟨x, hx, rfl, rfl⟩ | h
  · obtain ⟨d, hd, e⟩ := visitList_mem' c.subtypes x hx
    exact ⟨_, mem_subtypesOf.1 hd, _, by rw [declares, visitAlias_name e], by simp [readSymbol, reads_alias _ _ e]⟩
  rcases insertAll_mem h with ⟨x, hx, rfl, rfl⟩ | h
  · obtain ⟨d, hd, e⟩ := visitList_mem' c.enums x hx
    exact ⟨_, mem_enumsOf.1 hd, _, by rw [declares, visitEnum_name e], by simp [readSymbol, reads_enum _ _ e]⟩
  rcases insertMap_mem h with ⟨x, hx, rfl⟩ | h
  · obtain ⟨xs, h1, h2⟩ := c.unions
    rw [h2] at hx
    obtain ⟨hy, rfl⟩ := insertAll_empty_mem hx
    obtain ⟨d, hd, e⟩ := visitList_mem' h1 x hy
    exact ⟨_, mem_unionsOf.1 hd, _, by rw [declares, visitUnion_name e], by simp [readSymbol, reads_union _ _ e]⟩
  rcases insertMap_mem h with ⟨x, hx, rfl⟩ | h
  · obtain ⟨xs, h1, h2⟩ := c.choices
    rw [h2] at hx
    obtain ⟨hy, rfl⟩ := insertAll_empty_mem hx
    obtain ⟨d, hd, e⟩ := visitList_mem' h1 x hy
    exact ⟨_, mem_choicesOf.1 hd, _, by rw [declares, visitChoice_name e],
      by simp [readSymbol, reads_choice _ _ e]⟩
  rcases insertMap_mem h with ⟨x, hx, rfl⟩ | h
  · obtain ⟨xs, h1, h2⟩ := c.structs
    rw [h2] at hx
    obtain ⟨hy, rfl⟩ := insertAll_empty_mem hx
    obtain ⟨d, hd, e⟩ := visitList_mem' h1 x hy
    exact ⟨_, mem_structsOf.1 hd, _, by rw [declares, visitStruct_name e],
      by simp [readSymbol, reads_struct _ _ e]⟩
  rcases insertAll_mem h with ⟨x, hx, rfl, rfl⟩ | h
  · obtain ⟨d, hd, e⟩ := visitList_mem' c.bitmasks x hx
    exact ⟨_, mem_bitmasksOf.1 hd, _, by rw [declares, visitBitmask_name e],
      by simp [readSymbol, reads_bitmask _ _ e]⟩
  rcases insertAll_mem h with ⟨x, hx, rfl, rfl⟩ | h
  · obtain ⟨d, hd, e⟩ := visitList_mem' c.consts x hx
    exact ⟨_, mem_constsOf.1 hd, _, by rw [declares, visitConst_name e], by simp [readSymbol, reads_const _ _ e]⟩
  · simp [Map.empty] at h

theorem insertAll_ne_none {β : Type} {name : β → String} {xs : List β} {b : β} (h : b ∈ xs) :
    Map.insertAll name id xs Map.empty (name b) ≠ none := insertAll_some (.inl ⟨b, h, rfl⟩)

theorem fileSymbols_some {p : Src.Package} {q : Ast.Package fl.F} (c : Components fl p q) {d : Src.Directive}
    (hd : d ∈ p.directives) {n : String} {D : Declared} (h : declares d = some (n, D)) :
    fileSymbols q n ≠ none := by
  simp only [fileSymbols]
  cases d <;> simp only [declares, Option.some.injEq, Prod.mk.injEq, reduceCtorEq] at h <;>
    obtain ⟨rfl, -⟩ := h
  case subtype d =>
    obtain ⟨x, hx, e⟩ := visitList_mem c.subtypes d (mem_subtypesOf.2 hd)
    exact insertAll_some (.inl ⟨x, hx, visitAlias_name e⟩)
  case enum d =>
    obtain ⟨x, hx, e⟩ := visitList_mem c.enums d (mem_enumsOf.2 hd)
    exact insertAll_some (.inr (insertAll_some (.inl ⟨x, hx, visitEnum_name e⟩)))
  case union d =>
    obtain ⟨xs, h1, h2⟩ := c.unions
    obtain ⟨x, hx, e⟩ := visitList_mem h1 d (mem_unionsOf.2 hd)
    rw [← visitUnion_name e, h2]
    exact insertAll_some (.inr (insertAll_some (.inr (insertMap_some (.inl (insertAll_ne_none hx))))))
  case choice d =>
    obtain ⟨xs, h1, h2⟩ := c.choices
    obtain ⟨x, hx, e⟩ := visitList_mem h1 d (mem_choicesOf.2 hd)
    rw [← visitChoice_name e, h2]
    exact insertAll_some (.inr (insertAll_some (.inr (insertMap_some (.inr (insertMap_some
      (.inl (insertAll_ne_none hx))))))))
  case struct d =>
    obtain ⟨xs, h1, h2⟩ := c.structs
    obtain ⟨x, hx, e⟩ := visitList_mem h1 d (mem_structsOf.2 hd)
    rw [← visitStruct_name e, h2]
    exact insertAll_some (.inr (insertAll_some (.inr (insertMap_some (.inr (insertMap_some (.inr (insertMap_some
      (.inl (insertAll_ne_none hx))))))))))
  case bitmask d =>
    obtain ⟨x, hx, e⟩ := visitList_mem c.bitmasks d (mem_bitmasksOf.2 hd)
    exact insertAll_some (.inr (insertAll_some (.inr (insertMap_some (.inr (insertMap_some (.inr (insertMap_some
      (.inr (insertAll_some (.inl ⟨x, hx, visitBitmask_name e⟩)))))))))))
  case const d =>
    obtain ⟨x, hx, e⟩ := visitList_mem c.consts d (mem_constsOf.2 hd)
    exact insertAll_some (.inr (insertAll_some (.inr (insertMap_some (.inr (insertMap_some (.inr (insertMap_some
      (.inr (insertAll_some (.inr (insertAll_some (.inl ⟨x, hx, visitConst_name e⟩)))))))))))))

/-- A table filled from a list without duplicates contains everything. -/
theorem insertAll_pairs {β : Type} {xs : List (String × β)} (h : (xs.map Prod.fst).Nodup) {n : String} {b : β}
    (hm : (n, b) ∈ xs) (m : Map β) : Map.insertAll Prod.fst Prod.snd xs m n = some b := by
  rw [insertAll_get]
  cases hf : xs.reverse.find? (fun a => a.1 = n) with
  | none =>
    rw [List.find?_eq_none] at hf
    exact absurd (by simp) (hf (n, b) (by simpa using hm))
  | some a =>
    have h1 := List.find?_some hf
    have h2 := List.mem_of_find?_eq_some hf
    simp only [decide_eq_true_eq] at h1
    simp only [List.mem_reverse] at h2
    obtain ⟨a1, a2⟩ := a
    simp only at h1
    subst h1
    have : ∀ (l : List (String × β)), (l.map Prod.fst).Nodup → (a1, b) ∈ l → (a1, a2) ∈ l → a2 = b := by
      intro l
      induction l with
      | nil => simp
      | cons y l ih =>
        intro hd h1 h2
        simp only [List.map_cons, List.nodup_cons, List.mem_map] at hd
        rcases List.mem_cons.1 h1 with e1 | e1 <;> rcases List.mem_cons.1 h2 with e2 | e2
        · rw [← e1] at e2; simp only [Prod.mk.injEq] at e2; exact e2.2
        · subst e1; exact absurd ⟨_, e2, rfl⟩ hd.1
        · subst e2; exact absurd ⟨_, e1, rfl⟩ hd.1
        · exact ih hd.2 e1 e2
    simp [this xs h hm h2]

theorem structSymbols_pairs {F : Type} (s : Ast.Struct F) :
    structSymbols s = Map.insertAll Prod.fst Prod.snd (structMembers s) Map.empty := by
  simp [structSymbols, structMembers, insertAll_append, insertAll_map]

theorem unionSymbols_pairs {F : Type} (s : Ast.Union F) :
    unionSymbols s = Map.insertAll Prod.fst Prod.snd (unionMembers s) Map.empty := by
  simp [unionSymbols, unionMembers, insertAll_append, insertAll_map]

theorem choiceSymbols_pairs {F : Type} (s : Ast.Choice F) :
    choiceSymbols s = Map.insertAll Prod.fst Prod.snd (choiceMembers s) Map.empty := by
  simp [choiceSymbols, choiceMembers, insertAll_append, insertAll_map]

theorem enumSymbols_pairs {F : Type} (s : Ast.Enum F) :
    enumSymbols s = Map.insertAll Prod.fst Prod.snd (enumMembers s) Map.empty := by
  simp [enumSymbols, enumMembers, insertAll_map]

/-! ## Files -/

/-- The last file of a package. -/
theorem loadModel_get {ps : List Src.Package} {m0 m : List String → Option (Ast.Package fl.F)}
    (h : loadModel fl m0 ps = .ok m) (n : List String) :
    match ps.reverse.find? (fun p => p.name = some n) with
    | some p => ∃ q, visitPackage fl p = .ok q ∧ m n = some q
    | none => m n = m0 n := by
  induction ps generalizing m0 with
  | nil => simp only [loadModel, Res.ok.injEq] at h; subst h; rfl
  | cons p ps ih =>
    simp only [loadModel, Res.bind_eq_ok] at h
    obtain ⟨q, hq, h⟩ := h
    have := ih h
    rw [List.reverse_cons, List.find?_append]
    cases hf : ps.reverse.find? (fun p => p.name = some n) with
    | some r => rw [hf] at this; simpa using this
    | none =>
      rw [hf] at this
      have hn := (components hq).name
      by_cases hc : n = q.name
      · subst hc
        simp only [if_true] at this
        simp [hn, hq, this]
      · have hc' : ¬ p.name = some n := by rw [hn]; simpa using fun e => hc e.symm
        simp only [hc, if_false] at this
        simp [hc', this]

end Zs
