import Verif.Tables

/-!
# Specification: what the evaluation of an expression looks at; lemmas

An expression *looks at* a declaration if the compiler has to read it to find out the type of the expression.  The
relation says so without any cell being borrowed; the lemmas show that borrowed cells matter exactly if they are
looked at.
-/

namespace Zs.Lookup

variable {fo : FloatOps}

namespace Look

@[simp] theorem pure_eq {α : Type} (a : α) : (pure a : Look α) = .ok a := rfl
@[simp] theorem ok_bind {α β : Type} (a : α) (f : α → Look β) : (Look.ok a >>= f) = f a := rfl
@[simp] theorem panic_bind {α β : Type} (f : α → Look β) : ((Look.panic : Look α) >>= f) = .panic := rfl
@[simp] theorem endless_bind {α β : Type} (f : α → Look β) : ((Look.endless : Look α) >>= f) = .endless := rfl
@[simp] theorem ok_inj {α : Type} (a b : α) : (Look.ok a = Look.ok b) ↔ a = b :=
  ⟨fun h => Res.ok.inj (Option.some.inj h), fun h => h ▸ rfl⟩
@[simp] theorem panic_ne_ok {α : Type} (a : α) : (Look.panic = Look.ok a) ↔ False :=
  ⟨fun h => Res.noConfusion rfl (heq_of_eq (Option.some.inj h)), False.elim⟩
@[simp] theorem err_ne_ok {α : Type} (e : Err) (a : α) : ((some (.err e) : Look α) = Look.ok a) ↔ False :=
  ⟨fun h => Res.noConfusion rfl (heq_of_eq (Option.some.inj h)), False.elim⟩
@[simp] theorem endless_ne_ok {α : Type} (a : α) : (Look.endless = Look.ok a) ↔ False := by
  simp [Look.ok, Look.endless]

theorem bind_eq_ok {α β : Type} {x : Look α} {f : α → Look β} {b : β} :
    (x >>= f) = .ok b ↔ ∃ a, x = .ok a ∧ f a = .ok b := by
  constructor
  · intro h
    match x, h with
    | some (.ok a), h => exact ⟨a, rfl, h⟩
    | none, h => exact absurd h (by simp [Bind.bind, Look.bind, Look.ok])
    | some (.err e), h => exact ((err_ne_ok e b).1 h).elim
    | some .panic, h => exact ((panic_ne_ok b).1 h).elim
  · rintro ⟨a, rfl, h⟩; exact h

end Look

/-! ## Looking at declarations -/

/-- Declarations whose name is asked for when they are found. -/
def Kind.Named : Kind → Prop
  | .struct | .choice | .subtype | .enum | .bitmask => True
  | _ => False

/-- Declarations whose type is asked for. -/
def Kind.Typed : Kind → Prop
  | .const | .field | .param | .item | .subtype => True
  | _ => False

/-- The name stands for the declaration. -/
def Finds (t : Tables) (n : Nat) (loc : Loc) (name : String) (ignoreLocals : Bool) (s : Sym) : Prop :=
  ∃ package, t.resolve n loc.package loc.current name ignoreLocals = some (.ok (s, package))

/-- To find the type behind a reference, the declaration in the cell is read. -/
inductive TypeLooks (t : Tables) (n : Nat) (loc : Loc) : TypeRef Unit → Nat → Prop where
  | found {r s} : r.builtin = false → Finds t n loc r.name true s → s.kind.Named ∨ s.kind.Typed →
      TypeLooks t n loc r s.cell
  | behind {r s c} : r.builtin = false → Finds t n loc r.name true s → s.kind.Typed →
      TypeLooks t n loc s.type c → TypeLooks t n loc r c

/-- To find the type of a declaration, the declaration in the cell is read. -/
def SymLooks (t : Tables) (n : Nat) (loc : Loc) (s : Sym) (c : Nat) : Prop :=
  s.kind.Typed ∧ (c = s.cell ∨ TypeLooks t n loc s.type c)

/-- To find the declaration behind subtypes, the one in the cell is read. -/
inductive BaseLooks (t : Tables) : TypeRef Unit → Nat → Prop where
  | found {r p s} : r.builtin = false → t.packages r.package = some p → p.file r.name = some s →
      BaseLooks t r s.cell
  | behind {r p s c} : r.builtin = false → t.packages r.package = some p → p.file r.name = some s →
      s.kind = .subtype → BaseLooks t s.type c → BaseLooks t r c

/-- To find a member of what the symbol on the left of a dot stands for, the declaration in the cell is read. -/
def MemberLooks (t : Tables) (n : Nat) (left : SymRef) (name : String) (c : Nat) : Prop :=
  c = left.symbol.cell ∨ BaseLooks t left.symbol.type c ∨
    ∃ base d, fundamental t free n left.symbol.type = .ok base ∧ getSymbol t free base.package base.name = .ok d ∧
      ((d.symbol.kind.Named ∧ c = d.symbol.cell) ∨
        ∃ s, Finds t n ⟨d.package, some d.name⟩ name false s ∧
          ((s.kind.Named ∧ c = s.cell) ∨ SymLooks t n ⟨d.package, some d.name⟩ s c))

/-- To evaluate the expression, the declaration in the cell is read. -/
def Looks (t : Tables) (n : Nat) (loc : Loc) (md : Mode) : Expr fo.F → Nat → Prop
  | .intLit _, _ | .boolLit _, _ | .strLit _, _ | .floatLit _, _ | .index, _ => False
  | .paren e, c | .lengthof e, c | .numbits e, c | .plus e, c | .neg e, c | .not e, c | .compl e, c =>
    Looks t n loc md e c
  | .elem a b, c | .isset a b, c | .cmp _ a b, c | .arith _ a b, c | .bit _ a b, c | .logic _ a b, c =>
    Looks t n loc md a c ∨ Looks t n loc md b c
  | .tern a b d, c => Looks t n loc md a c ∨ Looks t n loc md b c ∨ Looks t n loc md d c
  | .ident name, c => ∃ s, Finds t n loc name false s ∧ ((s.kind.Named ∧ c = s.cell) ∨ SymLooks t n loc s c)
  | .valueof e, c => Looks t n loc md e c ∨
      ∃ o d, evaluate t free n loc md e = .ok o ∧ o.who = some d ∧ c = d.cell
  | .call e, c => Looks t n loc md e c ∨
      ∃ o f, evaluate t free n loc md e = .ok o ∧ o.who = some f ∧ (c = f.cell ∨ TypeLooks t n loc f.type c)
  | .dot e name, c => Looks t n loc md e c ∨
      ∃ o, evaluate t free n loc md e = .ok o ∧
        match o.val with
        | .compound => ∃ left, o.symbol = some left ∧ MemberLooks t n left name c
        | _ => ∃ d, o.who = some d ∧ c = d.cell

/-! ## Borrowing -/

/-- With nothing borrowed the computation ends well; with the cells `held` borrowed it gives the same, unless one of
the cells that it looks at is among them; then it panics. -/
def Checked {α : Type} (held : Held) (x y : Look α) (L : Nat → Prop) : Prop :=
  ∀ v, x = .ok v → ((∀ c, L c → held c = false) → y = .ok v) ∧ ((∃ c, L c ∧ held c = true) → y = .panic)

theorem Checked.pure {α : Type} {held : Held} {L : Nat → Prop} (x : Look α) (h : ∀ c, L c → False) :
    Checked held x x L :=
  fun _ e => ⟨fun _ => e, fun ⟨c, hc, _⟩ => (h c hc).elim⟩

theorem Checked.congr {α : Type} {held : Held} {L M : Nat → Prop} {x y : Look α} (h : Checked held x y L)
    (he : ∀ v, x = .ok v → ∀ c, L c ↔ M c) : Checked held x y M := by
  intro v hv
  obtain ⟨h1, h2⟩ := h v hv
  exact ⟨fun hc => h1 fun c hl => hc c ((he v hv c).1 hl),
    fun ⟨c, hm, hh⟩ => h2 ⟨c, (he v hv c).2 hm, hh⟩⟩

theorem Checked.bind {α β : Type} {held : Held} {L : Nat → Prop} {M : α → Nat → Prop} {x y : Look α}
    {f g : α → Look β} (h : Checked held x y L) (hf : ∀ a, x = .ok a → Checked held (f a) (g a) (M a)) :
    Checked held (x >>= f) (y >>= g) (fun c => L c ∨ ∃ a, x = .ok a ∧ M a c) := by
  intro v hv
  obtain ⟨a, ha, hfa⟩ := Look.bind_eq_ok.1 hv
  obtain ⟨h1, h2⟩ := h a ha
  obtain ⟨g1, g2⟩ := hf a ha v hfa
  refine ⟨fun hc => ?_, ?_⟩
  · rw [h1 fun c hl => hc c (.inl hl)]
    exact g1 fun c hm => hc c (.inr ⟨a, ha, hm⟩)
  · rintro ⟨c, hl, hh⟩
    by_cases hany : ∃ c, L c ∧ held c = true
    · rw [h2 hany]; rfl
    · have hno : ∀ c, L c → held c = false := fun c hl => by
        cases hx : held c with
        | false => rfl
        | true => exact (hany ⟨c, hl, hx⟩).elim
      rw [h1 hno]
      rcases hl with hl | ⟨a', ha', hm⟩
      · exact (hany ⟨c, hl, hh⟩).elim
      · rw [ha] at ha'
        obtain rfl := (Look.ok_inj _ _).1 ha'
        exact g2 ⟨c, hm, hh⟩

/-- The second part does not look at anything else. -/
theorem Checked.map {α β : Type} {held : Held} {L : Nat → Prop} {x y : Look α} {f : α → Look β}
    (h : Checked held x y L) : Checked held (x >>= f) (y >>= f) L :=
  (h.bind (M := fun _ _ => False) fun _ _ => .pure _ fun _ h => h).congr fun _ _ c => by simp

/-- The second part is only of interest for the result of the first. -/
theorem Checked.then {α β : Type} {held : Held} {L M : Nat → Prop} {x y : Look α} {f g : α → Look β}
    (h : Checked held x y L) (hf : ∀ a, x = .ok a → Checked held (f a) (g a) M) :
    Checked held (x >>= f) (y >>= g) (fun c => L c ∨ M c) :=
  (h.bind (M := fun _ => M) hf).congr fun v hv c => by
    obtain ⟨a, ha, _⟩ := Look.bind_eq_ok.1 hv
    constructor
    · rintro (h | ⟨_, _, h⟩)
      · exact .inl h
      · exact .inr h
    · rintro (h | h)
      · exact .inl h
      · exact .inr ⟨a, ha, h⟩

theorem checked_borrow (held : Held) (cell : Nat) :
    Checked held (borrow free cell) (borrow held cell) (· = cell) := by
  intro v _
  refine ⟨fun h => ?_, ?_⟩
  · simp [borrow, h cell rfl]
  · rintro ⟨c, rfl, h⟩
    simp [borrow, h]

theorem checked_name (held : Held) (s : Sym) :
    Checked held (symbolName free s) (symbolName held s) (fun c => s.kind.Named ∧ c = s.cell) := by
  unfold symbolName
  cases hk : s.kind <;> simp only [Kind.Named, true_and, false_and]
  case struct | choice | subtype | enum | bitmask => exact (checked_borrow held s.cell).map
  all_goals exact .pure _ fun _ h => h

theorem checked_resolve (t : Tables) (held : Held) (n : Nat) (loc : Loc) (name : String) (ig : Bool) :
    Checked held (resolve t free n loc name ig) (resolve t held n loc name ig)
      (fun c => ∃ s, Finds t n loc name ig s ∧ s.kind.Named ∧ c = s.cell) := by
  unfold resolve Finds
  rcases t.resolve n loc.package loc.current name ig with _ | ⟨s, p⟩ | e | _
  · exact fun v h => absurd h (by simp)
  · refine (checked_name held s).map.congr fun _ _ c => ?_
    constructor
    · intro h; exact ⟨s, ⟨p, rfl⟩, h⟩
    · rintro ⟨s', ⟨p', hp⟩, h⟩
      cases hp; exact h
  · exact fun v h => ((Look.err_ne_ok e v).1 h).elim
  · exact fun v h => absurd h (by simp)

theorem finds_of_resolve {t : Tables} {held : Held} {n : Nat} {loc : Loc} {name : String} {ig : Bool} {s : SymRef}
    (h : resolve t held n loc name ig = .ok s) :
    t.resolve n loc.package loc.current name ig = some (.ok (s.symbol, s.package)) ∧
      symbolName held s.symbol = .ok s.name := by
  unfold resolve at h
  split at h
  · exact absurd h (by simp)
  · next q p hq =>
    obtain ⟨own, ho, h⟩ := Look.bind_eq_ok.1 h
    obtain rfl := (Look.ok_inj _ _).1 h
    exact ⟨hq, ho⟩
  · exact ((Look.err_ne_ok _ _).1 h).elim
  · exact absurd h (by simp)

theorem Finds.unique {t : Tables} {n : Nat} {loc : Loc} {name : String} {ig : Bool} {s s' : Sym}
    (h : Finds t n loc name ig s) (h' : Finds t n loc name ig s') : s = s' := by
  obtain ⟨p, h⟩ := h
  obtain ⟨p', h'⟩ := h'
  rw [h] at h'
  cases h'; rfl

theorem checked_getSymbol (t : Tables) (held : Held) (package name : String) :
    Checked held (getSymbol t free package name) (getSymbol t held package name)
      (fun c => ∃ p s, t.packages package = some p ∧ p.file name = some s ∧ s.kind.Named ∧ c = s.cell) := by
  unfold getSymbol
  cases hp : t.packages package with
  | none => exact fun v h => absurd h (by simp)
  | some p =>
    simp only
    cases hs : p.file name with
    | none => exact fun v h => absurd h (by simp)
    | some s =>
      refine (checked_name held s).map.congr fun _ _ c => ?_
      constructor
      · intro h; exact ⟨p, s, rfl, hs, h⟩
      · rintro ⟨p', s', h1, h2, h⟩
        obtain rfl := Option.some.inj h1
        rw [hs] at h2
        obtain rfl := Option.some.inj h2
        exact h

theorem getSymbol_ok {t : Tables} {held : Held} {package name : String} {s : SymRef}
    (h : getSymbol t held package name = .ok s) :
    ∃ p, t.packages package = some p ∧ p.file name = some s.symbol ∧ s.package = package ∧
      symbolName held s.symbol = .ok s.name := by
  unfold getSymbol at h
  split at h
  · exact absurd h (by simp)
  · next p hp =>
    split at h
    · exact absurd h (by simp)
    · next q hq =>
      obtain ⟨own, ho, h⟩ := Look.bind_eq_ok.1 h
      obtain rfl := (Look.ok_inj _ _).1 h
      exact ⟨p, hp, hq, rfl, ho⟩

theorem baseLooks_iff (t : Tables) (r : TypeRef Unit) (c : Nat) {p s} (hb : r.builtin = false)
    (hp : t.packages r.package = some p) (hs : p.file r.name = some s) :
    BaseLooks t r c ↔ c = s.cell ∨ (s.kind = .subtype ∧ BaseLooks t s.type c) := by
  constructor
  · rintro (⟨_, h1, h2⟩ | ⟨_, h1, h2, h3, h4⟩)
    all_goals
      rw [hp] at h1
      obtain rfl := Option.some.inj h1
      rw [hs] at h2
      obtain rfl := Option.some.inj h2
    · exact .inl rfl
    · exact .inr ⟨h3, h4⟩
  · rintro (rfl | ⟨h3, h4⟩)
    · exact .found hb hp hs
    · exact .behind hb hp hs h3 h4

theorem checked_fundamental (t : Tables) (held : Held) : ∀ (n : Nat) (r : TypeRef Unit),
    Checked held (fundamental t free n r) (fundamental t held n r) (BaseLooks t r)
  | 0, _ => fun v h => absurd h (by simp [fundamental])
  | n + 1, r => by
    unfold fundamental
    by_cases hb : r.builtin = true
    · simp only [hb, if_true]
      exact .pure _ fun c h => by cases h <;> simp_all
    · have hb' : r.builtin = false := by simpa using hb
      simp only [hb', Bool.false_eq_true, if_false]
      have key : ∀ s, getSymbol t free r.package r.name = .ok s →
          Checked held
            (match s.symbol.kind with
              | .bitmask | .choice | .enum | .const | .union | .struct => do
                borrow free s.symbol.cell
                pure ({ builtin := false, package := s.package, name := s.symbol.name } : TypeRef Unit)
              | .subtype => do
                borrow free s.symbol.cell
                fundamental t free n s.symbol.type
              | _ => .panic)
            (match s.symbol.kind with
              | .bitmask | .choice | .enum | .const | .union | .struct => do
                borrow held s.symbol.cell
                pure ({ builtin := false, package := s.package, name := s.symbol.name } : TypeRef Unit)
              | .subtype => do
                borrow held s.symbol.cell
                fundamental t held n s.symbol.type
              | _ => .panic) (BaseLooks t r) := by
        intro s hs
        obtain ⟨p, hp, hf, _, _⟩ := getSymbol_ok hs
        have hi := fun c => baseLooks_iff t r c hb' hp hf
        cases hk : s.symbol.kind <;> simp only
        case subtype =>
          refine ((checked_borrow held _).then fun _ _ => checked_fundamental t held n s.symbol.type).congr ?_
          intro _ _ c
          rw [hi, hk]; simp
        case item | field | param | func => exact fun v h => absurd h (by simp)
        all_goals
          refine (checked_borrow held _).map.congr ?_
          intro _ _ c
          rw [hi, hk]; simp
      refine ((checked_getSymbol t held _ _).then key).congr fun _ _ c => ?_
      constructor
      · rintro (⟨p, s, hp, hs, _, rfl⟩ | h)
        · exact .found hb' hp hs
        · exact h
      · exact .inr

theorem typeLooks_iff {t : Tables} {n : Nat} {loc : Loc} {r : TypeRef Unit} {s : Sym} (c : Nat)
    (hb : r.builtin = false) (hs : Finds t n loc r.name true s) :
    TypeLooks t n loc r c ↔ (s.kind.Named ∧ c = s.cell) ∨ SymLooks t n loc s c := by
  constructor
  · rintro (⟨_, h1, h2⟩ | ⟨_, h1, h2, h3⟩)
    · obtain rfl := hs.unique h1
      rcases h2 with h2 | h2
      · exact .inl ⟨h2, rfl⟩
      · exact .inr ⟨h2, .inl rfl⟩
    · obtain rfl := hs.unique h1
      exact .inr ⟨h2, .inr h3⟩
  · rintro (⟨h, rfl⟩ | ⟨h, rfl | h'⟩)
    · exact .found hb hs (.inl h)
    · exact .found hb hs (.inr h)
    · exact .behind hb hs h h'

theorem checked_symbolTypeWith {t : Tables} {held : Held} {n : Nat} {loc : Loc} {f g : TypeRef Unit → Look Ty}
    (h : ∀ r, Checked held (f r) (g r) (TypeLooks t n loc r)) (s : Sym) :
    Checked held (symbolTypeWith free f s) (symbolTypeWith held g s) (SymLooks t n loc s) := by
  unfold symbolTypeWith SymLooks
  cases hk : s.kind <;> simp only [Kind.Typed, true_and, false_and]
  case const | field | param | item | subtype => exact (checked_borrow held s.cell).then fun _ _ => h s.type
  all_goals exact .pure _ fun _ h => h

theorem checked_typeOf (t : Tables) (held : Held) (n : Nat) (loc : Loc) : ∀ (k : Nat) (r : TypeRef Unit),
    Checked held (typeOf t free n loc k r) (typeOf t held n loc k r) (TypeLooks t n loc r)
  | 0, _ => fun v h => absurd h (by simp [typeOf])
  | k + 1, r => by
    unfold typeOf
    by_cases hb : r.builtin = true
    · simp only [hb, if_true]
      exact .pure _ fun c h => by cases h <;> simp_all
    · have hb' : r.builtin = false := by simpa using hb
      simp only [hb', Bool.false_eq_true, if_false]
      refine ((checked_resolve t held n loc r.name true).bind fun s _ =>
        checked_symbolTypeWith (checked_typeOf t held n loc k) s.symbol).congr fun v hv c => ?_
      obtain ⟨s, hs, _⟩ := Look.bind_eq_ok.1 hv
      have hf : Finds t n loc r.name true s.symbol := ⟨_, (finds_of_resolve hs).1⟩
      rw [typeLooks_iff c hb' hf]
      constructor
      · rintro (⟨s', h1, h2⟩ | ⟨s', h1, h2⟩)
        · obtain rfl := hf.unique h1
          exact .inl h2
        · rw [hs] at h1
          obtain rfl := (Look.ok_inj _ _).1 h1
          exact .inr h2
      · rintro (h | h)
        · exact .inl ⟨_, hf, h⟩
        · exact .inr ⟨s, hs, h⟩

theorem checked_symbolType (t : Tables) (held : Held) (n : Nat) (loc : Loc) (s : Sym) :
    Checked held (symbolType t free n loc s) (symbolType t held n loc s) (SymLooks t n loc s) :=
  checked_symbolTypeWith (checked_typeOf t held n loc n) s

/-- Looking up a name and its type. -/
theorem checked_lookup (t : Tables) (held : Held) (n : Nat) (loc : Loc) (name : String) {α : Type}
    (k : Ty → SymRef → Look α) :
    Checked held
      (do let s ← resolve t free n loc name false
          let ty ← symbolType t free n loc s.symbol
          k ty s)
      (do let s ← resolve t held n loc name false
          let ty ← symbolType t held n loc s.symbol
          k ty s)
      (fun c => ∃ s, Finds t n loc name false s ∧ ((s.kind.Named ∧ c = s.cell) ∨ SymLooks t n loc s c)) := by
  refine ((checked_resolve t held n loc name false).bind fun s _ =>
    (checked_symbolType t held n loc s.symbol).map).congr fun v hv c => ?_
  obtain ⟨s, hs, _⟩ := Look.bind_eq_ok.1 hv
  have hf : Finds t n loc name false s.symbol := ⟨_, (finds_of_resolve hs).1⟩
  constructor
  · rintro (⟨s', h1, h2⟩ | ⟨s', h1, h2⟩)
    · exact ⟨s', h1, .inl h2⟩
    · rw [hs] at h1
      obtain rfl := (Look.ok_inj _ _).1 h1
      exact ⟨_, hf, .inr h2⟩
  · rintro ⟨s', h1, h2 | h2⟩
    · exact .inl ⟨s', h1, h2⟩
    · obtain rfl := hf.unique h1
      exact .inr ⟨s, hs, h2⟩

theorem checked_memberOf (t : Tables) (held : Held) (n : Nat) (left : SymRef) (name : String) :
    Checked held (memberOf t free n left name) (memberOf t held n left name) (MemberLooks t n left name) := by
  unfold memberOf
  cases hk : left.symbol.kind <;> simp only
  case field | param =>
    refine ((checked_borrow held _).then fun _ _ => (checked_fundamental t held n left.symbol.type).bind fun base _ =>
      (checked_getSymbol t held base.package base.name).bind fun d _ =>
        checked_lookup t held n ⟨d.package, some d.name⟩ name fun ty m => pure (ty, m)).congr fun v hv c => ?_
    obtain ⟨_, _, hv⟩ := Look.bind_eq_ok.1 hv
    obtain ⟨base, hbase, hv⟩ := Look.bind_eq_ok.1 hv
    obtain ⟨d, hd, hv⟩ := Look.bind_eq_ok.1 hv
    obtain ⟨p, hp, hf, _, _⟩ := getSymbol_ok hd
    unfold MemberLooks
    constructor
    · rintro (h | h | ⟨b, hb, ⟨p', s', hp', hf', h⟩ | ⟨d', hd', h⟩⟩)
      · exact .inl h
      · exact .inr (.inl h)
      · rw [hbase] at hb
        obtain rfl := (Look.ok_inj _ _).1 hb
        rw [hp] at hp'
        obtain rfl := Option.some.inj hp'
        rw [hf] at hf'
        obtain rfl := Option.some.inj hf'
        exact .inr (.inr ⟨_, d, hbase, hd, .inl h⟩)
      · exact .inr (.inr ⟨b, d', hb, hd', .inr h⟩)
    · rintro (h | h | ⟨b, d', hb, hd', h | h⟩)
      · exact .inl h
      · exact .inr (.inl h)
      · obtain ⟨p', hp', hf', _, _⟩ := getSymbol_ok hd'
        exact .inr (.inr ⟨b, hb, .inl ⟨p', _, hp', hf', h⟩⟩)
      · exact .inr (.inr ⟨b, hb, .inr ⟨d', hd', h⟩⟩)
  all_goals exact fun v h => absurd h (by simp)

theorem checked_itemOf (held : Held) (who : Option Sym) (name : String) :
    Checked held (itemOf free who name) (itemOf held who name) (fun c => ∃ d, who = some d ∧ c = d.cell) := by
  unfold itemOf
  cases who with
  | none => exact fun v h => absurd h (by simp)
  | some d => exact (checked_borrow held d.cell).map.congr fun _ _ c => by simp

theorem checked_resultOf (t : Tables) (held : Held) (n : Nat) (loc : Loc) (who : Option Sym) :
    Checked held (resultOf t free n loc who) (resultOf t held n loc who)
      (fun c => ∃ f, who = some f ∧ (c = f.cell ∨ TypeLooks t n loc f.type c)) := by
  unfold resultOf
  cases who with
  | none => exact fun v h => absurd h (by simp)
  | some f =>
    exact ((checked_borrow held f.cell).then fun _ _ => (checked_typeOf t held n loc n f.type).map).congr
      fun _ _ c => by simp

/-- Borrowed cells matter exactly if the expression looks at one of them. -/
theorem checked_evaluate (t : Tables) (held : Held) (n : Nat) (loc : Loc) (md : Mode) : ∀ e : Expr fo.F,
    Checked held (evaluate t free n loc md e) (evaluate t held n loc md e) (Looks t n loc md e)
  | .intLit _ | .boolLit _ | .strLit _ | .floatLit _ | .index => by
    unfold evaluate
    exact .pure _ fun c h => by simp [Looks] at h
  | .paren e | .lengthof e | .numbits e | .plus e | .neg e | .not e | .compl e => by
    unfold evaluate
    exact (checked_evaluate t held n loc md e).map.congr fun _ _ c => by simp [Looks]
  | .elem a b | .isset a b | .cmp _ a b | .arith _ a b | .bit _ a b | .logic _ a b => by
    unfold evaluate
    exact ((checked_evaluate t held n loc md a).then fun _ _ => (checked_evaluate t held n loc md b).map).congr
      fun _ _ c => by simp [Looks]
  | .tern a b d => by
    unfold evaluate
    exact ((checked_evaluate t held n loc md a).then fun _ _ =>
      (checked_evaluate t held n loc md b).then fun _ _ => (checked_evaluate t held n loc md d).map).congr
      fun _ _ c => by simp [Looks]
  | .ident name => by
    unfold evaluate
    exact (checked_lookup t held n loc name _).congr fun _ _ c => by simp [Looks]
  | .valueof e => by
    unfold evaluate
    refine ((checked_evaluate t held n loc md e).bind
      (M := fun o c => ∃ d, o.who = some d ∧ c = d.cell) fun o _ => ?_).congr fun _ _ c => ?_
    · rcases o with ⟨v, who, r, s⟩
      cases who with
      | none => cases v <;> exact fun v h => absurd h (by simp)
      | some d =>
        cases v
        case enum | bitmask => exact (checked_borrow held d.cell).map.congr fun _ _ c => by simp
        all_goals exact fun v h => absurd h (by simp)
    · simp only [Looks]
      constructor
      · rintro (h | ⟨o, h1, d, h2, h3⟩)
        · exact .inl h
        · exact .inr ⟨o, d, h1, h2, h3⟩
      · rintro (h | ⟨o, d, h1, h2, h3⟩)
        · exact .inl h
        · exact .inr ⟨o, h1, d, h2, h3⟩
  | .call e => by
    unfold evaluate
    refine ((checked_evaluate t held n loc md e).bind
      (M := fun o c => ∃ f, o.who = some f ∧ (c = f.cell ∨ TypeLooks t n loc f.type c))
      fun o _ => ?_).congr fun _ _ c => ?_
    · rcases o with ⟨v, who, r, s⟩
      cases v
      case function => exact (checked_resultOf t held n loc who).map
      all_goals exact fun v h => absurd h (by simp)
    · simp only [Looks]
      constructor
      · rintro (h | ⟨o, h1, d, h2, h3⟩)
        · exact .inl h
        · exact .inr ⟨o, d, h1, h2, h3⟩
      · rintro (h | ⟨o, d, h1, h2, h3⟩)
        · exact .inl h
        · exact .inr ⟨o, h1, d, h2, h3⟩
  | .dot e name => by
    unfold evaluate
    refine ((checked_evaluate t held n loc md e).bind
      (M := fun o c => match o.val with
        | .compound => ∃ left, o.symbol = some left ∧ MemberLooks t n left name c
        | _ => ∃ d, o.who = some d ∧ c = d.cell) fun o _ => ?_).congr fun _ _ c => ?_
    · rcases o with ⟨v, who, r, s⟩
      cases v
      case enum | bitmask => exact (checked_itemOf held who name).map
      case compound =>
        cases s with
        | none => exact fun v h => absurd h (by simp)
        | some left => exact (checked_memberOf t held n left name).map.congr fun _ _ c => by simp
      all_goals exact fun v h => absurd h (by simp)
    · simp only [Looks]

end Zs.Lookup
