import Verif.TablesLemmas

/-!
# Names in expressions: specification and lemmas (C81, C82)
-/

namespace Zs

open Lookup

variable {fo : FloatOps}

/-! ## Specification -/

namespace Spec

/-- The symbol is in one of the tables. -/
def InTables (t : Tables) (s : Sym) : Prop :=
  ∃ package p, t.packages package = some p ∧
    ((∃ name, p.file name = some s) ∨ ∃ owner l name, p.locals owner = some l ∧ l name = some s)

/-- The symbol is stored in one of the tables under the name. -/
def StoredAs (t : Tables) (s : Sym) (name : String) : Prop :=
  ∃ package p, t.packages package = some p ∧
    (p.file name = some s ∨ ∃ owner l, p.locals owner = some l ∧ l name = some s)

/-- The name is used as a type in some declaration. -/
def TypeName (t : Tables) (name : String) : Prop := ∃ s, InTables t s ∧ s.type.name = name

/-- Declarations are stored under their own names. -/
def OwnNames (t : Tables) : Prop :=
  ∀ package p name s, t.packages package = some p → p.file name = some s → s.name = name

/-- The built-in types of zserio that values in expressions can have. -/
inductive BuiltIn : String → Ty → Prop where
  | string : BuiltIn "string" .str
  | bool : BuiltIn "bool" .bool
  | float {name} : name ∈ ["float16", "float32", "float64"] → BuiltIn name .float
  | int {name} : name ∈ ["int8", "int16", "int32", "int64", "uint8", "uint16", "uint32", "uint64", "bit", "int",
      "varint16", "varint32", "varint64", "varint", "varuint16", "varuint32", "varuint64", "varuint", "varsize"] →
      BuiltIn name .int

/-- What a declaration of a type defines. -/
inductive Defines : Sym → Ty → Prop where
  | enum {s} : s.kind = .enum → Defines s (.enum s)
  | bitmask {s} : s.kind = .bitmask → Defines s (.bitmask s)
  | compound {s} : s.kind = .struct ∨ s.kind = .choice ∨ s.kind = .union → Defines s .compound

/-- What a type reference stands for: a built-in type, or the declaration of that name in the package of the
reference, behind all subtypes. -/
inductive MeansType (t : Tables) : TypeRef Unit → Ty → Prop where
  | builtIn {r ty} : r.builtin = true → BuiltIn r.name ty → MeansType t r ty
  | defined {r p s ty} : r.builtin = false → t.packages r.package = some p → p.file r.name = some s →
      Defines s ty → MeansType t r ty
  | subtype {r p s ty} : r.builtin = false → t.packages r.package = some p → p.file r.name = some s →
      s.kind = .subtype → MeansType t s.type ty → MeansType t r ty

/-- The type of what a name stands for: of a field, a parameter, a constant, an item, or of a subtype the one that is
written there; types and functions stand for themselves. -/
inductive SymbolIs (t : Tables) : Sym → Ty → Prop where
  | value {s ty} : s.kind = .const ∨ s.kind = .field ∨ s.kind = .param ∨ s.kind = .item ∨ s.kind = .subtype →
      MeansType t s.type ty → SymbolIs t s ty
  | type {s ty} : Defines s ty → SymbolIs t s ty
  | func {s} : s.kind = .func → SymbolIs t s (.function s)

/-- The declaration, of a package, that a type reference stands for, behind all subtypes. -/
inductive StandsFor (t : Tables) : TypeRef Unit → String → Sym → Prop where
  | here {r p s} : r.builtin = false → t.packages r.package = some p → p.file r.name = some s → s.kind ≠ .subtype →
      StandsFor t r r.package s
  | behind {r p s q c} : r.builtin = false → t.packages r.package = some p → p.file r.name = some s →
      s.kind = .subtype → StandsFor t s.type q c → StandsFor t r q c

/-- From this place, all types that occur in declarations are found by their names. -/
def SeenFrom (t : Tables) (n : Nat) (loc : Loc) : Prop :=
  ∀ s, InTables t s → s.type.builtin = false → ∀ m, n ≤ m → ∃ p q,
    t.packages s.type.package = some p ∧ p.file s.type.name = some q ∧
      t.resolve m loc.package loc.current s.type.name true = some (.ok (q, s.type.package))

/-- The name is used in the expression, not behind a dot. -/
def Uses (name : String) : Expr fo.F → Prop
  | .ident x => x = name
  | .paren e | .lengthof e | .numbits e | .plus e | .neg e | .not e | .compl e | .valueof e | .call e | .dot e _ =>
    Uses name e
  | .elem a b | .isset a b | .cmp _ a b | .arith _ a b | .bit _ a b | .logic _ a b => Uses name a ∨ Uses name b
  | .tern a b c => Uses name a ∨ Uses name b ∨ Uses name c
  | .intLit _ | .boolLit _ | .strLit _ | .floatLit _ | .index => False

/-- The name occurs in the expression. -/
def Occurs (name : String) : Expr fo.F → Prop
  | .ident x => x = name
  | .dot e x => x = name ∨ Occurs name e
  | .paren e | .lengthof e | .numbits e | .plus e | .neg e | .not e | .compl e | .valueof e | .call e =>
    Occurs name e
  | .elem a b | .isset a b | .cmp _ a b | .arith _ a b | .bit _ a b | .logic _ a b => Occurs name a ∨ Occurs name b
  | .tern a b c => Occurs name a ∨ Occurs name b ∨ Occurs name c
  | .intLit _ | .boolLit _ | .strLit _ | .floatLit _ | .index => False

end Spec

open Spec

/-! ### Names that do not occur -/

theorem resolve_stored {t : Tables} {n : Nat} {package : String} {current : Option String} {name : String} {ig : Bool}
    {s : Sym} {q : String} (h : t.resolve n package current name ig = some (.ok (s, q))) : StoredAs t s name := by
  have hlocal : ∀ (pk : String) (p : PackageScope Sym) (cur : Option String), t.packages pk = some p →
      p.resolve name ig cur = some s → StoredAs t s name := by
    intro pk p cur hp hr
    unfold PackageScope.resolve at hr
    simp only at hr
    split at hr
    · next s' hl =>
      obtain rfl := Option.some.inj hr
      split at hl
      · exact absurd hl (by simp)
      · split at hl
        · exact absurd hl (by simp)
        · split at hl
          · exact absurd hl (by simp)
          · next c l hc => exact ⟨pk, p, hp, .inr ⟨_, _, hc, hl⟩⟩
    · exact ⟨pk, p, hp, .inl hr⟩
  have hlayer : ∀ (is acc : List Import), t.searchLayer name ig is acc = .found s q → StoredAs t s name := by
    intro is
    induction is with
    | nil => intro acc h; simp [ModelScope.searchLayer] at h
    | cons i rest ih =>
      intro acc h
      unfold ModelScope.searchLayer at h
      split at h
      · exact absurd h (by simp)
      · next p hp =>
        split at h
        · next s' hr =>
          cases h
          exact hlocal _ p _ hp hr
        · exact ih _ h
  have himports : ∀ (n : Nat) (is : List Import), t.searchImports name ig n is = some (.ok (s, q)) →
      StoredAs t s name := by
    intro n
    induction n with
    | zero => intro is h; simp [ModelScope.searchImports] at h
    | succ n ih =>
      intro is h
      cases is with
      | nil => simp [ModelScope.searchImports] at h
      | cons i rest =>
        unfold ModelScope.searchImports at h
        split at h
        · next hl =>
          cases h
          exact hlayer _ _ hl
        · exact absurd h (by simp)
        · exact ih _ h
  unfold ModelScope.resolve at h
  split at h
  · exact absurd h (by simp)
  · next p hp =>
    split at h
    · next s' hr =>
      cases h
      exact hlocal _ p _ hp hr
    · exact himports _ _ h

theorem storedAs_declared {t : Tables} {s : Sym} {name : String} (h : StoredAs t s name) : InTables t s := by
  obtain ⟨pk, p, hp, h | ⟨o, l, hl, h⟩⟩ := h
  · exact ⟨pk, p, hp, .inl ⟨name, h⟩⟩
  · exact ⟨pk, p, hp, .inr ⟨o, l, name, hl, h⟩⟩

/-- The symbol was found by one of the names, or as the type in a declaration. -/
def FoundBy (t : Tables) (names : String → Prop) (s : Sym) : Prop :=
  ∃ name, StoredAs t s name ∧ (names name ∨ TypeName t name)

theorem FoundBy.declared {t : Tables} {names : String → Prop} {s : Sym} (h : FoundBy t names s) : InTables t s :=
  storedAs_declared h.choose_spec.1

theorem FoundBy.mono {t : Tables} {names names' : String → Prop} {s : Sym} (h : FoundBy t names s)
    (hn : ∀ x, names x → names' x) : FoundBy t names' s := by
  obtain ⟨x, h1, h2⟩ := h
  exact ⟨x, h1, h2.imp_left (hn x)⟩

/-- Everything that the evaluation finds is in the tables, under a name that was written somewhere. -/
theorem typeOf_found {t : Tables} {held : Held} {n : Nat} {loc : Loc} {names : String → Prop} :
    ∀ {k : Nat} {r : TypeRef Unit} {ty : Ty}, typeOf t held n loc k r = .ok ty →
    TypeName t r.name → ∀ d, ty.who = some d → FoundBy t names d
  | 0, _, _, h => absurd h (by simp [typeOf])
  | k + 1, r, ty, h => by
    unfold typeOf at h
    split at h
    · split at h
      · next ty' hb =>
        obtain rfl := (Look.ok_inj _ _).1 h
        intro _ d hd
        unfold builtinTy at hb
        simp only at hb
        repeat' split at hb
        all_goals first
          | (cases hb; exact absurd hd (by simp [Ty.who]))
          | exact absurd hb (by simp)
      · exact absurd h (by simp)
    · obtain ⟨s, hs, h⟩ := Look.bind_eq_ok.1 h
      have hst := resolve_stored (finds_of_resolve hs).1
      have hd := storedAs_declared hst
      unfold symbolTypeWith at h
      intro hr d hw
      cases hk : s.symbol.kind <;> rw [hk] at h <;> simp only at h
      case const | field | param | item | subtype =>
        obtain ⟨_, _, h⟩ := Look.bind_eq_ok.1 h
        exact typeOf_found h ⟨_, hd, rfl⟩ d hw
      all_goals
        obtain rfl := (Look.ok_inj _ _).1 h
        simp only [Ty.who, Option.some.injEq] at hw
        first
          | (subst hw; exact ⟨_, hst, .inr hr⟩)
          | exact absurd hw (by simp)

theorem symbolType_found {t : Tables} {held : Held} {n : Nat} {loc : Loc} {names : String → Prop} {s : Sym} {ty : Ty}
    (hs : FoundBy t names s) (h : symbolType t held n loc s = .ok ty) (d : Sym) (hw : ty.who = some d) :
    FoundBy t names d := by
  unfold symbolType symbolTypeWith at h
  cases hk : s.kind <;> rw [hk] at h <;> simp only at h
  case const | field | param | item | subtype =>
    obtain ⟨_, _, h⟩ := Look.bind_eq_ok.1 h
    exact typeOf_found h ⟨_, hs.declared, rfl⟩ d hw
  all_goals
    obtain rfl := (Look.ok_inj _ _).1 h
    simp only [Ty.who, Option.some.injEq] at hw
    first
      | (subst hw; exact hs)
      | exact absurd hw (by simp)

/-- The declarations that an evaluated expression carries. -/
structure Carries (t : Tables) (names : String → Prop) (o : Out fo.F) : Prop where
  who : ∀ d, o.who = some d → FoundBy t names d
  symbol : ∀ s, o.symbol = some s → FoundBy t names s.symbol
  some : o.val = .enum ∨ o.val = .bitmask ∨ o.val = .function → ∃ d, o.who = some d

theorem Carries.mono {t : Tables} {names names' : String → Prop} {o : Out fo.F} (h : Carries t names o)
    (hn : ∀ x, names x → names' x) : Carries t names' o :=
  ⟨fun d hd => (h.who d hd).mono hn, fun s hs => (h.symbol s hs).mono hn, h.some⟩

theorem Carries.plain {t : Tables} {names : String → Prop} {v : CVal fo.F} {r : Bool}
    (h : v ≠ .enum ∧ v ≠ .bitmask ∧ v ≠ .function) : Carries t names ({ val := v, resolved := r } : Out fo.F) :=
  ⟨fun d hd => absurd hd (by simp), fun s hs => absurd hs (by simp), fun hv => by
    rcases hv with hv | hv | hv
    · exact (h.1 hv).elim
    · exact (h.2.1 hv).elim
    · exact (h.2.2 hv).elim⟩

theorem Carries.typed {t : Tables} {names : String → Prop} {ty : Ty} {r : Bool} {s : SymRef}
    (h : ∀ d, ty.who = Option.some d → FoundBy t names d) (hs : FoundBy t names s.symbol) :
    Carries t names (ty.out r s : Out fo.F) := by
  refine ⟨h, fun s' hs' => ?_, fun hv => ?_⟩
  · obtain rfl := Option.some.inj hs'
    exact hs
  · cases ty <;> simp_all [Ty.out, Ty.sym, SymTy.dummy, Ty.who]

theorem evaluate_carries (t : Tables) (held : Held) (n : Nat) (loc : Loc) (md : Mode) : ∀ (e : Expr fo.F) (o : Out fo.F),
    evaluate t held n loc md e = .ok o → Carries t (fun x => Occurs x e) o
  | .intLit _, o, h | .boolLit _, o, h | .strLit _, o, h | .floatLit _, o, h | .index, o, h => by
    unfold evaluate at h
    obtain rfl := (Look.ok_inj _ _).1 h
    exact .plain (by simp)
  | .ident name, o, h => by
    unfold evaluate at h
    obtain ⟨s, hs, h⟩ := Look.bind_eq_ok.1 h
    obtain ⟨ty, hty, h⟩ := Look.bind_eq_ok.1 h
    obtain rfl := (Look.ok_inj _ _).1 h
    have hf : FoundBy t (fun x => Occurs x (.ident name : Expr fo.F)) s.symbol :=
      ⟨name, resolve_stored (finds_of_resolve hs).1, .inl rfl⟩
    exact .typed (symbolType_found hf hty) hf
  | .paren e, o, h => by
    unfold evaluate at h
    obtain ⟨o', h1, h⟩ := Look.bind_eq_ok.1 h
    obtain rfl := (Look.ok_inj _ _).1 h
    have hc := evaluate_carries t held n loc md e o' h1
    exact ⟨hc.who, fun s hs => absurd hs (by simp), hc.some⟩
  | .tern a b c, o, h => by
    unfold evaluate at h
    obtain ⟨z, _, h⟩ := Look.bind_eq_ok.1 h
    obtain ⟨x, hx, h⟩ := Look.bind_eq_ok.1 h
    obtain ⟨y, hy, h⟩ := Look.bind_eq_ok.1 h
    split at h
    · obtain rfl := (Look.ok_inj _ _).1 h
      exact (evaluate_carries t held n loc md b _ hx).mono fun _ h => .inr (.inl h)
    · obtain rfl := (Look.ok_inj _ _).1 h
      exact (evaluate_carries t held n loc md c _ hy).mono fun _ h => .inr (.inr h)
    · exact absurd h (by simp)
  | .call e, o, h => by
    unfold evaluate at h
    obtain ⟨o', h1, h⟩ := Look.bind_eq_ok.1 h
    have hc := evaluate_carries t held n loc md e o' h1
    split at h
    · obtain ⟨⟨ty, s⟩, hr, h⟩ := Look.bind_eq_ok.1 h
      obtain rfl := (Look.ok_inj _ _).1 h
      unfold resultOf at hr
      split at hr
      · next f hf =>
        obtain ⟨_, _, hr⟩ := Look.bind_eq_ok.1 hr
        obtain ⟨ty', hty, hr⟩ := Look.bind_eq_ok.1 hr
        have hr := (Look.ok_inj _ _).1 hr
        simp only [Prod.mk.injEq] at hr
        obtain ⟨rfl, rfl⟩ := hr
        have hff := hc.who f hf
        exact .typed (typeOf_found hty ⟨_, hff.declared, rfl⟩) hff
      · exact absurd hr (by simp)
    · exact absurd h (by simp)
  | .dot e name, o, h => by
    unfold evaluate at h
    obtain ⟨o', h1, h⟩ := Look.bind_eq_ok.1 h
    split at h
    · obtain ⟨_, _, h⟩ := Look.bind_eq_ok.1 h
      obtain rfl := (Look.ok_inj _ _).1 h
      exact .plain (by simp)
    · obtain ⟨_, _, h⟩ := Look.bind_eq_ok.1 h
      obtain rfl := (Look.ok_inj _ _).1 h
      exact .plain (by simp)
    · split at h
      · next left _ =>
        obtain ⟨⟨ty, s⟩, hr, h⟩ := Look.bind_eq_ok.1 h
        obtain rfl := (Look.ok_inj _ _).1 h
        have : FoundBy t (fun x => Occurs x (.dot e name : Expr fo.F)) s.symbol ∧
            ∀ d, ty.who = some d → FoundBy t (fun x => Occurs x (.dot e name : Expr fo.F)) d := by
          unfold memberOf at hr
          split at hr
          · obtain ⟨_, _, hr⟩ := Look.bind_eq_ok.1 hr
            obtain ⟨_, _, hr⟩ := Look.bind_eq_ok.1 hr
            obtain ⟨_, _, hr⟩ := Look.bind_eq_ok.1 hr
            obtain ⟨m, hm, hr⟩ := Look.bind_eq_ok.1 hr
            obtain ⟨ty', hty, hr⟩ := Look.bind_eq_ok.1 hr
            have hr := (Look.ok_inj _ _).1 hr
            simp only [Prod.mk.injEq] at hr
            obtain ⟨rfl, rfl⟩ := hr
            have hf : FoundBy t (fun x => Occurs x (.dot e name : Expr fo.F)) m.symbol :=
              ⟨name, resolve_stored (finds_of_resolve hm).1, .inl (.inl rfl)⟩
            exact ⟨hf, symbolType_found hf hty⟩
          · obtain ⟨_, _, hr⟩ := Look.bind_eq_ok.1 hr
            obtain ⟨_, _, hr⟩ := Look.bind_eq_ok.1 hr
            obtain ⟨_, _, hr⟩ := Look.bind_eq_ok.1 hr
            obtain ⟨m, hm, hr⟩ := Look.bind_eq_ok.1 hr
            obtain ⟨ty', hty, hr⟩ := Look.bind_eq_ok.1 hr
            have hr := (Look.ok_inj _ _).1 hr
            simp only [Prod.mk.injEq] at hr
            obtain ⟨rfl, rfl⟩ := hr
            have hf : FoundBy t (fun x => Occurs x (.dot e name : Expr fo.F)) m.symbol :=
              ⟨name, resolve_stored (finds_of_resolve hm).1, .inl (.inl rfl)⟩
            exact ⟨hf, symbolType_found hf hty⟩
          · exact absurd hr (by simp)
        exact .typed this.2 this.1
      · exact absurd h (by simp)
    · exact absurd h (by simp)
  | .elem a b, o, h | .isset a b, o, h => by
    unfold evaluate at h
    obtain ⟨_, _, h⟩ := Look.bind_eq_ok.1 h
    obtain ⟨_, _, h⟩ := Look.bind_eq_ok.1 h
    split at h <;> first
      | (obtain rfl := (Look.ok_inj _ _).1 h; exact .plain (by simp))
      | exact absurd h (by simp)
  | .lengthof e, o, h => by
    unfold evaluate at h
    obtain ⟨_, _, h⟩ := Look.bind_eq_ok.1 h
    obtain rfl := (Look.ok_inj _ _).1 h
    exact .plain (by simp)
  | .valueof e, o, h => by
    unfold evaluate at h
    obtain ⟨_, _, h⟩ := Look.bind_eq_ok.1 h
    split at h
    · obtain ⟨_, _, h⟩ := Look.bind_eq_ok.1 h
      obtain rfl := (Look.ok_inj _ _).1 h
      exact .plain (by simp)
    · obtain ⟨_, _, h⟩ := Look.bind_eq_ok.1 h
      obtain rfl := (Look.ok_inj _ _).1 h
      exact .plain (by simp)
    · exact absurd h (by simp)
  | .numbits e, o, h => by
    unfold evaluate at h
    obtain ⟨_, _, h⟩ := Look.bind_eq_ok.1 h
    split at h
    · obtain ⟨_, _, h⟩ := Look.bind_eq_ok.1 h
      obtain rfl := (Look.ok_inj _ _).1 h
      exact .plain (by simp)
    · exact absurd h (by simp)
  | .plus e, o, h => by
    unfold evaluate at h
    obtain ⟨_, _, h⟩ := Look.bind_eq_ok.1 h
    split at h
    · next hv =>
      obtain rfl := (Look.ok_inj _ _).1 h
      exact .plain (by simp [hv])
    · next hv =>
      obtain rfl := (Look.ok_inj _ _).1 h
      exact .plain (by simp [hv])
    · exact absurd h (by simp)
  | .not e, o, h | .compl e, o, h => by
    unfold evaluate at h
    obtain ⟨_, _, h⟩ := Look.bind_eq_ok.1 h
    split at h
    · obtain rfl := (Look.ok_inj _ _).1 h
      exact .plain (by simp)
    · exact absurd h (by simp)
  | .neg e, o, h => by
    unfold evaluate at h
    obtain ⟨p, _, h⟩ := Look.bind_eq_ok.1 h
    obtain ⟨c, hc, h⟩ := Look.bind_eq_ok.1 h
    obtain rfl := (Look.ok_inj _ _).1 h
    refine .plain ?_
    have hc : evalNeg md p.val = .ok c := Option.some.inj hc
    unfold evalNeg at hc
    repeat' split at hc
    all_goals first
      | (cases hc; simp)
      | exact absurd hc (by simp)
  | .cmp op a b, o, h => by
    unfold evaluate at h
    obtain ⟨p, _, h⟩ := Look.bind_eq_ok.1 h
    obtain ⟨q, _, h⟩ := Look.bind_eq_ok.1 h
    obtain ⟨⟨c, k⟩, hc, h⟩ := Look.bind_eq_ok.1 h
    obtain rfl := (Look.ok_inj _ _).1 h
    refine .plain ?_
    have hc : evalCmp op p.val q.val p.resolved q.resolved = .ok (c, k) := Option.some.inj hc
    unfold evalCmp at hc
    repeat' split at hc
    all_goals first
      | (cases hc; simp)
      | exact absurd hc (by simp)
  | .arith op a b, o, h => by
    unfold evaluate at h
    obtain ⟨p, _, h⟩ := Look.bind_eq_ok.1 h
    obtain ⟨q, _, h⟩ := Look.bind_eq_ok.1 h
    obtain ⟨c, hc, h⟩ := Look.bind_eq_ok.1 h
    obtain rfl := (Look.ok_inj _ _).1 h
    refine .plain ?_
    have hc : evalArith md op p.val q.val p.resolved q.resolved = .ok c := Option.some.inj hc
    unfold evalArith at hc
    simp only at hc
    split at hc
    · obtain ⟨z, _, hc⟩ := Res.bind_eq_ok.1 hc
      cases hc; simp
    all_goals
      try split at hc
      all_goals first
        | (cases hc; simp)
        | exact absurd hc (by simp)
  | .bit op a b, o, h => by
    unfold evaluate at h
    obtain ⟨p, _, h⟩ := Look.bind_eq_ok.1 h
    obtain ⟨q, _, h⟩ := Look.bind_eq_ok.1 h
    obtain ⟨⟨c, k⟩, hc, h⟩ := Look.bind_eq_ok.1 h
    obtain rfl := (Look.ok_inj _ _).1 h
    refine .plain ?_
    have hc : evalBit md op p.val q.val = .ok (c, k) := Option.some.inj hc
    unfold evalBit at hc
    split at hc
    · obtain ⟨z, _, hc⟩ := Res.bind_eq_ok.1 hc
      cases hc; simp
    all_goals first
      | (cases hc; simp)
      | exact absurd hc (by simp)
  | .logic op a b, o, h => by
    unfold evaluate at h
    obtain ⟨p, _, h⟩ := Look.bind_eq_ok.1 h
    obtain ⟨q, _, h⟩ := Look.bind_eq_ok.1 h
    obtain ⟨c, hc, h⟩ := Look.bind_eq_ok.1 h
    obtain rfl := (Look.ok_inj _ _).1 h
    refine .plain ?_
    have hc : evalLogic op p.val q.val = .ok c := Option.some.inj hc
    unfold evalLogic at hc
    split at hc <;> first
      | (cases hc; simp)
      | exact absurd hc (by simp)


theorem typeLooks_found {t : Tables} {n : Nat} {loc : Loc} {names : String → Prop} {r : TypeRef Unit} {c : Nat}
    (h : TypeLooks t n loc r c) (hr : TypeName t r.name) : ∃ s, FoundBy t names s ∧ s.cell = c := by
  induction h with
  | found _ hf _ =>
    obtain ⟨p, hf⟩ := hf
    exact ⟨_, ⟨_, resolve_stored hf, .inr hr⟩, rfl⟩
  | behind _ hf _ _ ih =>
    obtain ⟨p, hf⟩ := hf
    exact ih ⟨_, storedAs_declared (resolve_stored hf), rfl⟩

theorem symLooks_found {t : Tables} {n : Nat} {loc : Loc} {names : String → Prop} {s : Sym} {c : Nat}
    (h : SymLooks t n loc s c) (hs : FoundBy t names s) : ∃ s, FoundBy t names s ∧ s.cell = c := by
  obtain ⟨_, rfl | h⟩ := h
  · exact ⟨s, hs, rfl⟩
  · exact typeLooks_found h ⟨_, hs.declared, rfl⟩

theorem baseLooks_found {t : Tables} {names : String → Prop} {r : TypeRef Unit} {c : Nat}
    (h : BaseLooks t r c) (hr : TypeName t r.name) : ∃ s, FoundBy t names s ∧ s.cell = c := by
  induction h with
  | found _ hp hf => exact ⟨_, ⟨_, ⟨_, _, hp, .inl hf⟩, .inr hr⟩, rfl⟩
  | behind _ hp hf _ _ ih => exact ih ⟨_, ⟨_, _, hp, .inl ⟨_, hf⟩⟩, rfl⟩

theorem fundamental_name {t : Tables} (ho : OwnNames t) : ∀ {n : Nat} {r base : TypeRef Unit},
    fundamental t free n r = .ok base → TypeName t r.name → TypeName t base.name
  | 0, _, _, h => absurd h (by simp [fundamental])
  | n + 1, r, base, h => by
    intro hr
    unfold fundamental at h
    split at h
    · obtain rfl := (Look.ok_inj _ _).1 h
      exact hr
    · obtain ⟨s, hs, h⟩ := Look.bind_eq_ok.1 h
      obtain ⟨p, hp, hf, _, _⟩ := getSymbol_ok hs
      cases hk : s.symbol.kind <;> rw [hk] at h <;> simp only at h
      case subtype =>
        obtain ⟨_, _, h⟩ := Look.bind_eq_ok.1 h
        exact fundamental_name ho h ⟨_, ⟨_, _, hp, .inl ⟨_, hf⟩⟩, rfl⟩
      case item | field | param | func => exact absurd h (by simp)
      all_goals
        obtain ⟨_, _, h⟩ := Look.bind_eq_ok.1 h
        obtain rfl := (Look.ok_inj _ _).1 h
        simp only
        rw [ho _ _ _ _ hp hf]
        exact hr

theorem memberLooks_found {t : Tables} (ho : OwnNames t) {n : Nat} {left : SymRef} {name : String}
    {names : String → Prop} {c : Nat} (h : MemberLooks t n left name c) (hl : FoundBy t names left.symbol)
    (hn : names name) : ∃ s, FoundBy t names s ∧ s.cell = c := by
  rcases h with rfl | h | ⟨base, d, hb, hd, h⟩
  · exact ⟨_, hl, rfl⟩
  · exact baseLooks_found h ⟨_, hl.declared, rfl⟩
  · have hbn := fundamental_name ho hb ⟨_, hl.declared, rfl⟩
    obtain ⟨p, hp, hf, _, _⟩ := getSymbol_ok hd
    rcases h with ⟨_, rfl⟩ | ⟨s, ⟨q, hs⟩, h⟩
    · exact ⟨_, ⟨_, ⟨_, _, hp, .inl hf⟩, .inr hbn⟩, rfl⟩
    · have hsf : FoundBy t names s := ⟨name, resolve_stored hs, .inl hn⟩
      rcases h with ⟨_, rfl⟩ | h
      · exact ⟨s, hsf, rfl⟩
      · exact symLooks_found h hsf

/-- An expression only looks at what its names and the types in declarations stand for. -/
theorem looks_found {t : Tables} (ho : OwnNames t) {n : Nat} {loc : Loc} {md : Mode} : ∀ {e : Expr fo.F} {c : Nat},
    Looks t n loc md e c → ∃ s, FoundBy t (fun x => Occurs x e) s ∧ s.cell = c
  | .intLit _, _, h | .boolLit _, _, h | .strLit _, _, h | .floatLit _, _, h | .index, _, h => by simp [Looks] at h
  | .paren e, c, h | .lengthof e, c, h | .numbits e, c, h | .plus e, c, h | .neg e, c, h | .not e, c, h
  | .compl e, c, h => by
    simp only [Looks] at h
    exact looks_found (e := e) ho h
  | .elem a b, c, h | .isset a b, c, h | .cmp _ a b, c, h | .arith _ a b, c, h | .bit _ a b, c, h
  | .logic _ a b, c, h => by
    simp only [Looks] at h
    rcases h with h | h
    · obtain ⟨s, hs, hc⟩ := looks_found ho h
      exact ⟨s, hs.mono fun _ h => .inl h, hc⟩
    · obtain ⟨s, hs, hc⟩ := looks_found ho h
      exact ⟨s, hs.mono fun _ h => .inr h, hc⟩
  | .tern a b d, c, h => by
    simp only [Looks] at h
    rcases h with h | h | h
    · obtain ⟨s, hs, hc⟩ := looks_found ho h
      exact ⟨s, hs.mono fun _ h => .inl h, hc⟩
    · obtain ⟨s, hs, hc⟩ := looks_found ho h
      exact ⟨s, hs.mono fun _ h => .inr (.inl h), hc⟩
    · obtain ⟨s, hs, hc⟩ := looks_found ho h
      exact ⟨s, hs.mono fun _ h => .inr (.inr h), hc⟩
  | .ident name, c, h => by
    simp only [Looks] at h
    obtain ⟨s, ⟨p, hs⟩, h⟩ := h
    have hsf : FoundBy t (fun x => Occurs x (.ident name : Expr fo.F)) s := ⟨name, resolve_stored hs, .inl rfl⟩
    rcases h with ⟨_, rfl⟩ | h
    · exact ⟨s, hsf, rfl⟩
    · exact symLooks_found h hsf
  | .valueof e, c, h => by
    simp only [Looks] at h
    rcases h with h | ⟨o, d, ho', hd, rfl⟩
    · exact looks_found (e := e) ho h
    · exact ⟨d, (evaluate_carries t free n loc md e o ho').who d hd, rfl⟩
  | .call e, c, h => by
    simp only [Looks] at h
    rcases h with h | ⟨o, f, ho', hf, h⟩
    · exact looks_found (e := e) ho h
    · have hff := (evaluate_carries t free n loc md e o ho').who f hf
      rcases h with rfl | h
      · exact ⟨f, hff, rfl⟩
      · exact typeLooks_found h ⟨_, hff.declared, rfl⟩
  | .dot e name, c, h => by
    simp only [Looks] at h
    rcases h with h | ⟨o, ho', h⟩
    · obtain ⟨s, hs, hc⟩ := looks_found ho h
      exact ⟨s, hs.mono fun _ h => .inr h, hc⟩
    · have hcar := (evaluate_carries t free n loc md e o ho').mono
        (names' := fun x => Occurs x (.dot e name : Expr fo.F)) fun _ h => .inr h
      split at h
      · obtain ⟨left, hl, h⟩ := h
        exact memberLooks_found ho h (hcar.symbol left hl) (.inl rfl)
      · obtain ⟨d, hd, rfl⟩ := h
        exact ⟨d, hcar.who d hd, rfl⟩


/-! ### Names that are used -/

theorem Look.ofRes_ok {α : Type} {r : Res α} {a : α} : Look.ofRes r = .ok a ↔ r = .ok a :=
  ⟨fun h => Option.some.inj h, fun h => h ▸ rfl⟩

/-- Every name in an expression is looked up. -/
theorem uses_ok {t : Tables} {held : Held} {n : Nat} {loc : Loc} {md : Mode} {x : String} :
    ∀ {e : Expr fo.F} {o : Out fo.F}, evaluate t held n loc md e = .ok o → Uses x e →
      ∃ o' : Out fo.F, evaluate t held n loc md (.ident x) = .ok o'
  | .intLit _, _, _, hu | .boolLit _, _, _, hu | .strLit _, _, _, hu | .floatLit _, _, _, hu | .index, _, _, hu =>
    hu.elim
  | .ident _, o, h, hu => by
    simp only [Uses] at hu
    exact ⟨o, hu ▸ h⟩
  | .paren e, _, h, hu | .lengthof e, _, h, hu | .numbits e, _, h, hu | .plus e, _, h, hu | .neg e, _, h, hu
  | .not e, _, h, hu | .compl e, _, h, hu | .valueof e, _, h, hu | .call e, _, h, hu | .dot e _, _, h, hu => by
    unfold evaluate at h
    obtain ⟨o, ho, _⟩ := Look.bind_eq_ok.1 h
    exact uses_ok (e := e) ho hu
  | .elem a b, _, h, hu | .isset a b, _, h, hu | .cmp _ a b, _, h, hu | .arith _ a b, _, h, hu | .bit _ a b, _, h, hu
  | .logic _ a b, _, h, hu => by
    unfold evaluate at h
    obtain ⟨o, ho, h⟩ := Look.bind_eq_ok.1 h
    obtain ⟨p, hp, _⟩ := Look.bind_eq_ok.1 h
    exact hu.elim (uses_ok (e := a) ho) (uses_ok (e := b) hp)
  | .tern a b c, _, h, hu => by
    unfold evaluate at h
    obtain ⟨o, ho, h⟩ := Look.bind_eq_ok.1 h
    obtain ⟨p, hp, h⟩ := Look.bind_eq_ok.1 h
    obtain ⟨q, hq, _⟩ := Look.bind_eq_ok.1 h
    exact hu.elim (uses_ok (e := a) ho) fun hu => hu.elim (uses_ok (e := b) hp) (uses_ok (e := c) hq)

/-- A name that stands for the declaration that is in use cannot be evaluated, unless it is a union or function. -/
theorem ident_held {t : Tables} {n : Nat} {loc : Loc} {md : Mode} {x : String} {s : Sym} {o : Out fo.F}
    (hs : Finds t n loc x false s) (hk : s.kind ≠ .union ∧ s.kind ≠ .func)
    (h : evaluate t (only s.cell) n loc md (.ident x) = .ok o) : False := by
  obtain ⟨p, hs⟩ := hs
  have hb : borrow (only s.cell) s.cell = .panic := by simp [borrow, only]
  have hn : ∀ {β : Type} (f : Unit → Look β), (borrow (only s.cell) s.cell >>= f) = .panic := by
    intro β f; rw [hb]; rfl
  unfold evaluate resolve at h
  rw [hs] at h
  simp only at h
  obtain ⟨r, hr, h⟩ := Look.bind_eq_ok.1 h
  obtain ⟨own, ho, hr⟩ := Look.bind_eq_ok.1 hr
  obtain rfl := (Look.ok_inj _ _).1 hr
  obtain ⟨ty, hty, _⟩ := Look.bind_eq_ok.1 h
  unfold symbolName at ho
  unfold symbolType symbolTypeWith at hty
  cases hkind : s.kind <;> rw [hkind] at ho hty <;> simp only [hn] at ho hty <;>
    first
      | exact (Look.panic_ne_ok _).1 ho
      | exact (Look.panic_ne_ok _).1 hty
      | exact hk.1 hkind
      | exact hk.2 hkind


/-! ### Types that are seen -/

theorem symbolName_free (s : Sym) : ∃ own, symbolName free s = .ok own := by
  unfold symbolName
  cases s.kind <;> simp [borrow, free]

theorem borrow_free (cell : Nat) : borrow free cell = .ok () := by simp [borrow, free]

theorem builtinTy_of {name : String} {ty : Ty} (h : BuiltIn name ty) : builtinTy name = some ty := by
  cases h with
  | string => rfl
  | bool => rfl
  | float h =>
    simp only [List.mem_cons, List.not_mem_nil, or_false] at h
    rcases h with rfl | rfl | rfl <;> rfl
  | int h =>
    simp only [List.mem_cons, List.not_mem_nil, or_false] at h
    rcases h with rfl | rfl | rfl | rfl | rfl | rfl | rfl | rfl | rfl | rfl | rfl | rfl | rfl | rfl | rfl | rfl |
      rfl | rfl | rfl <;> rfl

theorem symbolTypeWith_defines {s : Sym} {ty : Ty} (h : Defines s ty) (f : TypeRef Unit → Look Ty) :
    symbolTypeWith free f s = .ok ty := by
  unfold symbolTypeWith
  cases h with
  | enum h => simp [h]
  | bitmask h => simp [h]
  | compound h => rcases h with h | h | h <;> simp [h]

theorem typeOf_has {t : Tables} {n : Nat} {loc : Loc} (hsee : SeenFrom t n loc) {r : TypeRef Unit} {ty : Ty}
    (h : MeansType t r ty) : (∃ s, InTables t s ∧ s.type = r) →
      ∃ k, ∀ j m, k ≤ j → n ≤ m → typeOf t free m loc j r = .ok ty := by
  have hstep : ∀ {s q : Sym} {p : PackageScope Sym} {j m : Nat}, InTables t s → s.type.builtin = false →
      t.packages s.type.package = some p → p.file s.type.name = some q → n ≤ m →
      typeOf t free m loc (j + 1) s.type = symbolTypeWith free (typeOf t free m loc j) q := by
    intro s q p j m hd hb hp hf hm
    obtain ⟨p', q', hp', hf', hres⟩ := hsee s hd hb m hm
    obtain rfl : p = p' := Option.some.inj (hp ▸ hp')
    obtain rfl : q = q' := Option.some.inj (hf ▸ hf')
    obtain ⟨own, hown⟩ := symbolName_free q
    unfold typeOf resolve
    rw [hres]
    simp [hb, hown]
  induction h with
  | builtIn hb hbt =>
    intro _
    refine ⟨1, fun j m hj _ => ?_⟩
    obtain ⟨j, rfl⟩ : ∃ i, j = i + 1 := ⟨j - 1, by omega⟩
    unfold typeOf
    simp [hb, builtinTy_of hbt]
  | defined hb hp hf hdef =>
    rintro ⟨s, hd, rfl⟩
    refine ⟨1, fun j m hj hm => ?_⟩
    obtain ⟨j, rfl⟩ : ∃ i, j = i + 1 := ⟨j - 1, by omega⟩
    rw [hstep hd hb hp hf hm]
    exact symbolTypeWith_defines hdef _
  | subtype hb hp hf hk _ ih =>
    rintro ⟨s, hd, rfl⟩
    obtain ⟨k, ih⟩ := ih ⟨_, ⟨_, _, hp, .inl ⟨_, hf⟩⟩, rfl⟩
    refine ⟨k + 1, fun j m hj hm => ?_⟩
    obtain ⟨j, rfl⟩ : ∃ i, j = i + 1 := ⟨j - 1, by omega⟩
    rw [hstep hd hb hp hf hm]
    unfold symbolTypeWith
    simp only [hk, borrow_free, Look.ok_bind]
    exact ih j m (by omega) hm

theorem symbolType_has {t : Tables} {n : Nat} {loc : Loc} (hsee : SeenFrom t n loc) {s : Sym} (hd : InTables t s)
    {ty : Ty} (h : SymbolIs t s ty) : ∃ k, ∀ m, k ≤ m → symbolType t free m loc s = .ok ty := by
  cases h with
  | value hk ht =>
    obtain ⟨k, h⟩ := typeOf_has hsee ht ⟨s, hd, rfl⟩
    refine ⟨max k n, fun m hm => ?_⟩
    have := h m m (by omega) (by omega)
    unfold symbolType symbolTypeWith
    rcases hk with hk | hk | hk | hk | hk <;> simp [hk, borrow_free, this]
  | type h => exact ⟨0, fun m _ => symbolTypeWith_defines h _⟩
  | func hk => exact ⟨0, fun m _ => by simp [symbolType, symbolTypeWith, hk]⟩

theorem _root_.Zs.Spec.StandsFor.found {t : Tables} {r : TypeRef Unit} {q : String} {c : Sym} (h : StandsFor t r q c) :
    ∃ p, t.packages q = some p ∧ ∃ x, p.file x = some c := by
  induction h with
  | here _ hp hf _ => exact ⟨_, hp, _, hf⟩
  | behind _ _ _ _ _ ih => exact ih

theorem fundamental_stands {t : Tables} (ho : OwnNames t) {r : TypeRef Unit} {q : String} {c : Sym}
    (h : StandsFor t r q c)
    (hk : c.kind = .struct ∨ c.kind = .choice ∨ c.kind = .union ∨ c.kind = .enum ∨ c.kind = .bitmask) :
    ∃ k, ∀ m, k ≤ m → ∃ b, fundamental t free m r = .ok b ∧ b.package = q ∧ b.name = c.name := by
  induction h with
  | @here r p s hb hp hf _ =>
    refine ⟨1, fun m hm => ⟨{ builtin := false, package := r.package, name := s.name }, ?_, rfl, rfl⟩⟩
    obtain ⟨m, rfl⟩ : ∃ i, m = i + 1 := ⟨m - 1, by omega⟩
    obtain ⟨own, hown⟩ := symbolName_free s
    unfold fundamental getSymbol
    rcases hk with h | h | h | h | h <;> simp [hb, hp, hf, hown, h, borrow_free]
  | @behind r p s q c hb hp hf hks _ ih =>
    obtain ⟨k, ih⟩ := ih hk
    refine ⟨k + 1, fun m hm => ?_⟩
    obtain ⟨m, rfl⟩ : ∃ i, m = i + 1 := ⟨m - 1, by omega⟩
    obtain ⟨b, hb', h1, h2⟩ := ih m (by omega)
    refine ⟨b, ?_, h1, h2⟩
    obtain ⟨own, hown⟩ := symbolName_free s
    unfold fundamental getSymbol
    simp [hb, hp, hf, hown, hks, borrow_free, hb']


theorem fundamental_mono {t : Tables} : ∀ {n : Nat} {r b : TypeRef Unit}, fundamental t free n r = .ok b →
    ∀ m, n ≤ m → fundamental t free m r = .ok b
  | 0, _, _, h => absurd h (by simp [fundamental])
  | n + 1, r, b, h => by
    intro m hm
    obtain ⟨m, rfl⟩ : ∃ i, m = i + 1 := ⟨m - 1, by omega⟩
    unfold fundamental at h ⊢
    split
    · next hb => rwa [if_pos hb] at h
    · next hb =>
      rw [if_neg hb] at h
      obtain ⟨s, hs, h⟩ := Look.bind_eq_ok.1 h
      rw [hs, Look.ok_bind]
      cases hk : s.symbol.kind <;> rw [hk] at h <;> simp only at h ⊢
      case subtype =>
        obtain ⟨u, hu, h⟩ := Look.bind_eq_ok.1 h
        rw [hu, Look.ok_bind]
        exact fundamental_mono h m (by omega)
      all_goals exact h

/-- Where there are no members, only declarations of packages are found. -/
theorem resolve_file {t : Tables} (hnone : ∀ package p, t.packages package = some p → p.locals "" = none)
    {n : Nat} {package name q : String} {s : Sym}
    (h : t.resolve n package (some "") name false = some (.ok (s, q))) :
    ∃ package p, t.packages package = some p ∧ p.file name = some s := by
  have hlocal : ∀ (pk : String) (p : PackageScope Sym) (cur : Option String), cur = none ∨ cur = some "" →
      t.packages pk = some p → p.resolve name false cur = some s → p.file name = some s := by
    intro pk p cur hcur hp hr
    rcases hcur with rfl | rfl
    · simpa [PackageScope.resolve] using hr
    · simpa [PackageScope.resolve, hnone pk p hp] using hr
  have hlayer : ∀ (is acc : List Import), t.searchLayer name false is acc = .found s q →
      ∃ package p, t.packages package = some p ∧ p.file name = some s := by
    intro is
    induction is with
    | nil => intro acc h; simp [ModelScope.searchLayer] at h
    | cons i rest ih =>
      intro acc h
      unfold ModelScope.searchLayer at h
      split at h
      · exact absurd h (by simp)
      · next p hp =>
        split at h
        · next s' hr =>
          cases h
          exact ⟨_, p, hp, hlocal _ p _ (.inl rfl) hp hr⟩
        · exact ih _ h
  have himports : ∀ (n : Nat) (is : List Import), t.searchImports name false n is = some (.ok (s, q)) →
      ∃ package p, t.packages package = some p ∧ p.file name = some s := by
    intro n
    induction n with
    | zero => intro is h; simp [ModelScope.searchImports] at h
    | succ n ih =>
      intro is h
      cases is with
      | nil => simp [ModelScope.searchImports] at h
      | cons i rest =>
        unfold ModelScope.searchImports at h
        split at h
        · next hl =>
          cases h
          exact hlayer _ _ hl
        · exact absurd h (by simp)
        · exact ih _ h
  unfold ModelScope.resolve at h
  split at h
  · exact absurd h (by simp)
  · next p hp =>
    split at h
    · next s' hr =>
      cases h
      exact ⟨_, p, hp, hlocal _ p _ (.inr rfl) hp hr⟩
    · exact himports _ _ h

end Zs
