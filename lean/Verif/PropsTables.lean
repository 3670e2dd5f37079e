import Verif.TablesSpec
import Verif.PropsCompiler

/-!
# Properties of names in expressions (C81, C82)
-/

namespace Zs

open Lookup Spec

variable {fo : FloatOps}

/-! ## C82: declarations that refer to themselves -/

/-- C82, exactly: while a declaration is evaluated, an expression that would otherwise be accepted is evaluated to
the same if it does not look at the declaration, and makes the compiler panic if it does. -/
theorem C82_looks_iff (t : Tables) (n : Nat) (loc : Loc) (md : Mode) (e : Expr fo.F) (o : Out fo.F) (d : Nat)
    (h : evaluate t free n loc md e = .ok o) :
    (evaluate t (only d) n loc md e = .ok o ↔ ¬Looks t n loc md e d) ∧
    (evaluate t (only d) n loc md e = .panic ↔ Looks t n loc md e d) := by
  obtain ⟨h1, h2⟩ := checked_evaluate t (only d) n loc md e o h
  have hy : Looks t n loc md e d → evaluate t (only d) n loc md e = .panic :=
    fun hl => h2 ⟨d, hl, by simp [only]⟩
  have hn : ¬Looks t n loc md e d → evaluate t (only d) n loc md e = .ok o := by
    intro hl
    refine h1 fun c hc => ?_
    by_cases hcd : c = d
    · exact (hl (hcd ▸ hc)).elim
    · simp [only, hcd]
  refine ⟨⟨fun hok hl => ?_, hn⟩, ⟨fun hp => ?_, hy⟩⟩
  · rw [hy hl] at hok
    exact (Look.panic_ne_ok _).1 hok
  · apply Classical.byContradiction
    intro hl
    rw [hn hl] at hp
    exact (Look.panic_ne_ok _).1 hp.symm

/-- C82 (partial): an expression in which the name of the declaration does not occur is never refused because the
declaration is being evaluated.  (`x` is the only name under which the declaration is known, and it is not used as
the name of a type.)  Missing: expressions in which the name occurs, and enumerations, which are also known by the
names of their items. -/
theorem C82_partial (t : Tables) (d : Nat) (x : String) (hown : OwnNames t)
    (hx : ∀ s name, StoredAs t s name → s.cell = d → name = x) (htype : ¬TypeName t x)
    (n : Nat) (loc : Loc) (md : Mode) (e : Expr fo.F) (o : Out fo.F) (he : ¬Occurs x e)
    (h : evaluate t free n loc md e = .ok o) : evaluate t (only d) n loc md e = .ok o := by
  refine (C82_looks_iff t n loc md e o d h).1.2 fun hl => ?_
  obtain ⟨s, ⟨name, hs, hn⟩, hc⟩ := looks_found hown hl
  obtain rfl := hx s name hs hc
  exact hn.elim he htype

/-- The tables of the examples: one package `p`. -/
def onePackage (file : List Sym) (locals : List (String × List Sym)) : Tables where
  packages package := if package = "p" then some
    { file := fun name => file.find? (·.name == name)
      locals := fun owner => (locals.lookup owner).map fun l name => l.find? (·.name == name)
      imports := [] } else none

/-- A built-in type. -/
def builtin (name : String) : TypeRef Unit := { builtin := true, package := "", name := name }

/-- A type of package `p`. -/
def inP (name : String) : TypeRef Unit := { builtin := false, package := "p", name := name }

/-- `const uint8 A = 1; const uint8 B = A + 1;` -/
def twoConsts : Tables :=
  onePackage [{ kind := .const, cell := 0, name := "A", type := builtin "uint8" },
    { kind := .const, cell := 1, name := "B", type := builtin "uint8" }] []

theorem twoConsts_stored (s : Sym) (name : String) (h : StoredAs twoConsts s name) :
    s.name = name ∧ (s = { kind := .const, cell := 0, name := "A", type := builtin "uint8" } ∨
      s = { kind := .const, cell := 1, name := "B", type := builtin "uint8" }) := by
  obtain ⟨package, p, hp, h⟩ := h
  simp only [twoConsts, onePackage] at hp
  split at hp
  · obtain rfl := Option.some.inj hp
    rcases h with h | ⟨owner, l, hl, _⟩
    · have := List.find?_some h
      exact ⟨by simpa using this, by simpa using List.mem_of_find?_eq_some h⟩
    · exact absurd hl (by simp)
  · exact absurd hp (by simp)

/-- The hypotheses of `C82_partial` are met by the value `A + 1` of the constant `B`. -/
example : OwnNames twoConsts ∧ (∀ s name, StoredAs twoConsts s name → s.cell = 1 → name = "B") ∧
    ¬TypeName twoConsts "B" ∧ ¬Occurs "B" (.arith .add (.ident "A") (.intLit 1) : Expr fo.F) ∧
    ∃ o : Out fo.F, evaluate twoConsts free 1 ⟨"p", some "B"⟩ .debug (.arith .add (.ident "A") (.intLit 1)) = .ok o := by
  refine ⟨fun package p name s hp hf => (twoConsts_stored s name ⟨_, p, hp, .inl hf⟩).1, fun s name h hc => ?_, ?_, ?_,
    ⟨_, rfl⟩⟩
  · obtain ⟨rfl, rfl | rfl⟩ := twoConsts_stored s name h
    · exact absurd hc (by decide)
    · rfl
  · rintro ⟨s, hd, hn⟩
    have : ∃ name, StoredAs twoConsts s name := by
      obtain ⟨package, p, hp, ⟨name, h⟩ | ⟨owner, l, name, hl, h⟩⟩ := hd
      · exact ⟨name, package, p, hp, .inl h⟩
      · exact ⟨name, package, p, hp, .inr ⟨owner, l, hl, h⟩⟩
    obtain ⟨name, h⟩ := this
    obtain ⟨_, rfl | rfl⟩ := twoConsts_stored s name h
    · exact absurd hn (by decide)
    · exact absurd hn (by decide)
  · simp [Occurs]

/-- C82 is violated by every expression that uses the name of the declaration it belongs to, or of an item of it:
nothing of this kind is accepted. -/
theorem C82_own_violated (t : Tables) (n : Nat) (loc : Loc) (md : Mode) (x : String) (s : Sym)
    (hs : Finds t n loc x false s) (hk : s.kind ≠ .union ∧ s.kind ≠ .func) (e : Expr fo.F) (hu : Uses x e) :
    ¬∃ o, evaluate t (only s.cell) n loc md e = .ok o := by
  rintro ⟨o, ho⟩
  obtain ⟨o', ho'⟩ := uses_ok ho hu
  exact ident_held hs hk ho'

/-- C82 is violated by enumerations: `enum uint8 E { A = 1, B = A + 1 };` -/
theorem C82_item_violated :
    let items : List String := ["A", "B"]
    let t := onePackage [{ kind := .enum, cell := 0, name := "E", type := builtin "uint8", items := items }]
      [("E", items.map fun name => { kind := .item, cell := 0, name := name, type := builtin "uint8" })]
    let e : Expr fo.F := .arith .add (.ident "A") (.intLit 1)
    ∀ md, (∃ o v, evaluate t free 1 ⟨"p", some "E"⟩ md e = .ok o ∧ o.val = .int v) ∧
      evaluate t (only 0) 1 ⟨"p", some "E"⟩ md e = .panic := by
  intro items t e md
  refine ⟨⟨_, _, rfl, rfl⟩, rfl⟩

/-- C82 is violated by bitmasks: `bitmask uint8 M { A = 1, B = 2, AB = M.A | M.B };` -/
theorem C82_bitmask_violated :
    let t := onePackage
      [{ kind := .bitmask, cell := 0, name := "M", type := builtin "uint8", items := ["A", "B", "AB"] }] []
    let e : Expr fo.F := .bit .or (.dot (.ident "M") "A") (.dot (.ident "M") "B")
    ∀ md, (∃ o v, evaluate t free 1 ⟨"p", some "M"⟩ md e = .ok o ∧ o.val = .int v) ∧
      evaluate t (only 0) 1 ⟨"p", some "M"⟩ md e = .panic := by
  intro t e md
  refine ⟨⟨_, _, rfl, rfl⟩, rfl⟩

/-- The tables of a structure that contains another one of its kind:
`struct L { L next if …; uint8 v if next.v == 3; function uint8 count() { return 1 + next.count(); } };` -/
def listTables : Tables :=
  onePackage [{ kind := .struct, cell := 0, name := "L" }]
    [("L", [{ kind := .field, cell := 1, name := "next", type := inP "L" },
      { kind := .field, cell := 2, name := "v", type := builtin "uint8" },
      { kind := .func, cell := 3, name := "count", type := builtin "uint8" }])]

/-- C82 is violated by functions that call themselves on another object. -/
theorem C82_function_violated :
    let e : Expr fo.F := .arith .add (.intLit 1) (.call (.dot (.ident "next") "count"))
    ∀ md, (∃ o v, evaluate listTables free 2 ⟨"p", some "L"⟩ md e = .ok o ∧ o.val = .int v) ∧
      evaluate listTables (only 3) 2 ⟨"p", some "L"⟩ md e = .panic := by
  intro e md
  refine ⟨⟨_, _, rfl, rfl⟩, rfl⟩

/-- C82 is violated by fields whose condition asks for the field of the same name in another object. -/
theorem C82_field_violated :
    let e : Expr fo.F := .cmp .eq (.dot (.ident "next") "v") (.intLit 3)
    ∀ md, (∃ o b, evaluate listTables free 2 ⟨"p", some "L"⟩ md e = .ok o ∧ o.val = .bool b) ∧
      evaluate listTables (only 2) 2 ⟨"p", some "L"⟩ md e = .panic := by
  intro e md
  refine ⟨⟨_, _, rfl, rfl⟩, rfl⟩

/-! ## C81: the types of names -/

/-- In one package, all types that are declared there are seen. -/
theorem seenFrom_onePackage (file : List Sym) (locals : List (String × List Sym)) (current : Option String)
    (h : ∀ s, s ∈ file ∨ (∃ l ∈ locals, s ∈ l.2) → s.type.builtin = false →
      s.type.package = "p" ∧ (file.find? (·.name == s.type.name)).isSome) (n : Nat) :
    SeenFrom (onePackage file locals) n ⟨"p", current⟩ := by
  intro s hd hb m _
  have hs : s ∈ file ∨ ∃ l ∈ locals, s ∈ l.2 := by
    obtain ⟨package, p, hp, hd⟩ := hd
    simp only [onePackage] at hp
    split at hp
    · obtain rfl := Option.some.inj hp
      rcases hd with ⟨name, hd⟩ | ⟨owner, l, name, hl, hd⟩
      · exact .inl (List.mem_of_find?_eq_some hd)
      · simp only [Option.map_eq_some_iff] at hl
        obtain ⟨l', hl', rfl⟩ := hl
        refine .inr ⟨(owner, l'), ?_, List.mem_of_find?_eq_some hd⟩
        have hmem : ∀ (ls : List (String × List Sym)), ls.lookup owner = some l' → (owner, l') ∈ ls := by
          intro ls
          induction ls with
          | nil => simp
          | cons x xs ih =>
            obtain ⟨a, b⟩ := x
            rw [List.lookup_cons]
            intro hx
            split at hx
            · next he =>
              obtain rfl := Option.some.inj hx
              simp only [beq_iff_eq] at he
              simp [he]
            · exact List.mem_cons_of_mem _ (ih hx)
        exact hmem _ hl'
    · exact absurd hp (by simp)
  obtain ⟨hp, hf⟩ := h s hs hb
  obtain ⟨q, hq⟩ := Option.isSome_iff_exists.1 hf
  refine ⟨{ file := fun name => file.find? (·.name == name)
            locals := fun owner => (locals.lookup owner).map fun l name => l.find? (·.name == name)
            imports := [] }, q, ?_, hq, ?_⟩
  · rw [hp]; rfl
  · rw [hp]
    simp [ModelScope.resolve, onePackage, PackageScope.resolve, hq]

/-- C81 (partial): where the names of types mean the same as where they were declared, a name has the type it was
declared with.  Missing: places from which another type of the same name is seen, or none. -/
theorem C81_types_partial (t : Tables) (n : Nat) (loc : Loc) (hsee : SeenFrom t n loc) (s : Sym) (hd : InTables t s)
    (ty : Ty) (h : SymbolIs t s ty) : ∃ k, ∀ m, k ≤ m → symbolType t free m loc s = .ok ty :=
  symbolType_has hsee hd h

example : let t := onePackage [{ kind := .subtype, cell := 0, name := "T", type := builtin "uint8" },
      { kind := .const, cell := 1, name := "X", type := inP "T" }] []
    SeenFrom t 1 ⟨"p", none⟩ ∧ SymbolIs t { kind := .const, cell := 1, name := "X", type := inP "T" } .int := by
  refine ⟨seenFrom_onePackage _ _ _ ?_ 1, .value (.inl rfl) (.subtype rfl rfl rfl rfl (.builtIn rfl (.int ?_)))⟩
  · intro s hs hb
    simp only [List.mem_cons, List.not_mem_nil, or_false, false_and, exists_false] at hs
    rcases hs with rfl | rfl
    · exact absurd hb (by decide)
    · exact ⟨rfl, rfl⟩
  · decide

/-- C81 (partial), for names in expressions. -/
theorem C81_names_partial (t : Tables) (n : Nat) (loc : Loc) (hsee : SeenFrom t n loc) (name : String) (s : Sym)
    (package : String) (hs : ∀ m, n ≤ m → t.resolve m loc.package loc.current name false = some (.ok (s, package)))
    (ty : Ty) (h : SymbolIs t s ty) : ∃ k, ∀ m, k ≤ m → ∀ md, ∃ o : Out fo.F,
      evaluate t free m loc md (.ident name) = .ok o ∧ o.val = ty.sym.dummy fo ∧ o.who = ty.who ∧
        ∃ r, o.symbol = some r ∧ r.symbol = s := by
  obtain ⟨k, hk⟩ := symbolType_has hsee (storedAs_declared (resolve_stored (hs n (Nat.le_refl n)))) h
  refine ⟨max n k, fun m hm md => ?_⟩
  have h1 := hs m (by omega)
  obtain ⟨own, hown⟩ := symbolName_free s
  refine ⟨ty.out false ⟨s, own, package⟩, ?_, rfl, rfl, _, rfl, rfl⟩
  unfold evaluate resolve
  rw [h1]
  simp only [hown, Look.ok_bind, Look.pure_eq]
  rw [hk m (by omega)]
  rfl

/-- C81 (partial), for members: behind a field or parameter of a structure or choice, the name of a member stands for
that member, with the type it was declared with.  Missing: unions, and results of functions. -/
theorem C81_members_partial (t : Tables) (hown : OwnNames t) (left : SymRef) (package : String) (c : Sym)
    (hl : left.symbol.kind = .field ∨ left.symbol.kind = .param) (hc : StandsFor t left.symbol.type package c)
    (hk : c.kind = .struct ∨ c.kind = .choice) (p : PackageScope Sym) (hp : t.packages package = some p)
    (members : String → Option Sym) (hm : p.locals c.name = some members) (name : String) (m : Sym)
    (hmem : members name = some m) (n : Nat) (hsee : SeenFrom t n ⟨package, some c.name⟩) (ty : Ty)
    (h : SymbolIs t m ty) : ∃ k, ∀ j, k ≤ j → ∃ r, memberOf t free j left name = .ok (ty, r) ∧ r.symbol = m := by
  obtain ⟨k, hkk⟩ := symbolType_has hsee ⟨package, p, hp, .inr ⟨_, _, _, hm, hmem⟩⟩ h
  obtain ⟨k', hk'⟩ := fundamental_stands hown hc (by rcases hk with h | h <;> simp [h])
  obtain ⟨own, hown'⟩ := symbolName_free m
  refine ⟨max k k', fun j hj => ⟨⟨m, own, package⟩, ?_, rfl⟩⟩
  obtain ⟨b, hb, hbp, hbn⟩ := hk' j (by omega)
  obtain ⟨p', hp', hf⟩ := hc.found
  obtain rfl : p = p' := Option.some.inj (hp ▸ hp')
  have hcn : p.file c.name = some c := by
    obtain ⟨x, hx⟩ := hf
    rw [hown _ _ _ _ hp hx]
    exact hx
  have hsn : symbolName free c = .ok c.name := by
    rcases hk with h | h <;> simp [symbolName, h, borrow, free]
  have hres : resolve t free j ⟨package, some c.name⟩ name false = .ok ⟨m, own, package⟩ := by
    unfold resolve
    simp only [ModelScope.resolve, hp, PackageScope.resolve, hm, hmem]
    simp [hown']
  have hget : getSymbol t free package c.name = .ok ⟨c, c.name, package⟩ := by
    unfold getSymbol
    simp [hp, hcn, hsn]
  have hbor : ∀ cell, borrow free cell = .ok () := fun cell => by simp [borrow, free]
  unfold memberOf
  rcases hl with hl | hl <;> rw [hl] <;>
    simp only [hbor, Look.ok_bind, hb, hbp, hbn, hget, hres, hkk j (by omega), Look.pure_eq]

example : let left : SymRef := ⟨{ kind := .field, cell := 1, name := "next", type := inP "L" }, "", "p"⟩
    OwnNames listTables ∧ StandsFor listTables left.symbol.type "p" { kind := .struct, cell := 0, name := "L" } ∧
    SeenFrom listTables 1 ⟨"p", some "L"⟩ ∧
    SymbolIs listTables { kind := .field, cell := 1, name := "next", type := inP "L" } .compound := by
  refine ⟨?_, .here rfl rfl rfl (by decide), seenFrom_onePackage _ _ _ ?_ 1,
    .value (.inr (.inl rfl)) (.defined rfl rfl rfl (.compound (.inl rfl)))⟩
  · intro package p name s hp hf
    simp only [listTables, onePackage] at hp
    split at hp
    · obtain rfl := Option.some.inj hp
      have := List.find?_some hf
      simpa using this
    · exact absurd hp (by simp)
  · intro s hs hb
    simp only [List.mem_cons, List.not_mem_nil, or_false] at hs
    rcases hs with rfl | ⟨l, rfl, hs⟩
    · exact absurd hb (by decide)
    · simp only [List.mem_cons, List.not_mem_nil, or_false] at hs
      rcases hs with rfl | rfl | rfl
      · exact ⟨rfl, rfl⟩
      · exact absurd hb (by decide)
      · exact absurd hb (by decide)

/-- Two packages: `a` with `subtype uint8 T; const T X = 1; struct S { function T f() { … } };`, and `b`, which
imports `a`, with another type `T`, and a structure with a field `S s`. -/
def twoPackages (other : String) : Tables where
  packages package :=
    if package = "a" then some
      { file := fun name => [({ kind := .subtype, cell := 0, name := "T", type := builtin "uint8" } : Sym),
          { kind := .const, cell := 1, name := "X", type := { builtin := false, package := "a", name := "T" } },
          { kind := .struct, cell := 2, name := "S" }].find? (·.name == name)
        locals := fun owner => if owner = "S" then some fun name =>
          if name = "f" then
            some { kind := .func, cell := 3, name := "f", type := { builtin := false, package := "a", name := "T" } }
          else none else none
        imports := [] }
    else if package = "b" then some
      { file := fun name => [({ kind := .subtype, cell := 4, name := "T", type := builtin other } : Sym),
          { kind := .struct, cell := 5, name := "R" }].find? (·.name == name)
        locals := fun owner => if owner = "R" then some fun name =>
          if name = "s" then
            some { kind := .field, cell := 6, name := "s", type := { builtin := false, package := "a", name := "S" } }
          else none else none
        imports := [{ package := "a" }] }
    else none

/-- C81 is violated by types of the same name: the constant `X` of package `a` is declared as `uint8`, but in package
`b`, which has a type `T` of its own, it is a string. -/
theorem C81_shadow_violated :
    let t := twoPackages "string"
    let x : Sym := { kind := .const, cell := 1, name := "X", type := { builtin := false, package := "a", name := "T" } }
    SymbolIs t x .int ∧ ∀ md, (∃ o : Out fo.F, evaluate t free 3 ⟨"b", some "R"⟩ md (.ident "X") = .ok o ∧
        o.val = .str "" ∧ ∃ r, o.symbol = some r ∧ r.symbol = x) ∧
      (∃ o : Out fo.F, evaluate t free 3 ⟨"a", none⟩ md (.ident "X") = .ok o ∧ o.val = .int 0) ∧
      evaluate t free 3 ⟨"b", some "R"⟩ md (.arith .add (.ident "X") (.intLit 1) : Expr fo.F) = .panic := by
  intro t x
  refine ⟨.value (.inl rfl) (.subtype rfl rfl rfl rfl (.builtIn rfl (.int (by decide)))), fun md =>
    ⟨⟨_, rfl, rfl, _, rfl, rfl⟩, ⟨_, rfl, rfl⟩, rfl⟩⟩

/-- C81 is violated by the results of functions, for the same reason: `s.f()` is declared as `uint8`. -/
theorem C81_result_violated :
    let t := twoPackages "bool"
    let f : Sym := { kind := .func, cell := 3, name := "f", type := { builtin := false, package := "a", name := "T" } }
    MeansType t f.type .int ∧ ∀ md,
      ∃ o : Out fo.F, evaluate t free 3 ⟨"b", some "R"⟩ md (.call (.dot (.ident "s") "f")) = .ok o ∧
        o.val = .bool false ∧ ∃ r, o.symbol = some r ∧ r.symbol = f := by
  intro t f
  exact ⟨.subtype rfl rfl rfl rfl (.builtIn rfl (.int (by decide))), fun md => ⟨_, rfl, rfl, _, rfl, rfl⟩⟩

/-- `const uint8 K = 1;` -/
def constK : Sym := { kind := .const, cell := 1, name := "K", type := builtin "uint8" }

/-- `struct S { };`, the constant `K`, and `struct R { S s; };` -/
def tablesK : Tables :=
  onePackage [{ kind := .struct, cell := 0, name := "S" }, constK, { kind := .struct, cell := 2, name := "R" }]
    [("S", []), ("R", [{ kind := .field, cell := 3, name := "s", type := inP "S" }])]

/-- C81 is violated by names behind a dot that are no members: in `R`, the expression `s.K` is accepted. -/
theorem C81_no_member_violated (md : Mode) :
    ∃ o : Out fo.F, evaluate tablesK free 2 ⟨"p", some "R"⟩ md (.dot (.ident "s") "K") = .ok o ∧
      ∃ r, o.symbol = some r ∧ r.symbol = constK :=
  ⟨Ty.int.out false ⟨constK, "", "p"⟩, rfl, _, rfl, rfl⟩

/-- C81 is violated by all members of unions: behind a field or parameter of a union, no name ever stands for a member
of it; what is accepted is a declaration of a package. -/
theorem C81_union_violated (t : Tables) (hown : OwnNames t) (left : SymRef) (package : String) (u : Sym)
    (hu : StandsFor t left.symbol.type package u) (hk : u.kind = .union)
    (hnone : ∀ package p, t.packages package = some p → p.locals "" = none)
    (n : Nat) (name : String) (ty : Ty) (r : SymRef) (h : memberOf t free n left name = .ok (ty, r)) :
    ∃ package p, t.packages package = some p ∧ p.file name = some r.symbol := by
  obtain ⟨k, hst⟩ := fundamental_stands hown hu (.inr (.inr (.inl hk)))
  obtain ⟨p, hp, x, hx⟩ := hu.found
  have hun : p.file u.name = some u := by rw [hown _ _ _ _ hp hx]; exact hx
  have hget : getSymbol t free package u.name = .ok ⟨u, "", package⟩ := by
    unfold getSymbol
    simp [hp, hun, symbolName, hk]
  have hmem : ∀ base compound inner m, fundamental t free n left.symbol.type = .ok base →
      getSymbol t free base.package base.name = .ok compound → inner = (⟨compound.package, some compound.name⟩ : Loc) →
      resolve t free n inner name false = .ok m → ∃ package p, t.packages package = some p ∧
        p.file name = some m.symbol := by
    intro base compound inner m hb hc hi hr
    obtain ⟨b, hb', hbp, hbn⟩ := hst (max n k) (by omega)
    have hbb : b = base := by
      have := fundamental_mono hb (max n k) (by omega)
      exact (Look.ok_inj _ _).1 (hb'.symm.trans this)
    subst hbb
    rw [hbp, hbn, hget] at hc
    obtain rfl := (Look.ok_inj _ _).1 hc
    subst hi
    have hres := (finds_of_resolve hr).1
    exact resolve_file hnone hres
  unfold memberOf at h
  split at h
  · obtain ⟨_, _, h⟩ := Look.bind_eq_ok.1 h
    obtain ⟨base, hb, h⟩ := Look.bind_eq_ok.1 h
    obtain ⟨compound, hc, h⟩ := Look.bind_eq_ok.1 h
    obtain ⟨m, hm, h⟩ := Look.bind_eq_ok.1 h
    obtain ⟨ty', _, h⟩ := Look.bind_eq_ok.1 h
    have h := (Look.ok_inj _ _).1 h
    simp only [Prod.mk.injEq] at h
    obtain ⟨_, rfl⟩ := h
    exact hmem base compound _ m hb hc rfl hm
  · obtain ⟨_, _, h⟩ := Look.bind_eq_ok.1 h
    obtain ⟨base, hb, h⟩ := Look.bind_eq_ok.1 h
    obtain ⟨compound, hc, h⟩ := Look.bind_eq_ok.1 h
    obtain ⟨m, hm, h⟩ := Look.bind_eq_ok.1 h
    obtain ⟨ty', _, h⟩ := Look.bind_eq_ok.1 h
    have h := (Look.ok_inj _ _).1 h
    simp only [Prod.mk.injEq] at h
    obtain ⟨_, rfl⟩ := h
    exact hmem base compound _ m hb hc rfl hm
  · exact absurd h (by simp)

/-- The tables of the examples do not have members of nameless declarations. -/
example : (∀ package p, listTables.packages package = some p → p.locals "" = none) := by
  intro package p hp
  simp only [listTables, onePackage] at hp
  split at hp
  · obtain rfl := Option.some.inj hp
    rfl
  · exact absurd hp (by simp)

/-- With `union U { uint8 x; };` and a field `U u`, the expression `u.x` makes the compiler panic. -/
example : evaluate (onePackage
      [{ kind := .union, cell := 0, name := "U" }, { kind := .struct, cell := 1, name := "R" }]
      [("U", [{ kind := .field, cell := 2, name := "x", type := builtin "uint8" }]),
        ("R", [{ kind := .field, cell := 3, name := "u", type := inP "U" }])]) free 2 ⟨"p", some "R"⟩ .release (.dot (.ident "u") "x" : Expr fo.F) = .panic := rfl

/-- What the tables answer to an expression, as a scope of `Expr.lean`. -/
def Spec.scopeOf (t : Tables) (held : Held) (n : Nat) (loc : Loc) (md : Mode) : EScope fo.F where
  ident name := match (do let s ← resolve t held n loc name false; symbolType t held n loc s.symbol : Look Ty) with
    | some (.ok ty) => some ty.sym
    | _ => none
  member e name := match evaluate t held n loc md e with
    | some (.ok o) => match o.symbol with
      | some left => match memberOf t held n left name with
        | some (.ok (ty, _)) => some ty.sym
        | _ => none
      | none => none
    | _ => none
  result e := match evaluate t held n loc md e with
    | some (.ok o) => match resultOf t held n loc o.who with
      | some (.ok (ty, _)) => some ty.sym
      | _ => none
    | _ => none
  hasItem e name := match evaluate t held n loc md e with
    | some (.ok o) => match o.who with
      | some d => decide (name ∈ d.items)
      | none => false
    | _ => false

/-- The evaluation with symbol tables is the one of `Expr.lean`, which the other properties of expressions are about,
with the answers of the tables. -/
theorem C81_scope (t : Tables) (held : Held) (n : Nat) (loc : Loc) (md : Mode) : ∀ (e : Expr fo.F) (o : Out fo.F),
    Lookup.evaluate t held n loc md e = .ok o →
      e.evaluate md (scopeOf t held n loc md) = .ok (o.val, o.resolved)
  | .intLit _, o, h | .boolLit _, o, h | .strLit _, o, h | .floatLit _, o, h | .index, o, h => by
    obtain rfl := (Look.ok_inj _ _).1 h
    rfl
  | .paren e, o, h => by
    unfold Lookup.evaluate at h
    obtain ⟨o', ho, h⟩ := Look.bind_eq_ok.1 h
    obtain rfl := (Look.ok_inj _ _).1 h
    exact C81_scope t held n loc md e o' ho
  | .ident name, o, h => by
    unfold Lookup.evaluate at h
    obtain ⟨s, hs, h⟩ := Look.bind_eq_ok.1 h
    obtain ⟨ty, hty, h⟩ := Look.bind_eq_ok.1 h
    obtain rfl := (Look.ok_inj _ _).1 h
    simp only [Expr.evaluate, scopeOf, hs, Look.ok_bind, hty]
    rfl
  | .call e, o, h => by
    unfold Lookup.evaluate at h
    obtain ⟨o', ho, h⟩ := Look.bind_eq_ok.1 h
    have ih := C81_scope t held n loc md e o' ho
    split at h
    · next hv =>
      obtain ⟨⟨ty, s⟩, hr, h⟩ := Look.bind_eq_ok.1 h
      obtain rfl := (Look.ok_inj _ _).1 h
      have hres : (scopeOf (fo := fo) t held n loc md).result e = some ty.sym := by
        have h1 : Lookup.evaluate t held n loc md e = some (.ok o') := ho
        have h2 : resultOf t held n loc o'.who = some (.ok (ty, s)) := hr
        simp [scopeOf, h1, h2]
      simp only [Expr.evaluate, ih, hv, hres]
      rfl
    · exact absurd h (by simp)
  | .dot e name, o, h => by
    unfold Lookup.evaluate at h
    obtain ⟨o', ho, h⟩ := Look.bind_eq_ok.1 h
    have ih := C81_scope t held n loc md e o' ho
    have hitem : itemOf held o'.who name = .ok () → (scopeOf (fo := fo) t held n loc md).hasItem e name = true := by
      intro hi
      unfold itemOf at hi
      split at hi
      · next d hd =>
        obtain ⟨_, _, hi⟩ := Look.bind_eq_ok.1 hi
        split at hi
        · next hm =>
          have : Lookup.evaluate t held n loc md e = some (.ok o') := ho
          simp [scopeOf, this, hd, hm]
        · exact absurd hi (by simp)
      · exact absurd hi (by simp)
    split at h
    · next hv =>
      obtain ⟨_, hi, h⟩ := Look.bind_eq_ok.1 h
      obtain rfl := (Look.ok_inj _ _).1 h
      simp only [Expr.evaluate, ih, hv, Res.ok_bind, hitem hi]
      rfl
    · next hv =>
      obtain ⟨_, hi, h⟩ := Look.bind_eq_ok.1 h
      obtain rfl := (Look.ok_inj _ _).1 h
      simp only [Expr.evaluate, ih, hv, Res.ok_bind, hitem hi]
      rfl
    · next hv =>
      split at h
      · next left hl =>
        obtain ⟨⟨ty, s⟩, hm, h⟩ := Look.bind_eq_ok.1 h
        obtain rfl := (Look.ok_inj _ _).1 h
        have hres : (scopeOf (fo := fo) t held n loc md).member e name = some ty.sym := by
          have h1 : Lookup.evaluate t held n loc md e = some (.ok o') := ho
          have h2 : memberOf t held n left name = some (.ok (ty, s)) := hm
          simp [scopeOf, h1, hl, h2]
        simp only [Expr.evaluate, ih, hv, hres]
        rfl
      · exact absurd h (by simp)
    · exact absurd h (by simp)
  | .lengthof e, o, h => by
    unfold Lookup.evaluate at h
    obtain ⟨o', ho, h⟩ := Look.bind_eq_ok.1 h
    obtain rfl := (Look.ok_inj _ _).1 h
    simp only [Expr.evaluate, C81_scope t held n loc md e o' ho]
    rfl
  | .valueof e, o, h => by
    unfold Lookup.evaluate at h
    obtain ⟨o', ho, h⟩ := Look.bind_eq_ok.1 h
    have ih := C81_scope t held n loc md e o' ho
    split at h
    · next hv hw =>
      obtain ⟨_, _, h⟩ := Look.bind_eq_ok.1 h
      obtain rfl := (Look.ok_inj _ _).1 h
      simp only [Expr.evaluate, ih, hv]
      rfl
    · next hv hw =>
      obtain ⟨_, _, h⟩ := Look.bind_eq_ok.1 h
      obtain rfl := (Look.ok_inj _ _).1 h
      simp only [Expr.evaluate, ih, hv]
      rfl
    · exact absurd h (by simp)
  | .numbits e, o, h => by
    unfold Lookup.evaluate at h
    obtain ⟨o', ho, h⟩ := Look.bind_eq_ok.1 h
    have ih := C81_scope t held n loc md e o' ho
    split at h
    · next v hv =>
      obtain ⟨k, hk, h⟩ := Look.bind_eq_ok.1 h
      obtain rfl := (Look.ok_inj _ _).1 h
      simp only [Expr.evaluate, ih, hv, Res.ok_bind, Look.ofRes_ok.1 hk]
      rfl
    · exact absurd h (by simp)
  | .plus e, o, h => by
    unfold Lookup.evaluate at h
    obtain ⟨o', ho, h⟩ := Look.bind_eq_ok.1 h
    have ih := C81_scope t held n loc md e o' ho
    split at h
    · next v hv =>
      obtain rfl := (Look.ok_inj _ _).1 h
      simp only [Expr.evaluate, ih, hv]
      rfl
    · next v hv =>
      obtain rfl := (Look.ok_inj _ _).1 h
      simp only [Expr.evaluate, ih, hv]
      rfl
    · exact absurd h (by simp)
  | .neg e, o, h => by
    unfold Lookup.evaluate at h
    obtain ⟨o', ho, h⟩ := Look.bind_eq_ok.1 h
    obtain ⟨c, hc, h⟩ := Look.bind_eq_ok.1 h
    obtain rfl := (Look.ok_inj _ _).1 h
    simp only [Expr.evaluate, C81_scope t held n loc md e o' ho, Res.ok_bind, Look.ofRes_ok.1 hc]
    rfl
  | .not e, o, h => by
    unfold Lookup.evaluate at h
    obtain ⟨o', ho, h⟩ := Look.bind_eq_ok.1 h
    have ih := C81_scope t held n loc md e o' ho
    split at h
    · next v hv =>
      obtain rfl := (Look.ok_inj _ _).1 h
      simp only [Expr.evaluate, ih, hv]
      rfl
    · exact absurd h (by simp)
  | .compl e, o, h => by
    unfold Lookup.evaluate at h
    obtain ⟨o', ho, h⟩ := Look.bind_eq_ok.1 h
    have ih := C81_scope t held n loc md e o' ho
    split at h
    · next v hv =>
      obtain rfl := (Look.ok_inj _ _).1 h
      simp only [Expr.evaluate, ih, hv]
      rfl
    · exact absurd h (by simp)
  | .elem a b, o, h => by
    unfold Lookup.evaluate at h
    obtain ⟨x, hx, h⟩ := Look.bind_eq_ok.1 h
    obtain ⟨y, hy, h⟩ := Look.bind_eq_ok.1 h
    have ih := C81_scope t held n loc md a x hx
    have ih' := C81_scope t held n loc md b y hy
    split at h
    · next hv =>
      obtain rfl := (Look.ok_inj _ _).1 h
      simp only [Expr.evaluate, ih, ih', hv]
      rfl
    · next hv =>
      obtain rfl := (Look.ok_inj _ _).1 h
      simp only [Expr.evaluate, ih, ih', hv]
      rfl
    · exact absurd h (by simp)
  | .isset a b, o, h => by
    unfold Lookup.evaluate at h
    obtain ⟨x, hx, h⟩ := Look.bind_eq_ok.1 h
    obtain ⟨y, hy, h⟩ := Look.bind_eq_ok.1 h
    have ih := C81_scope t held n loc md a x hx
    have ih' := C81_scope t held n loc md b y hy
    split at h
    · next hv hw =>
      obtain rfl := (Look.ok_inj _ _).1 h
      simp only [Expr.evaluate, ih, ih', hv, hw]
      rfl
    · exact absurd h (by simp)
  | .cmp op a b, o, h | .bit op a b, o, h => by
    unfold Lookup.evaluate at h
    obtain ⟨x, hx, h⟩ := Look.bind_eq_ok.1 h
    obtain ⟨y, hy, h⟩ := Look.bind_eq_ok.1 h
    obtain ⟨⟨c, k⟩, hc, h⟩ := Look.bind_eq_ok.1 h
    obtain rfl := (Look.ok_inj _ _).1 h
    simp only [Expr.evaluate, C81_scope t held n loc md a x hx, C81_scope t held n loc md b y hy, Res.ok_bind,
      Look.ofRes_ok.1 hc]
    rfl
  | .arith op a b, o, h | .logic op a b, o, h => by
    unfold Lookup.evaluate at h
    obtain ⟨x, hx, h⟩ := Look.bind_eq_ok.1 h
    obtain ⟨y, hy, h⟩ := Look.bind_eq_ok.1 h
    obtain ⟨c, hc, h⟩ := Look.bind_eq_ok.1 h
    obtain rfl := (Look.ok_inj _ _).1 h
    simp only [Expr.evaluate, C81_scope t held n loc md a x hx, C81_scope t held n loc md b y hy, Res.ok_bind,
      Look.ofRes_ok.1 hc]
    rfl
  | .tern a b c, o, h => by
    unfold Lookup.evaluate at h
    obtain ⟨x, hx, h⟩ := Look.bind_eq_ok.1 h
    obtain ⟨y, hy, h⟩ := Look.bind_eq_ok.1 h
    obtain ⟨z, hz, h⟩ := Look.bind_eq_ok.1 h
    have ih := C81_scope t held n loc md a x hx
    have ih' := C81_scope t held n loc md b y hy
    have ih'' := C81_scope t held n loc md c z hz
    split at h
    · next hv =>
      obtain rfl := (Look.ok_inj _ _).1 h
      simp only [Expr.evaluate, ih, ih', ih'', hv]
      rfl
    · next hv =>
      obtain rfl := (Look.ok_inj _ _).1 h
      simp only [Expr.evaluate, ih, ih', ih'', hv]
      rfl
    · exact absurd h (by simp)

end Zs
