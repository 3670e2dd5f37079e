import Verif.SymbolsLemmas
import Verif.PropsLiteral

/-!
# C60, C61: what arrives in the compiler
-/

namespace Zs

open Ast Spec

variable {fl : FloatText}

/-! ## C60: nothing that a declaration says is lost -/

/-- **C60.**  What the compiler keeps of a declaration is what the declaration says, except for `extend`, for the
default of a choice, for constraints in choices and unions, and for `deprecated` and `removed`. -/
theorem C60_kept :
    (∀ (e : Src.Exp) (n : Node fl.F), visitExp fl e = .ok n → readExp n = some e) ∧
    (∀ (t : Src.Inst) (x : TypeRef fl.F), visitInst fl t = .ok x → readInst x = some (instSays t)) ∧
    (∀ (s : Src.Struct) (x : Ast.Struct fl.F), visitStruct fl s = .ok x →
      readStruct x = some (structSays s).withoutExtend) ∧
    (∀ (c : Src.Choice) (x : Ast.Choice fl.F), visitChoice fl c = .ok x →
      readChoice x = some (choiceSays c).withoutDefault) ∧
    (∀ (u : Src.Union) (x : Ast.Union fl.F), visitUnion fl u = .ok x →
      readUnion x = some (unionSays u).withoutConstraints) ∧
    (∀ (e : Src.Enum) (x : Ast.Enum fl.F), visitEnum fl e = .ok x →
      readEnum x = some (enumSays e).withoutMarks) ∧
    (∀ (b : Src.Bitmask) (x : Ast.Bitmask fl.F), visitBitmask fl b = .ok x → readBitmask x = some (bitmaskSays b)) ∧
    (∀ (c : Src.Const) (x : Ast.Const fl.F), visitConst fl c = .ok x → readConst x = some (constSays c)) ∧
    (∀ (a : Src.Alias) (x : Ast.Alias fl.F), visitAlias a = .ok x → readAlias x = some (aliasSays a)) :=
  ⟨reads_exp, reads_inst, reads_struct, reads_choice, reads_union, reads_enum, reads_bitmask, reads_const,
    reads_alias⟩

/-- `A b[n] if n > 1;` -/
def exampleField : Src.StructField where
  align := some (.lit .decimal "8".toList)
  offset := none
  extended := false
  optional := true
  typeId :=
    { packed := true, implicit_ := false, type := ⟨.named "pkg" ["A"] [], .args (.expr (.id "n")) []⟩, name := "b",
      array := some (some (.id "n")) }
  initializer := none
  clause := some (.binary .gt (.id "n") (.lit .decimal "1".toList))
  constraint := none

/-- `struct S(uint8 n) { align(8): optional packed pkg.A(n) b[n] if n > 1; };` -/
def exampleStruct : Src.Struct where
  name := "S"
  templates := []
  params := [⟨.builtin "uint8", "n"⟩]
  fields := [exampleField]
  functions := []

example : ∃ x, visitStruct noFloat exampleStruct = .ok x ∧ x.name = "S" ∧ x.fields.length = 1 ∧
    readStruct x = some (structSays exampleStruct).withoutExtend ∧
    ((structSays exampleStruct).withoutExtend.fields.map FieldSays.align) = [8] := by
  have h : ∃ x, visitStruct noFloat exampleStruct = .ok x := ⟨_, by with_unfolding_all rfl⟩
  obtain ⟨x, hx⟩ := h
  refine ⟨x, hx, ?_, ?_, C60_kept.2.2.1 _ _ hx, by with_unfolding_all rfl⟩
  · exact visitStruct_name hx
  · have := C60_kept.2.2.1 _ _ hx
    simp only [visitStruct, Res.bind_eq_ok, Res.ok.injEq] at hx
    obtain ⟨_, _, fs, hf, _, _, rfl⟩ := hx
    simp only [exampleStruct, visitList, Res.bind_eq_ok, Res.ok.injEq] at hf
    obtain ⟨_, _, _, rfl, rfl⟩ := hf
    rfl

/-- **C60.**  An integer literal that is understood (C52) is kept with its value, and is marked as known. -/
theorem C60_literal_value (l : IntLit) (hw : l.WellFormed) (hu : l.Understood) :
    ∃ native, visitExp fl (.lit l.kind l.text) =
      .ok (.mk (.literal l.kind) l.text false (.lit (.int l.value)) true native []) := by
  have h := integer_value fl l hw
  rw [if_pos hu] at h
  exact ⟨literalNative l.kind, by simp [visitExp, h]⟩

/-- `0x1f`. -/
example : (IntLit.hexadecimal false [(1, false), (15, false)]).WellFormed ∧
    (IntLit.hexadecimal false [(1, false), (15, false)]).Understood ∧
    (IntLit.hexadecimal false [(1, false), (15, false)]).text = "0x1f".toList := by
  refine ⟨⟨by simp, by decide⟩, by decide, by decide⟩

/-- **C60.**  Two types with arguments have the same representation exactly if they say the same. -/
theorem C60_types_iff (t u : Src.Inst) (x y : TypeRef fl.F) (h : visitInst fl t = .ok x)
    (h' : visitInst fl u = .ok y) : x = y ↔ instSays t = instSays u :=
  reflects_inst t u x y h h'

/-- **C60.**  Two structures have the same representation exactly if they say the same except for `extend`. -/
theorem C60_struct_iff (s t : Src.Struct) (x y : Ast.Struct fl.F) (h : visitStruct fl s = .ok x)
    (h' : visitStruct fl t = .ok y) :
    x = y ↔ (structSays s).withoutExtend = (structSays t).withoutExtend :=
  reflects_struct s t x y h h'

/-- **C60.**  Two choices have the same representation exactly if they say the same except for the default and
for constraints. -/
theorem C60_choice_iff (c d : Src.Choice) (x y : Ast.Choice fl.F) (h : visitChoice fl c = .ok x)
    (h' : visitChoice fl d = .ok y) :
    x = y ↔ (choiceSays c).withoutDefault = (choiceSays d).withoutDefault :=
  reflects_choice c d x y h h'

/-- **C60.**  Two unions have the same representation exactly if they say the same except for constraints. -/
theorem C60_union_iff (u v : Src.Union) (x y : Ast.Union fl.F) (h : visitUnion fl u = .ok x)
    (h' : visitUnion fl v = .ok y) :
    x = y ↔ (unionSays u).withoutConstraints = (unionSays v).withoutConstraints :=
  reflects_union u v x y h h'

/-- **C60.**  Two enumerations have the same representation exactly if they say the same except for `deprecated`
and `removed`. -/
theorem C60_enum_iff (d e : Src.Enum) (x y : Ast.Enum fl.F) (h : visitEnum fl d = .ok x)
    (h' : visitEnum fl e = .ok y) :
    x = y ↔ (enumSays d).withoutMarks = (enumSays e).withoutMarks :=
  reflects_enum d e x y h h'

/-- **C60.**  Two bitmasks have the same representation exactly if they say the same. -/
theorem C60_bitmask_iff (b c : Src.Bitmask) (x y : Ast.Bitmask fl.F) (h : visitBitmask fl b = .ok x)
    (h' : visitBitmask fl c = .ok y) : x = y ↔ bitmaskSays b = bitmaskSays c :=
  reflects_bitmask b c x y h h'

/-- **C60.**  Two constants have the same representation exactly if they say the same. -/
theorem C60_const_iff (b c : Src.Const) (x y : Ast.Const fl.F) (h : visitConst fl b = .ok x)
    (h' : visitConst fl c = .ok y) : x = y ↔ constSays b = constSays c :=
  reflects_const b c x y h h'

/-- **C60.**  Two subtypes, or two instantiations, have the same representation exactly if they say the same. -/
theorem C60_alias_iff {F : Type} (b c : Src.Alias) (x y : Ast.Alias F) (h : visitAlias b = .ok x)
    (h' : visitAlias c = .ok y) : x = y ↔ aliasSays b = aliasSays c :=
  reflects_alias b c x y h h'

/-- `bit:4` and `bit<4>` say something different and are represented differently. -/
example : ∃ x y : TypeRef noFloat.F,
    visitInst noFloat ⟨.fixedBits false 4, .none⟩ = .ok x ∧
    visitInst noFloat ⟨.builtin "bit", .length (.lit .decimal "4".toList)⟩ = .ok y ∧ x ≠ y :=
  ⟨_, _, rfl, by with_unfolding_all rfl, by simp⟩

/-- A structure without `extend`. -/
def NothingExtended (s : Src.Struct) : Prop := ∀ f ∈ s.fields, f.extended = false

/-- A choice without default and constraints. -/
def NoDefault (c : Src.Choice) : Prop :=
  c.default_ = none ∧ ∀ k ∈ c.cases, ∀ f, k.field = some f → f.constraint = none

/-- A union without constraints. -/
def Unconstrained (u : Src.Union) : Prop := ∀ f ∈ u.fields, f.constraint = none

/-- An enumeration without `deprecated` and `removed`. -/
def Unmarked (e : Src.Enum) : Prop := ∀ i ∈ e.items, i.mark = .none

/-- **C60**, without `extend`, defaults, constraints in choices and unions, `deprecated` and `removed`: two
declarations that have the same representation say the same. -/
theorem C60_nothing_lost_partial :
    (∀ (s t : Src.Struct) (x : Ast.Struct fl.F), NothingExtended s → NothingExtended t →
      visitStruct fl s = .ok x → visitStruct fl t = .ok x → structSays s = structSays t) ∧
    (∀ (c d : Src.Choice) (x : Ast.Choice fl.F), NoDefault c → NoDefault d →
      visitChoice fl c = .ok x → visitChoice fl d = .ok x → choiceSays c = choiceSays d) ∧
    (∀ (u v : Src.Union) (x : Ast.Union fl.F), Unconstrained u → Unconstrained v →
      visitUnion fl u = .ok x → visitUnion fl v = .ok x → unionSays u = unionSays v) ∧
    (∀ (d e : Src.Enum) (x : Ast.Enum fl.F), Unmarked d → Unmarked e →
      visitEnum fl d = .ok x → visitEnum fl e = .ok x → enumSays d = enumSays e) := by
  refine ⟨?_, ?_, ?_, ?_⟩
  · intro s t x hs ht h h'
    have := (C60_struct_iff s t x x h h').1 rfl
    have key : ∀ s : Src.Struct, NothingExtended s → (structSays s).withoutExtend = structSays s := by
      intro s hs
      simp only [structSays, RecordSays.withoutExtend, List.map_map, RecordSays.mk.injEq, true_and, and_true]
      apply List.map_congr_left
      intro f hf
      simp [FieldSays.withoutExtend, structFieldSays, hs f hf]
    rwa [key s hs, key t ht] at this
  · intro c d x hc hd h h'
    have := (C60_choice_iff c d x x h h').1 rfl
    have key : ∀ c : Src.Choice, NoDefault c → (choiceSays c).withoutDefault = choiceSays c := by
      intro c hc
      simp only [choiceSays, ChoiceSays.withoutDefault, List.map_map, ChoiceSays.mk.injEq, true_and, and_true,
        hc.1, Option.map_none]
      apply List.map_congr_left
      intro k hk
      simp only [Function.comp_apply, CaseSays.withoutConstraint, caseSays, CaseSays.mk.injEq, true_and]
      cases hf : k.field with
      | none => rfl
      | some f => simp [FieldSays.withoutConstraint, choiceFieldSays, hc.2 k hk f hf]
    rwa [key c hc, key d hd] at this
  · intro u v x hu hv h h'
    have := (C60_union_iff u v x x h h').1 rfl
    have key : ∀ u : Src.Union, Unconstrained u → (unionSays u).withoutConstraints = unionSays u := by
      intro u hu
      simp only [unionSays, RecordSays.withoutConstraints, List.map_map, RecordSays.mk.injEq, true_and, and_true]
      apply List.map_congr_left
      intro f hf
      simp [FieldSays.withoutConstraint, choiceFieldSays, hu f hf]
    rwa [key u hu, key v hv] at this
  · intro d e x hd he h h'
    have := (C60_enum_iff d e x x h h').1 rfl
    have key : ∀ d : Src.Enum, Unmarked d → (enumSays d).withoutMarks = enumSays d := by
      intro d hd
      simp only [enumSays, EnumSays.withoutMarks, EnumSays.mk.injEq, true_and]
      conv => rhs; rw [← List.map_id d.items]
      apply List.map_congr_left
      intro i hi
      have := hd i hi
      cases i
      simp_all
    rwa [key d hd, key e he] at this

example : NothingExtended exampleStruct ∧ Unmarked ⟨⟨.builtin "uint8", .none⟩, "E", [⟨.none, "A", none⟩]⟩ := by
  simp [NothingExtended, exampleStruct, exampleField, Unmarked]

/-- **C60 is violated** by the default of a choice: whatever it is, it makes no difference. -/
theorem C60_default_violated (c : Src.Choice) (d : Option (Option Src.ChoiceField)) :
    visitChoice fl { c with default_ := d } = visitChoice fl c ∧
    (c.default_ = none → d ≠ none → choiceSays { c with default_ := d } ≠ choiceSays c) := by
  refine ⟨rfl, ?_⟩
  intro h1 h2 h
  cases d with
  | none => exact h2 rfl
  | some d => simp [choiceSays, h1] at h

/-- **C60 is violated** by constraints in choices and unions: they are not looked at, not even if they contain
a literal that would be rejected elsewhere. -/
theorem C60_constraint_violated (f : Src.ChoiceField) (e : Option Src.Exp) :
    visitChoiceField fl { f with constraint := e } = visitChoiceField fl f ∧
    (f.constraint ≠ e → choiceFieldSays { f with constraint := e } ≠ choiceFieldSays f) := by
  refine ⟨rfl, ?_⟩
  intro h1 h
  simp only [choiceFieldSays, FieldSays.mk.injEq, true_and] at h
  exact h1 h.symm

/-- **C60 is violated** by `extend`. -/
theorem C60_extend_violated (f : Src.StructField) :
    visitStructField fl { f with extended := true } = visitStructField fl { f with extended := false } ∧
    structFieldSays { f with extended := true } ≠ structFieldSays { f with extended := false } := by
  refine ⟨rfl, ?_⟩
  simp [structFieldSays]

/-- **C60 is violated** by `removed`: the item stays in the enumeration. -/
theorem C60_removed_violated (i : Src.Item) :
    visitItem fl { i with mark := .removed } = visitItem fl { i with mark := .none } := rfl

/-- An item that is not declared any more is represented like one that is. -/
example : visitItem noFloat ⟨.removed, "A", none⟩ = .ok ⟨"A", none⟩ := rfl

/-- `choice C(uint8 s) on s { case 1: uint8 a; default: uint8 b; };` -/
def exampleChoice : Src.Choice where
  name := "C"
  templates := []
  params := [⟨.builtin "uint8", "s"⟩]
  selector := .id "s"
  cases := [⟨[.lit .decimal "1".toList], some ⟨⟨false, false, ⟨.builtin "uint8", .none⟩, "a", none⟩, none⟩⟩]
  default_ := some (some ⟨⟨false, false, ⟨.builtin "uint8", .none⟩, "b", none⟩, none⟩)
  functions := []

example : ∃ x, visitChoice noFloat exampleChoice = .ok x ∧ x.default_ = none ∧
    visitChoice noFloat { exampleChoice with default_ := none } = .ok x := by
  refine ⟨_, by with_unfolding_all rfl, rfl, by with_unfolding_all rfl⟩

/-! ## C61: no declaration and no file is lost -/

/-- **C61.**  Enumerations, bitmasks, constants, subtypes and instantiations: every one arrives, in the order of
the file. -/
theorem C61_lists (p : Src.Package) (q : Ast.Package fl.F) (h : visitPackage fl p = .ok q) :
    readList readEnum q.enums = some ((enumsOf p.directives).map fun e => (enumSays e).withoutMarks) ∧
    readList readBitmask q.bitmasks = some ((bitmasksOf p.directives).map bitmaskSays) ∧
    readList readConst q.consts = some ((constsOf p.directives).map constSays) ∧
    readList readAlias q.subtypes = some ((subtypesOf p.directives).map aliasSays) ∧
    readList readAlias q.instantiated = some ((instantiationsOf p.directives).map aliasSays) :=
  have c := components h
  ⟨reads_list reads_enum _ _ c.enums, reads_list reads_bitmask _ _ c.bitmasks,
    reads_list reads_const _ _ c.consts, reads_list reads_alias _ _ c.subtypes,
    reads_list reads_alias _ _ c.instantiated⟩

/-- **C61.**  The package has the name and the imports of the file: of `import a.b.*;` the package `a.b`, of
`import a.b.C;` the package `a.b` and the symbol `C`, in the order of the file. -/
theorem C61_imports (p : Src.Package) (q : Ast.Package fl.F) (h : visitPackage fl p = .ok q) :
    p.name = some q.name ∧ q.imports.length = p.imports.length ∧
    ∀ (n : Nat) (i : Src.Import), p.imports[n]? = some i → ∃ k, q.imports[n]? = some k ∧
      (i.star = true → k.dir = i.first :: i.rest ∧ k.symbol = none) ∧
      (i.star = false → ∃ s, k.symbol = some s ∧ k.dir ++ [s] = i.first :: i.rest) := by
  have c := components h
  refine ⟨c.name, by rw [c.imports, List.length_map], ?_⟩
  intro n i hi
  refine ⟨visitImport i, by rw [c.imports, List.getElem?_map, hi]; rfl, ?_, ?_⟩
  · intro hs
    simp [visitImport, hs]
  · intro hs
    exact ⟨_, by simp [visitImport, hs]; rfl, by simp [visitImport, hs, List.dropLast_concat_getLast]⟩

/-- Both forms of import. -/
example : ∃ q : Ast.Package noFloat.F, visitPackage noFloat ⟨none, some ["p"], [⟨"a", ["b", "C"], false⟩, ⟨"a", ["b"],
      true⟩], []⟩ = .ok q ∧ q.imports = [⟨["a", "b"], some "C"⟩, ⟨["a", "b"], none⟩] :=
  ⟨_, rfl, rfl⟩

/-- **C61.**  Structures, choices and unions: under every name, the last one of that name arrives. -/
theorem C61_last (p : Src.Package) (q : Ast.Package fl.F) (h : visitPackage fl p = .ok q) (n : String) :
    (q.structs n).bind readStruct =
      ((structsOf p.directives).reverse.find? fun s => s.name = n).map (fun s => (structSays s).withoutExtend) ∧
    (q.choices n).bind readChoice =
      ((choicesOf p.directives).reverse.find? fun s => s.name = n).map (fun s => (choiceSays s).withoutDefault) ∧
    (q.unions n).bind readUnion =
      ((unionsOf p.directives).reverse.find? fun s => s.name = n).map
        (fun s => (unionSays s).withoutConstraints) := by
  have c := components h
  obtain ⟨xs, h1, e1⟩ := c.structs
  obtain ⟨ys, h2, e2⟩ := c.choices
  obtain ⟨zs, h3, e3⟩ := c.unions
  rw [e1, e2, e3]
  exact ⟨map_lookup reads_struct (fun _ _ => visitStruct_name) n h1,
    map_lookup reads_choice (fun _ _ => visitChoice_name) n h2,
    map_lookup reads_union (fun _ _ => visitUnion_name) n h3⟩

/-- **C61.**  Whatever is found under a name in the symbol table of a package is declared under this name. -/
theorem C61_nothing_else (p : Src.Package) (q : Ast.Package fl.F) (h : visitPackage fl p = .ok q) (n : String)
    (s : Symbol fl.F) (hs : fileSymbols q n = some s) :
    ∃ d ∈ p.directives, ∃ D, declares d = some (n, D) ∧ readSymbol s = some D :=
  fileSymbols_declared (components h) hs

/-- **C61.**  Every declaration is found under its name exactly if declarations of the same name say the same. -/
theorem C61_found_iff (p : Src.Package) (q : Ast.Package fl.F) (h : visitPackage fl p = .ok q) :
    (∀ d ∈ p.directives, ∀ n D, declares d = some (n, D) → (fileSymbols q n).bind readSymbol = some D) ↔
    (∀ d ∈ p.directives, ∀ d' ∈ p.directives, ∀ n D D', declares d = some (n, D) → declares d' = some (n, D') →
      D = D') := by
  constructor
  · intro hf d hd d' hd' n D D' e e'
    have := (hf d hd n D e).symm.trans (hf d' hd' n D' e')
    simpa using this
  · intro hu d hd n D e
    cases hs : fileSymbols q n with
    | none => exact absurd hs (fileSymbols_some (components h) hd e)
    | some s =>
      obtain ⟨d', hd', D', e', hr⟩ := fileSymbols_declared (components h) hs
      rw [hu d hd d' hd' n D D' e e']
      simpa using hr

/-- **C61** if no name is declared twice: every declaration is found under its name. -/
theorem C61_found_partial (p : Src.Package) (q : Ast.Package fl.F) (h : visitPackage fl p = .ok q)
    (hn : ((p.directives.filterMap declares).map Prod.fst).Nodup) (d : Src.Directive) (hd : d ∈ p.directives)
    (n : String) (D : Declared) (e : declares d = some (n, D)) :
    (fileSymbols q n).bind readSymbol = some D := by
  refine (C61_found_iff p q h).2 ?_ d hd n D e
  intro d hd d' hd' n D D' e e'
  have key : ∀ (l : List (String × Declared)), (l.map Prod.fst).Nodup → (n, D) ∈ l → (n, D') ∈ l → D = D' := by
    intro l
    induction l with
    | nil => simp
    | cons y l ih =>
      intro hd h1 h2
      simp only [List.map_cons, List.nodup_cons, List.mem_map] at hd
      rcases List.mem_cons.1 h1 with e1 | e1 <;> rcases List.mem_cons.1 h2 with e2 | e2
      · rw [← e1] at e2; simp only [Prod.mk.injEq] at e2; exact e2.2.symm
      · subst e1; exact absurd ⟨_, e2, rfl⟩ hd.1
      · subst e2; exact absurd ⟨_, e1, rfl⟩ hd.1
      · exact ih hd.2 e1 e2
  exact key _ hn (List.mem_filterMap.2 ⟨d, hd, e⟩) (List.mem_filterMap.2 ⟨d', hd', e'⟩)

/-- **C61** inside a declaration, if no name is used twice: every parameter, field, function and item is found
under its name. -/
theorem C61_members_partial {F : Type} :
    (∀ (s : Ast.Struct F), ((structMembers s).map Prod.fst).Nodup →
      ∀ n m, (n, m) ∈ structMembers s → structSymbols s n = some m) ∧
    (∀ (u : Ast.Union F), ((unionMembers u).map Prod.fst).Nodup →
      ∀ n m, (n, m) ∈ unionMembers u → unionSymbols u n = some m) ∧
    (∀ (c : Ast.Choice F), ((choiceMembers c).map Prod.fst).Nodup →
      ∀ n m, (n, m) ∈ choiceMembers c → choiceSymbols c n = some m) ∧
    (∀ (e : Ast.Enum F), ((enumMembers e).map Prod.fst).Nodup →
      ∀ n m, (n, m) ∈ enumMembers e → enumSymbols e n = some m) := by
  refine ⟨?_, ?_, ?_, ?_⟩ <;> intro s hs n m hm
  · rw [structSymbols_pairs]; exact insertAll_pairs hs hm _
  · rw [unionSymbols_pairs]; exact insertAll_pairs hs hm _
  · rw [choiceSymbols_pairs]; exact insertAll_pairs hs hm _
  · rw [enumSymbols_pairs]; exact insertAll_pairs hs hm _

/-- A structure with a parameter and a function. -/
example : let s : Ast.Struct Unit := ⟨"S", [], [⟨"n", .mk true [] "uint8" 0 [] [] none⟩], [],
      [⟨"f", .mk .id ['n'] false .other false none [], .mk true [] "uint8" 0 [] [] none⟩]⟩
    ((structMembers s).map Prod.fst).Nodup ∧ (structMembers s).length = 2 := by decide

/-- **C61.**  Of every package, the last file arrives. -/
theorem C61_files (ps : List Src.Package) (m : List String → Option (Ast.Package fl.F))
    (h : loadModel fl (fun _ => none) ps = .ok m) (n : List String) :
    match ps.reverse.find? (fun p => p.name = some n) with
    | some p => ∃ q, visitPackage fl p = .ok q ∧ m n = some q
    | none => m n = none :=
  loadModel_get h n

/-- **C61** if no two files belong to the same package: every file arrives. -/
theorem C61_files_partial (ps : List Src.Package) (m : List String → Option (Ast.Package fl.F))
    (h : loadModel fl (fun _ => none) ps = .ok m) (hn : (ps.map Src.Package.name).Nodup) (p : Src.Package)
    (hp : p ∈ ps) : ∃ n q, p.name = some n ∧ visitPackage fl p = .ok q ∧ m n = some q := by
  have hv : ∀ (ps : List Src.Package) (m0 : List String → Option (Ast.Package fl.F)),
      loadModel fl m0 ps = .ok m → ∀ p ∈ ps, ∃ q, visitPackage fl p = .ok q := by
    intro ps
    induction ps with
    | nil => simp
    | cons r ps ih =>
      intro m0 h p hp
      simp only [loadModel, Res.bind_eq_ok] at h
      obtain ⟨q, hq, h⟩ := h
      rcases List.mem_cons.1 hp with rfl | hp
      · exact ⟨q, hq⟩
      · exact ih _ h p hp
  obtain ⟨q, hq⟩ := hv ps _ h p hp
  have hname := (components hq).name
  refine ⟨q.name, q, hname, hq, ?_⟩
  have hl := C61_files ps m h q.name
  cases hf : ps.reverse.find? (fun p => p.name = some q.name) with
  | none =>
    rw [List.find?_eq_none] at hf
    exact absurd (by simpa using hname) (hf p (by simpa using hp))
  | some r =>
    rw [hf] at hl
    obtain ⟨q', hq', hm⟩ := hl
    have h1 := List.find?_some hf
    have h2 := List.mem_of_find?_eq_some hf
    simp only [decide_eq_true_eq] at h1
    simp only [List.mem_reverse] at h2
    have key : ∀ (l : List Src.Package), (l.map Src.Package.name).Nodup → p ∈ l → r ∈ l → p.name = r.name →
        p = r := by
      intro l
      induction l with
      | nil => simp
      | cons y l ih =>
        intro hd h1 h2 e
        simp only [List.map_cons, List.nodup_cons, List.mem_map] at hd
        rcases List.mem_cons.1 h1 with e1 | e1 <;> rcases List.mem_cons.1 h2 with e2 | e2
        · rw [e1, e2]
        · subst e1; exact absurd ⟨_, e2, e.symm⟩ hd.1
        · subst e2; exact absurd ⟨_, e1, e⟩ hd.1
        · exact ih hd.2 e1 e2 e
    have := key ps hn hp h2 (by rw [h1, hname])
    subst this
    rw [hq] at hq'
    simp only [Res.ok.injEq] at hq'
    rw [hm, hq']

/-- An empty structure. -/
def emptyStruct (name : String) (params : List Src.Param) : Src.Struct := ⟨name, [], params, [], []⟩

/-- A file. -/
def exampleFile (name : List String) (ds : List Src.Directive) : Src.Package := ⟨none, some name, [], ds⟩

/-- Two files of different packages. -/
example : ∃ m, loadModel noFloat (fun _ => none) [exampleFile ["a"] [.struct (emptyStruct "S" [])],
    exampleFile ["b"] []] = .ok m ∧
    ([exampleFile ["a"] [.struct (emptyStruct "S" [])], exampleFile ["b"] []].map Src.Package.name).Nodup :=
  ⟨_, rfl, by decide⟩

/-- Two declarations of different kinds and names. -/
example : ∃ q : Ast.Package noFloat.F,
    visitPackage noFloat (exampleFile ["a"] [.struct (emptyStruct "S" []), .const ⟨⟨.builtin "uint8", .none⟩, "N",
      .lit .decimal "1".toList⟩]) = .ok q ∧
    (([Src.Directive.struct (emptyStruct "S" []), .const ⟨⟨.builtin "uint8", .none⟩, "N",
      .lit .decimal "1".toList⟩].filterMap declares).map Prod.fst).Nodup :=
  ⟨_, by with_unfolding_all rfl, by with_unfolding_all decide⟩

/-- **C61 is violated** by two structures of the same name: the file is accepted, and only the second is kept. -/
theorem C61_duplicate_violated : ∃ q : Ast.Package fl.F,
    visitPackage fl (exampleFile ["a"] [.struct (emptyStruct "S" [⟨.builtin "uint8", "n"⟩]),
      .struct (emptyStruct "S" [])]) = .ok q ∧
    (fileSymbols q "S").bind readSymbol = some (.struct ⟨"S", [], [], [], []⟩) :=
  ⟨_, rfl, by with_unfolding_all rfl⟩

/-- **C61 is violated** by a structure and a subtype of the same name: the structure is not found any more. -/
theorem C61_hidden_violated : ∃ q : Ast.Package fl.F,
    visitPackage fl (exampleFile ["a"] [.subtype ⟨.builtin "uint8", "S"⟩, .struct (emptyStruct "S" [])]) = .ok q ∧
    (fileSymbols q "S").bind readSymbol = some (.subtype ⟨"S", .builtin "uint8"⟩) :=
  ⟨_, rfl, by with_unfolding_all rfl⟩

/-- **C61 is violated** by a package of two files: what the first file declares is lost, however large the file. -/
theorem C61_files_violated (n : List String) (ds es : List Src.Directive) (m : List String → Option (Ast.Package fl.F))
    (h : loadModel fl (fun _ => none) [exampleFile n ds, exampleFile n es] = .ok m) :
    ∃ q, visitPackage fl (exampleFile n es) = .ok q ∧ m n = some q ∧ ∀ n', n' ≠ n → m n' = none := by
  have h1 := C61_files _ m h n
  simp only [exampleFile, List.reverse_cons, List.reverse_nil, List.nil_append, List.cons_append, List.find?_cons,
    decide_true] at h1
  obtain ⟨q, hq, hm⟩ := h1
  refine ⟨q, hq, hm, ?_⟩
  intro n' hn'
  have h2 := C61_files _ m h n'
  have : ¬ n = n' := fun e => hn' e.symm
  simpa [exampleFile, List.find?_cons, this] using h2

/-- Two files of one package, with different structures. -/
example : ∃ m, loadModel noFloat (fun _ => none) [exampleFile ["a"] [.struct (emptyStruct "S" [])],
    exampleFile ["a"] [.struct (emptyStruct "T" [])]] = .ok m ∧
    ∃ q, m ["a"] = some q ∧ (q.structs "S").isNone ∧ (q.structs "T").isSome :=
  ⟨_, rfl, _, rfl, rfl, rfl⟩

/-- **C61 is violated** by a file without package name, which the grammar allows: the compiler panics. -/
theorem C61_unnamed_violated (p : Src.Package) (h : p.name = none) : visitPackage fl p = .panic := by
  simp [visitPackage, h]

/-- **C61 is violated** by rules, SQL tables and databases, services and pubsubs: the file is accepted as if they
were not there. -/
theorem C61_unsupported_violated (o : Src.Other) (ds : List Src.Directive) (n : List String)
    (h : visitOther fl o = .ok ()) :
    visitPackage fl (exampleFile n (.other o :: ds)) = visitPackage fl (exampleFile n ds) := by
  simp [visitPackage, exampleFile, addDirectives, addDirective, h]

/-- A service. -/
example : visitOther noFloat ⟨"Service", [⟨.named "Request" [] [], .none⟩], []⟩ = .ok () := rfl

/-- **C61 is violated** by the default of a choice: its field is not found under its name. -/
theorem C61_default_violated : ∃ x : Ast.Choice noFloat.F, visitChoice noFloat exampleChoice = .ok x ∧
    (choiceSymbols x "a").isSome ∧ (choiceSymbols x "b").isNone :=
  ⟨_, by with_unfolding_all rfl, by with_unfolding_all rfl, by with_unfolding_all rfl⟩

end Zs
