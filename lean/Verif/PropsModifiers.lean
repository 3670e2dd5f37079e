import Verif.PropsCompile
import Verif.ModifierSpec
import Verif.LinkSpec

/-!
# C77: constraints, initializers, offsets and `implicit`
-/

namespace Zs

open Spec Emit

variable {fo : FloatOps} {round : List Char → fo.F} {display : fo.F → List Char} {O : Type}
  {look : Env → World fo.F O} {md build : Mode}

/-! ## What the generator does not look at -/

/-- A field without its initializer, its constraint and `implicit`. -/
def Ast.Field.erased {F : Type} (f : Ast.Field F) : Ast.Field F :=
  { f with
    initializer := none
    constraint := none
    array := f.array.map fun a => { a with implicit_ := false } }

theorem erased_parts {F : Type} {x y : Ast.Field F} (h : x.erased = y.erased) :
    x.name = y.name ∧ x.optional = y.optional ∧ x.alignment = y.alignment ∧ x.type = y.type ∧ x.offset = y.offset ∧
      x.clause = y.clause ∧ x.array.map (fun a => { a with implicit_ := false }) =
        y.array.map fun a => { a with implicit_ := false } := by
  simp only [Ast.Field.erased, Ast.Field.mk.injEq] at h
  exact ⟨h.1, h.2.1, h.2.2.1, h.2.2.2.1, h.2.2.2.2.2.1, h.2.2.2.2.2.2.2.1, h.2.2.2.2.2.2.2.2⟩

theorem find_factor {α β γ : Type} (name : α → String) (value : α → β) (g : β → Option γ) (as : List α)
    (m : Ast.Map β) (n : String) : (Ast.Map.insertAll name value as m n).bind g =
      match (as.map fun a => (name a, g (value a))).reverse.find? (fun p => p.1 = n) with
      | some p => p.2
      | none => (m n).bind g := by
  rw [insertAll_get, ← List.map_reverse, List.find?_map]
  simp only [Function.comp_def]
  cases as.reverse.find? fun a => decide (name a = n) <;> rfl

theorem insertAll_alike {α β γ : Type} (name : α → String) (value : α → β) (g : β → Option γ) {as bs : List α}
    {m m' : Ast.Map β} (h : (as.map fun a => (name a, g (value a))) = bs.map fun a => (name a, g (value a))) (n : String)
    (hm : (m n).bind g = (m' n).bind g) :
    (Ast.Map.insertAll name value as m n).bind g = (Ast.Map.insertAll name value bs m' n).bind g := by
  rw [find_factor, find_factor, h, hm]

theorem map_of_erased {F β : Type} (h : Ast.Field F → β) (hh : ∀ f, h f.erased = h f) {as bs : List (Ast.Field F)}
    (he : as.map Ast.Field.erased = bs.map Ast.Field.erased) : as.map h = bs.map h := by
  have := congrArg (List.map h) he
  simpa [Function.comp_def, hh] using this

theorem erased_scope {F : Type} (N : Ast.Names) {d d' : Ast.Struct F} (hp : d.params = d'.params) (hu : d.functions = d'.functions)
    (hf : d.fields.map Ast.Field.erased = d'.fields.map Ast.Field.erased) : d.scope N = d'.scope N := by
  unfold Ast.Struct.scope
  congr 1
  funext n
  simp only [structSymbols, hp, hu]
  have key : ∀ (o : Option (Ast.Symbol F)) (c : Option Symb), (match o with
      | some y => y.symb N.types
      | none => c) = (o.bind fun y => some (y.symb N.types)).getD c := by
    intro o c
    cases o <;> rfl
  refine (key _ _).trans (Eq.trans ?_ (key _ _).symm)
  congr 1
  refine insertAll_alike _ _ _ rfl n (insertAll_alike _ _ _ ?_ n rfl)
  refine map_of_erased (fun f => (f.name, some ((Ast.Symbol.field f).symb N.types))) (fun f => ?_) hf
  simp only [Ast.Field.erased, Ast.Symbol.symb, Ast.Field.shape, Option.isSome_map]

theorem erased_marks {F : Type} {d d' : Ast.Struct F}
    (hf : d.fields.map Ast.Field.erased = d'.fields.map Ast.Field.erased) {x y : Ast.Field F}
    (hx : x.erased = y.erased) : d.marks x = d'.marks y := by
  have hn : x.name = y.name := (erased_parts hx).1
  unfold Ast.Struct.marks
  rw [hn]
  have := map_of_erased (fun g : Ast.Field F => Ast.offsetIn y.name g.offset) (fun _ => rfl) hf
  have := congrArg (fun l => l.any id) this
  simpa [List.any_map, Function.comp_def] using this

theorem erased_seen {d d' : Ast.Struct fo.F} (hp : d.params = d'.params) (hu : d.functions = d'.functions)
    (hf : d.fields.map Ast.Field.erased = d'.fields.map Ast.Field.erased) {x y : Ast.Field fo.F}
    (hx : x.erased = y.erased) {N : Ast.Names} {g : Emit.Field}
    (h : SeenAs md build look N d x g) : SeenAs md build look N d' y g := by
  have hsc := erased_scope N hp hu hf
  refine ⟨?_, ?_, ?_, ?_, ?_, ?_, ?_, h.args⟩
  · rw [h.optional]; rw [(erased_parts hx).2.1]
  · rw [h.alignment]; rw [(erased_parts hx).2.2.1]
  · rw [h.offset]; rw [(erased_parts hx).2.2.2.2.1]
  · rw [h.isOffsetField]; exact erased_marks hf hx
  · have hc : x.clause = y.clause := (erased_parts hx).2.2.2.2.2.1
    rw [← hsc, ← hc]
    exact h.clause
  · have ha := (erased_parts hx).2.2.2.2.2.2
    have := h.array
    rw [← hsc]
    cases hxa : x.array <;> cases hya : y.array <;> rw [hxa, hya] at ha <;> rw [hxa] at this <;>
      simp only [Option.map_none, Option.map_some, reduceCtorEq, Option.some.injEq, Ast.Array.mk.injEq] at ha
    · exact this
    · obtain ⟨e, h1, h2⟩ := this
      exact ⟨e, by rw [← ha.2.2]; exact h1, by rw [← ha.1]; exact h2⟩
  · have ht : x.type = y.type := (erased_parts hx).2.2.2.1
    rw [← hsc, ← ht]
    exact h.ty

theorem seenAll_erased {d d' : Ast.Struct fo.F} (hp : d.params = d'.params) (hu : d.functions = d'.functions)
    (hf : d.fields.map Ast.Field.erased = d'.fields.map Ast.Field.erased) :
    ∀ {xs ys : List (Ast.Field fo.F)}, xs.map Ast.Field.erased = ys.map Ast.Field.erased →
    ∀ {N : Ast.Names} {gs : List Emit.Field}, SeenAll md build look N d xs gs →
      SeenAll md build look N d' ys gs
  | [], [], _, _, gs, h => by cases gs <;> exact h
  | [], _ :: _, h, _, _, _ => by cases h
  | _ :: _, [], h, _, _, _ => by cases h
  | x :: xs, y :: ys, h, _, [], hs => hs.elim
  | x :: xs, y :: ys, h, _, g :: gs, hs => by
    simp only [List.map_cons, List.cons.injEq] at h
    exact ⟨erased_seen hp hu hf h.1 hs.1, seenAll_erased hp hu hf h.2 hs.2⟩

theorem erased_visit {fl : FloatText} {f g : Src.StructField} (h : FieldAlike f g) {x y : Ast.Field fl.F}
    (hx : visitStructField fl f = .ok x) (hy : visitStructField fl g = .ok y) : x.erased = y.erased := by
  obtain ⟨a1, a2, a3, a4, a5, a6, a7⟩ := visitStructField_parts hx
  obtain ⟨b1, b2, b3, b4, b5, b6, b7⟩ := visitStructField_parts hy
  rw [h.name, ← b1] at a1
  rw [h.type, b2] at a2
  rw [h.optional, ← b4] at a4
  rw [h.align, ← b5] at a5
  rw [h.offset, b6] at a6
  rw [h.clause, b7] at a7
  have ha : x.array.map (fun a => { a with implicit_ := false }) =
      y.array.map fun a => { a with implicit_ := false } := by
    rw [h.array] at a3
    cases hg : g.typeId.array with
    | none =>
      rw [hg] at a3 b3
      simp only [visitOption, Res.ok.injEq] at a3 b3
      rw [← a3, ← b3]
    | some l =>
      rw [hg] at a3 b3
      simp only [visitOption, Res.bind_eq_ok, Res.ok.injEq] at a3 b3
      obtain ⟨_, ⟨n, hn, rfl⟩, a3⟩ := a3
      obtain ⟨_, ⟨n', hn', rfl⟩, b3⟩ := b3
      rw [← a3, ← b3]
      rw [hn] at hn'
      cases hn'
      simp [h.packed]
  simp only [Res.ok.injEq] at a2 a6 a7
  simp only [Ast.Field.erased, a1, ← a2, a4, a5, ← a6, ← a7, ha]

theorem erased_list {fl : FloatText} : ∀ {fs gs : List Src.StructField}, FieldsAlike fs gs →
    ∀ {xs ys : List (Ast.Field fl.F)}, visitList (visitStructField fl) fs = .ok xs →
    visitList (visitStructField fl) gs = .ok ys → xs.map Ast.Field.erased = ys.map Ast.Field.erased
  | [], [], _, xs, ys, hx, hy => by
    simp only [visitList, Res.ok.injEq] at hx hy
    rw [← hx, ← hy]
  | [], _ :: _, h, _, _, _, _ => h.elim
  | _ :: _, [], h, _, _, _, _ => h.elim
  | f :: fs, g :: gs, h, xs, ys, hx, hy => by
    simp only [visitList, Res.bind_eq_ok, Res.ok.injEq] at hx hy
    obtain ⟨x, hx, xs, hxs, rfl⟩ := hx
    obtain ⟨y, hy, ys, hys, rfl⟩ := hy
    simp [erased_visit h.1 hx hy, erased_list h.2 hxs hys]

/-- **C77** Two structures that differ in constraints, initializers and `implicit` only: the same code is emitted
for them. -/
theorem C77_same_code (s t : Src.Struct) (h : Alike s t) (d e : Ast.Struct fo.F)
    (hd : visitStruct (floatText fo round display) s = .ok d)
    (he : visitStruct (floatText fo round display) t = .ok e) (N : Ast.Names) (gs : List Emit.Field) :
    SeenAll md build look N d d.fields gs ↔ SeenAll md build look N e e.fields gs := by
  simp only [visitStruct, Res.bind_eq_ok, Res.ok.injEq] at hd he
  obtain ⟨ps, hps, fs, hfs, us, hus, rfl⟩ := hd
  obtain ⟨ps', hps', fs', hfs', us', hus', rfl⟩ := he
  rw [h.params, hps'] at hps
  rw [h.functions, hus'] at hus
  simp only [Res.ok.injEq] at hps hus
  have hf := erased_list h.fields hfs hfs'
  exact ⟨seenAll_erased hps.symm hus.symm hf hf, seenAll_erased hps hus hf.symm hf.symm⟩

/-! ## Structures for which this is wrong -/

/-- `struct A { uint8 a : a < 10; };` -/
def constraintStruct : Src.Struct where
  name := "A"
  templates := []
  params := []
  fields := [{ textField ⟨.builtin "uint8", .none⟩ "a" with
    constraint := some (.binary .lt (.id "a") (.lit .decimal "10".toList)) }]
  functions := []

/-- `struct A { uint8 a = 5; };` -/
def initializerStruct : Src.Struct where
  name := "A"
  templates := []
  params := []
  fields := [{ textField ⟨.builtin "uint8", .none⟩ "a" with initializer := some (.lit .decimal "5".toList) }]
  functions := []

/-- `struct A { implicit uint8 a[]; };` -/
def implicitStruct : Src.Struct where
  name := "A"
  templates := []
  params := []
  fields := [{ textField ⟨.builtin "uint8", .none⟩ "a" with
    typeId := { packed := false, implicit_ := true, type := ⟨.builtin "uint8", .none⟩, name := "a",
                array := some none } }]
  functions := []

/-- `struct A { uint32 o; o: uint8 x; };` -/
def offsetStruct : Src.Struct where
  name := "A"
  templates := []
  params := []
  fields := [textField ⟨.builtin "uint32", .none⟩ "o",
    { textField ⟨.builtin "uint8", .none⟩ "x" with offset := some (.id "o") }]
  functions := []

/-- `struct A { uint8 a; };` -/
def plainStruct : Src.Struct where
  name := "A"
  templates := []
  params := []
  fields := [textField ⟨.builtin "uint8", .none⟩ "a"]
  functions := []

example : Alike constraintStruct plainStruct ∧ Alike initializerStruct plainStruct :=
  ⟨⟨rfl, rfl, ⟨rfl, rfl, rfl, rfl, rfl, rfl, rfl, rfl⟩, trivial⟩,
    ⟨rfl, rfl, ⟨rfl, rfl, rfl, rfl, rfl, rfl, rfl, rfl⟩, trivial⟩⟩

/-- An object with the fields `vs`. -/
def fieldsCore (vs : List Val) : Core := ⟨[], vs, 0, Node.new, ⟨[]⟩, ⟨0, []⟩, 0, 0, 0⟩

/-- An object that is read from the bits. -/
def readCore (vs : List Val) (bits : List Bool) : Core := ⟨[], vs, 0, Node.new, ⟨[]⟩, ⟨0, bits⟩, 0, 0, 0⟩

theorem ten_stands (known : List String) : Stands noRound known (.lit .decimal "10".toList) (.intLit 10) :=
  .int (l := .decimal [1, 0]) (by simp [IntLit.WellFormed]) (by simp [IntLit.IsBinary])

theorem five_stands (known : List String) : Stands noRound known (.lit .decimal "5".toList) (.intLit 5) :=
  .int (l := .decimal [5]) (by simp [IntLit.WellFormed]) (by simp [IntLit.IsBinary])

theorem executes_write {gs : List Emit.Field} {cfg : Cfg} {k : Core} {α : Type} {view : Core → α} {out : Res α}
    (h : ((structCode encodeCode false 0 gs ++ Code.one .okUnit).run cfg (St.start k) >>= fun st => .ok (view st.core)) =
      out) : Executes cfg ((structBodies gs).write false) k view out :=
  ⟨_, by rw [Code.lines_append, lines_structCode lines_encodeCode]; rfl, h⟩

theorem executes_read {gs : List Emit.Field} {cfg : Cfg} {k : Core} {α : Type} {view : Core → α} {out : Res α}
    (h : ((structCode decodeCode false 0 gs ++ Code.one .okUnit).run cfg (St.start k) >>= fun st => .ok (view st.core)) =
      out) : Executes cfg ((structBodies gs).read false) k view out :=
  ⟨_, by rw [Code.lines_append, lines_structCode lines_decodeCode]; rfl, h⟩

/-- What the generator sees of `uint8 a;`. -/
theorem plain_seen (display : tenths.F → List Char) {look : Env → World tenths.F O} (s : Src.Struct)
    (h : Alike s plainStruct) (d : Ast.Struct tenths.F) (hd : visitStruct (floatText tenths noRound display) s = .ok d)
    (gs : List Emit.Field) :
    SeenAll md build look Ast.Names.empty d d.fields gs ↔ gs = [{ ty := .builtin .uint8 0 none }] := by
  obtain ⟨e, he⟩ : ∃ e, visitStruct (floatText tenths noRound display) plainStruct = .ok e :=
    ⟨_, by with_unfolding_all rfl⟩
  rw [C77_same_code s plainStruct h d e hd he]
  have he' : e = ⟨"A", [], [], [⟨"a", false, 0, .mk true [] "uint8" 0 [] [] none, none, none, none, none, none⟩], []⟩ :=
    (Res.ok.inj he).symm
  subst he'
  constructor
  · intro h
    match gs, h with
    | [g], ⟨h, _⟩ =>
      obtain ⟨ty, op, cl, al, off, ar, as, io⟩ := g
      obtain ⟨h1, h2, h3, h4, ⟨x, hx, h5⟩, h6, ⟨-, n, hn, h7⟩, h8⟩ := h
      cases hx
      cases hn
      dsimp only at h1 h2 h3 h4 h5 h6 h7 h8
      cases cl with
      | some c => exact h5.elim
      | none =>
        simp only [ArraySeen] at h6
        rw [h1, h2, h3, h4, h6, h7, h8]
        rfl
    | _ :: _ :: _, ⟨_, h⟩ => exact h.elim
  · rintro rfl
    exact ⟨⟨rfl, rfl, rfl, rfl, ⟨_, rfl, trivial⟩, rfl, ⟨rfl, _, rfl, rfl⟩, rfl⟩, trivial⟩

/-- **C77** is violated by constraints: they are not checked.  With `uint8 a : a < 10;` the object with `a = 200` is
written and read. -/
theorem C77_constraint_violated (cfg : Cfg) (md build : Mode) (display : tenths.F → List Char) :
    ∃ (s : Src.Struct) (d : Ast.Struct tenths.F) (gs : List Emit.Field) (vs new : List Val) (bits : List Bool),
      visitStruct (floatText tenths noRound display) s = .ok d ∧
      SeenAll md build (textLook noNumber noConstants s) Ast.Names.empty d d.fields gs ∧ new = gs.map Field.dflt ∧
      ¬ ConstraintHolds noRound noNumber s 0 [] vs ∧
      Executes cfg ((structBodies gs).write false) (fieldsCore vs) Core.w (.ok ⟨bits⟩) ∧
      Executes cfg ((structBodies gs).read false) (readCore new bits) asObj (.ok (.obj [] vs)) := by
  obtain ⟨d, hd⟩ : ∃ d, visitStruct (floatText tenths noRound display) constraintStruct = .ok d :=
    ⟨_, by with_unfolding_all rfl⟩
  refine ⟨constraintStruct, d, [{ ty := .builtin .uint8 0 none }], [.nat 200], _, binary 8 200, hd, ?_, rfl, ?_, ?_, ?_⟩
  · exact (plain_seen display constraintStruct ⟨rfl, rfl, ⟨rfl, rfl, rfl, rfl, rfl, rfl, rfl, rfl⟩, trivial⟩ d hd _).2 rfl
  · intro h
    obtain ⟨v, hv, ht⟩ := h _ _ _ rfl rfl (.binary (op := .lt) (.id (by decide)) (ten_stands _))
    cases hv
    cases ht
  · exact executes_write rfl
  · exact executes_read rfl

/-- **C77** is violated by initializers: with `uint8 a = 5;` the field of a new object is 0, whatever the generator
does. -/
theorem C77_initializer_violated (md build : Mode) (display : tenths.F → List Char) :
    ∃ (s : Src.Struct) (d : Ast.Struct tenths.F), visitStruct (floatText tenths noRound display) s = .ok d ∧
      ∀ gs, SeenAll md build (textLook noNumber noConstants s) Ast.Names.empty d d.fields gs →
        ∀ g, gs[0]? = some g → ¬ Initial noRound noNumber s 0 (Field.dflt g) := by
  obtain ⟨d, hd⟩ : ∃ d, visitStruct (floatText tenths noRound display) initializerStruct = .ok d :=
    ⟨_, by with_unfolding_all rfl⟩
  refine ⟨initializerStruct, d, hd, fun gs hgs g hg h => ?_⟩
  rw [plain_seen display initializerStruct ⟨rfl, rfl, ⟨rfl, rfl, rfl, rfl, rfl, rfl, rfl, rfl⟩, trivial⟩ d hd] at hgs
  subst hgs
  cases hg
  have := h _ _ _ _ rfl rfl (five_stands _) rfl
  cases this

/-- **C77** is violated by implicit arrays: the number of elements is written in front of them. -/
theorem C77_implicit_violated (cfg : Cfg) (md build : Mode) (display : tenths.F → List Char) :
    ∃ (s : Src.Struct) (d : Ast.Struct tenths.F) (gs : List Emit.Field) (bits : List Bool),
      visitStruct (floatText tenths noRound display) s = .ok d ∧
      (∃ f, s.fields = [f] ∧ f.typeId.implicit_ = true ∧ f.typeId.type = ⟨.builtin "uint8", .none⟩) ∧
      SeenAll md build (textLook noNumber noConstants s) Ast.Names.empty d d.fields gs ∧
      Executes cfg ((structBodies gs).write false) (fieldsCore [.list [.nat 7]]) Core.w (.ok ⟨bits⟩) ∧
      bits = binary 8 1 ++ implicitBits [7] := by
  obtain ⟨d, hd⟩ : ∃ d, visitStruct (floatText tenths noRound display) implicitStruct = .ok d :=
    ⟨_, by with_unfolding_all rfl⟩
  have hd' : d = ⟨"A", [], [], [⟨"a", false, 0, .mk true [] "uint8" 0 [] [] none, none, none, none, none,
      some ⟨false, true, none⟩⟩], []⟩ := (Res.ok.inj hd).symm
  subst hd'
  exact ⟨implicitStruct, _, [{ ty := .builtin .uint8 0 none, array := some ⟨false, none⟩ }],
    binary 8 1 ++ implicitBits [7], hd,
    ⟨_, rfl, rfl, rfl⟩,
    ⟨⟨rfl, rfl, rfl, rfl, ⟨_, rfl, trivial⟩, ⟨_, rfl, rfl, rfl⟩, ⟨rfl, _, rfl, rfl⟩, rfl⟩, trivial⟩,
    executes_write (by with_unfolding_all rfl), rfl⟩

/-- **C77** is violated by offsets: they are neither set nor checked.  With `uint32 o; o: uint8 x;` the object with
`o = 0` is written as it is, and is read, though `x` is behind four bytes. -/
theorem C77_offset_violated (cfg : Cfg) (md build : Mode) (display : tenths.F → List Char) :
    ∃ (s : Src.Struct) (d : Ast.Struct tenths.F) (gs : List Emit.Field) (vs new : List Val) (front bits : List Bool),
      visitStruct (floatText tenths noRound display) s = .ok d ∧
      SeenAll md build (textLook noNumber noConstants s) Ast.Names.empty d d.fields gs ∧ new = gs.map Field.dflt ∧
      ¬ OffsetRight s 1 vs front.length ∧ vs[1]? = some (.nat 7) ∧ bits = front ++ binary 8 7 ∧
      Executes cfg ((structBodies gs).write false) (fieldsCore vs) Core.w (.ok ⟨bits⟩) ∧
      Executes cfg ((structBodies gs).read false) (readCore new bits) asObj (.ok (.obj [] vs)) := by
  obtain ⟨d, hd⟩ : ∃ d, visitStruct (floatText tenths noRound display) offsetStruct = .ok d :=
    ⟨_, by with_unfolding_all rfl⟩
  have hd' : d = ⟨"A", [], [], [⟨"o", false, 0, .mk true [] "uint32" 0 [] [] none, none, none, none, none, none⟩,
    ⟨"x", false, 0, .mk true [] "uint8" 0 [] [] none, none,
      some (.mk .id "o".toList false .other false none []), none, none, none⟩], []⟩ :=
      (Res.ok.inj hd).symm
  subst hd'
  refine ⟨offsetStruct, _, [{ ty := .builtin .uint32 0 none, isOffsetField := true },
    { ty := .builtin .uint8 0 none, offset := .plain }], [.nat 0, .nat 7], _, binary 32 0, _, hd, ?_, rfl, ?_, rfl, rfl,
    executes_write rfl, executes_read rfl⟩
  · exact ⟨⟨rfl, rfl, rfl, by simp [Ast.Struct.marks, Ast.offsetIn, Ast.Node.offsetName, Ast.Node.token, Ast.Node.text],
        ⟨_, rfl, trivial⟩, rfl, ⟨rfl, _, rfl, rfl⟩, rfl⟩,
      ⟨rfl, rfl, rfl, by simp [Ast.Struct.marks, Ast.offsetIn, Ast.Node.offsetName, Ast.Node.token, Ast.Node.text],
        ⟨_, rfl, trivial⟩, rfl, ⟨rfl, _, rfl, rfl⟩, rfl⟩, trivial⟩
  · intro h
    obtain ⟨n, hn, hp⟩ := h _ _ 0 _ rfl rfl rfl rfl
    cases hn
    simp [binary] at hp

end Zs
