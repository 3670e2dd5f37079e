import Verif.ConstantLemmas
import Verif.PropsAlias

/-!
# C87: a constant is the value of its expression
-/

namespace Zs

open Src Ast Spec Emit

variable {fo : FloatOps} {K K' : Constants fo.F} {round : List Char → fo.F} {display : fo.F → List Char}
variable {float : Val → fo.F} {cfg : Cfg} {md build : Mode} {esc : EScope fo.F}
variable {P P' : Src.Package} {Q : Ast.Package fo.F} {t : SourceTy fo.F Object} {name : String} {ps : List Src.Param}
variable {T : Map (Symbol fo.F)} {c : Codec} {qs : List (Ast.Param fo.F)} {look : Env → World fo.F Object}

/-- **C87** The values that the Rust compiler computes for the constants that are emitted are those that the package, in
which subtypes are written out, gives them.  `hu`: what functions return is no matter of constants (C93_unique). -/
theorem C87_constants (hQ : visitPackage (floatText fo round display) P = .ok Q)
    (hn : ((P.directives.filterMap declares).map Prod.fst).Nodup) (hw : WrittenOut P P')
    (hs : ConstsStand round P'.directives K) (hf : ConstsFit md round P'.directives K)
    (hT : TableUnder (fileSymbols Q) T) (hK' : ConstsSeen md esc T K') (hu : K'.calls = K.calls) : K' = K := by
  obtain ⟨Q', hQ', h⟩ := C86_same_symbols _ hQ hn hw
  obtain rfl := (h T).1 hT
  exact consts_unique hQ' (names_out hn hw) hs hf hK' hu

/-- **C87** The Rust compiler accepts the constants, if none depends on itself. -/
theorem C87_every_constant (hQ : visitPackage (floatText fo round display) P = .ok Q)
    (hn : ((P.directives.filterMap declares).map Prod.fst).Nodup) (hw : WrittenOut P P')
    (hs : ConstsStand round P'.directives K) (hf : ConstsFit md round P'.directives K)
    (ha : ConstsAcyclic md round P'.directives K) : ∃ T, TableUnder (fileSymbols Q) T ∧ ConstsSeen md esc T K := by
  obtain ⟨Q', hQ', h⟩ := C86_same_symbols _ hQ hn hw
  exact ⟨_, (h _).2 rfl, consts_exist hQ' (names_out hn hw) hs hf ha⟩

/-- The constants are numbers, booleans and strings that are written out. -/
theorem literals_fit (hQ : visitPackage (floatText fo round display) P = .ok Q)
    (hn : ((P.directives.filterMap declares).map Prod.fst).Nodup) (hs : ConstsStand round P.directives K)
    (hl : ∀ c ∈ constsIn P.directives, ∃ k t, c.value = .lit k t ∧ k ≠ .double) :
    ConstsFit md round P.directives K ∧ ConstsAcyclic md round P.directives K := by
  have key : ∀ c ∈ constsIn P.directives, ∀ x, Stands round (globals P.directives) c.value x → ∃ z, ∃ v : Datum fo.F Object,
      K.ty c.name = some z ∧ ConstHas z v ∧
        ((∃ n, x = .intLit n ∧ v = .int n) ∨ (∃ b, x = .boolLit b ∧ v = .bool b) ∨ ∃ a, x = .strLit a ∧ v = .str a) := by
    intro c hc x hx
    obtain ⟨k, w, hw, hk⟩ := hl c hc
    obtain ⟨d, hd, hdt, hdx⟩ := const_found hQ hn hc
    obtain ⟨t, z, y, v, ht, hz, hy, hmean, hhas, hk1, -⟩ := hs.declared c hc
    obtain rfl : x = y := Option.some.inj ((hdx _ _ hx).symm.trans (hdx _ _ hy))
    refine ⟨z, v, hk1, hhas, ?_⟩
    clear hdx hdt hd hy
    generalize c.value = e at hx hw
    cases hx <;> first | (cases hw; done) | skip
    all_goals simp only [means, Option.some.injEq] at hmean
    · exact .inl ⟨_, rfl, hmean.symm⟩
    · exact .inr (.inl ⟨_, rfl, hmean.symm⟩)
    · exact .inr (.inl ⟨_, rfl, hmean.symm⟩)
    · exact .inr (.inr ⟨_, rfl, hmean.symm⟩)
    · cases hw
      exact (hk rfl).elim
  refine ⟨fun c hc z x R hz hx hR => ?_, fun _ => 0, fun c hc x hx m hm => ?_⟩
  · obtain ⟨z', v, hz', hh, h⟩ := key c hc x hx
    obtain rfl : z' = z := Option.some.inj (hz'.symm.trans hz)
    rcases h with ⟨n, rfl, rfl⟩ | ⟨b, rfl, rfl⟩ | ⟨a, rfl, rfl⟩
    · cases z' <;> simp only [ConstHas] at hh
      cases hR
      obtain ⟨i, hi, hc⟩ := hh
      rename_i n'
      have ht : (numTy n').Integer := by
        cases h : numTy n' <;> rw [h] at hi <;> simp_all [RTy.ints, RTy.Integer]
      exact ⟨ht, i, hi, hc⟩
    · cases z' <;> simp only [ConstHas] at hh
      cases hR
      exact ⟨rfl, trivial⟩
    · cases z' <;> simp only [ConstHas] at hh
      cases hR
      exact ⟨rfl, trivial⟩
  · obtain ⟨z', v, hz', hh, h⟩ := key c hc x hx
    rcases h with ⟨n, rfl, rfl⟩ | ⟨b, rfl, rfl⟩ | ⟨a, rfl, rfl⟩ <;> cases hm

/-- **C87** If the constants are written as integers, booleans or strings, in the ranges of their Rust types, then the Rust
compiler accepts what is emitted for them, and the values are those that are written. -/
theorem C87_literals (hQ : visitPackage (floatText fo round display) P = .ok Q)
    (hn : ((P.directives.filterMap declares).map Prod.fst).Nodup) (hw : WrittenOut P P')
    (hs : ConstsStand round P'.directives K)
    (hl : ∀ c ∈ constsIn P'.directives, ∃ k t, c.value = .lit k t ∧ k ≠ .double) : ∃ T, TableUnder (fileSymbols Q) T ∧
      ∀ K', K'.calls = K.calls → (ConstsSeen md esc T K' ↔ K' = K) := by
  obtain ⟨Q', hQ', h⟩ := C86_same_symbols _ hQ hn hw
  have hn' := names_out hn hw
  obtain ⟨hf, ha⟩ := literals_fit (md := md) hQ' hn' hs hl
  exact ⟨_, (h _).2 rfl, fun K' hu => ⟨fun hK' => consts_unique hQ' hn' hs hf hK' hu,
    fun hK' => hK' ▸ consts_exist hQ' hn' hs hf ha⟩⟩

/-- **C87 (partial)** The functions that are emitted for a type, in whose expressions there are constants, write every
valid object, and the reader restores it.  Missing: as in C86, except for constants; constants with the types of
enumerations and bitmasks, for which the compiler panics; and constants in the values of items and in labels. -/
theorem C87_round_trip_partial (hQ : visitPackage (floatText fo round display) P = .ok Q)
    (hn : ((P.directives.filterMap declares).map Prod.fst).Nodup) (hw : WrittenOut P P')
    (hst : ConstsStand round P'.directives K) (hf : ConstsFit md round P'.directives K)
    (ht : t.Declares round float K P'.directives name ps) (hT : TableUnder (fileSymbols Q) T)
    (hK' : ConstsSeen md esc T K') (hu : K'.calls = K.calls) (hc : CodeOf cfg md build float K' esc T name c qs)
    (hacc : t.Accepts md)
    (hs : (t.meaning look).Supported cfg) (v : Val) (hv : PackageValue cfg md K.enums ps t look v) (before : List Bool) :
    ∃ bits, c.write v ⟨before⟩ = .ok ⟨before ++ bits⟩ ∧ ∀ after,
      c.read ((t.meaning look).default.withParams v.params) ⟨before.length, bits ++ after⟩ =
        .ok (v, ⟨before.length + bits.length, after⟩) := by
  obtain rfl := C87_constants hQ hn hw hst hf hT hK' hu
  exact C86_round_trip_partial (stand_good hst) hQ hn hw ht hT hc hacc hs v hv before

/-- **C87 (partial)** The bits are those of the zserio encoding of the type that the text declares.  Missing: as
above. -/
theorem C87_encoding_partial (hQ : visitPackage (floatText fo round display) P = .ok Q)
    (hn : ((P.directives.filterMap declares).map Prod.fst).Nodup) (hw : WrittenOut P P')
    (hst : ConstsStand round P'.directives K) (hf : ConstsFit md round P'.directives K)
    (ht : t.Declares round float K P'.directives name ps) (hT : TableUnder (fileSymbols Q) T)
    (hK' : ConstsSeen md esc T K') (hu : K'.calls = K.calls) (hc : CodeOf cfg md build float K' esc T name c qs)
    (hacc : t.Accepts md)
    (hs : (t.meaning look).Supported cfg) (v : Val) (hv : PackageValue cfg md K.enums ps t look v) (before : List Bool) :
    ∃ bits env last, c.write v ⟨before⟩ = .ok ⟨before ++ bits⟩ ∧
      (t.meaning look).Wire cfg exactPacking none env v (fun _ => none) before.length bits last := by
  obtain rfl := C87_constants hQ hn hw hst hf hT hK' hu
  exact C86_encoding_partial (stand_good hst) hQ hn hw ht hT hc hacc hs v hv before

/-- **C87 (partial)** The size function gives the number of bits that the writer appends.  Missing: as above, and what
C25 excludes, because the property is false there. -/
theorem C87_bitsize_partial (hQ : visitPackage (floatText fo round display) P = .ok Q)
    (hn : ((P.directives.filterMap declares).map Prod.fst).Nodup) (hw : WrittenOut P P')
    (hst : ConstsStand round P'.directives K) (hf : ConstsFit md round P'.directives K)
    (ht : t.Declares round float K P'.directives name ps) (hT : TableUnder (fileSymbols Q) T)
    (hK' : ConstsSeen md esc T K') (hu : K'.calls = K.calls) (hc : CodeOf cfg md build float K' esc T name c qs)
    (hacc : t.Accepts md)
    (hs : (t.meaning look).Supported cfg) (hz : (t.meaning look).Sized) (v : Val)
    (hv : PackageValue cfg md K.enums ps t look v) (before : List Bool) :
    ∃ bits, c.write v ⟨before⟩ = .ok ⟨before ++ bits⟩ ∧ c.bitsize v before.length = .ok bits.length := by
  obtain rfl := C87_constants hQ hn hw hst hf hT hK' hu
  exact C86_bitsize_partial (stand_good hst) hQ hn hw ht hT hc hacc hs hz v hv before

/-- **C87 (partial)** From the characters of a schema with constants and subtypes to bits and back.  Missing: as above and
in C84. -/
theorem C87_characters_partial {cs : List Char} (h : SchemaText P cs) (hw : WrittenOut P P')
    (hst : ConstsStand round P'.directives K) (hf : ConstsFit md round P'.directives K)
    (ha : ConstsAcyclic md round P'.directives K) (ht : t.Declares round float K P'.directives name ps)
    (hacc : t.Accepts md) (hs : (t.meaning look).Supported cfg) :
    ∃ Q T, packageOfText (floatText fo round display) cs = some (.ok Q) ∧ TableUnder (fileSymbols Q) T ∧
      (∃ K' c qs, ConstsSeen md esc T K' ∧ CodeOf cfg md build float K' esc T name c qs) ∧
      ∀ K' c qs, ConstsSeen md esc T K' → K'.calls = K.calls → CodeOf cfg md build float K' esc T name c qs →
        ∀ v, PackageValue cfg md K.enums ps t look v → ∀ before,
        ∃ bits, c.write v ⟨before⟩ = .ok ⟨before ++ bits⟩ ∧ ∀ after,
          c.read ((t.meaning look).default.withParams v.params) ⟨before.length, bits ++ after⟩ =
            .ok (v, ⟨before.length + bits.length, after⟩) := by
  obtain ⟨Q, h1, hQ⟩ := C85_package (floatText fo round display) h
  obtain ⟨T, hT, c, qs, hc⟩ := C86_every_type cfg md build esc hQ h.names hw ht
  obtain ⟨T', hT', hK⟩ := C87_every_constant hQ h.names hw hst hf ha
  obtain rfl := tableUnder_unique hT hT'
  exact ⟨Q, T, h1, hT, ⟨K, c, qs, hK, hc⟩, fun K' c qs hK' hu hc v hv before =>
    C87_round_trip_partial hQ h.names hw hst hf ht hT hK' hu hc hacc hs v hv before⟩

/-! ## An example -/

theorem no_masks {ds : List Src.Directive} (h : masksIn ds = []) : MasksStand ds fun _ => none :=
  ⟨fun b hb => (by rw [h] at hb; cases hb), fun _ _ => rfl⟩

theorem no_enums {ds : List Src.Directive} (h : enumsIn ds = []) : EnumsStand ds fun _ => none :=
  ⟨by simp [h], fun _ _ => rfl⟩


/-- `const Small N = 4;` -/
def constN : Src.Const := ⟨⟨.named "Small" [] [], .none⟩, "N", .lit .decimal "4".toList⟩

/-- `const uint8 N = 4;` -/
def constN' : Src.Const := ⟨⟨.builtin "uint8", .none⟩, "N", .lit .decimal "4".toList⟩

/-- `const uint8 M = N + 1;` -/
def constM : Src.Const := ⟨⟨.builtin "uint8", .none⟩, "M", .binary .add (.id "N") (.lit .decimal "1".toList)⟩

/-- `uint8 x[N];` -/
def constX : Src.StructField :=
  { textField ⟨.builtin "uint8", .none⟩ "x" with
    typeId := { packed := false, implicit_ := false, type := ⟨.builtin "uint8", .none⟩, name := "x",
                array := some (some (.id "N")) } }

/-- `bit<M> y;` -/
def constY : Src.StructField := textField ⟨.builtin "bit", .length (.id "M")⟩ "y"

/-- `struct Packet { uint8 x[N]; bit<M> y; };` -/
def constPacket : Src.Struct := ⟨"Packet", [], [], [constX, constY], []⟩

/-- The package. -/
def constText : Src.Package := ⟨none, some ["demo"], [],
  [.struct constPacket, .const constM, .const constN, .subtype ⟨.builtin "uint8", "Small"⟩]⟩

/-- The package without its subtype. -/
def constText' : Src.Package := ⟨none, some ["demo"], [],
  [.struct constPacket, .const constM, .const constN', .subtype ⟨.builtin "uint8", "Small"⟩]⟩

/-- `N` is 4 and `M` is 5. -/
def fourFive : Constants tenths.F := withStructs
  { ty n := if n = "N" ∨ n = "M" then some (.num .uint8) else none
    value n := if n = "N" then some (.int 4) else if n = "M" then some (.int 5) else none
    enums _ := none
    objects _ := none } [constPacket]

theorem const_out : WrittenOut constText constText' := by
  refine ⟨constText'.directives, ?_, rfl⟩
  refine .cons (.struct .nil (.cons ⟨constX.typeId.type, ⟨.builtin, rfl, nofun⟩, rfl⟩
    (.cons ⟨constY.typeId.type, ⟨.builtin, rfl, fun e he => ⟨_, rfl⟩⟩, rfl⟩ .nil)) .nil) ?_
  refine .cons (.const (i := ⟨.builtin "uint8", .none⟩) ⟨.builtin, rfl, nofun⟩) ?_
  refine .cons (.const (i := ⟨.builtin "uint8", .none⟩) ⟨?_, rfl, nofun⟩) (.cons .subtype .nil)
  exact .subtype (a := ⟨.builtin "uint8", "Small"⟩) (by simp [constText]) .builtin

theorem const_visit (display : tenths.F → List Char) :
    ∃ Q, visitPackage (floatText tenths noRound display) constText = .ok Q :=
  ⟨_, by with_unfolding_all rfl⟩

theorem const_names : ((constText.directives.filterMap declares).map Prod.fst).Nodup := by decide

theorem one_stands (known : List String) : Stands noRound known (.lit .decimal "1".toList) (.intLit 1 : Expr tenths.F) :=
  .int (l := .decimal [1]) (by simp [IntLit.WellFormed]) (by simp [IntLit.IsBinary])

theorem four_stands (known : List String) : Stands noRound known (.lit .decimal "4".toList) (.intLit 4 : Expr tenths.F) :=
  .int (l := .decimal [4]) (by simp [IntLit.WellFormed]) (by simp [IntLit.IsBinary])

theorem const_mem {c : Src.Const} (h : c ∈ constsIn constText'.directives) : c = constM ∨ c = constN' := by
  simpa [constsIn, constText'] using h

theorem const_stand : ConstsStand noRound constText'.directives fourFive where
  enums := no_enums rfl
  masks := no_masks rfl
  objects := withStructs_stand (ds := constText'.directives) _ (by decide)
  methods := methods_named (ds := constText'.directives) (by decide)
  declared c hc := by
    rcases const_mem hc with rfl | rfl
    · exact ⟨_, _, _, .int 5, rfl, rfl, .binary (op := .add) (.id (by decide)) (one_stands _), rfl,
        ⟨_, rfl, by decide⟩, rfl, rfl⟩
    · exact ⟨_, _, _, .int 4, rfl, rfl, four_stands _, rfl, ⟨_, rfl, by decide⟩, rfl, rfl⟩
  others n hn := by
    have h : n ≠ "N" ∧ n ≠ "M" := by
      constructor <;> rintro rfl <;> exact hn (by decide)
    simp [fourFive, withStructs, h.1, h.2]

theorem constM_expr {known : List String} {x : Expr tenths.F} (h : Stands noRound known constM.value x) :
    x = .arith .add (.ident "N") (.intLit 1) := by
  have h1 := expr_visit (display := fun _ => []) h _ (by with_unfolding_all rfl)
  have h2 := expr_visit (display := fun _ => []) (known := ["N"])
    (.binary (op := .add) (.id (name := "N") (by decide)) (one_stands _)) _ (by with_unfolding_all rfl)
  exact Option.some.inj (h1.symm.trans h2)

theorem constN_expr {known : List String} {x : Expr tenths.F} (h : Stands noRound known constN'.value x) :
    x = .intLit 4 := by
  have h1 := expr_visit (display := fun _ => []) h _ (by with_unfolding_all rfl)
  have h2 := expr_visit (display := fun _ => []) (four_stands []) _ (by with_unfolding_all rfl)
  exact Option.some.inj (h1.symm.trans h2)

theorem constM_code : code (fo := tenths) .debug (constScope fourFive.names) (.arith .add (.ident "N") (.intLit 1)) =
    .bin (.arith .add) (.atom (.name "N")) (.atom (.int 1)) := rfl

theorem const_fit : ConstsFit .debug noRound constText'.directives fourFive := by
  have h : ∀ n : Int, 0 ≤ n → n ≤ 200 → (numTy .uint8).Holds n := by
    intro n h1 h2
    refine ⟨_, rfl, ?_⟩
    simp only [IntTy.Contains, IntTy.min, IntTy.max]
    simp
    omega
  intro c hc z x R hz hx hR
  rcases const_mem hc with rfl | rfl
  · obtain rfl := constM_expr hx
    cases hz
    cases hR
    refine ⟨?_, trivial, h 1 (by decide) (by decide), ?_, nofun⟩
    · rw [constM_code]
      exact ⟨rfl, trivial, trivial⟩
    · intro n hn
      cases hn
      exact h 5 (by decide) (by decide)
  · obtain rfl := constN_expr hx
    cases hz
    cases hR
    exact ⟨trivial, h 4 (by decide) (by decide)⟩

theorem const_acyclic : ConstsAcyclic .debug noRound constText'.directives fourFive := by
  refine ⟨fun n => if n = "M" then 1 else 0, fun c hc x hx m hm hk => ?_⟩
  rcases const_mem hc with rfl | rfl
  · obtain rfl := constM_expr hx
    rw [constM_code] at hm
    obtain rfl : m = "N" := by simpa [RExpr.names] using hm
    decide
  · obtain rfl := constN_expr hx
    cases hm

/-- `Packet` -/
def constPacketTy : SourceTy tenths.F Object :=
  .struct (textScope fourFive constPacket) (textLook noNumber fourFive constPacket) []
    (.cons { array := some (false, some (.ident "N")) } (.builtin (.uint 8)) (.cons {} (.bit (.ident "M")) .nil))

theorem constPacket_declares :
    constPacketTy.Declares noRound noNumber fourFive constText'.directives "Packet" [] := by
  have hoff : ∀ n, ¬ ∃ g ∈ constPacket.fields, OffsetIn n g.offset := by
    simp [constPacket, constX, constY, textField, OffsetIn]
  simp only [constPacketTy, SourceTy.Declares, SourceFields.Declares]
  refine ⟨constPacket, by simp [constText'], rfl, rfl, ⟨rfl, by simp [constPacket], by decide⟩, rfl, rfl, rfl,
    _, _, rfl, ⟨rfl, ⟨rfl, rfl, _, rfl, .id (by decide)⟩, rfl, trivial, rfl, .none, ?_⟩, ⟨.scalar rfl, rfl⟩,
    _, _, rfl, ⟨rfl, rfl, rfl, trivial, rfl, .none, ?_⟩, ⟨.bit (.id (by decide)), rfl⟩, rfl⟩ <;>
  exact ⟨nofun, fun h => (hoff _ h).elim⟩

theorem constPacket_accepts : constPacketTy.Accepts .debug := by
  simp only [constPacketTy, SourceTy.Accepts, SourceFields.Accepts, SourceTy.written, and_true, true_and]
  refine ⟨textScope_ordinary (stand_good const_stand) _, ?_, ?_⟩ <;> constructor <;>
    simp [Modifiers.with, Written.Mentions, Expr.Separable, Expr.Unit, Expr.level, Expr.isCmp,
      Expr.isIsset, Expr.isValueof, Expr.endsWithCast, or_imp, forall_and]
  · exact ⟨rfl, .int ⟨false, 8⟩, rfl, .inr (.inl ⟨trivial, trivial⟩)⟩
  · exact rfl

theorem constPacket_supported (cfg : Cfg) :
    (constPacketTy.meaning (textLook noNumber fourFive constPacket)).Supported cfg := by
  simp [constPacketTy, SourceTy.meaning, SourceFields.meaning, Modifiers.info, Ty.Supported, Fields.Supported,
    Scalar.WidthOk]

/-- Four numbers, and one with five bits. -/
def packetVal : Val := .obj [] [.list [.nat 1, .nat 2, .nat 3, .nat 4], .nat 19]

theorem packetVal_valid (cfg : Cfg) :
    (constPacketTy.meaning (textLook noNumber fourFive constPacket)).Valid cfg ⟨[], []⟩ packetVal := by
  simp only [constPacketTy, packetVal, SourceTy.meaning, SourceFields.meaning, Ty.Valid, Fields.Valid]
  refine ⟨_, _, rfl, _, _, rfl, ?_, _, _, rfl, ?_, rfl⟩
  · refine ⟨_, rfl, rfl, fun i y h => ?_⟩
    have hy := List.mem_of_getElem? h
    simp only [List.mem_cons, List.not_mem_nil, or_false] at hy
    rcases hy with rfl | rfl | rfl | rfl <;> refine ⟨?_, rfl⟩ <;> simp [Scalar.InRange]
  · refine ⟨?_, rfl⟩
    simp only [Scalar.InRange]
    decide

theorem packetVal_fit : constPacketTy.Fit .debug false packetVal := by
  simp only [constPacketTy, packetVal, SourceTy.Fit, SourceFields.Fit]
  refine ⟨_, _, rfl,
    _, _, rfl, ⟨_, rfl⟩, ⟨⟨nofun, fun p e he => ?_, nofun, nofun⟩, fun _ _ _ => trivial⟩,
    _, _, rfl, ⟨_, rfl⟩, ⟨⟨nofun, nofun, fun _ e he => ?_, nofun⟩, fun _ _ _ => trivial⟩, rfl⟩
  · cases he
    exact ⟨4, by decide, rfl, fun _ _ => trivial⟩
  · simp only [Modifiers.with, SourceTy.written, WrittenTy.bit.injEq, reduceCtorEq, or_false] at he
    subst he
    exact ⟨5, by decide, rfl, fun _ _ => trivial⟩

-- `N` is 4 and `M` is 5 for Rust too, and a packet is written and restored.
example (cfg : Cfg) (build : Mode) (esc : EScope tenths.F) (display : tenths.F → List Char) : ∃ Q T c qs,
    visitPackage (floatText tenths noRound display) constText = .ok Q ∧ TableUnder (fileSymbols Q) T ∧
    (∀ K', ConstsSeen .debug esc T K' ∧ K'.calls = fourFive.calls ↔ K' = fourFive) ∧ CodeOf cfg .debug build noNumber fourFive esc T "Packet" c qs ∧
    ∃ bits, c.write packetVal ⟨[]⟩ = .ok ⟨bits⟩ ∧
      c.read (constPacketTy.meaning (textLook noNumber fourFive constPacket)).default ⟨0, bits⟩ =
        .ok (packetVal, ⟨bits.length, []⟩) := by
  obtain ⟨Q, hQ⟩ := const_visit display
  obtain ⟨T, hT, hK⟩ := C87_every_constant hQ const_names const_out const_stand const_fit const_acyclic
  obtain ⟨T', hT', c, qs, hc⟩ := C86_every_type cfg .debug build esc hQ const_names const_out constPacket_declares
  obtain rfl := tableUnder_unique hT hT'
  obtain ⟨bits, hw, hr⟩ := C87_round_trip_partial hQ const_names const_out const_stand const_fit constPacket_declares
    hT hK rfl hc constPacket_accepts (constPacket_supported cfg) packetVal
    ⟨trivial, ⟨_, packetVal_valid cfg⟩, packetVal_fit⟩ []
  refine ⟨Q, T, c, qs, hQ, hT, fun K' => ⟨fun h => C87_constants hQ const_names const_out const_stand const_fit hT h.1 h.2, fun e => ⟨e ▸ hK, e ▸ rfl⟩⟩,
    hc, bits, hw, ?_⟩
  have := hr []
  rwa [List.append_nil, List.length_nil, Nat.zero_add] at this

/-! ## Values out of range -/

/-- `const bit:3 N = 9;` -/
def wideConst : Src.Const := ⟨⟨.fixedBits false 3, .none⟩, "N", .lit .decimal "9".toList⟩

/-- The package. -/
def wideText : Src.Package := ⟨none, some ["demo"], [], [.const wideConst]⟩

/-- `N` is 9. -/
def nine : Constants tenths.F where
  ty n := if n = "N" then some (.num .bit) else none
  value n := if n = "N" then some (.int 9) else none
  enums _ := none
  objects _ := none

/-- `const string NAME = "zs";` -/
def nameConst : Src.Const := ⟨⟨.builtin "string", .none⟩, "NAME", .lit .string ['"', 'z', 's', '"']⟩

/-- The package with this constant. -/
def nameText : Src.Package := { wideText with directives := [.const nameConst] }

/-- The values in this package. -/
def nameConsts : Constants tenths.F where
  ty n := if n = "NAME" then some .string else none
  value n := if n = "NAME" then some (.str "zs") else none
  enums _ := none
  objects _ := none

-- The string is a constant of the emitted code.
example (esc : EScope tenths.F) (display : tenths.F → List Char) : ∃ Q T,
    visitPackage (floatText tenths noRound display) nameText = .ok Q ∧ TableUnder (fileSymbols Q) T ∧
      ConstsSeen .debug esc T nameConsts ∧ nameConsts.value "NAME" = some (.str "zs") := by
  have hst : ConstsStand noRound nameText.directives nameConsts := by
    refine ⟨no_enums rfl, no_masks rfl, ⟨fun s hs => by simp [nameText] at hs, fun _ _ => rfl⟩,
      fun s hs => by simp [nameText] at hs, fun c hc => ?_, fun n hn => ?_⟩
    · obtain rfl : c = nameConst := by simpa [constsIn, nameText] using hc
      exact ⟨_, _, .strLit (String.ofList ['z', 's']), .str "zs", rfl, rfl, .string (cs := ['z', 's']) (by simp [StrElem.WellFormed]), rfl, trivial, rfl, rfl⟩
    · have h : n ≠ "NAME" := by rintro rfl; exact hn (by decide)
      simp [nameConsts, h]
  obtain ⟨Q, hQ⟩ : ∃ Q, visitPackage (floatText tenths noRound display) nameText = .ok Q :=
    ⟨_, by with_unfolding_all rfl⟩
  have hw : WrittenOut nameText nameText := ⟨_, .cons (.const (i := nameConst.type) ⟨.builtin, rfl, nofun⟩) .nil, rfl⟩
  obtain ⟨T, hT, h⟩ := C87_literals (md := .debug) (esc := esc) hQ (by decide) hw hst fun c hc => by
    obtain rfl : c = nameConst := by simpa [constsIn, nameText] using hc
    exact ⟨_, _, rfl, by decide⟩
  exact ⟨Q, T, hQ, hT, (h _ rfl).2 rfl, rfl⟩

/-- **C87 (violated)** A constant of type `bit:3` has the value 9: neither the generator nor the Rust compiler, for which
it is a `u64`, refuses it. -/
theorem C87_range_violated (esc : EScope tenths.F) (display : tenths.F → List Char) :
    ∃ Q, visitPackage (floatText tenths noRound display) wideText = .ok Q ∧ ConstsSeen .debug esc (fileSymbols Q) nine ∧
      scalarOf wideConst.type.type = some (.bits 3) ∧ ∀ cfg env, ¬ (Scalar.bits 3).InRange cfg env (.nat 9) := by
  have hnine : ∀ known, Stands noRound known wideConst.value (.intLit 9 : Expr tenths.F) := fun known =>
    .int (l := .decimal [9]) (by simp [IntLit.WellFormed]) (by simp [IntLit.IsBinary])
  have hmem : ∀ c ∈ constsIn wideText.directives, c = wideConst := fun c hc => by simpa [constsIn, wideText] using hc
  have hexpr : ∀ {known} {x : Expr tenths.F}, Stands noRound known wideConst.value x → x = .intLit 9 := fun h => by
    have h1 := expr_visit (display := fun _ => []) h _ (by with_unfolding_all rfl)
    have h2 := expr_visit (display := fun _ => []) (hnine []) _ (by with_unfolding_all rfl)
    exact Option.some.inj (h1.symm.trans h2)
  have hold : (numTy .bit).Holds 9 := ⟨_, rfl, by decide⟩
  have hst : ConstsStand noRound wideText.directives nine := by
    refine ⟨no_enums rfl, no_masks rfl, ⟨fun s hs => by simp [wideText] at hs, fun _ _ => rfl⟩,
      fun s hs => by simp [wideText] at hs, fun c hc => ?_, fun n hn => ?_⟩
    · obtain rfl := hmem c hc
      exact ⟨_, _, _, .int 9, rfl, rfl, hnine _, rfl, hold, rfl, rfl⟩
    · have h : n ≠ "N" := by rintro rfl; exact hn (by decide)
      simp [nine, h]
  obtain ⟨Q, hQ⟩ : ∃ Q, visitPackage (floatText tenths noRound display) wideText = .ok Q :=
    ⟨_, by with_unfolding_all rfl⟩
  refine ⟨Q, hQ, consts_exist hQ (by decide) hst (fun c hc z x R hz hx hR => ?_) ⟨fun _ => 0, fun c hc x hx m hm => ?_⟩,
    rfl, fun cfg env => by simp [Scalar.InRange]⟩
  · obtain rfl := hmem c hc
    obtain rfl := hexpr hx
    cases hz
    cases hR
    exact ⟨trivial, hold⟩
  · obtain rfl := hmem c hc
    obtain rfl := hexpr hx
    cases hm

end Zs
