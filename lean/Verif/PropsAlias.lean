import Verif.AliasLemmas
import Verif.PropsCharacters

/-!
# C86: a subtype is the type that it stands for
-/

namespace Zs

open Src Ast Spec Emit

variable {fo : FloatOps} {K : Constants fo.F} {round : List Char → fo.F} {display : fo.F → List Char} {float : Val → fo.F}
variable {cfg : Cfg} {md build : Mode} {esc : EScope fo.F}
variable {P P' : Src.Package} {Q : Ast.Package fo.F} {t : SourceTy fo.F Object} {name : String} {ps : List Src.Param}
variable {T : Map (Symbol fo.F)} {c : Codec} {qs : List (Ast.Param fo.F)} {look : Env → World fo.F Object}

/-- **C86** The compiler accepts the package in which every subtype is written out, if it accepts the package; and what
the generator sees of the one are the symbols of the other. -/
theorem C86_same_symbols (fl : FloatText) {Q : Ast.Package fl.F} (hQ : visitPackage fl P = .ok Q)
    (hn : ((P.directives.filterMap declares).map Prod.fst).Nodup) (hw : WrittenOut P P') :
    ∃ Q', visitPackage fl P' = .ok Q' ∧ ∀ T, TableUnder (fileSymbols Q) T ↔ T = fileSymbols Q' := by
  obtain ⟨Q', hQ'⟩ := visit_out hQ hn hw
  have h := table_out hQ hn hw hQ'
  exact ⟨Q', hQ', fun T => ⟨fun h' => tableUnder_unique h' h, fun e => e ▸ h⟩⟩

/-- **C86** The functions that are emitted for a type are those of the type that the package without subtypes
declares. -/
theorem C86_types (hQ : visitPackage (floatText fo round display) P = .ok Q)
    (hn : ((P.directives.filterMap declares).map Prod.fst).Nodup) (hw : WrittenOut P P')
    (ht : t.Declares round float K P'.directives name ps) (hT : TableUnder (fileSymbols Q) T)
    (hc : CodeOf cfg md build float K esc T name c qs) : t.Linked cfg md build c := by
  obtain ⟨Q', hQ', h⟩ := C86_same_symbols _ hQ hn hw
  obtain rfl := (h T).1 hT
  exact C78_types hQ' (names_out hn hw) ht hc

/-- **C86** There is code for every such type. -/
theorem C86_every_type (cfg : Cfg) (md build : Mode) (esc : EScope fo.F)
    (hQ : visitPackage (floatText fo round display) P = .ok Q)
    (hn : ((P.directives.filterMap declares).map Prod.fst).Nodup) (hw : WrittenOut P P')
    (ht : t.Declares round float K P'.directives name ps) :
    ∃ T, TableUnder (fileSymbols Q) T ∧ ∃ c qs, CodeOf cfg md build float K esc T name c qs := by
  obtain ⟨Q', hQ', h⟩ := C86_same_symbols _ hQ hn hw
  exact ⟨_, (h _).2 rfl, C78_every_type cfg md build esc hQ' (names_out hn hw) ht⟩

/-- **C86 (partial)** The functions that are emitted for a type of a package with subtypes write every valid object of
the type in which the subtypes are written out, and the reader restores it.  Missing: as in C78, except for subtypes; and
subtypes of templates, and subtypes as the types of enumerations and bitmasks, for which the compiler panics (C65). -/
theorem C86_round_trip_partial (hK : K.Good) (hQ : visitPackage (floatText fo round display) P = .ok Q)
    (hn : ((P.directives.filterMap declares).map Prod.fst).Nodup) (hw : WrittenOut P P')
    (ht : t.Declares round float K P'.directives name ps) (hT : TableUnder (fileSymbols Q) T)
    (hc : CodeOf cfg md build float K esc T name c qs) (hacc : t.Accepts md) (hs : (t.meaning look).Supported cfg)
    (v : Val) (hv : PackageValue cfg md K.enums ps t look v) (before : List Bool) :
    ∃ bits, c.write v ⟨before⟩ = .ok ⟨before ++ bits⟩ ∧ ∀ after,
      c.read ((t.meaning look).default.withParams v.params) ⟨before.length, bits ++ after⟩ =
        .ok (v, ⟨before.length + bits.length, after⟩) := by
  obtain ⟨Q', hQ', h⟩ := C86_same_symbols _ hQ hn hw
  obtain rfl := (h T).1 hT
  exact C78_round_trip_partial hK hQ' (names_out hn hw) ht hc hacc hs v hv before

/-- **C86 (partial)** The bits are those of the zserio encoding of the type in which the subtypes are written out.
Missing: as above. -/
theorem C86_encoding_partial (hK : K.Good) (hQ : visitPackage (floatText fo round display) P = .ok Q)
    (hn : ((P.directives.filterMap declares).map Prod.fst).Nodup) (hw : WrittenOut P P')
    (ht : t.Declares round float K P'.directives name ps) (hT : TableUnder (fileSymbols Q) T)
    (hc : CodeOf cfg md build float K esc T name c qs) (hacc : t.Accepts md) (hs : (t.meaning look).Supported cfg)
    (v : Val) (hv : PackageValue cfg md K.enums ps t look v) (before : List Bool) :
    ∃ bits env last, c.write v ⟨before⟩ = .ok ⟨before ++ bits⟩ ∧
      (t.meaning look).Wire cfg exactPacking none env v (fun _ => none) before.length bits last := by
  obtain ⟨Q', hQ', h⟩ := C86_same_symbols _ hQ hn hw
  obtain rfl := (h T).1 hT
  exact C78_encoding_partial hK hQ' (names_out hn hw) ht hc hacc hs v hv before

/-- **C86 (partial)** The size function gives the number of bits that the writer appends.  Missing: as above, and what
C25 excludes, because the property is false there. -/
theorem C86_bitsize_partial (hK : K.Good) (hQ : visitPackage (floatText fo round display) P = .ok Q)
    (hn : ((P.directives.filterMap declares).map Prod.fst).Nodup) (hw : WrittenOut P P')
    (ht : t.Declares round float K P'.directives name ps) (hT : TableUnder (fileSymbols Q) T)
    (hc : CodeOf cfg md build float K esc T name c qs) (hacc : t.Accepts md) (hs : (t.meaning look).Supported cfg)
    (hz : (t.meaning look).Sized) (v : Val) (hv : PackageValue cfg md K.enums ps t look v) (before : List Bool) :
    ∃ bits, c.write v ⟨before⟩ = .ok ⟨before ++ bits⟩ ∧ c.bitsize v before.length = .ok bits.length := by
  obtain ⟨Q', hQ', h⟩ := C86_same_symbols _ hQ hn hw
  obtain rfl := (h T).1 hT
  exact C78_bitsize_partial hK hQ' (names_out hn hw) ht hc hacc hs hz v hv before

/-- **C86 (partial)** From the characters of a schema with subtypes to bits and back.  Missing: as above and in C84. -/
theorem C86_characters_partial (hK : K.Good) {cs : List Char} (h : SchemaText P cs) (hw : WrittenOut P P')
    (ht : t.Declares round float K P'.directives name ps) (hacc : t.Accepts md)
    (hs : (t.meaning look).Supported cfg) :
    ∃ Q T, packageOfText (floatText fo round display) cs = some (.ok Q) ∧ TableUnder (fileSymbols Q) T ∧
      (∃ c qs, CodeOf cfg md build float K esc T name c qs) ∧
      ∀ c qs, CodeOf cfg md build float K esc T name c qs → ∀ v, PackageValue cfg md K.enums ps t look v → ∀ before,
        ∃ bits, c.write v ⟨before⟩ = .ok ⟨before ++ bits⟩ ∧ ∀ after,
          c.read ((t.meaning look).default.withParams v.params) ⟨before.length, bits ++ after⟩ =
            .ok (v, ⟨before.length + bits.length, after⟩) := by
  obtain ⟨Q, h1, hQ⟩ := C85_package (floatText fo round display) h
  obtain ⟨T, hT, hc⟩ := C86_every_type cfg md build esc hQ h.names hw ht
  exact ⟨Q, T, h1, hT, hc, fun c qs hc v hv before =>
    C86_round_trip_partial hK hQ h.names hw ht hT hc hacc hs v hv before⟩

/-! ## An example -/

/-- `struct Inner(Count n) { uint16 c[n]; };` -/
def aliasInner : Src.Struct := ⟨"Inner", [], [⟨.named "Count" [] [], "n"⟩], [packArray], []⟩

/-- `struct Whole { Count a; Part(a) p; };` -/
def aliasWhole : Src.Struct := ⟨"Whole", [], [], [textField ⟨.named "Count" [] [], .none⟩ "a",
  textField ⟨.named "Part" [] [], .args (.expr (.id "a")) []⟩ "p"], []⟩

/-- `struct Whole { uint8 a; Inner(a) p; };` -/
def plainWhole : Src.Struct := ⟨"Whole", [], [], [textField ⟨.builtin "uint8", .none⟩ "a",
  textField ⟨.named "Inner" [] [], .args (.expr (.id "a")) []⟩ "p"], []⟩

/-- `subtype uint8 Small; subtype Small Count; subtype Inner Part;` -/
def aliases : List Directive :=
  [.subtype ⟨.builtin "uint8", "Small"⟩, .subtype ⟨.named "Small" [] [], "Count"⟩, .subtype ⟨.named "Inner" [] [], "Part"⟩]

/-- The package with subtypes. -/
def aliasText : Src.Package := ⟨none, some ["demo"], [], .struct aliasWhole :: .struct aliasInner :: aliases⟩

/-- The package in which they are written out. -/
def plainText : Src.Package := ⟨none, some ["demo"], [], .struct plainWhole :: .struct packInner :: aliases⟩

theorem alias_out : WrittenOut aliasText plainText := by
  have hInner : AliasFor aliasText.directives (.named "Inner" [] []) (.named "Inner" [] []) :=
    .declared (.inl ⟨aliasInner, by simp [aliasText], rfl⟩)
  have hCount : AliasFor aliasText.directives (.named "Count" [] []) (.builtin "uint8") :=
    .subtype (a := ⟨.named "Small" [] [], "Count"⟩) (by simp [aliasText, aliases])
      (.subtype (a := ⟨.builtin "uint8", "Small"⟩) (by simp [aliasText, aliases]) .builtin)
  have hPart : AliasFor aliasText.directives (.named "Part" [] []) (.named "Inner" [] []) :=
    .subtype (a := ⟨.named "Inner" [] [], "Part"⟩) (by simp [aliasText, aliases]) hInner
  refine ⟨plainText.directives, ?_, rfl⟩
  refine .cons (.struct .nil (.cons ⟨⟨.builtin "uint8", .none⟩, ⟨hCount, rfl, nofun⟩, rfl⟩
    (.cons ⟨⟨.named "Inner" [] [], .args (.expr (.id "a")) []⟩, ⟨hPart, rfl, nofun⟩, rfl⟩ .nil)) .nil) ?_
  refine .cons (.struct (.cons ⟨.builtin "uint8", hCount, rfl⟩ .nil)
    (.cons ⟨packArray.typeId.type, ⟨.builtin, rfl, nofun⟩, rfl⟩ .nil) .nil) ?_
  exact .cons .subtype (.cons .subtype (.cons .subtype .nil))

theorem alias_visit (display : tenths.F → List Char) :
    ∃ Q, visitPackage (floatText tenths noRound display) aliasText = .ok Q :=
  ⟨_, by with_unfolding_all rfl⟩

theorem alias_names : ((aliasText.directives.filterMap declares).map Prod.fst).Nodup := by decide

/-- `Whole` -/
def plainWholeTy : SourceTy tenths.F Object := .struct (textScope (F := tenths.F) noConstants plainWhole) (textLook noNumber noConstants plainWhole) []
  (.cons {} (.builtin (.uint 8)) (.cons { args := [(.num .uint8, .ident "a")] } packInnerTy .nil))

theorem plainInner_declares : packInnerTy.Declares noRound noNumber noConstants plainText.directives "Inner" packInner.params := by
  simp only [packInnerTy, SourceTy.Declares, SourceFields.Declares]
  refine ⟨packInner, by simp [plainText], rfl, rfl, ⟨rfl, by simp [packInner, scalarOf], by decide⟩, rfl, rfl, rfl,
    _, _, rfl, ⟨rfl, ⟨rfl, rfl, _, rfl, .id (by decide)⟩, rfl, trivial, rfl, .none, ?_⟩, ⟨.scalar rfl, rfl⟩, rfl⟩
  simp [packInner, packArray, textField, OffsetIn]

theorem plainWhole_declares : plainWholeTy.Declares noRound noNumber noConstants plainText.directives "Whole" [] := by
  have hoff : ∀ n, ¬ ∃ g ∈ plainWhole.fields, OffsetIn n g.offset := by
    simp [plainWhole, textField, OffsetIn]
  simp only [plainWholeTy, SourceTy.Declares, SourceFields.Declares]
  refine ⟨plainWhole, by simp [plainText], rfl, rfl, ⟨rfl, by simp [plainWhole], by decide⟩, rfl, rfl, rfl,
    _, _, rfl, ⟨rfl, rfl, rfl, trivial, rfl, .none, ?_⟩, ⟨.scalar rfl, rfl⟩,
    _, _, rfl, ⟨rfl, rfl, rfl, trivial, rfl, .none, ?_⟩,
      ⟨_, _, _, plainInner_declares, rfl, rfl, ⟨⟨rfl, rfl⟩, .id (by decide), trivial⟩⟩, rfl⟩ <;>
  exact ⟨nofun, fun h => (hoff _ h).elim⟩

theorem plainWhole_accepts : plainWholeTy.Accepts .debug := by
  simp only [plainWholeTy, packInnerTy, SourceTy.Accepts, SourceFields.Accepts, SourceTy.written, and_true, true_and]
  refine ⟨textScope_ordinary noConstants_good _, ?_, ?_, textScope_ordinary noConstants_good _, ?_⟩ <;> constructor <;>
    simp [Modifiers.with, Written.Mentions, Expr.Separable, Expr.Unit, Expr.level, Expr.isCmp,
      Expr.isIsset, Expr.isValueof, Expr.endsWithCast, or_imp, forall_and]
  · exact ⟨.int ⟨false, 8⟩, rfl, rfl⟩
  · exact ⟨rfl, .int ⟨false, 8⟩, rfl, .inr (.inl ⟨trivial, trivial⟩)⟩

theorem plainWhole_supported (cfg : Cfg) :
    (plainWholeTy.meaning (textLook noNumber noConstants plainWhole)).Supported cfg := by
  simp [plainWholeTy, packInnerTy, SourceTy.meaning, SourceFields.meaning, Modifiers.info, Ty.Supported,
    Fields.Supported, Scalar.WidthOk]

/-- Two numbers. -/
def wholeVal : Val := .obj [] [.nat 2, .obj [.nat 2] [.list [.nat 5, .nat 600]]]

theorem wholeVal_valid (cfg : Cfg) :
    (plainWholeTy.meaning (textLook noNumber noConstants plainWhole)).Valid cfg ⟨[], []⟩ wholeVal := by
  simp only [plainWholeTy, wholeVal, SourceTy.meaning, SourceFields.meaning, Ty.Valid, Fields.Valid]
  refine ⟨_, _, rfl, _, _, rfl, ?_, _, _, rfl, ?_, rfl⟩
  · refine ⟨?_, rfl⟩
    simp [Ty.Valid, Scalar.InRange]
  · exact ⟨packInner_valid cfg _ _ _ _ (by decide) (by decide), rfl⟩

theorem wholeVal_fit : plainWholeTy.Fit .debug false wholeVal := by
  have two : (numTy .uint8).Holds 2 := ⟨_, rfl, by decide⟩
  simp only [plainWholeTy, wholeVal, SourceTy.Fit, SourceFields.Fit]
  refine ⟨_, _, rfl,
    _, _, rfl, trivial, ⟨⟨nofun, nofun, nofun, nofun⟩, fun _ _ _ => trivial⟩,
    _, _, rfl, trivial, ⟨⟨nofun, nofun, nofun, fun _ p e he => ?_⟩, fun _ x hx => ?_⟩, rfl⟩
  · simp only [Modifiers.with, List.mem_singleton, Prod.mk.injEq] at he
    obtain ⟨rfl, rfl⟩ := he
    exact ⟨.int 2, two, rfl, fun _ _ => trivial⟩
  · obtain ⟨y, h1, h2⟩ := hx
    cases h1
    cases h2
    exact packInner_fit _ _ _

-- Through `Part`, `Count` and `Small`: an object of `Whole` is written and restored.
example (cfg : Cfg) (build : Mode) (esc : EScope tenths.F) (display : tenths.F → List Char) : ∃ Q T c qs,
    visitPackage (floatText tenths noRound display) aliasText = .ok Q ∧ TableUnder (fileSymbols Q) T ∧
    CodeOf cfg .debug build noNumber noConstants esc T "Whole" c qs ∧
    ∃ bits, c.write wholeVal ⟨[]⟩ = .ok ⟨bits⟩ ∧
      c.read (plainWholeTy.meaning (textLook noNumber noConstants plainWhole)).default ⟨0, bits⟩ =
        .ok (wholeVal, ⟨bits.length, []⟩) := by
  obtain ⟨Q, hQ⟩ := alias_visit display
  obtain ⟨T, hT, c, qs, hc⟩ := C86_every_type cfg .debug build esc hQ alias_names alias_out plainWhole_declares
  obtain ⟨bits, hw, hr⟩ := C86_round_trip_partial noConstants_good hQ alias_names alias_out plainWhole_declares hT hc plainWhole_accepts
    (plainWhole_supported cfg) wholeVal ⟨trivial, ⟨_, wholeVal_valid cfg⟩, wholeVal_fit⟩ []
  refine ⟨Q, T, c, qs, hQ, hT, hc, bits, hw, ?_⟩
  have := hr []
  rwa [List.append_nil, List.length_nil, Nat.zero_add] at this

end Zs
