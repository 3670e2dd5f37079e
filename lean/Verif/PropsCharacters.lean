import Verif.PropsFile

/-!
# C85: from the characters of a schema to bits
-/

namespace Zs

open Src Ast Spec Emit

variable {fo : FloatOps} {K : Constants fo.F} {round : List Char → fo.F} {display : fo.F → List Char} {float : Val → fo.F}
variable {cfg : Cfg} {md build : Mode} {esc : EScope fo.F}
variable {P : Src.Package} {t : SourceTy fo.F Object} {name : String} {ps : List Src.Param}
variable {look : Env → World fo.F Object}

/-- The characters are the text of a package that the compiler accepts: it has a name, its literals are not too large
(C62), and no name is declared twice. -/
structure SchemaText (P : Src.Package) (cs : List Char) : Prop where
  written : FileWritten P cs
  language : FileOk true P
  named : P.name ≠ none
  met : ∀ d ∈ P.directives, ∀ x ∈ demands d, x.Met
  names : ((P.directives.filterMap declares).map Prod.fst).Nodup

/-- **C85** The compiler accepts such a text and finds the package. -/
theorem C85_package (fl : FloatText) {cs : List Char} (h : SchemaText P cs) :
    ∃ Q, packageOfText fl cs = some (.ok Q) ∧ visitPackage fl P = .ok Q := by
  have hp := C84_characters_partial P h.language cs h.written
  obtain ⟨Q, hQ⟩ := (C84_accepted_iff fl cs P hp).1.2 ⟨h.named, h.met⟩
  exact ⟨Q, by rw [packageOfText, hp, Option.map_some, hQ], hQ⟩

/-- **C85 (partial)** From the characters of a schema to bits and back: the functions that are emitted for a type of the
schema write every valid object, and the reader restores it.  Missing: as in C78 and C84. -/
theorem C85_round_trip_partial (hK : K.Good) {cs : List Char} (h : SchemaText P cs) (ht : t.Declares round float K P.directives name ps)
    (hacc : t.Accepts md) (hs : (t.meaning look).Supported cfg) :
    ∃ Q, packageOfText (floatText fo round display) cs = some (.ok Q) ∧
      (∃ c qs, CodeOf cfg md build float K esc (fileSymbols Q) name c qs) ∧
      ∀ c qs, CodeOf cfg md build float K esc (fileSymbols Q) name c qs → ∀ v, PackageValue cfg md K.enums ps t look v → ∀ before,
        ∃ bits, c.write v ⟨before⟩ = .ok ⟨before ++ bits⟩ ∧ ∀ after,
          c.read ((t.meaning look).default.withParams v.params) ⟨before.length, bits ++ after⟩ =
            .ok (v, ⟨before.length + bits.length, after⟩) := by
  obtain ⟨Q, h1, hQ⟩ := C85_package (floatText fo round display) h
  exact ⟨Q, h1, C78_every_type cfg md build esc hQ h.names ht, fun c qs hc v hv before =>
    C78_round_trip_partial hK hQ h.names ht hc hacc hs v hv before⟩

/-- **C85 (partial)** The bits are those of the zserio encoding of the type that the text declares.  Missing: as
above. -/
theorem C85_encoding_partial (hK : K.Good) {cs : List Char} (h : SchemaText P cs) (ht : t.Declares round float K P.directives name ps)
    (hacc : t.Accepts md) (hs : (t.meaning look).Supported cfg) :
    ∃ Q, packageOfText (floatText fo round display) cs = some (.ok Q) ∧
      ∀ c qs, CodeOf cfg md build float K esc (fileSymbols Q) name c qs → ∀ v, PackageValue cfg md K.enums ps t look v → ∀ before,
        ∃ bits env last, c.write v ⟨before⟩ = .ok ⟨before ++ bits⟩ ∧
          (t.meaning look).Wire cfg exactPacking none env v (fun _ => none) before.length bits last := by
  obtain ⟨Q, h1, hQ⟩ := C85_package (floatText fo round display) h
  exact ⟨Q, h1, fun c qs hc v hv before => C78_encoding_partial hK hQ h.names ht hc hacc hs v hv before⟩

/-- **C85 (partial)** The size function gives the number of bits that the writer appends.  Missing: as above, and what
C25 excludes, because the property is false there. -/
theorem C85_bitsize_partial (hK : K.Good) {cs : List Char} (h : SchemaText P cs) (ht : t.Declares round float K P.directives name ps)
    (hacc : t.Accepts md) (hs : (t.meaning look).Supported cfg) (hz : (t.meaning look).Sized) :
    ∃ Q, packageOfText (floatText fo round display) cs = some (.ok Q) ∧
      ∀ c qs, CodeOf cfg md build float K esc (fileSymbols Q) name c qs → ∀ v, PackageValue cfg md K.enums ps t look v → ∀ before,
        ∃ bits, c.write v ⟨before⟩ = .ok ⟨before ++ bits⟩ ∧ c.bitsize v before.length = .ok bits.length := by
  obtain ⟨Q, h1, hQ⟩ := C85_package (floatText fo round display) h
  exact ⟨Q, h1, fun c qs hc v hv before => C78_bitsize_partial hK hQ h.names ht hc hacc hs hz v hv before⟩

/-! ## An example -/

theorem pack_schema : SchemaText packText packChars := by
  have hp := C84_characters_partial packText pack_fileOk _ pack_written
  obtain ⟨h1, h2⟩ := (C84_accepted_iff (floatText tenths noRound fun _ => []) _ _ hp).1.1 (pack_visit _)
  exact ⟨pack_written, pack_fileOk, h1, h2, pack_names⟩

/-- The characters of the package `demo`, and an object of the structure `Outer` of it. -/
example (cfg : Cfg) (build : Mode) (esc : EScope tenths.F) (display : tenths.F → List Char) : ∃ Q c qs bits,
    packageOfText (floatText tenths noRound display) packChars = some (.ok Q) ∧
    CodeOf cfg .debug build noNumber noConstants esc (fileSymbols Q) "Outer" c qs ∧ c.write packVal ⟨[]⟩ = .ok ⟨bits⟩ ∧
    c.read (packOuterTy.meaning (textLook noNumber noConstants packOuter)).default ⟨0, bits⟩ = .ok (packVal, ⟨bits.length, []⟩) := by
  obtain ⟨Q, hQ, ⟨c, qs, hc⟩, h⟩ := C85_round_trip_partial noConstants_good (build := build) (esc := esc) (display := display) pack_schema
    packOuter_declares pack_accepts (pack_supported cfg)
  obtain ⟨bits, hw, hr⟩ := h c qs hc packVal ⟨trivial, ⟨_, pack_valid cfg⟩, pack_fit⟩ []
  refine ⟨Q, c, qs, bits, hQ, hc, hw, ?_⟩
  have := hr []
  rwa [List.append_nil, List.length_nil, Nat.zero_add] at this

end Zs
