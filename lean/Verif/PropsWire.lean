import Verif.SchemaWireTy
import Verif.WireDet
import Verif.PropsSchema

/-!
# Properties of the encoding itself
-/

namespace Zs

open Spec

/-! ## C48: the bits are those of the zserio encoding -/

/-- **C48** For every supported schema, a valid object is written, wherever the stream stands, as the
bits that the zserio encoding (`Verif/Wire.lean`) gives it. -/
theorem C48_encoding (cfg : Cfg) (t : Ty) (hs : t.Supported cfg) (env : Env) (v : Val)
    (hv : t.Valid cfg env v) (before : List Bool) :
    ∃ bits, (t.ops cfg).write env v ⟨before⟩ = .ok ⟨before ++ bits⟩ ∧
      ∃ last, t.Wire cfg exactPacking none env v (fun _ => none) before.length bits last := by
  obtain ⟨bits, hw, _⟩ := C24_schema_round_trip cfg t hs env v hv before
  obtain ⟨b, e, hl⟩ := (Ty.wireGood cfg (fun _ _ _ h => h) t).field hs env v hv ⟨before⟩ _ (fun _ => none) hw
  have : bits = b := List.append_cancel_left e
  subst this
  exact ⟨bits, hw, _, hl⟩

/-- **C48** for the function users call: `to_bytes` gives the encoding, filled up with zero bits to
whole bytes. -/
theorem C48_to_bytes (cfg : Cfg) (t : Ty) (hs : t.Supported cfg) (env : Env) (v : Val)
    (hv : t.Valid cfg env v) :
    ∃ bytes bits last, toBytes (fun w => (t.ops cfg).write env v w) = .ok bytes ∧
      t.Wire cfg exactPacking none env v (fun _ => none) 0 bits last ∧
      ∃ pad, pad < 8 ∧ binaryBytes bytes = bits ++ List.replicate pad false := by
  obtain ⟨bits, bytes, pad, hw, hb, hp, he, _⟩ :=
    C14_to_bytes_from_bytes _ _ v (C24_schema_round_trip cfg t hs env v hv)
  obtain ⟨b, h1, last, h2⟩ := C48_encoding cfg t hs env v hv []
  have e : Res.ok (⟨bits⟩ : Writer) = .ok ⟨[] ++ b⟩ := hw.symm.trans h1
  simp only [Res.ok.injEq, Writer.mk.injEq, List.nil_append] at e
  subst e
  refine ⟨bytes, bits, last, hb, h2, pad, hp, ?_⟩
  rw [← he, bytesBits_binary]

/-- **C48** The encoding leaves no choice, the columns of packed arrays included: bits of that encoding
are the bits that are written. -/
theorem C48_encoding_unique (cfg : Cfg) (t : Ty) (hs : t.Supported cfg) (env : Env) (v : Val)
    (hv : t.Valid cfg env v) (before bits : List Bool) (last : Columns)
    (h : t.Wire cfg exactPacking none env v (fun _ => none) before.length bits last) :
    (t.ops cfg).write env v ⟨before⟩ = .ok ⟨before ++ bits⟩ := by
  obtain ⟨b, hw, l, hl⟩ := C48_encoding cfg t hs env v hv before
  rw [(Ty.wire_determined cfg t none (.inl exactPacking_decides) env v _ _ _ _ _ _ h hl).1]
  exact hw

/-- **C48** Without packed arrays the bits do not depend on the rule that decides about packing: they
are those of every zserio writer. -/
theorem C48_unpacked_unique (cfg : Cfg) (t : Ty) (hs : t.Supported cfg) (hu : t.Unpacked) (env : Env)
    (v : Val) (hv : t.Valid cfg env v) (before bits : List Bool) (last : Columns)
    (h : t.Wire cfg anyPacking none env v (fun _ => none) before.length bits last) :
    (t.ops cfg).write env v ⟨before⟩ = .ok ⟨before ++ bits⟩ := by
  obtain ⟨b, hw, _⟩ := C24_schema_round_trip cfg t hs env v hv before
  obtain ⟨b', e, hl⟩ := (Ty.wireGood cfg (packing := anyPacking) (fun _ _ _ _ => trivial) t).field hs
    env v hv ⟨before⟩ _ (fun _ => none) hw
  have : b = b' := List.append_cancel_left e
  subst this
  rw [(Ty.wire_determined cfg t none (.inr ⟨hu, rfl⟩) env v _ _ _ _ _ _ h hl).1]
  exact hw

/-- An array of packed structures, an optional union, alignment, ...: see `Verif/SchemaDemo.lean`. -/
example (before : List Bool) :
    ∃ bits, (Demo.big.ops Demo.cfg).write ⟨[], []⟩ Demo.bigVal ⟨before⟩ = .ok ⟨before ++ bits⟩ ∧
      ∃ last, Demo.big.Wire Demo.cfg exactPacking none ⟨[], []⟩ Demo.bigVal (fun _ => none) before.length bits last :=
  C48_encoding _ _ (Demo.big_supported _) _ _ (Demo.big_valid _) before

/-- `struct Small { uint:3 a; align(8): optional int16 b; }` -/
def Demo.small : Ty := .struct [] (.cons {} (.scalar (.bits 3))
  (.cons { alignment := 8, optional := true } (.scalar (.int 16)) .nil))

/-- The encoding of one object, from the specification only. -/
theorem Demo.small_wire (packing : Packing) : Demo.small.Wire Demo.cfg packing none ⟨[], []⟩ (.obj [] [.nat 5, .some (.int (-2))])
    (fun _ => none) 0 ([true, false, true] ++ List.replicate 5 false ++ [true] ++
      List.replicate 15 true ++ [false]) (fun _ => none) := by
  simp only [Demo.small, Ty.Wire, Fields.Wire, FieldInfo.Wire, FieldInfo.ContentWire, Scalar.Wire,
    Val.number, Scalar.isPackable, Option.all_none, if_true]
  refine ⟨[true, false, true], _, fun _ => none, by simp only [List.append_assoc]; rfl, ?_, ?_⟩
  · refine ⟨[], _, fun _ => none, rfl, ⟨rfl, rfl⟩, [], _, fun _ => none, rfl, ⟨rfl, rfl⟩, ?_, rfl⟩
    simp only [Scalar.NumberWire]
    decide
  · refine ⟨[true] ++ List.replicate 15 true ++ [false] |> (List.replicate 5 false ++ ·), [],
      fun _ => none, by simp only [List.append_assoc, List.append_nil], ?_, rfl, rfl⟩
    refine ⟨List.replicate 5 false, _, fun _ => none, rfl, ⟨rfl, 5, rfl, by decide, ?_⟩, [], _,
      fun _ => none, rfl, ⟨rfl, rfl⟩, [true], _, fun _ => none, rfl, ⟨rfl, rfl⟩, ?_, rfl⟩
    · intro j hj
      simp only [List.length_cons, List.length_nil] at hj
      omega
    · simp only [Scalar.NumberWire]
      decide +kernel

example :
    (Demo.small.ops Demo.cfg).write ⟨[], []⟩ (.obj [] [.nat 5, .some (.int (-2))]) ⟨[]⟩ =
      .ok ⟨[] ++ ([true, false, true] ++ List.replicate 5 false ++ [true] ++
        List.replicate 15 true ++ [false])⟩ :=
  C48_unpacked_unique _ _ (by
    simp [Demo.small, Ty.Supported, Fields.Supported, Scalar.WidthOk]) (by
    simp [Demo.small, Ty.Unpacked, Fields.Unpacked]) _ _ (by
    simp [Demo.small, FieldInfo.FieldValid, FieldInfo.contentValid_single,
      FieldInfo.expectedParams, Val.params, Ty.default, Scalar.dflt, Scalar.InRange]) _ _ _ (Demo.small_wire _)

end Zs
