import Verif.EmitSchema
import Verif.PropsSchema
import Verif.PropsSize
import Verif.PropsWire
import Verif.SchemaDemo

/-!
# Properties of the lines the generator emits
-/

namespace Zs

open Spec Emit

/-! ## C55: the emitted statements do what the schema means -/

/-- **C55** For every type of a schema, the eight function bodies the generator emits line by line
have the meaning of the type in the model of schemas, which the other properties are about: executed
on any object of the declared Rust type, they have the same result, whether it is a value, an error or
a panic.  Expressions of the schema may panic: what they are evaluated for must be in `E`, where they
have the values of the schema; conditions hide the expressions of fields that are absent. -/
theorem C55_emitted_code (cfg : Cfg) (E : Nat → Env → Prop) (t : Ty) (b : Bodies) (c : Codec)
    (ok : Act → Core → Prop) (h : Generated cfg E t b c ok) : t.ops cfg = c.ops ∧ Implements cfg b c (viewOf t) ok :=
  ⟨generated_ops h, generated_implements h⟩

/-- **C55** The braces of emitted lines match in one way only, so lines have one outcome. -/
theorem C55_unique {α : Type} (cfg : Cfg) (ls : List Line) (k : Core) (view : Core → α) (a b : Res α)
    (ha : Executes cfg ls k view a) (hb : Executes cfg ls k view b) : a = b :=
  ha.unique hb

/-- **C55** Bodies are emitted for every structure, choice, union, enum and bitmask whose builtin types
exist and whose type arguments fit. -/
theorem C55_every_schema (cfg : Cfg) (E : Nat → Env → Prop) (t : Ty) (ht : t.Emittable)
    (hc : t.isCompound = true) : ∃ b c ok, Generated cfg E t b c ok := every_generated cfg E ht hc

/-- **C55** The emitted writer, executed on a valid object, appends bits from which the emitted reader,
executed on a default object with the same parameters, restores the object and stops behind them. -/
theorem C55_emitted_round_trip (cfg : Cfg) (E : Nat → Env → Prop) (t : Ty) (b : Bodies) (c : Codec)
    (ok : Act → Core → Prop) (h : Generated cfg E t b c ok) (hs : t.Supported cfg) (env : Env) (k : Core)
    (hv : t.Valid cfg env (viewOf t k)) (hm : Met cfg E t k) (hn : k.node = Node.new) :
    ∃ bits, Executes cfg (b.write false) k Core.w (.ok ⟨k.w.bits ++ bits⟩) ∧
      ∀ after k', k'.node = Node.new →
        viewOf t k' = t.default.withParams (viewOf t k).params →
        k'.r = ⟨k.w.bits.length, bits ++ after⟩ →
        Executes cfg (b.read false) k' (fun k => (viewOf t k, k.r))
          (.ok (viewOf t k, ⟨k.w.bits.length + bits.length, after⟩)) := by
  have hi := generated_implements h
  obtain ⟨bits, hw, hr⟩ := C24_schema_round_trip cfg t hs env _ hv k.w.bits
  rw [generated_ops h] at hw hr
  refine ⟨bits, ?_, fun after k' hn' hk' hr' => ?_⟩
  · rw [← hw]
    exact hi.write k (generated_valid h hv hm).1 hn
  · have hd : c.read (viewOf t k') k'.r =
        .ok (viewOf t k, ⟨k.w.bits.length + bits.length, after⟩) := by
      rw [hk', hr']; exact hr after
    rw [← hd]
    exact hi.read k' (generated_default h hv hm hk' hn' hd) hn'

/-- **C55** The emitted writer appends the bits of the zserio encoding (`Verif/Wire.lean`). -/
theorem C55_emitted_encoding (cfg : Cfg) (E : Nat → Env → Prop) (t : Ty) (b : Bodies) (c : Codec)
    (ok : Act → Core → Prop) (h : Generated cfg E t b c ok) (hs : t.Supported cfg) (env : Env) (k : Core)
    (hv : t.Valid cfg env (viewOf t k)) (hm : Met cfg E t k) (hn : k.node = Node.new) :
    ∃ bits last, Executes cfg (b.write false) k Core.w (.ok ⟨k.w.bits ++ bits⟩) ∧
      t.Wire cfg exactPacking none env (viewOf t k) (fun _ => none) k.w.bits.length bits last := by
  obtain ⟨bits, hw, last, hl⟩ := C48_encoding cfg t hs env _ hv k.w.bits
  rw [generated_ops h] at hw
  exact ⟨bits, last, hw ▸ (generated_implements h).write k (generated_valid h hv hm).1 hn, hl⟩

/-- **C55 (partial)** The emitted size function gives the number of bits the emitted writer appends.
Missing: what C25 excludes, because the property is false there. -/
theorem C55_emitted_bitsize_partial (cfg : Cfg) (E : Nat → Env → Prop) (t : Ty) (b : Bodies) (c : Codec)
    (ok : Act → Core → Prop) (h : Generated cfg E t b c ok) (ht : t.Sized) (hs : t.Supported cfg)
    (env : Env) (k : Core) (hv : t.Valid cfg env (viewOf t k)) (hm : Met cfg E t k) (hn : k.node = Node.new)
    (hp : k.start = k.w.bits.length) :
    ∃ bits, Executes cfg (b.write false) k Core.w (.ok ⟨k.w.bits ++ bits⟩) ∧
      Executes cfg (b.bitsize false) k Core.size (.ok bits.length) := by
  obtain ⟨bits, hw, hb⟩ := C25_valid_objects_partial cfg t ht hs env _ hv k.w.bits
  rw [generated_ops h] at hw hb
  have hi := generated_implements h
  have hk := generated_valid h hv hm
  refine ⟨bits, hw ▸ hi.write k hk.1 hn, ?_⟩
  have := hi.bitsize k hk.2 hn
  rw [hp] at this
  have hb' : (c.bitsize (viewOf t k) k.w.bits.length).unwrap = .ok bits.length := hb
  cases hc : c.bitsize (viewOf t k) k.w.bits.length with
  | ok n => rw [hc] at this hb'; cases hb'; exact this
  | err e => rw [hc] at hb'; cases hb'
  | panic => rw [hc] at hb'; cases hb'

theorem Demo.big_emittable : Demo.big.Emittable := by
  simp [Demo.big, Demo.inner, Demo.color, Demo.perm, Demo.shape, Demo.point, Ty.Emittable,
    Fields.Emittable, Cases.Emittable, FieldInfo.Emittable, paramCount, Scalar.WidthOk,
    Scalar.isPackable]

/-- The state in which the writer of the schema of the examples is called. -/
def Demo.bigCore : Core := ⟨[], match Demo.bigVal with | .obj _ vs => vs | _ => [], 0, Node.new, ⟨[]⟩, ⟨0, []⟩,
  0, 0, 0⟩

example (cfg : Cfg) : ∃ b c ok bits, Generated cfg (fun _ _ => True) Demo.big b c ok ∧
    Executes cfg (b.write false) Demo.bigCore Core.w (.ok ⟨bits⟩) := by
  obtain ⟨b, c, ok, h⟩ := C55_every_schema cfg (fun _ _ => True) Demo.big Demo.big_emittable rfl
  obtain ⟨bits, hw, -⟩ := C55_emitted_round_trip cfg _ _ b c ok h (Demo.big_supported cfg) ⟨[], []⟩
    Demo.bigCore (Demo.big_valid cfg) (fun _ _ => trivial) rfl
  exact ⟨b, c, ok, bits, h, hw⟩

namespace Demo

/-- `uint8 a; uint8 b; uint8 c if a + b > 9; bit:100 / a d if a > 0;` in a schema. -/
def sumsSchema : Fields :=
  .cons {} (.scalar (.uint 8)) (
  .cons {} (.scalar (.uint 8)) (
  .cons { clause := some (fun env => decide (num env 0 + num env 1 > 9)) } (.scalar (.uint 8)) (
  .cons { clause := some (fun env => decide (num env 0 > 0)) }
    (.scalar (.bitsDyn (fun env => 100 / num env 0))) .nil)))

def sums : Ty := .struct [] sumsSchema

/-- The fields as the generator sees them: `self.a + self.b` panics above 255 and `100 / self.a` panics
for 0. -/
def sumsFields : List Field := [
  { ty := .builtin .uint8 0 none },
  { ty := .builtin .uint8 0 none },
  { ty := .builtin .uint8 0 none,
    clause := some (fun env => if num env 0 + num env 1 < 256 then .ok (decide (num env 0 + num env 1 > 9))
      else .panic) },
  { ty := .builtin .bit 0 (some ⟨(fun env => if num env 0 = 0 then .panic else .ok (100 / num env 0)), true⟩),
    clause := some (fun env => .ok (decide (num env 0 > 0))) }]

/-- The sum fits whenever it is computed. -/
def sumsIn (i : Nat) (env : Env) : Prop := i = 2 → num env 0 + num env 1 < 256

/-- An object: `a` is 0, so the length of `d` cannot be computed. -/
def sumsCore (a b : Nat) : Core := ⟨[], [.nat a, .nat b, .nat 7, .nat 0], 0, Node.new, ⟨[]⟩, ⟨0, []⟩, 0, 0, 0⟩

theorem sums_generated (cfg : Cfg) : Generated cfg sumsIn sums (structBodies sumsFields)
    (structCodec cfg [] (sumsSchema.ops cfg)) (StructOk cfg sumsIn sumsFields (sumsSchema.ops cfg)) := by
  refine .struct ?_
  simp only [sumsSchema, Fields.ops, Ty.ops, sumsFields, DenoteAll, and_true]
  refine ⟨?_, ?_, ?_, ?_⟩
  · exact ⟨.scalar .uint8, rfl, trivial, rfl, rfl, trivial, trivial, rfl, fun h => absurd rfl h,
      fun _ _ h => by cases h⟩
  · exact ⟨.scalar .uint8, rfl, trivial, rfl, rfl, trivial, trivial, rfl, fun h => absurd rfl h,
      fun _ _ h => by cases h⟩
  · exact ⟨.scalar .uint8, rfl, fun env h => if_pos (h rfl), rfl, rfl, trivial, trivial, rfl,
      fun h => absurd rfl h, fun _ _ h => by cases h⟩
  · refine ⟨.scalar (.bitsDyn _ _ (fun env h => if_neg ?_) (by simp)), rfl, fun env _ => rfl, rfl, rfl,
      trivial, trivial, rfl, fun h => absurd rfl h, fun _ _ h => by cases h⟩
    have := h.2 rfl _ rfl
    simp at this
    omega

theorem sums_supported (cfg : Cfg) : sums.Supported cfg := by
  simp [sums, sumsSchema, Ty.Supported, Fields.Supported, Scalar.WidthOk]

theorem sums_valid (cfg : Cfg) : sums.Valid cfg ⟨[], []⟩ (viewOf sums (sumsCore 0 200)) := by
  simp [sums, sumsSchema, viewOf, asObj, sumsCore, FieldInfo.FieldValid,
    FieldInfo.contentValid_single, FieldInfo.expectedParams, FieldInfo.default, Ty.default, num,
    Val.params, Scalar.dflt, Scalar.InRange]

end Demo

/-- An object for which no expression that is evaluated panics is restored, although the length of the
absent field cannot be computed; the writer panics for an object whose sum does not fit. -/
example (cfg : Cfg) :
    (∃ bits, Executes cfg ((structBodies Demo.sumsFields).write false) (Demo.sumsCore 0 200) Core.w
        (.ok ⟨bits⟩) ∧
      ∀ k', k'.node = Node.new → viewOf Demo.sums k' = Demo.sums.default → k'.r = ⟨0, bits⟩ →
        Executes cfg ((structBodies Demo.sumsFields).read false) k' (fun k => (viewOf Demo.sums k, k.r))
          (.ok (viewOf Demo.sums (Demo.sumsCore 0 200), ⟨bits.length, []⟩))) ∧
    Executes cfg ((structBodies Demo.sumsFields).write false) (Demo.sumsCore 100 200) Core.w .panic := by
  constructor
  · obtain ⟨bits, hw, hr⟩ := C55_emitted_round_trip cfg _ _ _ _ _ (Demo.sums_generated cfg)
      (Demo.sums_supported cfg) ⟨[], []⟩ (Demo.sumsCore 0 200) (Demo.sums_valid cfg)
      (fun i _ hi => by subst hi; simp [Demo.sumsCore, Demo.num]) rfl
    refine ⟨bits, hw, fun k' h1 h2 h3 => ?_⟩
    have := hr [] k' h1 h2 (by simpa [Demo.sumsCore] using h3)
    simpa [Demo.sumsCore] using this
  · refine ⟨structCode encodeCode false 0 Demo.sumsFields ++ Code.one .okUnit, ?_, ?_⟩
    · rw [Code.lines_append, lines_structCode lines_encodeCode]; rfl
    · rfl

/-! ## C56: emitted code does not move values out of borrowed objects -/

namespace Spec

/-- The Rust types that implement `Copy`.  `ExternType` (`ztype/extern_type.rs` lines 3-7), `BytesType`
(`ztype/bytes_type.rs` lines 3-7) and `String` do not; nothing is assumed about generated types. -/
def isCopy : RustTy → Bool
  | .string | .extern | .bytes | .compound _ => false
  | _ => true

/-- A line of the functions of a field, which borrow the object, takes a value of a type that is not
`Copy` by value: `if let Some(x) = self.f` or `for element in self.f`.  Rust rejects that (E0507). -/
def MovesOut (g : Field) : Line → Prop
  | .opening (.ifLet false (.self _)) => (g.array.isSome || !isCopy g.ty.rust) = true
  | .opening (.forElement false (.self _)) => True
  | _ => False

end Spec

/-- The lines that may move values. -/
theorem movesOut_cases {g : Field} {l : Line} (h : MovesOut g l) :
    (∃ i, l = .opening (.ifLet false (.self i)) ∧ (g.array.isSome || !isCopy g.ty.rust) = true) ∨
      ∃ i, l = .opening (.forElement false (.self i)) := by
  unfold MovesOut at h
  split at h
  · exact Or.inl ⟨_, rfl, h⟩
  · exact Or.inr ⟨_, rfl⟩
  · exact h.elim

theorem opening_encodeType (ty : RefTy) (p : Place) (i : Nat) (packed : Bool) (h : Head) :
    Line.opening h ∉ encodeType ty p i packed := by
  unfold encodeType
  repeat' split
  all_goals simp

theorem opening_bitsizeType (ty : RefTy) (p : Place) (i : Nat) (packed : Bool) (h : Head) :
    Line.opening h ∉ bitsizeType ty p i packed := by
  unfold bitsizeType bitsizeNamed
  repeat' split
  all_goals simp

theorem opening_assertParams (p : Place) (n : Nat) (h : Head) : ∀ (args : List Arg) (k : Nat),
    Line.opening h ∉ assertParams p n k args
  | [], _ => by simp [assertParams]
  | _ :: as, k => by simp [assertParams, opening_assertParams p n h as (k + 1)]

theorem opening_checkParams {f : Field} {p : Place} {borrowed : Bool} {h : Head}
    (hm : Line.opening h ∈ checkParams f p borrowed) :
    f.array.isSome = true ∧ (h = .forEnumerate p ∨ h = .forElement (!borrowed) p) := by
  unfold checkParams at hm
  split at hm
  · simp at hm
  · split at hm
    · rename_i ha
      refine ⟨ha, ?_⟩
      simp only [List.mem_append, List.mem_singleton, opening_assertParams, reduceCtorEq, or_false]
        at hm
      split at hm <;> simp at hm
      · exact Or.inl hm
      · exact Or.inr hm
    · exact absurd hm (opening_assertParams _ _ _ _ _)

/-- An optional field whose content is matched by value and is not `Copy`. -/
theorem byValue_iff (g : Field) :
    (g.requiresBorrowing = false ∧ (g.array.isSome || !isCopy g.ty.rust) = true) ↔
      g.array = none ∧
        ∃ bits length, g.ty = .builtin .extern bits length ∨ g.ty = .builtin .bytes bits length := by
  unfold Field.requiresBorrowing
  cases ha : g.array with
  | some a => simp
  | none =>
    cases ht : g.ty with
    | compound c n => simp
    | builtin name bits length =>
      cases name <;> simp [RefTy.rust, rustName, isCopy]

/-- **C56** Which fields make the generator emit a writer, size function or context initialisation that
does not compile because it moves a value out of the borrowed object: exactly the optional fields of
type `extern` or `bytes` that are not arrays. -/
theorem C56_moves_iff (g : Field) (i : Nat) (packed : Bool) :
    (∃ l ∈ encodeField g i packed ++ bitsizeField g i packed ++ initContextField g i, MovesOut g l) ↔
      g.optional = true ∧ g.array = none ∧
        ∃ bits length, g.ty = .builtin .extern bits length ∨ g.ty = .builtin .bytes bits length := by
  constructor
  · rintro ⟨l, hl, hm⟩
    rw [← byValue_iff]
    rcases movesOut_cases hm with ⟨j, rfl, hc⟩ | ⟨j, rfl⟩
    · suffices h : g.optional = true ∧ g.requiresBorrowing = false from ⟨h.1, h.2, hc⟩
      simp only [List.mem_append] at hl
      rcases hl with (hl | hl) | hl
      · unfold encodeField at hl
        simp only [List.mem_append] at hl
        rcases hl with (((((((hl | hl) | hl) | hl) | hl) | hl) | hl) | hl)
        · split at hl <;> simp at hl
        · split at hl <;> simp at hl
        · split at hl <;> simp at hl
        · split at hl <;> simp at hl
          rename_i ho
          exact ⟨ho, hl.1⟩
        · obtain ⟨-, h | h⟩ := opening_checkParams hl <;> cases h
        · split at hl
          · simp only [List.mem_append] at hl
            rcases hl with hl | hl
            · split at hl <;> simp at hl
            · simp at hl
          · exact absurd hl (opening_encodeType _ _ _ _ _)
        · split at hl <;> simp at hl
        · split at hl <;> simp at hl
      · unfold bitsizeField at hl
        simp only [List.mem_append] at hl
        rcases hl with (((((hl | hl) | hl) | hl) | hl) | hl) | hl
        · split at hl <;> simp at hl
        · split at hl <;> simp at hl
        · split at hl <;> simp at hl
        · split at hl <;> simp at hl
          rename_i ho
          exact ⟨ho, hl.1⟩
        · split at hl
          · simp at hl
          · exact absurd hl (opening_bitsizeType _ _ _ _ _)
        · split at hl <;> simp at hl
        · split at hl <;> simp at hl
      · unfold initContextField at hl
        split at hl
        · simp at hl
        · split at hl
          · simp at hl
          · simp only [List.mem_append] at hl
            rcases hl with (((hl | hl) | hl) | hl) | hl
            · split at hl <;> simp at hl
            · split at hl <;> simp at hl
              rename_i ho
              exact ⟨ho, hl.1⟩
            · split at hl
              · simp at hl
              · split at hl <;> simp at hl
            · split at hl <;> simp at hl
            · split at hl <;> simp at hl
    · exfalso
      simp only [List.mem_append] at hl
      rcases hl with (hl | hl) | hl
      · unfold encodeField at hl
        simp only [List.mem_append] at hl
        rcases hl with (((((((hl | hl) | hl) | hl) | hl) | hl) | hl) | hl)
        · split at hl <;> simp at hl
        · split at hl <;> simp at hl
        · split at hl <;> simp at hl
        · split at hl <;> simp at hl
        · obtain ⟨-, h | h⟩ := opening_checkParams hl
          · cases h
          · cases ho : g.optional <;> simp [ho] at h
        · split at hl
          · simp only [List.mem_append] at hl
            rcases hl with hl | hl
            · split at hl <;> simp at hl
            · simp at hl
          · exact absurd hl (opening_encodeType _ _ _ _ _)
        · split at hl <;> simp at hl
        · split at hl <;> simp at hl
      · unfold bitsizeField at hl
        simp only [List.mem_append] at hl
        rcases hl with (((((hl | hl) | hl) | hl) | hl) | hl) | hl
        · split at hl <;> simp at hl
        · split at hl <;> simp at hl
        · split at hl <;> simp at hl
        · split at hl <;> simp at hl
        · split at hl
          · simp at hl
          · exact absurd hl (opening_bitsizeType _ _ _ _ _)
        · split at hl <;> simp at hl
        · split at hl <;> simp at hl
      · unfold initContextField at hl
        split at hl
        · simp at hl
        · split at hl
          · simp at hl
          · simp only [List.mem_append] at hl
            rcases hl with (((hl | hl) | hl) | hl) | hl
            · split at hl <;> simp at hl
            · split at hl <;> simp at hl
            · split at hl
              · simp at hl
              · split at hl <;> simp at hl
            · split at hl <;> simp at hl
            · split at hl <;> simp at hl
  · rintro ⟨ho, h⟩
    obtain ⟨hb, hc⟩ := (byValue_iff g).2 h
    refine ⟨.opening (.ifLet false (.self i)), ?_, hc⟩
    simp [encodeField, ho, hb]

/-- `optional extern e;` and `optional bytes b;` -/
example : ∃ l ∈ encodeField { ty := .builtin .extern 0 none, optional := true } 0 false ++
    bitsizeField { ty := .builtin .extern 0 none, optional := true } 0 false ++
    initContextField { ty := .builtin .extern 0 none, optional := true } 0,
      MovesOut { ty := .builtin .extern 0 none, optional := true } l :=
  (C56_moves_iff _ 0 false).2 ⟨rfl, rfl, 0, none, Or.inl rfl⟩

namespace Spec

/-- A call of a function `ztype::write_bit`, `ztype::write_int`, `ztype::read_bit` or `ztype::read_int`;
there are no such functions (`ztype/mod.rs` lines 1-40). -/
def CallsMissing : Line → Prop
  | .stmt (.writeNamed name _) => name = .bit ∨ name = .int
  | .stmt (.readNamed name _) => name = .bit ∨ name = .int
  | _ => False

end Spec

theorem encodeType_missing (ty : RefTy) (p : Place) (i : Nat) (packed : Bool) :
    (∃ l ∈ encodeType ty p i packed, CallsMissing l) ↔
      packed = false ∧ (ty = .builtin .bit 0 none ∨ ty = .builtin .int 0 none) := by
  cases ty with
  | compound c n => cases packed <;> simp [encodeType, CallsMissing]
  | builtin name bits length =>
    cases name <;> cases packed <;> cases length <;> simp [encodeType] <;>
      by_cases hb : bits = 0 <;> simp [hb, CallsMissing]

theorem decodeType_missing (ty : RefTy) (p : Place) (i : Nat) (packed : Bool) :
    (∃ l ∈ decodeType ty p i packed, CallsMissing l) ↔
      packed = false ∧ (ty = .builtin .bit 0 none ∨ ty = .builtin .int 0 none) := by
  cases ty with
  | compound c n => cases packed <;> simp [decodeType, CallsMissing]
  | builtin name bits length =>
    cases name <;> cases packed <;> cases length <;> simp [decodeType] <;>
      by_cases hb : bits = 0 <;> simp [hb, CallsMissing]

theorem missing_assertParams (p : Place) (n : Nat) : ∀ (args : List Arg) (k : Nat) (l : Line),
    l ∈ assertParams p n k args → ¬ CallsMissing l
  | [], _, _ => by simp [assertParams]
  | _ :: as, k, l => by
    simp only [assertParams, List.mem_cons]
    rintro (rfl | h)
    · simp [CallsMissing]
    · exact missing_assertParams p n as (k + 1) l h

theorem missing_checkParams (f : Field) (p : Place) (borrowed : Bool) (l : Line)
    (h : l ∈ checkParams f p borrowed) : ¬ CallsMissing l := by
  unfold checkParams at h
  split at h
  · simp at h
  · split at h
    · simp only [List.mem_append, List.mem_singleton] at h
      rcases h with (h | h) | rfl
      · split at h <;> simp at h <;> subst h <;> simp [CallsMissing]
      · exact missing_assertParams _ _ _ _ _ h
      · simp [CallsMissing]
    · exact missing_assertParams _ _ _ _ _ h

/-- **C56** Which fields make the generator emit a writer that calls a function that does not exist:
exactly the fields of type `bit` or `int` without width, or with width 0, that are not arrays and not
written with a packing context. -/
theorem C56_missing_write_iff (g : Field) (i : Nat) (packed : Bool) :
    (∃ l ∈ encodeField g i packed, CallsMissing l) ↔
      g.array = none ∧ (packed && g.isPackable) = false ∧
        (g.ty = .builtin .bit 0 none ∨ g.ty = .builtin .int 0 none) := by
  rw [← encodeType_missing g.ty (if g.optional then Place.x else Place.self i) i
    (packed && g.isPackable)]
  constructor
  · rintro ⟨l, hl, hm⟩
    unfold encodeField at hl
    simp only [List.mem_append] at hl
    rcases hl with (((((((hl | hl) | hl) | hl) | hl) | hl) | hl) | hl)
    · split at hl <;> simp at hl; subst hl; simp [CallsMissing] at hm
    · split at hl <;> simp at hl; subst hl; simp [CallsMissing] at hm
    · split at hl <;> simp at hl; subst hl; simp [CallsMissing] at hm
    · split at hl <;> simp at hl; rcases hl with rfl | rfl <;> simp [CallsMissing] at hm
    · exact absurd hm (missing_checkParams _ _ _ _ hl)
    · split at hl
      · simp only [List.mem_append] at hl
        rcases hl with hl | hl
        · split at hl <;> simp at hl; subst hl; simp [CallsMissing] at hm
        · simp at hl; subst hl; simp [CallsMissing] at hm
      · rename_i ha
        exact ⟨ha, l, hl, hm⟩
    · split at hl <;> simp at hl; rcases hl with rfl | rfl | rfl <;> simp [CallsMissing] at hm
    · split at hl <;> simp at hl; subst hl; simp [CallsMissing] at hm
  · rintro ⟨ha, l, hl, hm⟩
    refine ⟨l, ?_, hm⟩
    unfold encodeField
    rw [ha]
    simp only [List.mem_append]
    exact Or.inl (Or.inl (Or.inr hl))

/-- `bit b;` and `int:0 i;` -/
example : (∃ l ∈ encodeField { ty := .builtin .bit 0 none } 0 false, CallsMissing l) ∧
    ∃ l ∈ encodeField { ty := .builtin .int 0 none, optional := true } 3 false, CallsMissing l :=
  ⟨(C56_missing_write_iff _ 0 false).2 ⟨rfl, rfl, Or.inl rfl⟩,
    (C56_missing_write_iff _ 3 false).2 ⟨rfl, rfl, Or.inr rfl⟩⟩

/-! ## C57: fields whose condition is false -/

/-- **C57 (partial)** A field whose condition is false has no effect: writer, reader and size function
go on with the same object, stream and context, whatever the other expressions of the field are, even
if they would panic.  Missing: arrays, whose declaration evaluates the length before the condition is
looked at (`C57_array_length_violated`, `C57_array_partial`). -/
theorem C57_condition_false_partial (cfg : Cfg) (g : Field) (c : Env → Res Bool)
    (hc : g.clause = some c) (ha : g.array = none) (i : Nat) (packed : Bool) (st : St)
    (hf : c st.env = .ok false) (code : Code)
    (hl : code.lines = instantiateArray g packed ++ encodeField g i packed ∨
      code.lines = instantiateArray g packed ++ decodeField g i packed ∨
      code.lines = instantiateArray g packed ++ bitsizeField g i packed) :
    code.run cfg st = .ok st := by
  have hw : (encodeCode g i packed).run cfg st = .ok st := by
    simp [encodeCode, clauseCode, hc, Code.run_blk, Head.exec, hf]
  have hr : (decodeCode g i packed).run cfg st = .ok st := by
    simp [decodeCode, blockCode, hc, Code.run_blk, Head.exec, hf]
  have hb : (bitsizeCode g i packed).run cfg st = .ok st := by
    simp [bitsizeCode, clauseCode, hc, Code.run_blk, Head.exec, hf]
  rw [show instantiateArray g packed = [] by simp [instantiateArray, ha], List.nil_append,
    List.nil_append, List.nil_append, ← lines_encodeCode, ← lines_decodeCode, ← lines_bitsizeCode] at hl
  rcases hl with hl | hl | hl <;> rw [Code.eq_of_lines hl] <;> assumption

/-- **C57 (partial)** An array whose condition is false has no effect on object, stream and context if
its length and the widths of its elements can be evaluated.  Missing: they are evaluated, so they may
panic (`C57_array_length_violated`). -/
theorem C57_array_partial (cfg : Cfg) (g : Field) (c : Env → Res Bool) (hc : g.clause = some c)
    (a : ArrayField) (ha : g.array = some a) (i : Nat) (packed : Bool) (st : St)
    (hf : c st.env = .ok false) (hlen : ∀ e, a.length = some e → ∃ n, e st.env = .ok n)
    (ht : ∃ t, (initTrait g.ty).eval cfg st.env g.ty.rust = .ok t) (code : Code)
    (hl : code.lines = instantiateArray g packed ++ encodeField g i packed ∨
      code.lines = instantiateArray g packed ++ decodeField g i packed ∨
      code.lines = instantiateArray g packed ++ bitsizeField g i packed) :
    ∃ st', code.run cfg st = .ok st' ∧ st'.core = st.core := by
  obtain ⟨t, ht⟩ := ht
  have hd : ∃ st', (Code.ofLines (instantiateArray g packed)).run cfg st = .ok st' ∧
      st'.core = st.core := by
    simp only [instantiateArray, ha]
    show ∃ st', (Code.one _).run cfg st = .ok st' ∧ _
    rw [Code.run_one]
    simp only [Stmt.exec, ht, Res.ok_bind]
    cases hn : a.length with
    | none => exact ⟨_, rfl, rfl⟩
    | some e =>
      obtain ⟨n, hn⟩ := hlen e hn
      simp only [hn, Res.ok_bind]
      exact ⟨_, rfl, rfl⟩
  obtain ⟨st', hd, hk⟩ := hd
  have hf' : c st'.env = .ok false := by
    rw [show st'.env = st.env by simp only [St.env, hk]]
    exact hf
  refine ⟨st', ?_, hk⟩
  have hw : (encodeCode g i packed).run cfg st' = .ok st' := by
    simp [encodeCode, clauseCode, hc, Code.run_blk, Head.exec, hf']
  have hr : (decodeCode g i packed).run cfg st' = .ok st' := by
    simp [decodeCode, blockCode, hc, Code.run_blk, Head.exec, hf']
  have hb : (bitsizeCode g i packed).run cfg st' = .ok st' := by
    simp [bitsizeCode, clauseCode, hc, Code.run_blk, Head.exec, hf']
  have hlines : ∀ x : Code, (Code.ofLines (instantiateArray g packed) ++ x).lines =
      instantiateArray g packed ++ x.lines := fun x => by
    rw [Code.lines_append, lines_instantiateArray]
  rw [← lines_encodeCode, ← lines_decodeCode, ← lines_bitsizeCode, ← hlines, ← hlines, ← hlines] at hl
  rcases hl with hl | hl | hl <;> rw [Code.eq_of_lines hl, Code.run_append, hd, Res.ok_bind] <;>
    assumption

/-- `bit<10 / 0> b if false;` and `uint8 a[4] if false;` -/
example (cfg : Cfg) (st : St) :
    (fieldCode encodeCode false 0
      { ty := .builtin .bit 0 (some ⟨(fun _ => .panic), false⟩),
        clause := some (fun _ => .ok false) }).run cfg st = .ok st ∧
    ∃ st', (fieldCode encodeCode false 0
      { ty := .builtin .uint8 0 none, clause := some (fun _ => .ok false), array := some ⟨false, some (fun _ => .ok 4)⟩ }).run cfg st
        = .ok st' ∧ st'.core = st.core :=
  ⟨C57_condition_false_partial cfg _ _ rfl rfl 0 false st rfl _
      (Or.inl (lines_fieldCode lines_encodeCode _ _ _)),
    C57_array_partial cfg _ _ rfl _ rfl 0 false st rfl (fun e h => ⟨4, by cases h; rfl⟩) ⟨_, rfl⟩ _
      (Or.inl (lines_fieldCode lines_encodeCode _ _ _))⟩

namespace Demo

/-- `uint8 n; uint8 a[10 / n] if n != 0;` -/
def guarded : List Field := [
  { ty := .builtin .uint8 0 none },
  { ty := .builtin .uint8 0 none,
    clause := some (fun env => .ok (num env 0 != 0)),
    array := some ⟨false, some (fun env => if num env 0 = 0 then .panic else .ok (10 / num env 0))⟩ }]

/-- An object with `n = 0`, an empty stream, and bits that say `n = 0`. -/
def guardedCore : Core := ⟨[], [.nat 0, .list []], 0, Node.new, ⟨[]⟩, ⟨0, List.replicate 8 false⟩, 0, 0, 0⟩

end Demo

/-- **C57, violated** for arrays: `uint8 n; uint8 a[10 / n] if n != 0;` declares `a` for `n != 0` only,
but writing, measuring and reading an object with `n = 0` panics with a division by zero
(`generator/array.rs`: the length is evaluated in front of the condition). -/
theorem C57_array_length_violated :
    Executes Demo.cfg ((structBodies Demo.guarded).write false) Demo.guardedCore Core.w .panic ∧
    Executes Demo.cfg ((structBodies Demo.guarded).bitsize false) Demo.guardedCore Core.size .panic ∧
    Executes Demo.cfg ((structBodies Demo.guarded).read false) Demo.guardedCore Core.r .panic := by
  refine ⟨⟨structCode encodeCode false 0 Demo.guarded ++ Code.one .okUnit, ?_, ?_⟩,
    ⟨Code.one .letEnd ++ structCode bitsizeCode false 0 Demo.guarded ++ Code.one .okSize, ?_, ?_⟩,
    ⟨structCode decodeCode false 0 Demo.guarded ++ Code.one .okUnit, ?_, ?_⟩⟩
  · rw [Code.lines_append, lines_structCode lines_encodeCode]; rfl
  · decide +kernel
  · rw [Code.lines_append, Code.lines_append, lines_structCode lines_bitsizeCode]; rfl
  · decide +kernel
  · rw [Code.lines_append, lines_structCode lines_decodeCode]; rfl
  · decide +kernel

end Zs
