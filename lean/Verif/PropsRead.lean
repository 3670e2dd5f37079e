import Verif.SchemaReadTy
import Verif.PropsSchema

/-!
# C13 for generated types, C49, C50, C51: generated readers on arbitrary input

The reader of a type works on a default object that has been given parameters `ps`
(`t.default.withParams ps`), as generated code and users do it.
-/

namespace Zs

open Spec

namespace Demo

/-- `struct { T x; }` -/
def wrap (t : Ty) : Ty := .struct [] (.cons {} t .nil)

/-- `struct { T xs[]; }` -/
def arrayOf (t : Ty) : Ty := .struct [] (.cons { array := some ⟨false, none⟩ } t .nil)

/-- `struct { uint8 kind; optional varuint32 x; Color colors[]; if kind == 1 bit:3 y; align(8):
int16 zs[kind]; Body(kind) body; Perm perm; }` with
`choice Body(uint8 kind) on kind { case 1: int32 a; case 2: bytes b; }`. -/
def safe : Ty := .struct [] (
  .cons {} (.scalar (.uint 8)) (
  .cons { optional := true } (.scalar .varuint32) (
  .cons { array := some ⟨false, none⟩ } color (
  .cons { clause := some (fun env => num env 0 == 1) } (.scalar (.bits 3)) (
  .cons { alignment := 8, array := some ⟨false, some (fun env => num env 0)⟩ } (.scalar (.int 16)) (
  .cons { args := [fun env _ => .nat (num env 0)] }
    (.choice [.nat 0] (fun ps => ps.headD (.nat 0)) (.field [.nat 1] {} (.scalar (.int 32))
      (.field [.nat 2] {} (.scalar .bytes) .nil))) (
  .cons {} perm .nil)))))))

theorem safe_steady : safe.Steady := by
  simp [safe, color, perm, Ty.Steady, Fields.Steady, Cases.Steady, Scalar.Steady, Scalar.IsInteger,
    FieldInfo.isPackedArray]

theorem safe_sound (cfg : Cfg) : safe.Sound cfg := by
  simp [safe, color, perm, Ty.Sound, Fields.Sound, Cases.Sound, Scalar.Sound, Scalar.IsInteger,
    FieldInfo.isPackedArray, Ty.Takes, Scalar.Takes, Ty.hasParams, Scalar.WidthOk, enumValues,
    enumValuesFrom, Scalar.Contains]

theorem safe_compact : safe.Compact := by
  simp [safe, color, perm, Ty.Compact, Fields.Compact, Cases.Compact, FieldInfo.isPackedArray,
    Ty.Takes, Scalar.Takes]

theorem safe_supported (cfg : Cfg) : safe.Supported cfg := by
  simp [safe, color, perm, Ty.Supported, Fields.Supported, Cases.Supported, Scalar.WidthOk,
    enumValues, enumValuesFrom]

/-- kind = 2, x = 5, colors = [GREEN], zs = [-1, 7], b = "A", perm = 6. -/
def safeBytes : List UInt8 := [2, 130, 128, 193, 0, 255, 255, 0, 7, 1, 65, 6]

def safeVal : Val := .obj [] [.nat 2, .some (.nat 5), .list [.item 1], .nat 0,
  .list [.int (-1), .int 7], .obj [.nat 2] [.int 0, .bytes ⟨1, [65]⟩], .nat 6]

end Demo

/-! ## C13: truncated input -/

/-- **C13** for generated types: a reader of any schema uses a prefix of its input and gives the same
object whatever follows; also as element of a packed array. -/
theorem C13_schema_readers_local (cfg : Cfg) (t : Ty) (env : Env) (ps : List Val) :
    Local (fun r => (t.ops cfg).read env (t.default.withParams ps) r) ∧
    ∀ n, Local (fun r => (t.ops cfg).readPacked env (t.default.withParams ps) n r) := by
  rw [← Ty.dflt_eq cfg t]
  exact ⟨((Ty.readGood cfg t).read env ps).loc, fun n => ((Ty.readGood cfg t).packed env ps n).loc⟩

/-- **C13** for generated types: no proper prefix of an encoded object is accepted. -/
theorem C13_schema_truncation (cfg : Cfg) (t : Ty) (hs : t.Supported cfg) (env : Env) (v : Val)
    (hv : t.Valid cfg env v) :
    RejectsTruncation (fun w => (t.ops cfg).write env v w)
      (fun r => (t.ops cfg).read env (t.default.withParams v.params) r) :=
  rejectsTruncation_of_local (C24_schema_round_trip cfg t hs env v hv)
    (C13_schema_readers_local cfg t env v.params).1

example (cfg : Cfg) : RejectsTruncation (fun w => (Demo.big.ops cfg).write ⟨[], []⟩ Demo.bigVal w)
    (fun r => (Demo.big.ops cfg).read ⟨[], []⟩ (Demo.big.default.withParams Demo.bigVal.params) r) :=
  C13_schema_truncation cfg _ (Demo.big_supported cfg) _ _ (Demo.big_valid cfg)

/-! ## C49: no panics -/

/-- **C49** A generated reader never panics: whatever the input, it gives an object or an error.
Missing: schemas with strings, extern values, unions or packed arrays (`Ty.Steady` excludes them; see
the violations below). -/
theorem C49_readers_never_panic_partial (cfg : Cfg) (t : Ty) (hs : t.Steady) (env : Env)
    (ps : List Val) :
    NeverPanics (fun r => (t.ops cfg).read env (t.default.withParams ps) r) ∧
    ∀ bytes, fromBytes (fun r => (t.ops cfg).read env (t.default.withParams ps) r) bytes ≠ .panic := by
  have h : NeverPanics (fun r => (t.ops cfg).read env (t.default.withParams ps) r) := by
    rw [← Ty.dflt_eq cfg t]
    exact ((Ty.readGood cfg t).read env ps).steady hs
  exact ⟨h, fun bytes => Res.bind_ne_panic (h _) (fun _ _ => by simp)⟩

example (cfg : Cfg) (bytes : List UInt8) :
    fromBytes (fun r => (Demo.safe.ops cfg).read ⟨[], []⟩ (Demo.safe.default.withParams []) r) bytes ≠
      .panic :=
  (C49_readers_never_panic_partial cfg _ Demo.safe_steady ⟨[], []⟩ []).2 bytes

/-- **C49, violated** for every kind of schema that `Ty.Steady` excludes, in every build: a string and
a packed array (of any builtin type) at the end of the data, an extern value without its last bits, a union with an unknown
selector. -/
theorem C49_violated (cfg : Cfg) :
    fromBytes (fun r => ((Demo.wrap (.scalar .string)).ops cfg).read ⟨[], []⟩
      (Demo.wrap (.scalar .string)).default r) [] = .panic ∧
    fromBytes (fun r => ((Demo.wrap (.scalar .extern)).ops cfg).read ⟨[], []⟩
      (Demo.wrap (.scalar .extern)).default r) [1] = .panic ∧
    fromBytes (fun r => (Demo.eitherNum.ops cfg).read ⟨[], []⟩ Demo.eitherNum.default r) [2] =
      .panic ∧
    ∀ s : Scalar, fromBytes (fun r => ((Demo.packedOf (.scalar s)).ops cfg).read ⟨[], []⟩
      (Demo.packedOf (.scalar s)).default r) [1] = .panic := by
  refine ⟨rfl, rfl, rfl, fun s => ?_⟩
  cases s <;> rfl

/-! ## C50: what is accepted can be written again -/

/-- **C50** Whatever the input, an object that is read with fewer than 2^31 bits is valid, and has the
parameters it was given.  Missing: `varsize` fields, arrays with a stored length whose elements may
take no bits, packed arrays unless they have a fixed length and elements of type `uint8` … `int64`,
enums and such (`Ty.Sound`; see the violations below). -/
theorem C50_accepted_is_valid_partial (cfg : Cfg) (t : Ty) (hs : t.Sound cfg) (env : Env)
    (ps : List Val) (r r' : Reader) (v : Val)
    (h : (t.ops cfg).read env (t.default.withParams ps) r = .ok (v, r'))
    (hk : r.rest.length < 2 ^ 31 + r'.rest.length) :
    t.Valid cfg env v ∧ v.params = (t.default.withParams ps).params := by
  rw [← Ty.dflt_eq cfg t] at h ⊢
  exact (((Ty.readGood cfg t).read env ps).sound r v r' h).valid hs (by omega)

theorem Val.withParams_again (v : Val) (ps : List Val) :
    v.withParams (v.withParams ps).params = v.withParams ps := by cases v <;> rfl

/-- **C50** What has been read can be written again, without panic or error, and reading that gives
the same object: for supported schemas as in `C50_accepted_is_valid_partial`. -/
theorem C50_reencode_partial (cfg : Cfg) (t : Ty) (hs : t.Sound cfg) (hsup : t.Supported cfg)
    (env : Env) (ps : List Val) (bytes : List UInt8) (v : Val) (hlen : bytes.length < 2 ^ 28)
    (h : fromBytes (fun r => (t.ops cfg).read env (t.default.withParams ps) r) bytes = .ok v) :
    ∃ again, toBytes (fun w => (t.ops cfg).write env v w) = .ok again ∧
      ∀ trailing, fromBytes (fun r => (t.ops cfg).read env (t.default.withParams ps) r)
        (again ++ trailing) = .ok v := by
  obtain ⟨⟨v', r'⟩, h1, h2⟩ := Res.bind_eq_ok.1 h
  cases h2
  have hl : (Reader.ofBytes bytes).rest.length = 8 * bytes.length := by
    simp only [Reader.ofBytes, bytesBits_length]; omega
  obtain ⟨h3, h4⟩ := C50_accepted_is_valid_partial cfg t hs env ps _ r' v h1 (by omega)
  have := C24_schema_bytes cfg t hsup env v h3
  rw [h4] at this
  obtain ⟨again, h5, h6⟩ := this
  refine ⟨again, h5, fun trailing => ?_⟩
  rw [← h6 trailing]
  rw [Val.withParams_again]

example (cfg : Cfg) (bytes : List UInt8) (v : Val) (hlen : bytes.length < 2 ^ 28)
    (h : fromBytes (fun r => (Demo.safe.ops cfg).read ⟨[], []⟩ (Demo.safe.default.withParams []) r)
      bytes = .ok v) :
    ∃ again, toBytes (fun w => (Demo.safe.ops cfg).write ⟨[], []⟩ v w) = .ok again ∧
      ∀ trailing, fromBytes (fun r => (Demo.safe.ops cfg).read ⟨[], []⟩
        (Demo.safe.default.withParams []) r) (again ++ trailing) = .ok v :=
  C50_reencode_partial cfg _ (Demo.safe_sound cfg) (Demo.safe_supported cfg) _ _ _ _ hlen h
example : fromBytes (fun r => (Demo.safe.ops Demo.cfg).read ⟨[], []⟩
    (Demo.safe.default.withParams []) r) Demo.safeBytes = .ok Demo.safeVal := by decide +kernel

/-- **C50, violated** for `varsize` fields: five bytes are read as 2^32 - 1, which cannot be written;
the writer panics. -/
theorem C50_varsize_violated :
    fromBytes (fun r => ((Demo.wrap (.scalar .varsize)).ops Demo.cfg).read ⟨[], []⟩
      (Demo.wrap (.scalar .varsize)).default r) [255, 255, 255, 255, 255] =
        .ok (.obj [] [.nat 4294967295]) ∧
    toBytes (fun w => ((Demo.wrap (.scalar .varsize)).ops Demo.cfg).write ⟨[], []⟩
      (.obj [] [.nat 4294967295]) w) = .panic := by
  refine ⟨?_, ?_⟩ <;> decide +kernel

/-- **C50, violated** for packed arrays of bit fields: a delta leads out of the range of `bit:4`.  The
array that was read is written without error, but as another one. -/
theorem C50_packed_bits_violated :
    fromBytes (fun r => ((Demo.packedOf (.scalar (.bits 4))).ops Demo.cfg).read ⟨[], []⟩
      (Demo.packedOf (.scalar (.bits 4))).default r) [2, 137, 239] =
        .ok (.obj [] [.list [.nat 15, .nat 30]]) ∧
    toBytes (fun w => ((Demo.packedOf (.scalar (.bits 4))).ops Demo.cfg).write ⟨[], []⟩
      (.obj [] [.list [.nat 15, .nat 30]]) w) = .ok [2, 127, 0] ∧
    fromBytes (fun r => ((Demo.packedOf (.scalar (.bits 4))).ops Demo.cfg).read ⟨[], []⟩
      (Demo.packedOf (.scalar (.bits 4))).default r) [2, 127, 0] =
        .ok (.obj [] [.list [.nat 15, .nat 14]]) := by
  refine ⟨?_, ?_, ?_⟩ <;> decide +kernel

/-! ## C51: memory -/

/-- **C51** Whatever the input, an object takes at most `t.weight` units of memory for every bit that
was read for it (and one more): reading a message of `n` bytes needs memory proportional to `n`.
Missing: arrays that are packed or whose elements may take no bits (`Ty.Compact`; see the violations
below). -/
theorem C51_memory_linear_partial (cfg : Cfg) (t : Ty) (hc : t.Compact) (env : Env) (ps : List Val) :
    (∀ r r' v, (t.ops cfg).read env (t.default.withParams ps) r = .ok (v, r') →
      v.size ≤ t.weight * (r.rest.length - r'.rest.length + 1)) ∧
    ∀ bytes v, fromBytes (fun r => (t.ops cfg).read env (t.default.withParams ps) r) bytes = .ok v →
      v.size ≤ t.weight * (8 * bytes.length + 1) := by
  have h : ∀ r r' v, (t.ops cfg).read env (t.default.withParams ps) r = .ok (v, r') →
      v.size ≤ t.weight * (r.rest.length - r'.rest.length + 1) := by
    intro r r' v h
    rw [← Ty.dflt_eq cfg t] at h
    exact (((Ty.readGood cfg t).read env ps).sound r v r' h).light hc
  refine ⟨h, fun bytes v hv => ?_⟩
  obtain ⟨⟨v', r'⟩, h1, h2⟩ := Res.bind_eq_ok.1 hv
  cases h2
  have hl : (Reader.ofBytes bytes).rest.length = 8 * bytes.length := by
    simp only [Reader.ofBytes, bytesBits_length]; omega
  exact Nat.le_trans (h _ _ _ h1) (Nat.mul_le_mul_left _ (by omega))

example (cfg : Cfg) (bytes : List UInt8) (v : Val)
    (h : fromBytes (fun r => (Demo.safe.ops cfg).read ⟨[], []⟩ (Demo.safe.default.withParams []) r)
      bytes = .ok v) : v.size ≤ 45 * (8 * bytes.length + 1) := by
  have := (C51_memory_linear_partial cfg _ Demo.safe_compact ⟨[], []⟩ []).2 bytes v h
  have e : Demo.safe.weight = 45 := by
    simp [Demo.safe, Demo.color, Demo.perm, Ty.weight, Fields.weight, Cases.weight]
  rwa [e] at this

namespace Demo

/-- `struct Empty {}` -/
def empty : Ty := .struct [] .nil

end Demo

/-- Elements that take no bits. -/
theorem FieldOps.readParamAll_free {cfg : Cfg} {f : FieldOps} {a : ArrayDef Val} {env : Env} {x : Val}
    {node : Node} {r : Reader}
    (h : ∀ index, a.readOneElement r node (f.initial env index) f.indexed = .ok ((x, node), r))
    (n index : Nat) (data : Vec Val) :
    ∃ v, f.readParamAll cfg a env n index node data r = .ok (v, r) ∧
      v.items = data.items ++ List.replicate n x := by
  induction n generalizing index data with
  | zero => exact ⟨data, rfl, by simp⟩
  | succ n ih =>
    obtain ⟨v, h1, h2⟩ := ih (index + 1) (data.push cfg.minCap x)
    refine ⟨v, ?_, ?_⟩
    · simp only [FieldOps.readParamAll, h index, Res.ok_bind]
      exact h1
    · have e : (data.push cfg.minCap x).items = data.items ++ [x] := by
        unfold Vec.push Vec.reserve; simp only; split <;> rfl
      rw [h2, e, List.append_assoc, List.replicate_succ]; rfl

theorem varsize_bits {n : Nat} (hn : n < 2 ^ 31) : ∃ bits : List Bool, bits.length ≤ 40 ∧
    ∀ after, readVarsize ⟨0, bits ++ after⟩ = .ok (n, ⟨bits.length, after⟩) := by
  obtain ⟨bits, h1, h2⟩ := C01_varuint_round_trip.2.2.2.2 n hn []
  obtain ⟨k, _, _, hk, he, _⟩ := C04_varuint_sizes_exact_minimal.2.2.2.2 n hn
  obtain ⟨bits', h3, h4⟩ := he []
  rw [h1] at h3
  cases h3
  refine ⟨bits, by omega, fun after => ?_⟩
  have := h2 after
  simpa using this

/-- Reading `struct { T xs[]; }` or `struct { packed T xs[]; }`. -/
theorem read_array (cfg : Cfg) (t : Ty) (packed : Bool) (r : Reader) :
    ((Ty.struct [] (.cons { array := some ⟨packed, none⟩ } t .nil)).ops cfg).read ⟨[], []⟩
      (Ty.struct [] (.cons { array := some ⟨packed, none⟩ } t .nil)).default r =
    (readVarsize r >>= fun p => FieldOps.readParamAll cfg ⟨{ array := some ⟨packed, none⟩ }, t.ops cfg⟩
        (FieldOps.arrayDef ⟨{ array := some ⟨packed, none⟩ }, t.ops cfg⟩ false ⟨[], []⟩ ⟨packed, none⟩)
        ⟨[], []⟩ p.1 0 ((t.ops cfg).arrayTrait ⟨[], []⟩).createContext
        (ArrayDef.prepare cfg.minCap cfg.chunk Vec.new p.1) p.2 >>= fun q =>
      .ok (.obj [] [.list q.1.items], q.2)) := by
  have h : ((Ty.struct [] (.cons { array := some ⟨packed, none⟩ } t .nil)).ops cfg).read ⟨[], []⟩
      (Ty.struct [] (.cons { array := some ⟨packed, none⟩ } t .nil)).default r =
      (((FieldOps.decodeArray cfg ⟨{ array := some ⟨packed, none⟩ }, t.ops cfg⟩
        (FieldOps.arrayDef ⟨{ array := some ⟨packed, none⟩ }, t.ops cfg⟩ false ⟨[], []⟩
        ⟨packed, none⟩) ⟨[], []⟩ Vec.new r >>= fun x => .ok ((x.1, Node.new), x.2))
        >>= fun x => .ok (([x.1.1], x.1.2), x.2)) >>= fun x => .ok (.obj [] x.1.1, x.2)) := rfl
  rw [h, FieldOps.decodeArray_eq]
  simp only [bind_assoc, Res.ok_bind]
  rfl

/-- **C51, violated** for arrays of structures without fields: at most five bytes are read as an array
of any length below 2^31. -/
theorem C51_empty_elements_violated (cfg : Cfg) (n : Nat) (hn : n < 2 ^ 31) :
    ∃ bits : List Bool, bits.length ≤ 40 ∧ ∀ after,
      ((Demo.arrayOf Demo.empty).ops cfg).read ⟨[], []⟩ (Demo.arrayOf Demo.empty).default
        ⟨0, bits ++ after⟩ =
          .ok (.obj [] [.list (List.replicate n (.obj [] []))], ⟨bits.length, after⟩) := by
  obtain ⟨bits, h1, h2⟩ := varsize_bits hn
  refine ⟨bits, h1, fun after => ?_⟩
  obtain ⟨v, h3, h4⟩ := FieldOps.readParamAll_free (cfg := cfg)
    (f := ⟨{ array := some ⟨false, none⟩ }, Demo.empty.ops cfg⟩)
    (a := FieldOps.arrayDef ⟨{ array := some ⟨false, none⟩ }, Demo.empty.ops cfg⟩ false ⟨[], []⟩
      ⟨false, none⟩) (env := ⟨[], []⟩) (x := .obj [] [])
    (node := ((Demo.empty.ops cfg).arrayTrait ⟨[], []⟩).createContext)
    (r := ⟨bits.length, after⟩) (fun index => rfl) n 0 (ArrayDef.prepare cfg.minCap cfg.chunk Vec.new n)
  rw [prepare_items, List.nil_append] at h4
  unfold Demo.arrayOf
  rw [read_array, h2 after]
  simp only [Res.ok_bind, h3, h4]

/-- **C51, violated** for packed arrays: at most seven bytes are read as an array of any length below
2^31, all of whose elements are equal. -/
theorem C51_packed_violated (cfg : Cfg) (n : Nat) (hn : n + 1 < 2 ^ 31) :
    ∃ bits : List Bool, bits.length ≤ 55 ∧ ∀ after,
      ((Demo.packedOf (.scalar (.uint 8))).ops cfg).read ⟨[], []⟩
        (Demo.packedOf (.scalar (.uint 8))).default ⟨0, bits ++ after⟩ =
          .ok (.obj [] [.list (List.replicate (n + 1) (.nat 0))], ⟨bits.length, after⟩) := by
  obtain ⟨bits, h1, h2⟩ := varsize_bits hn
  refine ⟨bits ++ (true :: List.replicate 14 false), by simp; omega, fun after => ?_⟩
  let c : DeltaContext :=
    { DeltaContext.new with processingStarted := true, isPacked := true }
  obtain ⟨v, h3, h4⟩ := FieldOps.readParamAll_free (cfg := cfg)
    (f := ⟨{ array := some ⟨true, none⟩ }, (Ty.scalar (.uint 8)).ops cfg⟩)
    (a := FieldOps.arrayDef ⟨{ array := some ⟨true, none⟩ }, (Ty.scalar (.uint 8)).ops cfg⟩ false
      ⟨[], []⟩ ⟨true, none⟩) (env := ⟨[], []⟩) (x := .nat 0)
    (node := .mk [] (some c)) (r := ⟨bits.length + 15, after⟩)
    (fun index => rfl) n 1 ((ArrayDef.prepare cfg.minCap cfg.chunk Vec.new (n + 1)).push cfg.minCap
      (.nat 0))
  have e : ((ArrayDef.prepare cfg.minCap cfg.chunk Vec.new (n + 1)).push cfg.minCap
      (Val.nat 0)).items = [Val.nat 0] := by
    have : ∀ data : Vec Val, (data.push cfg.minCap (.nat 0)).items = data.items ++ [.nat 0] := by
      intro data; unfold Vec.push Vec.reserve; simp only; split <;> rfl
    rw [this, prepare_items, List.nil_append]
  rw [e, List.singleton_append, ← List.replicate_succ] at h4
  unfold Demo.packedOf
  rw [read_array, List.append_assoc, h2 _]
  have h5 : ArrayDef.readOneElement (FieldOps.arrayDef ⟨{ array := some ⟨true, none⟩ },
      (Ty.scalar (.uint 8)).ops cfg⟩ false ⟨[], []⟩ ⟨true, none⟩)
      ⟨bits.length, (true :: List.replicate 14 false) ++ after⟩
      (((Ty.scalar (.uint 8)).ops cfg).arrayTrait ⟨[], []⟩).createContext
      (FieldOps.initial ⟨{ array := some ⟨true, none⟩ }, (Ty.scalar (.uint 8)).ops cfg⟩ ⟨[], []⟩ 0)
      (FieldOps.indexed ⟨{ array := some ⟨true, none⟩ }, (Ty.scalar (.uint 8)).ops cfg⟩) =
        .ok ((.nat 0, .mk [] (some c)), ⟨bits.length + 15, after⟩) := by
    rfl
  simp only [Res.ok_bind]
  rw [FieldOps.readParamAll, h5]
  simp only [Res.ok_bind]
  rw [h3]
  simp [h4]

/-- **C50, violated** for arrays of structures without fields: five bytes are read as an array of
2^32 - 1 elements, which cannot be written. -/
theorem C50_long_array_violated (cfg : Cfg) :
    ∃ v, fromBytes (fun r => ((Demo.arrayOf Demo.empty).ops cfg).read ⟨[], []⟩
        (Demo.arrayOf Demo.empty).default r) [255, 255, 255, 255, 255] = .ok v ∧
      ∀ w, Refused (((Demo.arrayOf Demo.empty).ops cfg).write ⟨[], []⟩ v w) := by
  obtain ⟨n, hn⟩ : ∃ n, n = 4294967295 := ⟨_, rfl⟩
  obtain ⟨v, h3, h4⟩ := FieldOps.readParamAll_free (cfg := cfg)
    (f := ⟨{ array := some ⟨false, none⟩ }, Demo.empty.ops cfg⟩)
    (a := FieldOps.arrayDef ⟨{ array := some ⟨false, none⟩ }, Demo.empty.ops cfg⟩ false ⟨[], []⟩
      ⟨false, none⟩) (env := ⟨[], []⟩) (x := .obj [] [])
    (node := ((Demo.empty.ops cfg).arrayTrait ⟨[], []⟩).createContext)
    (r := ⟨40, []⟩) (fun index => rfl) n 0
    (ArrayDef.prepare cfg.minCap cfg.chunk Vec.new n)
  rw [prepare_items, List.nil_append] at h4
  have hr : readVarsize (Reader.ofBytes [255, 255, 255, 255, 255]) = .ok (n, ⟨40, []⟩) := by
    rw [hn]; decide +kernel
  refine ⟨.obj [] [.list v.items], ?_, fun w a h => ?_⟩
  · unfold fromBytes Demo.arrayOf
    simp only [read_array, hr, Res.ok_bind, h3, Res.pure_eq]
  · have e : ((Demo.arrayOf Demo.empty).ops cfg).write ⟨[], []⟩ (.obj [] [.list v.items]) w =
        (((FieldOps.checkArgsAll ⟨{ array := some ⟨false, none⟩ }, Demo.empty.ops cfg⟩ ⟨[], []⟩ 0
          v.items >>= fun _ => FieldOps.checkLength ⟨false, none⟩ ⟨[], []⟩ v.items >>= fun _ =>
          ((writeVarsize w (asU32 v.items.length) >>= fun w =>
            (FieldOps.arrayDef ⟨{ array := some ⟨false, none⟩ }, Demo.empty.ops cfg⟩ false ⟨[], []⟩
              ⟨false, none⟩).writeElements w v.items false) >>= fun w => .ok (w, Node.new))) >>= fun x =>
          .ok x) >>= fun x => .ok x.1) := rfl
    rw [e] at h
    obtain ⟨x, h, _⟩ := Res.bind_eq_ok.1 h
    obtain ⟨x, h, _⟩ := Res.bind_eq_ok.1 h
    obtain ⟨_, _, h⟩ := Res.bind_eq_ok.1 h
    obtain ⟨_, _, h⟩ := Res.bind_eq_ok.1 h
    obtain ⟨_, h, _⟩ := Res.bind_eq_ok.1 h
    obtain ⟨w', h, _⟩ := Res.bind_eq_ok.1 h
    rw [h4, List.length_replicate, hn] at h
    have : writeVarsize w (asU32 4294967295) = .panic := rfl
    rw [this] at h
    cases h

end Zs
