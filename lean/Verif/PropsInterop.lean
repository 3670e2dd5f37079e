import Verif.ReadWireMain
import Verif.PropsPlan
import Verif.PropsLink
import Verif.PropsEmit

/-!
# Properties of reading what other implementations write

The zserio format leaves a writer some freedom: which columns of a packed array are stored as
differences, and with how many bits.  A reader has to accept all of these encodings.
-/

namespace Zs

open Spec Emit

namespace Spec

/-- What the format asks for: a column may be packed with any width up to 62 into which the differences
of its neighbouring numbers fit, and any column may be left unpacked. -/
def soundPacking : Packing := fun stored _ plan =>
  ∀ m, plan = some m → m ≤ 62 ∧ ColumnFits m (stored.map (·.2))

theorem soundPacking_readable : soundPacking.Readable := fun _ _ _ h => h

theorem valuePacking_readable : valuePacking.Readable := by
  rintro stored counted plan ⟨sizes, _, hb⟩ m rfl
  obtain ⟨⟨h1, _⟩, h2, _⟩ := (hb m).1 rfl
  exact ⟨by omega, h1⟩

end Spec

/-- **C75** Whichever columns of packed arrays the writer packs, and with whatever widths into which the
differences fit: the generated reader gets the object from these bits, whatever follows them. -/
theorem C75_reads_every_encoding (cfg : Cfg) (t : Ty) (hs : t.Supported cfg) (env : Env) (v : Val)
    (hv : t.Valid cfg env v) (columns last : Columns) (pos : Nat) (bits : List Bool)
    (h : t.Wire cfg soundPacking none env v columns pos bits last) (after : List Bool) :
    (t.ops cfg).read env (t.default.withParams v.params) ⟨pos, bits ++ after⟩ =
      .ok (v, ⟨pos + bits.length, after⟩) := by
  have := ((Ty.acceptGood cfg soundPacking_readable t).field hs env v hv _ _ _ _ h).2 after
  simpa only [Ty.dflt_eq] using this

/-- **C75** for writers that pack every column in the best way, as the zserio specification asks; the
writer of this project does not (C74). -/
theorem C75_reads_best_encoding (cfg : Cfg) (t : Ty) (hs : t.Supported cfg) (env : Env) (v : Val)
    (hv : t.Valid cfg env v) (columns last : Columns) (pos : Nat) (bits : List Bool)
    (h : t.Wire cfg valuePacking none env v columns pos bits last) (after : List Bool) :
    (t.ops cfg).read env (t.default.withParams v.params) ⟨pos, bits ++ after⟩ =
      .ok (v, ⟨pos + bits.length, after⟩) := by
  have := ((Ty.acceptGood cfg valuePacking_readable t).field hs env v hv _ _ _ _ h).2 after
  simpa only [Ty.dflt_eq] using this

/-- **C75** for `from_bytes`: an encoding that starts at the first bit, filled up with any bits. -/
theorem C75_from_bytes (cfg : Cfg) (t : Ty) (hs : t.Supported cfg) (env : Env) (v : Val)
    (hv : t.Valid cfg env v) (columns last : Columns) (bits filled : List Bool)
    (h : t.Wire cfg soundPacking none env v columns 0 bits last) (bytes : List UInt8)
    (hb : binaryBytes bytes = bits ++ filled) :
    fromBytes (fun r => (t.ops cfg).read env (t.default.withParams v.params) r) bytes = .ok v := by
  unfold fromBytes Reader.ofBytes
  rw [bytesBits_binary, hb]
  simp only [C75_reads_every_encoding cfg t hs env v hv columns last 0 bits h filled]
  rfl

/-- **C75**: the encoding is not ambiguous.  Two objects of a type with the same parameters, of which
the encodings agree as far as the shorter one goes, are equal, and so are the encodings. -/
theorem C75_unambiguous (cfg : Cfg) (t : Ty) (hs : t.Supported cfg) (env : Env) (v w : Val)
    (hv : t.Valid cfg env v) (hw : t.Valid cfg env w) (hp : v.params = w.params)
    (columns last columns' last' : Columns) (pos : Nat) (a b after after' : List Bool)
    (ha : t.Wire cfg soundPacking none env v columns pos a last)
    (hb : t.Wire cfg soundPacking none env w columns' pos b last') (h : a ++ after = b ++ after') :
    v = w ∧ a = b := by
  have h1 := C75_reads_every_encoding cfg t hs env v hv _ _ _ _ ha after
  have h2 := C75_reads_every_encoding cfg t hs env w hw _ _ _ _ hb after'
  rw [hp, h, h2] at h1
  simp only [Res.ok.injEq, Prod.mk.injEq, Reader.mk.injEq] at h1
  obtain ⟨h1, _, rfl⟩ := h1
  exact ⟨h1.symm, List.append_cancel_right h⟩

/-- The numbers -1, 0, -1 in a packed array as other writers encode them: with differences of width 1. -/
def Demo.signedPacked : List Bool :=
  binary 8 3 ++ (true :: binary 6 1 ++ binary 8 (-1)) ++ binary 2 1 ++ binary 2 (-1)

theorem Demo.signed_supported (cfg : Cfg) : Demo.signed.Supported cfg := by
  simp [Demo.signed, Ty.Supported, Fields.Supported, Ty.Packable, Scalar.Narrow,
    Scalar.isPackable, Scalar.WidthOk]

theorem Demo.signed_valid (cfg : Cfg) : Demo.signed.Valid cfg ⟨[], []⟩ Demo.signedVal := by
  simp [Demo.signed, Demo.signedVal, FieldInfo.FieldValid, FieldInfo.contentValid_list,
    FieldInfo.expectedParams, forall_get_cons, LengthFits, Val.params, Scalar.InRange, Ty.default,
    Scalar.dflt]

/-- The columns of an array of numbers: one column, at the top. -/
def Demo.topPlan (m : Nat) : Plan := fun q => if q = [] then some m else none

theorem Demo.signed_packed (packing : Packing)
    (h : packing [(.int 8, -1), (.int 8, 0), (.int 8, -1)] [(.int 8, -1), (.int 8, 0), (.int 8, -1)]
      (some 1)) (h0 : packing [] [] none) :
    Demo.signed.Wire Demo.cfg packing none ⟨[], []⟩ Demo.signedVal (fun _ => none) 0
      Demo.signedPacked (fun _ => none) := by
  simp only [Demo.signed, Demo.signedVal, Ty.Wire, Fields.Wire, FieldInfo.Wire, FieldInfo.ContentWire,
    Scalar.Wire, Scalar.isPackable, Val.number, Option.all_none, if_true]
  refine ⟨Demo.signedPacked, [], fun _ => none, by simp, ?_, rfl, rfl⟩
  refine ⟨[], _, fun _ => none, rfl, ⟨rfl, rfl⟩, [], _, fun _ => none, rfl, ⟨rfl, rfl⟩, ?_⟩
  refine ⟨binary 8 3, (true :: binary 6 1 ++ binary 8 (-1)) ++ (binary 2 1 ++ binary 2 (-1)),
    fun _ => none, by decide +kernel, ⟨?_, rfl⟩, ?_⟩
  · refine ⟨by decide, 1, by decide, ⟨by decide, by decide, fun k h1 h2 => by omega⟩, ?_⟩
    decide +kernel
  refine ⟨rfl, Demo.topPlan 1, fun q => if q = [] then some (-1) else none, fun q => ?_, ?_⟩
  · by_cases hq : q = []
    · simpa [hq, Demo.topPlan, Ty.numbers, Val.number, Scalar.isPackable, Scalar.fixed] using h
    · simpa [hq, Demo.topPlan, Ty.numbers, Val.number, Scalar.isPackable, Scalar.fixed] using h0
  refine ⟨[], _, _, rfl, ⟨rfl, rfl⟩, true :: binary 6 1 ++ binary 8 (-1), _,
    fun q => if q = [] then some (-1) else none, rfl, ⟨rfl, binary 8 (-1), rfl, rfl⟩, ?_⟩
  refine ⟨[], _, _, rfl, ⟨rfl, rfl⟩, binary 2 1, _,
    fun q => if q = [] then some 0 else none, rfl, ⟨?_, rfl⟩, ?_⟩
  · funext q
    by_cases hq : q = [] <;> simp [hq]
  refine ⟨[], _, _, rfl, ⟨rfl, rfl⟩, binary 2 (-1), [],
    fun q => if q = [] then some (-1) else none, (List.append_nil _).symm, ⟨?_, rfl⟩, rfl, rfl⟩
  funext q
  by_cases hq : q = [] <;> simp [hq]

/-- The reader gets these numbers though the writer would not write them like that (C74). -/
example (after : List Bool) :
    (Demo.signed.ops Demo.cfg).read ⟨[], []⟩ (Demo.signed.default.withParams Demo.signedVal.params)
      ⟨0, Demo.signedPacked ++ after⟩ = .ok (Demo.signedVal, ⟨27, after⟩) :=
  C75_reads_every_encoding _ _ (Demo.signed_supported _) _ _ (Demo.signed_valid _) _ _ _ _
    (Demo.signed_packed _ (by
      rintro m h
      cases h
      exact ⟨by decide, by simp [Demo.fits_cons, Demo.fits_single]⟩) (by rintro m ⟨⟩)) after

/-- These are not the bits that this writer writes. -/
example : Demo.signedBits ≠ Demo.signedPacked := by
  decide +kernel

theorem Demo.signed_sound :
    Demo.signed.Wire Demo.cfg soundPacking none ⟨[], []⟩ Demo.signedVal (fun _ => none) 0
      Demo.signedPacked (fun _ => none) :=
  Demo.signed_packed _ (by
    rintro m h
    cases h
    exact ⟨by decide, by simp [Demo.fits_cons, Demo.fits_single]⟩) (by rintro m ⟨⟩)

/-- They are the best ones. -/
example (after : List Bool) :
    (Demo.signed.ops Demo.cfg).read ⟨[], []⟩ (Demo.signed.default.withParams Demo.signedVal.params)
      ⟨0, Demo.signedPacked ++ after⟩ = .ok (Demo.signedVal, ⟨27, after⟩) :=
  C75_reads_best_encoding _ _ (Demo.signed_supported _) _ _ (Demo.signed_valid _) _ _ _ _
    (Demo.signed_packed _ (by
      refine ⟨[8, 8, 8], ⟨_, _, rfl, ⟨_, _, rfl, ⟨_, _, rfl, rfl, rfl⟩, rfl⟩, by simp [binary]⟩,
        fun m => ⟨?_, ?_⟩⟩
      · rintro h
        cases h
        refine ⟨⟨by simp [Demo.fits_cons, Demo.fits_single], fun k hk => ?_⟩, by decide, by decide⟩
        cases k with
        | zero => simp [Demo.fits_cons] at hk
        | succ k => omega
      · rintro ⟨⟨h1, h2⟩, _, _⟩
        have := h2 1 (by simp [Demo.fits_cons, Demo.fits_single])
        match m with
        | 0 => simp [Demo.fits_cons] at h1
        | 1 => rfl
        | m + 2 => omega) (by
      refine ⟨[], rfl, fun m => Iff.intro (fun h => nomatch h) (fun h => ?_)⟩
      have := h.2.2
      simp [packedBits, plainBits] at this)) after

example : fromBytes (fun r => (Demo.signed.ops Demo.cfg).read ⟨[], []⟩
    (Demo.signed.default.withParams Demo.signedVal.params) r) [0x03, 0x83, 0xFE, 0xE0] =
    .ok Demo.signedVal :=
  C75_from_bytes _ _ (Demo.signed_supported _) _ _ (Demo.signed_valid _) _ _ _
    [false, false, false, false, false] Demo.signed_sound _ (by decide +kernel)

/-- No other object has an encoding that begins with these bits. -/
example (w : Val) (hw : Demo.signed.Valid Demo.cfg ⟨[], []⟩ w) (hp : w.params = []) (last : Columns)
    (more after : List Bool)
    (h : Demo.signed.Wire Demo.cfg soundPacking none ⟨[], []⟩ w (fun _ => none) 0
      (Demo.signedPacked ++ more) last) : w = Demo.signedVal ∧ more = [] := by
  obtain ⟨h1, h2⟩ := C75_unambiguous _ _ (Demo.signed_supported _) _ _ _ (Demo.signed_valid _) hw
    hp.symm _ _ _ _ _ _ _ (more ++ after) after Demo.signed_sound h (by simp only [List.append_assoc])
  exact ⟨h1.symm, List.self_eq_append_right.1 h2⟩

/-- `struct Wide { packed uint64 a[]; }` -/
def Demo.wide : Ty := .struct [] (.cons { array := some ⟨true, none⟩ } (.scalar (.uint 64)) .nil)

def Demo.wideVal : Val := .obj [] [.list [.nat (2 ^ 63 - 1), .nat (2 ^ 63)]]

/-- The numbers 2^63 - 1 and 2^63, with a difference of width 1. -/
def Demo.wideBits : List Bool :=
  binary 8 2 ++ (true :: binary 6 1 ++ binary 64 (2 ^ 63 - 1)) ++ binary 2 1

theorem Demo.wide_wire :
    Demo.wide.Wire Demo.cfg soundPacking none ⟨[], []⟩ Demo.wideVal (fun _ => none) 0
      Demo.wideBits (fun _ => none) := by
  simp only [Demo.wide, Demo.wideVal, Ty.Wire, Fields.Wire, FieldInfo.Wire, FieldInfo.ContentWire,
    Scalar.Wire, Scalar.isPackable, Val.number, Option.all_none, if_true]
  refine ⟨Demo.wideBits, [], fun _ => none, by simp, ?_, rfl, rfl⟩
  refine ⟨[], _, fun _ => none, rfl, ⟨rfl, rfl⟩, [], _, fun _ => none, rfl, ⟨rfl, rfl⟩, ?_⟩
  refine ⟨binary 8 2, (true :: binary 6 1 ++ binary 64 (2 ^ 63 - 1)) ++ binary 2 1,
    fun _ => none, by decide +kernel, ⟨?_, rfl⟩, ?_⟩
  · refine ⟨by decide, 1, by decide, ⟨by decide, by decide, fun k h1 h2 => by omega⟩, ?_⟩
    decide +kernel
  refine ⟨rfl, Demo.topPlan 1, fun q => if q = [] then some (2 ^ 63) else none, fun q => ?_, ?_⟩
  · by_cases hq : q = []
    · rintro m hm
      simp only [hq, Demo.topPlan, if_true, Option.some.injEq] at hm
      subst hm
      exact ⟨by decide, by
        simp [hq, Ty.numbers, Val.number, Scalar.isPackable, Demo.fits_cons, Demo.fits_single]⟩
    · rintro m hm
      simp [hq, Demo.topPlan] at hm
  refine ⟨[], _, _, rfl, ⟨rfl, rfl⟩, true :: binary 6 1 ++ binary 64 (2 ^ 63 - 1), _,
    fun q => if q = [] then some (2 ^ 63 - 1) else none, rfl,
    ⟨rfl, binary 64 (2 ^ 63 - 1), by simp [Scalar.NumberWire], rfl⟩, ?_⟩
  refine ⟨[], _, _, rfl, ⟨rfl, rfl⟩, binary 2 1, [],
    fun q => if q = [] then some (2 ^ 63) else none, (List.append_nil _).symm, ⟨?_, ?_⟩, rfl, rfl⟩
  · funext q
    by_cases hq : q = [] <;> simp [hq]
  · rfl

/-- Support for the type cannot be dropped: in debug builds, the reader panics at encodings of 64-bit
numbers on both sides of 2^63. -/
theorem C75_debug_violated : ∃ (cfg : Cfg) (t : Ty) (env : Env) (v : Val) (bits : List Bool),
    cfg.md = .debug ∧ t.Valid cfg env v ∧
    t.Wire cfg soundPacking none env v (fun _ => none) 0 bits (fun _ => none) ∧
    (t.ops cfg).read env (t.default.withParams v.params) ⟨0, bits⟩ = .panic :=
  ⟨Demo.cfg, Demo.wide, ⟨[], []⟩, Demo.wideVal, Demo.wideBits, rfl, by
    simp [Demo.wide, Demo.wideVal, FieldInfo.FieldValid, FieldInfo.contentValid_list,
      FieldInfo.expectedParams, forall_get_cons, LengthFits, Val.params, Scalar.InRange, Ty.default,
      Scalar.dflt], Demo.wide_wire, by decide +kernel⟩

/-- **C75** for the emitted lines: the reader, executed on a default object with the parameters of the
object, gets the object from each of its encodings. -/
theorem C75_emitted (cfg : Cfg) (E : Nat → Env → Prop) (t : Ty) (b : Bodies) (c : Codec)
    (ok : Act → Core → Prop) (h : Generated cfg E t b c ok) (hs : t.Supported cfg) (env : Env)
    (k : Core) (hv : t.Valid cfg env (viewOf t k)) (hm : Met cfg E t k) (columns last : Columns)
    (pos : Nat) (bits after : List Bool)
    (hl : t.Wire cfg soundPacking none env (viewOf t k) columns pos bits last) (k' : Core)
    (hn : k'.node = Node.new) (hk : viewOf t k' = t.default.withParams (viewOf t k).params)
    (hr : k'.r = ⟨pos, bits ++ after⟩) :
    Executes cfg (b.read false) k' (fun k => (viewOf t k, k.r))
      (.ok (viewOf t k, ⟨pos + bits.length, after⟩)) := by
  have hd : c.read (viewOf t k') k'.r = .ok (viewOf t k, ⟨pos + bits.length, after⟩) := by
    have := C75_reads_every_encoding cfg t hs env _ hv columns last pos bits hl after
    rw [generated_ops h] at this
    rw [hk, hr]
    exact this
  rw [← hd]
  exact (generated_implements h).read k' (generated_default h hv hm hk hn hd) hn

/-- **C75 (partial)** for all functions that are emitted for a schema, with the Rust code of their
expressions.  Missing: what C73 leaves out. -/
theorem C75_whole_schema_partial {fo : FloatOps} {O : Type} {cfg : Cfg} {md build : Mode}
    {look : Env → World fo.F O} (t : SourceTy fo.F O) (c : Codec) (hacc : t.Accepts md)
    (hl : t.Linked cfg md build c) (hs : (t.meaning look).Supported cfg) (env : Env) (v : Val)
    (hv : (t.meaning look).Valid cfg env v) (hin : t.InRange md false v) (columns last : Columns) (pos : Nat)
    (bits after : List Bool)
    (h : (t.meaning look).Wire cfg soundPacking none env v columns pos bits last) :
    c.read ((t.meaning look).default.withParams v.params) ⟨pos, bits ++ after⟩ =
      .ok (v, ⟨pos + bits.length, after⟩) := by
  obtain ⟨c0, ho, ha⟩ := Link.ty_agrees cfg md build look t hacc c hl
  have hr := C75_reads_every_encoding cfg _ hs env v hv columns last pos bits h after
  rw [← Ty.dflt_eq cfg] at hr ⊢
  rw [ho] at hr ⊢
  exact ha.read false _ _ _ _ hr hin

/-- The emitted reader for `struct Signed { packed int8 a[]; }` gets the numbers from the bits of another
writer. -/
example (E : Nat → Env → Prop) (b : Bodies) (c : Codec) (ok : Act → Core → Prop)
    (h : Generated Demo.cfg E Demo.signed b c ok) (k k' : Core)
    (hv : viewOf Demo.signed k = Demo.signedVal) (hm : Met Demo.cfg E Demo.signed k)
    (hn : k'.node = Node.new) (hk : viewOf Demo.signed k' = Demo.signed.default)
    (hr : k'.r = ⟨0, Demo.signedPacked⟩) :
    Executes Demo.cfg (b.read false) k' (fun k => (viewOf Demo.signed k, k.r))
      (.ok (Demo.signedVal, ⟨27, []⟩)) := by
  have := C75_emitted Demo.cfg E Demo.signed b c ok h (Demo.signed_supported _) ⟨[], []⟩ k
    (by rw [hv]; exact Demo.signed_valid _) hm _ _ 0 Demo.signedPacked []
    (by rw [hv]; exact Demo.signed_sound) k' hn (by rw [hk, hv]; rfl)
    (by rw [hr, List.append_nil])
  rw [hv] at this
  exact this

/-- The functions emitted for `Outer` and `Inner` (see `Verif/PropsLink.lean`) read every encoding of an
object. -/
example (cfg : Cfg) (build : Mode) (columns last : Columns) (bits : List Bool)
    (h : (linkOuter.meaning sourceLook).Wire cfg soundPacking none ⟨[], []⟩ linkVal columns 0 bits last) :
    ∃ c, linkOuter.Linked cfg .debug build c ∧
      c.read (linkOuter.meaning sourceLook).default ⟨0, bits⟩ = .ok (linkVal, ⟨bits.length, []⟩) := by
  obtain ⟨c, hc⟩ := C73_every_schema cfg .debug build linkOuter linkOuter_emittable rfl
  have := C75_whole_schema_partial (look := sourceLook) linkOuter c linkOuter_accepts hc
    (linkOuter_supported cfg) ⟨[], []⟩ linkVal (linkOuter_valid cfg) linkOuter_inRange columns last 0 bits [] h
  rw [List.append_nil, Nat.zero_add] at this
  exact ⟨c, hc, this⟩

end Zs
