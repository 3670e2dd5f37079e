import Verif.SchemaTally

/-!
# Lemmas: the layout of generated types

Whenever a generated writer succeeds, the bits it appends have the layout of the specification.  For
the packed variants the context tree agrees with what the specification knows of the columns
(`Node.Sim`).
-/

namespace Zs

open Spec

/-! ## Contexts and columns -/

/-- A context agrees with a column. -/
def Column (c : DeltaContext) (plan : Option Nat) (last : Option Int) : Prop :=
  (c.processingStarted = false ∧ last = none ∧
    plan = (DeltaContext.finishInit { c with processingStarted := true }).decision) ∨
  (c.processingStarted = true ∧ plan = c.decision ∧ ∃ x, last = some x ∧
    (c.isPacked = true → c.maxBitNumber > 0 → (c.previousElement : Int) % 2 ^ 64 = x % 2 ^ 64))

/-- A context tree agrees with the columns. -/
def Node.Sim (n : Node) (plan : Plan) (st : Columns) : Prop :=
  ∀ q c, n.at q = some c → Column c (plan q) (st q)

theorem Node.Fresh.sim {n : Node} (h : n.Fresh) : n.Sim n.plan (fun _ => none) := by
  intro q c hc
  exact .inl ⟨h q c hc, rfl, by simp [Node.plan, hc]⟩

theorem Node.Sim.child {n : Node} {plan : Plan} {st : Columns} (h : n.Sim plan st) {i : Nat}
    {c : Node} (hc : n.children[i]? = some c) :
    c.Sim (plan.field i) (fun q => st (i :: q)) := by
  intro q d hd
  exact h (i :: q) d (by simp [Node.at, hc, hd])

/-- The columns when those below field `i` are replaced. -/
def withField (i : Nat) (st sub : Columns) : Columns := fun q => match q with
  | [] => st []
  | j :: r => if j = i then sub r else st (j :: r)

theorem withField_self (i : Nat) (st sub : Columns) (q : List Nat) :
    withField i st sub (i :: q) = sub q := by simp [withField]

theorem withField_other {i : Nat} {st sub : Columns} {q : List Nat} (h : ∀ r, q ≠ i :: r) :
    withField i st sub q = st q := by
  cases q with
  | nil => rfl
  | cons j r =>
    have : j ≠ i := fun e => h r (by rw [e])
    simp [withField, this]

theorem Node.Sim.set {cs : List Node} {own : Option DeltaContext} {plan : Plan} {st sub : Columns}
    (h : (Node.mk cs own).Sim plan st) {i : Nat} {c : Node} (hi : ∃ d, cs[i]? = some d)
    (hc : c.Sim (plan.field i) sub) :
    (Node.mk (cs.set i c) own).Sim plan (withField i st sub) := by
  obtain ⟨d, hi⟩ := hi
  have hlt : i < cs.length := (List.getElem?_eq_some_iff.1 hi).1
  intro q e he
  cases q with
  | nil => exact h [] e he
  | cons j r =>
    simp only [Node.at, Node.children] at he
    by_cases hj : j = i
    · subst hj
      rw [List.getElem?_set_self hlt] at he
      rw [withField_self]
      exact hc r e he
    · rw [List.getElem?_set_ne (Ne.symm hj)] at he
      rw [withField_other (by intro r' e'; cases e'; exact hj rfl)]
      exact h (j :: r) e he

/-! ## Writers that follow a layout -/

/-- The context tree agrees with the columns, in a packed array. -/
def Before (pack : Option Plan) (n : Node) (st : Columns) : Prop := match pack with
  | none => True
  | some plan => n.Sim plan st

/-- It agrees with the columns afterwards; outside of packed arrays columns do not change. -/
def After (pack : Option Plan) (n : Node) (st st' : Columns) : Prop := match pack with
  | none => st' = st
  | some plan => n.Sim plan st'

/-- Whenever the writer succeeds, it appends bits of the layout. -/
def Steps (pack : Option Plan) (write : Node → Writer → Res (Writer × Node)) (l : Layout) : Prop :=
  ∀ n w w' n' st, Before pack n st → write n w = .ok (w', n') → ∃ bits st',
    w'.bits = w.bits ++ bits ∧ l st w.bits.length bits st' ∧ After pack n' st st'

/-- The same without context. -/
def Lays (write : Writer → Res Writer) (l : Layout) : Prop :=
  ∀ w w' st, write w = .ok w' → ∃ bits, w'.bits = w.bits ++ bits ∧ l st w.bits.length bits st

theorem WritesAs.lays {write : Writer → Res Writer} {p : List Bool → Prop} (h : WritesAs write p) :
    Lays write (Layout.some p) := by
  intro w w' st hw
  obtain ⟨bits, e, hp⟩ := h w w' hw
  exact ⟨bits, e, hp, rfl⟩

theorem Lays.pure : Lays (fun w => Pure.pure w) Layout.empty := by
  intro w w' st hw
  cases hw
  exact ⟨[], by simp, rfl, rfl⟩

theorem Lays.bind {a b : Writer → Res Writer} {l m : Layout} (ha : Lays a l) (hb : Lays b m) :
    Lays (fun w => a w >>= b) (Layout.seq l m) := by
  intro w w' st h
  obtain ⟨w1, h1, h2⟩ := Res.bind_eq_ok.1 h
  obtain ⟨x, e1, hx⟩ := ha _ _ st h1
  obtain ⟨y, e2, hy⟩ := hb _ _ st h2
  refine ⟨x ++ y, by rw [e2, e1, List.append_assoc], x, y, st, rfl, hx, ?_⟩
  rw [e1, List.length_append] at hy
  exact hy

theorem Steps.seq {pack : Option Plan} {a : Writer → Res Writer}
    {b : Node → Writer → Res (Writer × Node)} {l m : Layout} (ha : Lays a l) (hb : Steps pack b m) :
    Steps pack (fun n w => a w >>= fun w => b n w) (Layout.seq l m) := by
  intro n w w' n' st hB h
  obtain ⟨w1, h1, h2⟩ := Res.bind_eq_ok.1 h
  obtain ⟨x, e1, hx⟩ := ha _ _ st h1
  obtain ⟨y, st', e2, hy, hA⟩ := hb _ _ _ _ _ hB h2
  refine ⟨x ++ y, st', by rw [e2, e1, List.append_assoc], ⟨x, y, st, rfl, hx, ?_⟩, hA⟩
  rw [e1, List.length_append] at hy
  exact hy

/-- The context tree is left alone. -/
theorem Steps.keep {pack : Option Plan} {a : Writer → Res Writer} {l : Layout} (ha : Lays a l) :
    Steps pack (fun n w => a w >>= fun w => Pure.pure (w, n)) l := by
  intro n w w' n' st hB h
  obtain ⟨w1, h1, h2⟩ := Res.bind_eq_ok.1 h
  cases h2
  obtain ⟨x, e1, hx⟩ := ha _ _ st h1
  refine ⟨x, st, e1, hx, ?_⟩
  cases pack with
  | none => rfl
  | some plan => exact hB

theorem Steps.lays {a : Node → Writer → Res (Writer × Node)} {l : Layout} (h : Steps none a l)
    (n : Node) : Lays (fun w => a n w >>= fun p => Pure.pure p.1) l := by
  intro w w' st hw
  obtain ⟨⟨w1, n1⟩, h1, h2⟩ := Res.bind_eq_ok.1 hw
  cases h2
  obtain ⟨bits, st', e, hl, hA⟩ := h n w w1 n1 st trivial h1
  simp only [After] at hA
  subst hA
  exact ⟨bits, e, hl⟩

/-! ## Alignment -/

theorem least_pad {a : Nat} (ha : a ≠ 0) (pos : Nat) :
    a ∣ pos + (a - pos % a) % a ∧ ∀ j, a ∣ pos + j → (a - pos % a) % a ≤ j := by
  have hlt : pos % a < a := Nat.mod_lt _ (Nat.pos_of_ne_zero ha)
  have hdm := Nat.div_add_mod pos a
  by_cases h0 : pos % a = 0
  · have e : (a - pos % a) % a = 0 := by rw [h0, Nat.sub_zero, Nat.mod_self]
    rw [e]
    exact ⟨by rw [Nat.add_zero]; exact Nat.dvd_of_mod_eq_zero h0, fun j _ => Nat.zero_le j⟩
  · have e : (a - pos % a) % a = a - pos % a := Nat.mod_eq_of_lt (by omega)
    rw [e]
    refine ⟨?_, fun j hj => ?_⟩
    · have : pos + (a - pos % a) = a * (pos / a) + a := by omega
      rw [this]
      exact Nat.dvd_add (Nat.dvd_mul_right ..) (Nat.dvd_refl a)
    · have h1 : a ∣ pos % a + j := by
        have : pos + j = a * (pos / a) + (pos % a + j) := by omega
        rw [this] at hj
        exact (Nat.dvd_add_right (Nat.dvd_mul_right ..)).1 hj
      have := Nat.le_of_dvd (by omega) h1
      omega

theorem alignWriter_lays (a : Nat) : Lays (fun w => Zs.alignWriter w a) (Layout.align a) := by
  intro w w' st h
  unfold Zs.alignWriter at h
  split at h
  · cases h
  · rename_i h0
    simp only [Writer.skip] at h
    cases h
    obtain ⟨h1, h2⟩ := least_pad h0 w.bits.length
    exact ⟨_, rfl, rfl, _, rfl, h1, h2⟩

theorem FieldOps.align_lays (f : FieldOps) : Lays (fun w => f.alignWriter w)
    (Layout.seq (if f.info.alignment = 0 then Layout.empty else Layout.align f.info.alignment)
      (if f.info.offset = .plain then Layout.align 8 else Layout.empty)) := by
  refine Lays.bind ?_ ?_
  · by_cases h : f.info.alignment = 0
    · simp only [h, if_true]; exact Lays.pure
    · simp only [h, if_false]; exact alignWriter_lays _
  · by_cases h : f.info.offset = .plain
    · simp only [h, if_true]; exact alignWriter_lays _
    · simp only [h, if_false]; exact Lays.pure

theorem seq_assoc {a b c : Layout} {st st' : Columns} {pos : Nat} {bits : List Bool}
    (h : Layout.seq (Layout.seq a b) c st pos bits st') :
    Layout.seq a (Layout.seq b c) st pos bits st' := by
  obtain ⟨xy, z, s2, rfl, ⟨x, y, s1, rfl, ha, hb⟩, hc⟩ := h
  refine ⟨x, y ++ z, s1, by rw [List.append_assoc], ha, y, z, s2, rfl, hb, ?_⟩
  rw [List.length_append, ← Nat.add_assoc] at hc
  exact hc

/-! ## Numbers in packed arrays -/

theorem subI64_mod {md : Mode} {a b d : Int} (h : subI64 md a b = .ok d) :
    d % 2 ^ 64 = (a - b) % 2 ^ 64 := by
  unfold subI64 at h
  split at h
  · cases h; rfl
  · cases md with
    | debug => cases h
    | release =>
      cases h
      unfold wrapSigned signExtend
      split <;> omega

theorem asI64_mod (u : Nat) : asI64 u % 2 ^ 64 = (u : Int) % 2 ^ 64 := by
  unfold asI64
  split <;> omega

theorem delta_lays {md : Mode} {e : Elem Val} {v : Val} {x : Int} {u : Nat} {plain : List Bool → Prop}
    (hw : WritesAs (fun w => e.write w v) plain) (hu : e.toU64 v = .ok u)
    (hx : (u : Int) % 2 ^ 64 = x % 2 ^ 64) {c c' : DeltaContext} {plan : Option Nat}
    {last : Option Int} (hc : Column c plan last) {w w' : Writer}
    (h : c.write md e w v = .ok (w', c')) (st : Columns) (hst : st [] = last) (pos : Nat) :
    ∃ bits, w'.bits = w.bits ++ bits ∧
      packedNumber plan plain x st pos bits (fun q => if q = [] then some x else st q) ∧
      Column c' plan (some x) := by
  have hun : ∀ (c c' : DeltaContext) (w w' : Writer), c.writeUnpacked e w v = .ok (w', c') →
      c' = { c with previousElement := u } ∧ ∃ bits, w'.bits = w.bits ++ bits ∧ plain bits := by
    intro c c' w w' h
    unfold DeltaContext.writeUnpacked at h
    rw [hu, Res.ok_bind] at h
    obtain ⟨w1, h1, h⟩ := Res.bind_eq_ok.1 h
    cases h
    exact ⟨rfl, hw _ _ h1⟩
  unfold packedNumber
  unfold DeltaContext.write at h
  rcases hc with ⟨hs, rfl, rfl⟩ | ⟨hs, rfl, p, rfl, hp⟩
  · rw [hs] at h
    simp only [Bool.not_false, if_true] at h
    generalize hd : DeltaContext.finishInit { c with processingStarted := true } = d at h ⊢
    have hds : d.processingStarted = true := by
      rw [← hd]; unfold DeltaContext.finishInit
      split
      · rfl
      · simp only; repeat' split
        all_goals rfl
    obtain ⟨w1, h1, h⟩ := Res.bind_eq_ok.1 h
    obtain ⟨rfl, rest, e2, hrest⟩ := hun _ _ _ _ h
    have hdesc : w1.bits = w.bits ++ descriptor d.decision := by
      unfold DeltaContext.writeDescriptor at h1
      simp only [Writer.writeBool, Res.unwrap_ok, Res.ok_bind] at h1
      unfold DeltaContext.decision
      split at h1
      · rename_i hk
        rw [if_pos hk]
        cases h2 : writeUnsignedBits (w.append [d.isPacked]) d.maxBitNumber
            DeltaContext.maxBitNumberBits with
        | ok w2 =>
          rw [h2] at h1
          cases h1
          obtain ⟨bits, e, rfl⟩ := writesAs_unsigned _ _ h2
          rw [e, hk]
          simp [Writer.append, descriptor, DeltaContext.maxBitNumberBits]
        | err _ => rw [h2] at h1; cases h1
        | panic => rw [h2] at h1; cases h1
      · rename_i hk
        rw [if_neg hk]
        cases h1
        simp only [Bool.not_eq_true] at hk
        rw [hk]; rfl
    refine ⟨descriptor d.decision ++ rest, by rw [e2, hdesc, List.append_assoc], ⟨rfl, ?_⟩, ?_⟩
    · rw [hst]
      exact ⟨rest, hrest, rfl⟩
    · exact .inr ⟨hds, rfl, x, rfl, fun _ _ => hx⟩
  · rw [hs] at h
    simp only [Bool.not_true, Bool.false_eq_true, if_false] at h
    rw [hst]
    cases hk : c.isPacked with
    | false =>
      rw [hk] at h
      simp only [Bool.not_false, if_true] at h
      obtain ⟨rfl, bits, e, hb⟩ := hun _ _ _ _ h
      refine ⟨bits, e, ⟨rfl, ?_⟩, ?_⟩
      · simp only [DeltaContext.decision, hk]; exact hb
      · exact .inr ⟨hs, rfl, x, rfl, fun _ _ => hx⟩
    | true =>
      rw [hk] at h
      simp only [Bool.not_true, Bool.false_eq_true, if_false] at h
      by_cases hm : c.maxBitNumber > 0
      · rw [if_pos hm, hu, Res.ok_bind] at h
        obtain ⟨d, hd, h⟩ := Res.bind_eq_ok.1 h
        obtain ⟨w1, h1, h⟩ := Res.bind_eq_ok.1 h
        cases h
        have hle : c.maxBitNumber + 1 ≤ 64 := by
          unfold writeSignedBits at h1
          simp only [Writer.writeSigned] at h1
          split at h1
          · cases h1
          · omega
        obtain ⟨bits, e, rfl⟩ := writesAs_signed _ _ h1
        refine ⟨_, e, ⟨rfl, ?_⟩, ?_⟩
        · simp only [DeltaContext.decision, hk, if_true]
          have hd' := subI64_mod hd
          have h3 := asI64_mod u
          have h4 := asI64_mod c.previousElement
          have h5 := hp hk hm
          have hcong : d % 2 ^ 64 = (x - p) % 2 ^ 64 := by
            rw [hd', Int.sub_emod, h3, h4, hx, h5, ← Int.sub_emod]
          cases hmb : c.maxBitNumber with
          | zero => omega
          | succ m => rw [hmb] at hle; exact binary_congr hle hcong
        · exact .inr ⟨rfl, by simp [DeltaContext.decision, hk], x, rfl, fun _ _ => hx⟩
      · rw [if_neg hm] at h
        cases h
        have h0 : c.maxBitNumber = 0 := by omega
        refine ⟨[], by simp, ⟨rfl, ?_⟩, ?_⟩
        · simp [DeltaContext.decision, hk, h0]
        · exact .inr ⟨hs, rfl, x, rfl, fun _ h => absurd h hm⟩

theorem packable_steps {md : Mode} {e : Elem Val} {v : Val} {x : Int} {u : Nat}
    {plain : List Bool → Prop}
    (hw : WritesAs (fun w => e.write w v) plain) (hu : e.toU64 v = .ok u)
    (hx : (u : Int) % 2 ^ 64 = x % 2 ^ 64) (plan : Plan) :
    Steps (some plan) (fun n w => (e.packable md).writePacked n w v)
      (packedNumber (plan []) plain x) := by
  intro n w w' n' st hB h
  obtain ⟨cs, own⟩ := n
  cases own with
  | none => cases h
  | some c =>
    simp only [packable_write] at h
    obtain ⟨⟨w1, c1⟩, h1, h⟩ := Res.bind_eq_ok.1 h
    cases h
    obtain ⟨bits, e1, hl, hcol⟩ := delta_lays hw hu hx (hB [] c rfl) h1 st rfl w.bits.length
    refine ⟨bits, _, e1, hl, ?_⟩
    intro q d hd
    cases q with
    | nil =>
      have : d = c1 := by
        simp only [Node.at, Node.context] at hd
        exact (Option.some.inj hd).symm
      subst this
      exact hcol
    | cons i r => exact hB (i :: r) d hd

theorem Steps.inField {write : Node → Writer → Res (Writer × Node)} {l : Layout} {plan : Plan}
    {i : Nat} (h : Steps (some (plan.field i)) write l) :
    Steps (some plan) (fun n w => n.onChild i (fun c => write c w)) (Layout.inField i l) := by
  intro n w w' n' st hB hw
  obtain ⟨cs, own⟩ := n
  simp only [Node.onChild] at hw
  cases hi : cs[i]? with
  | none => rw [hi] at hw; cases hw
  | some child =>
    rw [hi] at hw
    obtain ⟨⟨w1, c1⟩, h1, hw⟩ := Res.bind_eq_ok.1 hw
    cases hw
    obtain ⟨bits, st', e, hl, hA⟩ := h _ _ _ _ _ (Node.Sim.child hB hi) h1
    refine ⟨bits, withField i st st', e, ⟨?_, fun q hq => withField_other hq⟩,
      Node.Sim.set hB ⟨_, hi⟩ hA⟩
    rw [show (fun q => withField i st st' (i :: q)) = st' from funext fun q => withField_self ..]
    exact hl

/-! ## Types -/

/-- Everything needed of a type. -/
structure WireGood (t : TypeOps) (valid : Env → Val → Prop) (wire : Option Plan → Env → Val → Layout)
    (plain packed : Prop) : Prop where
  coherent : t.Coherent
  field : plain → ∀ env v, valid env v → Lays (fun w => t.write env v w) (wire none env v)
  elem : plain → ∀ env v, valid env v →
    Lays (fun w => (t.arrayTrait env).write w v) (wire none env v)
  packed : packed → ∀ env v, valid env v → ∀ plan,
    Steps (some plan) (fun n w => t.writePacked env v n w) (wire (some plan) env v)

theorem Scalar.wire_none (cfg : Cfg) (s : Scalar) (env : Env) (v : Val) :
    s.Wire cfg none env v = Layout.some (s.PlainWire cfg env v) := by
  unfold Scalar.Wire Scalar.PlainWire
  cases v.number <;> rfl

theorem Scalar.packed_steps {cfg : Cfg} {s : Scalar} (hp : s.isPackable = true) (hw : s.WidthOk)
    {env : Env} {v : Val} (hv : s.InRange cfg env v) (plan : Plan) :
    Steps (some plan) (fun n w => (s.ops cfg).writePacked env v n w)
      (s.Wire cfg (some plan) env v) := by
  obtain ⟨x, u, hx, hu, hmod⟩ := Scalar.toU64_number hp hv
  have h1 := Scalar.elem_writesAs hw hv
  unfold Scalar.PlainWire at h1
  unfold Scalar.Wire
  rw [hx] at h1 ⊢
  exact packable_steps h1 hu hmod plan

theorem Scalar.wireGood (cfg : Cfg) (s : Scalar) :
    WireGood (s.ops cfg) (s.InRange cfg) (fun pack => s.Wire cfg (if s.isPackable then pack else none))
      s.WidthOk (s.isPackable = true ∧ s.WidthOk) where
  coherent := Scalar.coherent cfg s
  field hw env v hv := by
    have := (Scalar.writesAs hw hv).lays
    rw [← Scalar.wire_none] at this
    simp only [ite_self]
    exact this
  elem hw env v hv := by
    have := (Scalar.elem_writesAs hw hv).lays
    rw [← Scalar.wire_none] at this
    simp only [ite_self]
    exact this
  packed hp env v hv plan := by
    simp only [hp.1, if_true]
    exact Scalar.packed_steps hp.1 hp.2 hv plan

theorem numberCodec_wireGood {cfg : Cfg} {base : Scalar} {dflt : Val} {number item : Val → Res Val}
    {own : Option DeltaContext} {valid : Env → Val → Prop}
    {wire : Option Plan → Env → Val → Layout} {a b : Prop}
    (hnum : ∀ env v, valid env v → ∃ x, number v = .ok x ∧ base.InRange cfg ⟨[], []⟩ x ∧
      wire none env v = base.Wire cfg none ⟨[], []⟩ x ∧
      ∀ plan, wire (some plan) env v = Layout.inField 0 (base.Wire cfg (some (plan.field 0)) ⟨[], []⟩ x))
    (ha : a → base.WidthOk) (hb : b → base.isPackable = true ∧ base.WidthOk) :
    WireGood (numberCodec cfg base dflt number item own).ops valid wire a b := by
  have plain : a → ∀ env v, valid env v →
      Lays (fun w => (numberCodec cfg base dflt number item own).write v w) (wire none env v) := by
    intro h env v hv
    obtain ⟨x, hx, hr, h1, _⟩ := hnum env v hv
    rw [h1, Scalar.wire_none]
    simp only [numberCodec, hx, Res.ok_bind]
    exact (Scalar.writesAs (ha h) hr).lays
  refine ⟨Codec.coherent _, plain, plain, ?_⟩
  · intro h env v hv plan
    obtain ⟨x, hx, hr, _, h2⟩ := hnum env v hv
    rw [h2]
    simp only [Codec.ops, numberCodec, hx, Res.ok_bind]
    exact Steps.inField (Scalar.packed_steps (hb h).1 (hb h).2 hr _)

/-! ## Fields -/

/-- The layout of an array. -/
def Layout.ofArray (packing : Packing) (offsets header packed : Bool)
    (one : Option Plan → Val → Layout) (numbers : Bool → Val → List Nat → List Entry)
    (xs : List Val) : Layout :=
  Layout.seq (if header then Layout.some (IsVaruint 5 xs.length) else Layout.empty)
    (if packed then
      fun before pos bits after => after = before ∧ ∃ plan last,
        (∀ q, packing (xs.flatMap (fun x => numbers false x q))
          (xs.flatMap (fun x => numbers true x q)) (plan q)) ∧
        Layout.elements offsets (xs.map (one (some plan))) (fun _ => none) pos bits last
    else Layout.elements offsets (xs.map (one none)))

theorem alignElem_lays (offsets : Bool) : Lays (fun w => alignElemWriter offsets w)
    (if offsets then Layout.align 8 else Layout.empty) := by
  unfold alignElemWriter
  cases offsets
  · exact Lays.pure
  · exact alignWriter_lays 8

theorem writeAll_lays {t : ArrayTrait Val} {offsets : Bool} {one : Val → Layout} {xs : List Val}
    (h : ∀ x ∈ xs, Lays (fun w => t.write w x) (one x)) :
    Lays (fun w => ArrayDef.writeAll t offsets w xs) (Layout.elements offsets (xs.map one)) := by
  induction xs with
  | nil => exact Lays.pure
  | cons x xs ih =>
    have hone : (fun w => ArrayDef.writeAll t offsets w (x :: xs)) = (fun w =>
      alignElemWriter offsets w >>= fun w => t.write w x >>= fun w =>
        ArrayDef.writeAll t offsets w xs) := rfl
    rw [hone]
    exact (alignElem_lays offsets).bind ((h x (List.mem_cons_self ..)).bind
      (ih (fun y hy => h y (List.mem_cons_of_mem _ hy))))

theorem writePackedAll_lays {t : ArrayTrait Val} {offsets : Bool} {plan : Plan} {one : Val → Layout}
    {xs : List Val} (h : ∀ x ∈ xs, Steps (some plan) (fun n w => t.writePacked n w x) (one x))
    {n : Node} {st : Columns} (hs : n.Sim plan st) {w w' : Writer}
    (hw : ArrayDef.writePackedAll t offsets n w xs = .ok w') :
    ∃ bits st', w'.bits = w.bits ++ bits ∧
      Layout.elements offsets (xs.map one) st w.bits.length bits st' := by
  induction xs generalizing n st w with
  | nil => cases hw; exact ⟨[], st, by simp, rfl, rfl⟩
  | cons x xs ih =>
    simp only [ArrayDef.writePackedAll] at hw
    obtain ⟨w1, h1, hw⟩ := Res.bind_eq_ok.1 hw
    obtain ⟨⟨w2, n2⟩, h2, hw⟩ := Res.bind_eq_ok.1 hw
    obtain ⟨b1, e1, l1⟩ := alignElem_lays offsets _ _ st h1
    obtain ⟨b2, st2, e2, l2, hA⟩ := h x (List.mem_cons_self ..) _ _ _ _ st hs h2
    obtain ⟨b3, st3, e3, l3⟩ := ih (fun y hy => h y (List.mem_cons_of_mem _ hy)) hA hw
    refine ⟨b1 ++ (b2 ++ b3), st3, by rw [e3, e2, e1]; simp [List.append_assoc], ?_⟩
    rw [e1, List.length_append] at l2
    rw [e2, e1, List.length_append, List.length_append] at l3
    exact ⟨b1, b2 ++ b3, st, rfl, l1, b2, b3, st2, rfl, l2, l3⟩

/-- The packing rule permits what the implementation does. -/
def Spec.Packing.Allows (packing : Packing) : Prop :=
  ∀ stored counted plan, exactPacking stored counted plan → packing stored counted plan

theorem initAll_tallies {t : ArrayTrait Val} {counted : Val → List Nat → List Entry} {xs : List Val}
    (h : ∀ v ∈ xs, ∀ n n' cols, n.Tallies cols → t.initContext n v = .ok n' →
      n'.Tallies (fun q => cols q ++ counted v q)) {n n' : Node} {cols : List Nat → List Entry}
    (hn : n.Tallies cols) (hi : ArrayDef.initAll t n xs = .ok n') :
    n'.Tallies (fun q => cols q ++ xs.flatMap (fun x => counted x q)) := by
  induction xs generalizing n cols with
  | nil => cases hi; exact hn.congr (fun q => by simp)
  | cons x xs ih =>
    simp only [ArrayDef.initAll] at hi
    obtain ⟨n1, h1, hi⟩ := Res.bind_eq_ok.1 hi
    have t1 := h x (List.mem_cons_self ..) _ _ _ hn h1
    have t2 := ih (fun v hv => h v (List.mem_cons_of_mem _ hv)) t1 hi
    exact t2.congr (fun q => by simp [List.append_assoc])

theorem array_lays {packing : Packing} (hQ : packing.Allows) {a : ArrayDef Val} {offsets : Bool}
    {one : Option Plan → Val → Layout} {numbers : Bool → Val → List Nat → List Entry}
    {xs : List Val}
    (hlen : a.fixedSize = none → xs.length < 2 ^ 31)
    (hplain : a.isPacked = false → ∀ x ∈ xs, Lays (fun w => a.arrayTrait.write w x) (one none x))
    (hpacked : a.isPacked = true → ∀ x ∈ xs, ∀ plan,
      Steps (some plan) (fun n w => a.arrayTrait.writePacked n w x) (one (some plan) x))
    (hcreate : a.arrayTrait.createContext.Tallies (fun _ => []))
    (hinit : a.isPacked = true → ∀ v ∈ xs, ∀ n n' cols, n.Tallies cols →
      a.arrayTrait.initContext n v = .ok n' → n'.Tallies (fun q => cols q ++ numbers true v q)) :
    Lays (fun w => a.zserioWrite w xs offsets)
      (Layout.ofArray packing offsets a.fixedSize.isNone a.isPacked one numbers xs) := by
  refine Lays.bind ?_ ?_
  · unfold ArrayDef.writeLength
    cases hf : a.fixedSize with
    | some k =>
      intro w w' st h
      simp only at h
      split at h
      · cases h; exact ⟨[], by simp, rfl, rfl⟩
      · cases h
    | none =>
      have hl := hlen hf
      have e : asU32 xs.length = xs.length := Nat.mod_eq_of_lt (by omega)
      simp only [e]
      exact (writesAs_varsize hl).lays
  · unfold ArrayDef.writeElements
    cases hp : a.isPacked with
    | false =>
      simp only [Bool.false_eq_true, if_false]
      by_cases hx : xs = []
      · subst hx; exact Lays.pure
      · simp only [List.isEmpty_eq_false_iff.2 hx, Bool.false_eq_true, if_false]
        exact writeAll_lays (hplain hp)
    | true =>
      simp only [if_true]
      intro w w' st h
      by_cases hx : xs = []
      · subst hx; cases h
        refine ⟨[], by simp, rfl, fun _ => none, fun _ => none, fun q => hQ _ _ _ ?_, rfl, rfl⟩
        exact exactPacking_nil _
      · simp only [List.isEmpty_eq_false_iff.2 hx, Bool.false_eq_true, if_false] at h
        obtain ⟨n, hn, h⟩ := Res.bind_eq_ok.1 h
        have ht := initAll_tallies (hinit hp) hcreate hn
        obtain ⟨bits, st', e, hl⟩ := writePackedAll_lays (one := one (some n.plan))
          (fun x hx => hpacked hp x hx n.plan) ht.fresh.sim h
        exact ⟨bits, e, rfl, n.plan, st', fun q => hQ _ _ _ (ht.exact _ q), hl⟩

/-- The claim about one field. -/
def FieldClaim (info : FieldInfo) (delta packed : Bool) (a b : Prop) : Prop :=
  match info.array with
  | none => if (packed && delta) = true then b else a
  | some ar => if ((ar.isPacked || packed) && !info.isOffsetField) = true then b else a

namespace FieldOps

variable {f : FieldOps} {valid : Env → Val → Prop} {wire : Option Plan → Env → Val → Layout}
  {a b : Prop} {packing : Packing} {numbers : Bool → Env → Val → List Nat → List Entry} {d : Val}
  {pk : Bool → Prop}

theorem content_steps (hQ : packing.Allows) (hg : WireGood f.ty valid wire a b)
    (hi : InitGood f.ty valid d (numbers true) pk) (hb : b → ∃ z, pk z) {delta : Bool}
    (hd : delta = (!f.info.isOffsetField && f.ty.isPackable)) {pack : Option Plan}
    (hc : FieldClaim f.info delta pack.isSome a b) {i : Nat} {env : Env} {x : Val} {dflt : Val}
    (hv : f.info.ContentValid valid dflt env x) :
    Steps pack (fun n w => f.encodeContent pack.isSome i env x n w)
      (f.info.ContentWire packing delta wire numbers pack i env x) := by
  unfold FieldClaim at hc
  unfold FieldInfo.ContentValid at hv
  unfold FieldInfo.ContentWire encodeContent
  cases ha : f.info.array with
  | none =>
    simp only [ha] at hc hv ⊢
    have hpk : f.isPackable = delta := by
      rw [hd]; unfold isPackable; cases f.info.isOffsetField <;> simp [ha]
    rw [hpk]
    have hskip : ∀ {g : Node → Writer → Res (Writer × Node)} {l : Layout}, Steps pack g l →
        Steps pack (fun n w => f.checkArgs env 0 x >>= fun _ => g n w) l := by
      intro g l h n w w' n' st hB hw
      obtain ⟨_, _, hw⟩ := Res.bind_eq_ok.1 hw
      exact h n w w' n' st hB hw
    refine hskip ?_
    cases pack with
    | none =>
      simp only [Option.isSome_none, Bool.false_and, Bool.false_eq_true, if_false, encodeType] at hc ⊢
      exact Steps.keep (hg.field hc env x hv.1)
    | some plan =>
      cases delta with
      | false =>
        simp only [Option.isSome_some, Bool.and_false, Bool.false_eq_true, if_false, encodeType] at hc ⊢
        exact Steps.keep (hg.field hc env x hv.1)
      | true =>
        simp only [Option.isSome_some, Bool.and_true, if_true, encodeType] at hc ⊢
        exact Steps.inField (hg.packed hc env x hv.1 _)
  | some ar =>
    simp only [ha] at hc hv ⊢
    obtain ⟨xs, rfl, hlen, hel⟩ := hv
    have hpk : f.isPackable = !f.info.isOffsetField := by
      unfold isPackable; cases f.info.isOffsetField <;> simp [ha]
    have hmem : ∀ y ∈ xs, valid env y := by
      intro y hy
      obtain ⟨j, hj⟩ := List.mem_iff_getElem?.1 hy
      exact (hel j y hj).1
    have key : Lays (fun w => (f.arrayDef pack.isSome env ar).zserioWrite w xs f.indexed)
        (Layout.ofArray packing f.indexed (ar.length.isNone)
          ((ar.isPacked || pack.isSome) && !f.info.isOffsetField) (fun p v => wire p env v)
          (fun all v => numbers all env v) xs) := by
      have h := array_lays hQ (numbers := fun all v => numbers all env v) (a := f.arrayDef pack.isSome env ar) (offsets := f.indexed)
        (one := fun p v => wire p env v) (xs := xs) ?_ ?_ ?_ ?_ ?_
      · have e1 : (f.arrayDef pack.isSome env ar).fixedSize.isNone = ar.length.isNone := by
          simp [arrayDef]
        have e2 : (f.arrayDef pack.isSome env ar).isPacked =
          ((ar.isPacked || pack.isSome) && !f.info.isOffsetField) := by simp [arrayDef, hpk]
        rw [e1, e2] at h
        exact h
      · intro h
        simp only [arrayDef, Option.map_eq_none_iff] at h
        unfold LengthFits at hlen
        rw [h] at hlen
        exact hlen
      · intro h y hy
        simp only [arrayDef, hpk] at h
        rw [h] at hc
        exact hg.elem hc env y (hmem y hy)
      · intro h y hy plan
        simp only [arrayDef, hpk] at h
        rw [h] at hc
        have := hg.packed hc env y (hmem y hy) plan
        simp only [arrayDef, hg.coherent.write]
        exact this
      · simp only [arrayDef, hg.coherent.create]; exact hi.create
      · intro hpa v hv n n' cols hn h
        simp only [arrayDef, hpk] at hpa
        rw [hpa] at hc
        obtain ⟨z, hz⟩ := hb hc
        simp only [arrayDef, hg.coherent.init] at h
        exact hi.init z hz env v (.inl (hmem v hv)) n n' cols hn h
    have hskip : ∀ {g : Node → Writer → Res (Writer × Node)} {l : Layout}, Steps pack g l →
        Steps pack (fun n w => f.checkArgsAll env 0 xs >>= fun _ => checkLength ar env xs >>= fun _ =>
          g n w) l := by
      intro g l h n w w' n' st hB hw
      obtain ⟨_, _, hw⟩ := Res.bind_eq_ok.1 hw
      obtain ⟨_, _, hw⟩ := Res.bind_eq_ok.1 hw
      exact h n w w' n' st hB hw
    refine hskip (Steps.keep ?_)
    exact key

theorem align_then {pack : Option Plan} {g : Node → Writer → Res (Writer × Node)} {l : Layout}
    (h : Steps pack g l) : Steps pack (fun n w => f.alignWriter w >>= fun w => g n w)
      (Layout.seq (if f.info.alignment = 0 then Layout.empty else Layout.align f.info.alignment)
        (Layout.seq (if f.info.offset = .plain then Layout.align 8 else Layout.empty) l)) := by
  intro n w w' n' st hB hw
  obtain ⟨bits, st', e, hl, hA⟩ := Steps.seq f.align_lays h n w w' n' st hB hw
  exact ⟨bits, st', e, seq_assoc hl, hA⟩

theorem field_steps (hQ : packing.Allows) (hg : WireGood f.ty valid wire a b)
    (hi : InitGood f.ty valid d (numbers true) pk) (hb : b → ∃ z, pk z) {delta : Bool}
    (hd : delta = (!f.info.isOffsetField && f.ty.isPackable)) {pack : Option Plan}
    (hc : FieldClaim f.info delta pack.isSome a b) {i : Nat} {env : Env} {v : Val} {dflt : Val}
    (hv : f.info.FieldValid valid dflt env v) :
    Steps pack (fun n w => f.encode pack.isSome i env v n w)
      (f.info.Wire packing delta wire numbers pack i env v) := by
  unfold FieldInfo.FieldValid at hv
  unfold FieldInfo.Wire encode
  have hpres : f.present env = f.info.clause.all (fun c => c env) := by
    unfold present; cases f.info.clause <;> rfl
  rw [hpres]
  cases hp : f.info.clause.all (fun c => c env) with
  | false =>
    simp only [Bool.false_eq_true, if_false]
    exact Steps.keep Lays.pure
  | true =>
    simp only [hp, if_true] at hv ⊢
    refine align_then ?_
    unfold encodeOptional
    cases ho : f.info.optional with
    | false =>
      simp only [ho, Bool.false_eq_true, if_false] at hv ⊢
      exact content_steps hQ hg hi hb hd hc hv
    | true =>
      simp only [ho, if_true] at hv ⊢
      rcases hv with rfl | ⟨x, rfl, hx⟩
      · exact Steps.keep (writesAs_bool false).lays
      · exact Steps.seq (writesAs_bool true).lays (content_steps hQ hg hi hb hd hc hx)

end FieldOps

end Zs
