import Verif.DeltaLemmas

/-!
# Lemmas on arrays
-/

namespace Zs

open Spec

/-! ## Packed traits in general -/

/-- A list can be written and read packed: there is a relation between writer node and reader node
that holds after initialisation and is kept by every element, and each element is read back. -/
def PackedRT {α : Type} (t : ArrayTrait α) (dflt : α) (xs : List α) : Prop :=
  ∃ sim : List α → Node → Node → Prop,
    (∃ n, ArrayDef.initAll t t.createContext xs = .ok n ∧ sim xs n t.createContext) ∧
    ∀ x rest w r, sim (x :: rest) w r → ∀ before : List Bool, ∃ bits w' r',
      t.writePacked w ⟨before⟩ x = .ok (⟨before ++ bits⟩, w') ∧
      (∀ after, t.readPacked r ⟨before.length, bits ++ after⟩ dflt =
        .ok ((x, r'), ⟨before.length + bits.length, after⟩)) ∧
      sim rest w' r'

/-- The packed size function follows the packed writer. -/
def PackedSize {α : Type} (t : ArrayTrait α) (xs : List α) : Prop :=
  ∃ sim : List α → Node → Node → Prop,
    (∀ n, ArrayDef.initAll t t.createContext xs = .ok n → sim xs n n) ∧
    ∀ x rest w b, sim (x :: rest) w b → ∀ (s s' : Writer) w',
      t.writePacked w s x = .ok (s', w') →
      ∃ n b', t.bitsizeOfPacked b s.bits.length x = .ok (n, b') ∧
        s'.bits.length = s.bits.length + n ∧ sim rest w' b'

/-! ## Delta packing -/

theorem initAll_packable {α : Type} (md : Mode) (e : Elem α) (cs : List Node) (c : DeltaContext)
    (xs : List α) : ArrayDef.initAll (e.packable md) (.mk cs (some c)) xs =
      (c.initAll e xs >>= fun c => .ok (.mk cs (some c))) := by
  induction xs generalizing c with
  | nil => rfl
  | cons x xs ih =>
    simp only [ArrayDef.initAll, DeltaContext.initAll, bind_assoc]
    rw [show (e.packable md).initContext (.mk cs (some c)) x =
      (c.init e x >>= fun c => .ok (.mk cs (some c))) from ?_, bind_assoc]
    · congr 1; funext c'; simp only [Res.ok_bind]; exact ih c'
    · simp only [Elem.packable, Node.onContext, bind_assoc, Res.pure_eq, Res.ok_bind]

theorem packedRT_nil {α : Type} (t : ArrayTrait α) (dflt : α) : PackedRT t dflt [] :=
  ⟨fun xs _ _ => xs = [], ⟨t.createContext, rfl, rfl⟩, fun _ _ _ _ h => by cases h⟩

/-- Delta packing round-trips for good elements whose neighbours are safe. -/
theorem packedRT_packable {α : Type} {md : Mode} {e : Elem α} {dflt : α} {xs : List α}
    (hx : ∀ x ∈ xs, ElemGood e dflt x)
    (hs : ∀ us, DeltaContext.Nums e xs us → DeltaContext.SafeSteps md us) :
    PackedRT (e.packable md) dflt xs := by
  by_cases hne : xs = []
  · subst hne; exact packedRT_nil _ _
  obtain ⟨us, ss, hin⟩ := Inits.of_good hx
  obtain ⟨c, hc, hinit⟩ := DeltaContext.initAll_new hin hne
  refine ⟨fun rest w r => (∀ x ∈ rest, ElemGood e dflt x) ∧
    ∃ us cw cr, w = .mk [] (some cw) ∧ r = .mk [] (some cr) ∧ DeltaContext.Nums e rest us ∧
      DeltaContext.InStep md us cw cr,
    ⟨.mk [] (some c), ?_, hx, us, c, _, rfl, rfl, .of_inits hin,
      .of_initialised hinit (DeltaContext.Inits.lt64 hin) (hs us (.of_inits hin))⟩, ?_⟩
  · show ArrayDef.initAll (e.packable md) (.mk [] (some DeltaContext.new)) xs = _
    rw [initAll_packable, hc]; rfl
  · rintro x rest w r ⟨hg, us, cw, cr, rfl, rfl, hnum, hin⟩ before
    cases hnum with
    | @cons _ _ u us hu hnum =>
    obtain ⟨bits, w', r', hw, hr, hin'⟩ := hin.step (hg x (List.mem_cons_self ..)) hu before
    refine ⟨bits, .mk [] (some w'), .mk [] (some r'), ?_, fun after => ?_,
      fun y hy => hg y (List.mem_cons_of_mem _ hy), us, w', r', rfl, rfl, hnum, hin'⟩
    · simp only [Elem.packable, Node.onContext, hw, Res.ok_bind, Res.pure_eq]
    · simp only [Elem.packable, hr after, Res.ok_bind, Res.pure_eq]

/-- Writer context and size context agree. -/
def SameMode (w b : DeltaContext) : Prop :=
  w.processingStarted = b.processingStarted ∧ w.isPacked = b.isPacked ∧
    w.maxBitNumber = b.maxBitNumber ∧ w.firstElementSize = b.firstElementSize ∧
    w.numElements = b.numElements ∧ w.unpackedSize = b.unpackedSize

theorem SameMode.finishInit {w b : DeltaContext} (h : SameMode w b) :
    SameMode (DeltaContext.finishInit { w with processingStarted := true })
      (DeltaContext.finishInit { b with processingStarted := true }) := by
  obtain ⟨p1, m1, u1, f1, n1, v1, i1, s1⟩ := w
  obtain ⟨p2, m2, u2, f2, n2, v2, i2, s2⟩ := b
  obtain ⟨h1, h2, h3, h4, h5, h6⟩ := h
  simp only at h1 h2 h3 h4 h5 h6
  subst h1 h2 h3 h4 h5 h6
  unfold DeltaContext.finishInit SameMode
  simp only
  generalize (1 + DeltaContext.maxBitNumberBits + f1 + _ : Nat) = k
  by_cases hk : k ≥ 1 + u1 <;> cases p1 <;> simp [hk]

theorem writeDescriptor_length (c : DeltaContext) (before : List Bool) :
    ∃ bits, c.writeDescriptor ⟨before⟩ = .ok ⟨before ++ bits⟩ ∧
      bits.length = c.bitsizeOfDescriptor := by
  unfold DeltaContext.writeDescriptor DeltaContext.bitsizeOfDescriptor
  cases h : c.isPacked
  · exact ⟨[false], by simp [Writer.writeBool, Writer.append], rfl⟩
  · exact ⟨true :: natBits 6 c.maxBitNumber, by simp [Writer.writeBool, Writer.append,
      writeUnsignedBits, Writer.writeUnsigned, DeltaContext.maxBitNumberBits],
      by simp [DeltaContext.maxBitNumberBits]⟩

/-- Delta packing: the size function gives what the writer emits. -/
theorem delta_size_step {α : Type} {md : Mode} {e : Elem α} {x : α} {w b : DeltaContext}
    (hsz : SizeExact (fun _ => e.bitsizeOf 0 x) (fun w => e.write w x))
    (h : SameMode w b) {s s' : Writer} {w' : DeltaContext}
    (hw : w.write md e s x = .ok (s', w')) :
    ∃ n b', b.bitsizeOf e x = .ok (n, b') ∧ s'.bits.length = s.bits.length + n ∧
      SameMode w' b' := by
  have hun : ∀ (c : DeltaContext) (s s' : Writer) c',
      c.writeUnpacked e s x = .ok (s', c') →
      ∃ n u, e.bitsizeOf 0 x = .ok n ∧ s'.bits.length = s.bits.length + n ∧
        c' = { c with previousElement := u } := by
    intro c s s' c' h
    unfold DeltaContext.writeUnpacked at h
    obtain ⟨u, hu, h⟩ := Res.bind_eq_ok.1 h
    obtain ⟨w1, hw1, h⟩ := Res.bind_eq_ok.1 h
    cases h
    obtain ⟨n, h1, h2⟩ := hsz _ _ hw1
    exact ⟨n, u, h1, h2, rfl⟩
  have hstart := h.1
  have hp := h.2.1
  have hm := h.2.2.1
  unfold DeltaContext.write at hw
  unfold DeltaContext.bitsizeOf
  rw [← hstart]
  cases hs : w.processingStarted with
  | false =>
    simp only [hs, Bool.not_false, if_true] at hw ⊢
    have h' := h.finishInit
    revert hw h'
    generalize DeltaContext.finishInit { w with processingStarted := true } = cw
    generalize DeltaContext.finishInit { b with processingStarted := true } = cb
    intro hw h'
    obtain ⟨d, hd, hdl⟩ := writeDescriptor_length cw s.bits
    rw [show s = ⟨s.bits⟩ from rfl, hd] at hw
    simp only [Res.ok_bind] at hw
    obtain ⟨n, u, h1, h2, rfl⟩ := hun _ _ _ _ hw
    unfold DeltaContext.bitsizeOfUnpacked
    rw [h1]
    have : cb.bitsizeOfDescriptor = d.length := by
      rw [hdl]; unfold DeltaContext.bitsizeOfDescriptor; rw [h'.2.1]
    refine ⟨d.length + n, cb, by simp [this], ?_, h'⟩
    simp at h2; omega
  | true =>
    simp only [hs, Bool.not_true, Bool.false_eq_true, if_false, ← hp, ← hm] at hw ⊢
    cases hk : w.isPacked with
    | false =>
      simp only [hk, Bool.not_false, if_true] at hw ⊢
      obtain ⟨n, u, h1, h2, rfl⟩ := hun _ _ _ _ hw
      unfold DeltaContext.bitsizeOfUnpacked
      rw [h1]
      exact ⟨n, b, rfl, h2, h⟩
    | true =>
      simp only [hk, Bool.not_true, Bool.false_eq_true, if_false] at hw ⊢
      by_cases h0 : w.maxBitNumber > 0
      · simp only [h0, if_true] at hw ⊢
        obtain ⟨u, hu, hw⟩ := Res.bind_eq_ok.1 hw
        obtain ⟨d, hd, hw⟩ := Res.bind_eq_ok.1 hw
        obtain ⟨w1, hw1, hw⟩ := Res.bind_eq_ok.1 hw
        cases hw
        unfold writeSignedBits at hw1
        split at hw1
        · cases hw1
        · unfold Writer.writeSigned at hw1
          split at hw1
          · cases hw1
          · cases hw1
            refine ⟨_, b, rfl, by simp [Writer.append], ?_⟩
            unfold SameMode at h ⊢
            simp_all
      · simp only [h0, if_false] at hw ⊢
        cases hw
        exact ⟨0, b, rfl, rfl, h⟩

theorem packedSize_packable {α : Type} {md : Mode} {e : Elem α} {xs : List α}
    (hsz : ∀ x ∈ xs, SizeExact (fun _ => e.bitsizeOf 0 x) (fun w => e.write w x)) :
    PackedSize (e.packable md) xs := by
  refine ⟨fun rest w b => (∀ x ∈ rest, x ∈ xs) ∧
    ∃ cs1 cs2 cw cb, w = .mk cs1 (some cw) ∧ b = .mk cs2 (some cb) ∧ SameMode cw cb,
    ?_, ?_⟩
  · intro n hn
    refine ⟨fun x hx => hx, ?_⟩
    change ArrayDef.initAll (e.packable md) (.mk [] (some DeltaContext.new)) xs = _ at hn
    rw [initAll_packable] at hn
    obtain ⟨c, hc, hn⟩ := Res.bind_eq_ok.1 hn
    cases hn
    exact ⟨[], [], c, c, rfl, rfl, rfl, rfl, rfl, rfl, rfl, rfl⟩
  · rintro x rest w b ⟨hmem, cs1, cs2, cw, cb, rfl, rfl, hsame⟩ s s' w' hw
    simp only [Elem.packable, Node.onContext] at hw ⊢
    obtain ⟨⟨w1, c1⟩, h1, hw⟩ := Res.bind_eq_ok.1 hw
    cases hw
    have hxm := hmem x (List.mem_cons_self ..)
    obtain ⟨n, b', hb, hlen, hsame'⟩ := delta_size_step (hsz x hxm) hsame h1
    refine ⟨n, .mk cs2 (some b'), by simp [hb], hlen,
      fun y hy => hmem y (List.mem_cons_of_mem _ hy), cs1, cs2, c1, b', rfl, rfl, hsame'⟩

/-! ## Loops over elements -/

theorem alignElem_step (offsets : Bool) (before : List Bool) : ∃ pad : List Bool,
    alignElemWriter offsets ⟨before⟩ = .ok ⟨before ++ pad⟩ ∧
    alignElemBitsize offsets before.length = .ok (before.length + pad.length) ∧
    ∀ after, alignElemReader offsets ⟨before.length, pad ++ after⟩ =
      .ok ⟨before.length + pad.length, after⟩ := by
  cases offsets with
  | false => exact ⟨[], by simp [alignElemWriter], by simp [alignElemBitsize],
      fun after => by simp [alignElemReader]⟩
  | true =>
    refine ⟨List.replicate ((8 - before.length % 8) % 8) false, ?_, ?_, fun after => ?_⟩
    · simp [alignElemWriter, alignWriter, Writer.bitCount, Writer.skip, Writer.append]
    · simp [alignElemBitsize, alignBitsize]
    · unfold alignElemReader alignReader Reader.position Reader.skip Reader.advance
      simp

theorem Vec.push_items {α : Type} (minCap : Nat) (v : Vec α) (x : α) :
    (v.push minCap x).items = v.items ++ [x] := by
  unfold Vec.push Vec.reserve; split <;> rfl

/-- Unpacked elements are read back. -/
theorem readAll_writeAll {α : Type} (t : ArrayTrait α) (minCap : Nat) (offsets : Bool) (dflt : α)
    (xs : List α) (hx : ∀ x ∈ xs, RoundTrips (fun w => t.write w x) (fun r => t.read r dflt) x)
    (before : List Bool) : ∃ bits, ArrayDef.writeAll t offsets ⟨before⟩ xs = .ok ⟨before ++ bits⟩ ∧
      ∀ (data : Vec α) (after : List Bool), ∃ cap,
        ArrayDef.readAll t minCap offsets dflt xs.length data ⟨before.length, bits ++ after⟩ =
          .ok (⟨data.items ++ xs, cap⟩, ⟨before.length + bits.length, after⟩) := by
  induction xs generalizing before with
  | nil => exact ⟨[], by simp [ArrayDef.writeAll], fun data after =>
      ⟨data.capacity, by simp [ArrayDef.readAll]⟩⟩
  | cons x xs ih =>
    obtain ⟨pad, hp1, _, hp2⟩ := alignElem_step offsets before
    obtain ⟨b1, hw1, hr1⟩ := hx x (List.mem_cons_self ..) (before ++ pad)
    obtain ⟨b2, hw2, hr2⟩ := ih (fun y hy => hx y (List.mem_cons_of_mem _ hy)) (before ++ pad ++ b1)
    refine ⟨pad ++ b1 ++ b2, ?_, fun data after => ?_⟩
    · simp only [ArrayDef.writeAll, hp1, Res.ok_bind, hw1, hw2]
      simp [List.append_assoc]
    · obtain ⟨cap, hr⟩ := hr2 (data.push minCap x) after
      refine ⟨cap, ?_⟩
      have h1 := hr1 (b2 ++ after)
      simp only [List.length_append, Vec.push_items, List.append_assoc] at h1 hr
      simp only [ArrayDef.readAll, List.length_cons, List.append_assoc, hp2, Res.ok_bind, h1, hr,
        List.length_append, List.singleton_append, Nat.add_assoc]

theorem bitsizeAll_writeAll {α : Type} (t : ArrayTrait α) (offsets : Bool)
    (xs : List α) (hx : ∀ x ∈ xs, SizeExact (fun p => t.bitsizeOf p x) (fun w => t.write w x))
    (s s' : Writer) (hw : ArrayDef.writeAll t offsets s xs = .ok s') :
      ArrayDef.bitsizeAll t offsets s.bits.length xs = .ok s'.bits.length ∧
        s.bits.length ≤ s'.bits.length := by
  induction xs generalizing s with
  | nil => simp [ArrayDef.writeAll] at hw; subst hw; exact ⟨rfl, Nat.le_refl _⟩
  | cons x xs ih =>
    obtain ⟨pad, hp1, hp2, _⟩ := alignElem_step offsets s.bits
    simp only [ArrayDef.writeAll] at hw
    rw [show s = ⟨s.bits⟩ from rfl, hp1] at hw
    simp only [Res.ok_bind] at hw
    obtain ⟨w1, hw1, hw⟩ := Res.bind_eq_ok.1 hw
    obtain ⟨n, hn, hl⟩ := hx x (List.mem_cons_self ..) _ _ hw1
    have := ih (fun y hy => hx y (List.mem_cons_of_mem _ hy)) _ hw
    simp only [List.length_append] at hn hl
    simp only [ArrayDef.bitsizeAll, hp2, Res.ok_bind, hn]
    rw [← hl]; exact ⟨this.1, by omega⟩

/-- Packed elements are read back. -/
theorem readPackedAll_writePackedAll {α : Type} {t : ArrayTrait α} {dflt : α}
    {sim : List α → Node → Node → Prop}
    (hstep : ∀ x rest w r, sim (x :: rest) w r → ∀ before : List Bool, ∃ bits w' r',
      t.writePacked w ⟨before⟩ x = .ok (⟨before ++ bits⟩, w') ∧
      (∀ after, t.readPacked r ⟨before.length, bits ++ after⟩ dflt =
        .ok ((x, r'), ⟨before.length + bits.length, after⟩)) ∧
      sim rest w' r') (minCap : Nat) (offsets : Bool)
    (xs : List α) (w r : Node) (hsim : sim xs w r) (before : List Bool) :
    ∃ bits, ArrayDef.writePackedAll t offsets w ⟨before⟩ xs = .ok ⟨before ++ bits⟩ ∧
      ∀ (data : Vec α) (after : List Bool), ∃ cap,
        ArrayDef.readPackedAll t minCap offsets dflt xs.length r data
            ⟨before.length, bits ++ after⟩ =
          .ok (⟨data.items ++ xs, cap⟩, ⟨before.length + bits.length, after⟩) := by
  induction xs generalizing before w r with
  | nil => exact ⟨[], by simp [ArrayDef.writePackedAll], fun data after =>
      ⟨data.capacity, by simp [ArrayDef.readPackedAll]⟩⟩
  | cons x xs ih =>
    obtain ⟨pad, hp1, _, hp2⟩ := alignElem_step offsets before
    obtain ⟨b1, w', r', hw1, hr1, hsim'⟩ := hstep _ _ _ _ hsim (before ++ pad)
    obtain ⟨b2, hw2, hr2⟩ := ih w' r' hsim' (before ++ pad ++ b1)
    refine ⟨pad ++ b1 ++ b2, ?_, fun data after => ?_⟩
    · simp only [ArrayDef.writePackedAll, hp1, Res.ok_bind, hw1, hw2]
      simp [List.append_assoc]
    · obtain ⟨cap, hr⟩ := hr2 (data.push minCap x) after
      refine ⟨cap, ?_⟩
      have h1 := hr1 (b2 ++ after)
      simp only [List.length_append, Vec.push_items, List.append_assoc] at h1 hr
      simp only [ArrayDef.readPackedAll, List.length_cons, List.append_assoc, hp2, Res.ok_bind, h1,
        hr, List.length_append, List.singleton_append, Nat.add_assoc]

theorem bitsizePackedAll_writePackedAll {α : Type} {t : ArrayTrait α}
    {sim : List α → Node → Node → Prop}
    (hstep : ∀ x rest w b, sim (x :: rest) w b → ∀ (s s' : Writer) w',
      t.writePacked w s x = .ok (s', w') →
      ∃ n b', t.bitsizeOfPacked b s.bits.length x = .ok (n, b') ∧
        s'.bits.length = s.bits.length + n ∧ sim rest w' b') (offsets : Bool)
    (xs : List α) (w b : Node) (hsim : sim xs w b)
    (s s' : Writer) (hw : ArrayDef.writePackedAll t offsets w s xs = .ok s') :
      ArrayDef.bitsizePackedAll t offsets b s.bits.length xs = .ok s'.bits.length ∧
        s.bits.length ≤ s'.bits.length := by
  induction xs generalizing s w b with
  | nil => simp [ArrayDef.writePackedAll] at hw; subst hw; exact ⟨rfl, Nat.le_refl _⟩
  | cons x xs ih =>
    obtain ⟨pad, hp1, hp2, _⟩ := alignElem_step offsets s.bits
    simp only [ArrayDef.writePackedAll] at hw
    rw [show s = ⟨s.bits⟩ from rfl, hp1] at hw
    simp only [Res.ok_bind] at hw
    obtain ⟨⟨w1, n1⟩, hw1, hw⟩ := Res.bind_eq_ok.1 hw
    obtain ⟨n, b', hn, hl, hsim'⟩ := hstep _ _ _ _ hsim _ _ _ hw1
    have := ih n1 b' hsim' _ hw
    simp only [List.length_append] at hn hl
    simp only [ArrayDef.bitsizePackedAll, hp2, Res.ok_bind, hn]
    have h2 := this.2
    simp only at h2
    rw [← hl]; exact ⟨this.1, by omega⟩

/-! ## Whole arrays -/

/-- The length header is read back. -/
theorem array_header {α : Type} (a : ArrayDef α) (xs : List α)
    (hlen : match a.fixedSize with
      | some n => n = xs.length
      | none => xs.length < 2 ^ 31) (before : List Bool) :
    ∃ h : List Bool, a.writeLength ⟨before⟩ xs = .ok ⟨before ++ h⟩ ∧
      ∀ after, a.zserioReadArrayLength ⟨before.length, h ++ after⟩ =
        .ok (xs.length, ⟨before.length + h.length, after⟩) := by
  unfold ArrayDef.writeLength
  cases hf : a.fixedSize with
  | some n =>
    rw [hf] at hlen
    simp only at hlen
    exact ⟨[], by simp [hlen], fun after => by simp [ArrayDef.zserioReadArrayLength, hf, hlen]⟩
  | none =>
    rw [hf] at hlen
    simp only at hlen
    obtain ⟨bits, h1, h2⟩ := C01_varuint_round_trip.2.2.2.2 xs.length hlen before
    refine ⟨bits, ?_, fun after => ?_⟩
    · simp only [asU32]; rw [Nat.mod_eq_of_lt (by omega)]; exact h1
    · simp only [ArrayDef.zserioReadArrayLength, hf]; exact h2 after

/-- The length header is read back; what remains are the elements. -/
theorem array_of_body {α : Type} (a : ArrayDef α) (minCap chunk : Nat) (dflt : α) (offsets : Bool)
    (xs ys : List α)
    (hlen : match a.fixedSize with
      | some n => n = xs.length
      | none => xs.length < 2 ^ 31)
    (hbody : ∀ before : List Bool, ∃ bits : List Bool,
      a.writeElements ⟨before⟩ xs offsets = .ok ⟨before ++ bits⟩ ∧
      ∀ after, ∃ cap, a.zserioRead minCap chunk dflt ⟨before.length, bits ++ after⟩ Vec.new
        xs.length offsets = .ok (⟨ys, cap⟩, ⟨before.length + bits.length, after⟩)) :
    RoundTrips (fun w => a.zserioWrite w xs offsets)
      (fun r => a.readField minCap chunk dflt offsets r) ys := by
  intro before
  obtain ⟨h, hw0, hr0⟩ := array_header a xs hlen before
  obtain ⟨bits, hw1, hr1⟩ := hbody (before ++ h)
  refine ⟨h ++ bits, ?_, fun after => ?_⟩
  · show a.zserioWrite ⟨before⟩ xs offsets = _
    unfold ArrayDef.zserioWrite
    rw [hw0]
    simp only [Res.ok_bind]
    rw [hw1, List.append_assoc]
  · obtain ⟨cap, hr1⟩ := hr1 after
    show a.readField minCap chunk dflt offsets _ = _
    unfold ArrayDef.readField
    rw [List.append_assoc, hr0]
    simp only [Res.ok_bind]
    rw [← List.length_append, hr1]
    simp [Nat.add_assoc]

theorem prepare_items {α : Type} (minCap chunk n : Nat) :
    (ArrayDef.prepare minCap chunk (Vec.new : Vec α) n).items = [] := by
  unfold ArrayDef.prepare Vec.reserve; split <;> rfl

/-- The length header and the elements of a non-packed or packed array. -/
theorem array_round_trip {α : Type} (a : ArrayDef α) (minCap chunk : Nat) (dflt : α) (offsets : Bool)
    (xs : List α)
    (hlen : match a.fixedSize with
      | some n => n = xs.length
      | none => xs.length < 2 ^ 31)
    (hx : if a.isPacked then PackedRT a.arrayTrait dflt xs
      else ∀ x ∈ xs, RoundTrips (fun w => a.arrayTrait.write w x)
        (fun r => a.arrayTrait.read r dflt) x) :
    RoundTrips (fun w => a.zserioWrite w xs offsets)
      (fun r => a.readField minCap chunk dflt offsets r) xs := by
  refine array_of_body a minCap chunk dflt offsets xs xs hlen (fun before => ?_)
  unfold ArrayDef.writeElements
  by_cases hempty : xs = []
  · subst hempty
    refine ⟨[], by simp, fun after => ?_⟩
    unfold ArrayDef.zserioRead
    refine ⟨(ArrayDef.prepare minCap chunk (Vec.new : Vec α) 0).capacity, ?_⟩
    have := prepare_items (α := α) minCap chunk 0
    cases hv : ArrayDef.prepare minCap chunk (Vec.new : Vec α) 0 with
    | mk items cap =>
      rw [hv] at this
      simp only at this
      subst this
      cases a.isPacked <;> simp [ArrayDef.readPackedAll, ArrayDef.readAll]
  · rw [if_neg (by simpa using hempty)]
    unfold ArrayDef.zserioRead
    cases hpk : a.isPacked with
    | true =>
      rw [hpk] at hx
      obtain ⟨sim, ⟨n, hn, hsim⟩, hstep⟩ := hx
      obtain ⟨bits, hw, hr⟩ := readPackedAll_writePackedAll hstep minCap offsets xs n _ hsim before
      refine ⟨bits, by simp [hn, hw], fun after => ?_⟩
      obtain ⟨cap, hr⟩ := hr (ArrayDef.prepare minCap chunk Vec.new xs.length) after
      rw [prepare_items] at hr
      exact ⟨cap, by simp only [if_true]; rw [hr]; simp⟩
    | false =>
      rw [hpk] at hx
      obtain ⟨bits, hw, hr⟩ := readAll_writeAll a.arrayTrait minCap offsets dflt xs hx before
      refine ⟨bits, by simp [hw], fun after => ?_⟩
      obtain ⟨cap, hr⟩ := hr (ArrayDef.prepare minCap chunk Vec.new xs.length) after
      rw [prepare_items] at hr
      exact ⟨cap, by simp only [Bool.false_eq_true, if_false]; rw [hr]; simp⟩

/-- The size of the length header. -/
theorem arrayLength_size {α : Type} {a : ArrayDef α} {s s1 : Writer} {xs : List α}
    (h : a.writeLength s xs = .ok s1) :
    a.bitsizeLength xs s.bits.length = .ok s1.bits.length ∧ s.bits.length ≤ s1.bits.length := by
  unfold ArrayDef.writeLength at h
  unfold ArrayDef.bitsizeLength
  cases hf : a.fixedSize with
  | some n =>
    rw [hf] at h
    simp only at h
    split at h
    · cases h; exact ⟨rfl, Nat.le_refl _⟩
    · cases h
  | none =>
    rw [hf] at h
    simp only at h
    have hlt : asU32 xs.length < 2 ^ 31 := by
      unfold writeVarsize at h
      split at h
      · rename_i h; have : maxVarsize = 2 ^ 31 - 1 := rfl; omega
      · cases h
    obtain ⟨k, _, _, _, _, h2, h3, h4, _⟩ := varsize_all hlt
    rw [h3] at h
    cases h
    rw [h2]
    simp [Writer.append, h4]

/-- The shortcut for constant element sizes gives the same as adding up. -/
theorem bitsizeAll_const {α : Type} (t : ArrayTrait α) {x : α} {xs : List α}
    (hc : ∀ y ∈ x :: xs, ∀ z ∈ x :: xs, ∀ p q m n, t.bitsizeOf p y = .ok m →
      t.bitsizeOf q z = .ok n → m = n) {pos n : Nat}
    (h : ArrayDef.bitsizeAll t false pos (x :: xs) = .ok n) :
    (t.bitsizeOf pos x >>= fun s => .ok (pos + (x :: xs).length * s)) = .ok n := by
  have hall : ∀ (ys : List α) (p : Nat) (s n : Nat),
      (∀ y ∈ ys, ∀ p m, t.bitsizeOf p y = .ok m → m = s) →
      ArrayDef.bitsizeAll t false p ys = .ok n → n = p + ys.length * s := by
    intro ys
    induction ys with
    | nil => intro p s n _ h; simp [ArrayDef.bitsizeAll] at h; simp [h]
    | cons y ys ih =>
      intro p s n hs h
      simp only [ArrayDef.bitsizeAll, alignElemBitsize, Bool.false_eq_true, if_false, Res.pure_eq,
        Res.ok_bind] at h
      obtain ⟨m, hm, h⟩ := Res.bind_eq_ok.1 h
      have := hs y (List.mem_cons_self ..) _ _ hm
      subst this
      rw [ih _ m _ (fun z hz => hs z (List.mem_cons_of_mem _ hz)) h]
      simp only [List.length_cons, Nat.add_mul, Nat.one_mul]
      omega
  cases hs : t.bitsizeOf pos x with
  | ok s =>
    rw [hall (x :: xs) pos s n (fun y hy p m hm => hc y hy x (List.mem_cons_self ..) _ _ _ _ hm hs) h]
    rfl
  | err e =>
    simp [ArrayDef.bitsizeAll, alignElemBitsize, hs] at h
  | panic =>
    simp [ArrayDef.bitsizeAll, alignElemBitsize, hs] at h

/-- The size of a whole array. -/
theorem array_size_exact {α : Type} (a : ArrayDef α) (offsets : Bool) (xs : List α)
    (hx : if a.isPacked then PackedSize a.arrayTrait xs
      else ∀ x ∈ xs, SizeExact (fun p => a.arrayTrait.bitsizeOf p x)
        (fun w => a.arrayTrait.write w x))
    (hconst : a.isPacked = false → a.arrayTrait.isBitsizeofConstant = true →
      ∀ x ∈ xs, ∀ y ∈ xs, ∀ p q m n, a.arrayTrait.bitsizeOf p x = .ok m →
        a.arrayTrait.bitsizeOf q y = .ok n → m = n) :
    SizeExact (fun p => a.zserioBitsize xs offsets p) (fun w => a.zserioWrite w xs offsets) := by
  intro s s' hw
  simp only at hw ⊢
  unfold ArrayDef.zserioWrite at hw
  obtain ⟨s1, h1, hw⟩ := Res.bind_eq_ok.1 hw
  obtain ⟨hhead, hle⟩ := arrayLength_size h1
  have hbody : a.bitsizeElements xs offsets s1.bits.length = .ok s'.bits.length ∧
      s1.bits.length ≤ s'.bits.length := by
    unfold ArrayDef.writeElements at hw
    cases xs with
    | nil => simp at hw; subst hw; exact ⟨rfl, Nat.le_refl _⟩
    | cons x xs =>
      rw [if_neg (by simp)] at hw
      unfold ArrayDef.bitsizeElements
      cases hpk : a.isPacked with
      | true =>
        rw [hpk] at hx hw
        simp only [if_true] at hx hw ⊢
        obtain ⟨node, hn, hw⟩ := Res.bind_eq_ok.1 hw
        obtain ⟨sim, hstart, hstep⟩ := hx
        rw [hn]
        exact bitsizePackedAll_writePackedAll hstep offsets _ _ _ (hstart _ hn) _ _ hw
      | false =>
        rw [hpk] at hx hw
        simp only [Bool.false_eq_true, if_false] at hx hw ⊢
        have hall := bitsizeAll_writeAll a.arrayTrait offsets _ hx _ _ hw
        by_cases hc : (a.arrayTrait.isBitsizeofConstant && !offsets) = true
        · rw [if_pos hc]
          simp only [Bool.and_eq_true, Bool.not_eq_true'] at hc
          obtain ⟨hc1, hc2⟩ := hc
          subst hc2
          exact ⟨bitsizeAll_const a.arrayTrait (hconst hpk hc1) hall.1, hall.2⟩
        · rw [if_neg hc]; exact hall
  obtain ⟨hbody, hle2⟩ := hbody
  refine ⟨s'.bits.length - s.bits.length, ?_, by omega⟩
  unfold ArrayDef.zserioBitsize
  rw [hhead, Res.ok_bind, hbody]
  rfl

end Zs
