import Verif.Kinds

/-!
# Lemmas on packed arrays: sizes, lost content, locality, space
-/

namespace Zs

open Spec

/-! ## Total size of a packed array -/

/-- Number of bits of one delta. -/
def deltaBits (m : Nat) : Nat := if m > 0 then m + 1 else m

theorem bitsizePackedAll_started {α : Type} {md : Mode} {e : Elem α} {xs : List α}
    {us ss : List Nat} (h : Inits e xs us ss) (cs : List Node) (c : DeltaContext)
    (hc : c.processingStarted = true) (pos : Nat) :
    ArrayDef.bitsizePackedAll (e.packable md) false (.mk cs (some c)) pos xs =
      .ok (pos + if c.isPacked then us.length * deltaBits c.maxBitNumber else ss.sum) := by
  induction h generalizing pos with
  | nil => cases c.isPacked <;> simp [ArrayDef.bitsizePackedAll]
  | @cons x xs u us s ss hs hu h64 h ih =>
    have hstep : c.bitsizeOf e x =
        .ok (if c.isPacked then deltaBits c.maxBitNumber else s, c) := by
      unfold DeltaContext.bitsizeOf DeltaContext.bitsizeOfUnpacked deltaBits
      rw [hc, hs]
      by_cases hm : c.maxBitNumber > 0 <;> cases c.isPacked <;> simp [hm] <;> omega
    simp only [ArrayDef.bitsizePackedAll, alignElemBitsize, Bool.false_eq_true, if_false,
      Res.pure_eq, Res.ok_bind]
    rw [show (e.packable md).bitsizeOfPacked (.mk cs (some c)) pos x =
      .ok (if c.isPacked then deltaBits c.maxBitNumber else s, .mk cs (some c)) from by
        simp only [Elem.packable, Node.onContext, hstep, Res.ok_bind, Res.pure_eq]]
    simp only [Res.ok_bind]
    rw [ih]
    cases c.isPacked
    · simp; omega
    · simp [Nat.add_mul]; omega

theorem packable_write {α : Type} (md : Mode) (e : Elem α) (cs : List Node) (c : DeltaContext)
    (w : Writer) (x : α) : (e.packable md).writePacked (.mk cs (some c)) w x =
      (c.write md e w x >>= fun p => .ok (p.1, .mk cs (some p.2))) := rfl

theorem packable_read {α : Type} (md : Mode) (e : Elem α) (cs : List Node) (c : DeltaContext)
    (r : Reader) (x : α) : (e.packable md).readPacked (.mk cs (some c)) r x =
      (c.read md e r x >>= fun p => .ok ((p.1.1, .mk cs (some p.1.2)), p.2)) := rfl

theorem packable_bitsize {α : Type} (md : Mode) (e : Elem α) (cs : List Node) (c : DeltaContext)
    (p : Nat) (x : α) : (e.packable md).bitsizeOfPacked (.mk cs (some c)) p x =
      (c.bitsizeOf e x >>= fun p => .ok (p.1, .mk cs (some p.2))) := rfl

/-- `finish_init` keeps packing exactly when it saves bits. -/
theorem finishInit_isPacked (c : DeltaContext) :
    (DeltaContext.finishInit c).isPacked = true ↔ c.isPacked = true ∧
      7 + c.firstElementSize + (c.numElements - 1) * deltaBits c.maxBitNumber
        < 1 + c.unpackedSize := by
  unfold DeltaContext.finishInit deltaBits DeltaContext.maxBitNumberBits
  cases hk : c.isPacked with
  | false => simp [hk]
  | true =>
    simp only [Bool.not_true, Bool.false_eq_true, if_false, true_and]
    generalize ((c.numElements - 1) * _ : Nat) = k
    by_cases h : 1 + 6 + c.firstElementSize + k ≥ 1 + c.unpackedSize
    · rw [if_pos h]; simp; omega
    · rw [if_neg h]; simp [hk]; omega

/-- What `finish_init` decides, and the resulting total. -/
theorem packed_total {α : Type} {md : Mode} {e : Elem α} {x : α} {xs : List α} {u s : Nat}
    {us ss : List Nat} (h : Inits e (x :: xs) (u :: us) (s :: ss)) (pos : Nat) :
    ∃ c f total, (DeltaContext.new.initAll e (x :: xs)) = .ok c ∧
      DeltaContext.Initialised c (u :: us) (s :: ss) ∧
      f = DeltaContext.finishInit { c with processingStarted := true } ∧
      f.maxBitNumber = c.maxBitNumber ∧
      ArrayDef.bitsizePackedAll (e.packable md) false (.mk [] (some c)) pos (x :: xs) =
        .ok (pos + total) ∧
      (f.isPacked = true → total = 7 + s + us.length * deltaBits c.maxBitNumber ∧
        total < 1 + (s + ss.sum)) ∧
      (f.isPacked = false → total = 1 + (s + ss.sum)) := by
  obtain ⟨c, hc, hi⟩ := DeltaContext.initAll_new h (by simp)
  have hf : ∃ f, f = DeltaContext.finishInit { c with processingStarted := true } := ⟨_, rfl⟩
  obtain ⟨f, hf⟩ := hf
  have hfm : f.maxBitNumber = c.maxBitNumber ∧ f.processingStarted = true := by
    rw [hf]
    rcases DeltaContext.finishInit_spec { c with processingStarted := true } with h | ⟨_, h⟩ <;>
      rw [h] <;> simp
  have hfp : f.isPacked = true → 7 + s + us.length * deltaBits c.maxBitNumber
      < 1 + (s + ss.sum) := by
    intro hp
    rw [hf, finishInit_isPacked] at hp
    simpa [hi.num, hi.unpacked, hi.first] using hp.2
  cases h with
  | cons hs hu h64 h =>
  have hrest := bitsizePackedAll_started (md := md) h [] f hfm.2
  refine ⟨c, f, f.bitsizeOfDescriptor + s +
    (if f.isPacked then us.length * deltaBits f.maxBitNumber else ss.sum), hc, hi, hf, hfm.1,
    ?_, fun hp => ?_, fun hp => ?_⟩
  · have hproc := hi.processing
    have hstep : c.bitsizeOf e x = .ok (f.bitsizeOfDescriptor + s, f) := by
      unfold DeltaContext.bitsizeOf DeltaContext.bitsizeOfUnpacked
      simp only [hproc, Bool.not_false, if_true, hs, Res.ok_bind, Res.pure_eq]
      rw [← hf]
    simp only [ArrayDef.bitsizePackedAll, alignElemBitsize, Bool.false_eq_true, if_false,
      Res.pure_eq, Res.ok_bind]
    rw [show (e.packable md).bitsizeOfPacked (.mk [] (some c)) pos x =
      .ok (f.bitsizeOfDescriptor + s, .mk [] (some f)) from by
        simp only [Elem.packable, Node.onContext, hstep, Res.ok_bind, Res.pure_eq]]
    simp only [Res.ok_bind]
    rw [hrest]
    congr 1; omega
  · have := hfp hp
    simp only [hp, if_true, DeltaContext.bitsizeOfDescriptor, DeltaContext.maxBitNumberBits, hfm.1]
    simp only [Nat.reduceAdd]
    exact ⟨trivial, this⟩
  · simp only [hp, Bool.false_eq_true, if_false, DeltaContext.bitsizeOfDescriptor]
    omega

/-! ## Packed writing only appends -/

theorem delta_write_appends {α : Type} {md : Mode} {e : Elem α} {x : α} {n : Nat}
    (hx : Emits (fun w => e.write w x) n) {c c' : DeltaContext} {before : List Bool} {s' : Writer}
    (h : c.write md e ⟨before⟩ x = .ok (s', c')) :
    ∃ bits, s' = ⟨before ++ bits⟩ ∧ (c.processingStarted = false →
      bits.head? = some (DeltaContext.finishInit { c with processingStarted := true }).isPacked) := by
  have hun : ∀ (c : DeltaContext) before (s' : Writer) c',
      c.writeUnpacked e ⟨before⟩ x = .ok (s', c') → ∃ bits, s' = ⟨before ++ bits⟩ := by
    intro c before s' c' h
    unfold DeltaContext.writeUnpacked at h
    obtain ⟨u, hu, h⟩ := Res.bind_eq_ok.1 h
    obtain ⟨w1, hw1, h⟩ := Res.bind_eq_ok.1 h
    cases h
    obtain ⟨bits, h1, _⟩ := hx before
    simp only at h1
    rw [hw1] at h1
    cases h1
    exact ⟨bits, rfl⟩
  unfold DeltaContext.write at h
  cases hs : c.processingStarted with
  | false =>
    simp only [hs, Bool.not_false, if_true] at h
    revert h
    generalize DeltaContext.finishInit { c with processingStarted := true } = f
    intro h
    unfold DeltaContext.writeDescriptor at h
    simp only [Writer.writeBool, Res.unwrap_ok, Res.ok_bind] at h
    cases hf : f.isPacked with
    | false =>
      simp only [hf, Bool.false_eq_true, if_false, Res.pure_eq, Res.ok_bind, Writer.append] at h
      obtain ⟨bits, hb⟩ := hun _ _ _ _ h
      exact ⟨false :: bits, by rw [hb]; simp, fun _ => rfl⟩
    | true =>
      simp only [hf, if_true, Writer.append, writeUnsignedBits, DeltaContext.maxBitNumberBits,
        Writer.writeUnsigned] at h
      rw [if_neg (by decide), if_neg (by decide)] at h
      simp only [Res.unwrap_ok, Res.ok_bind] at h
      obtain ⟨bits, hb⟩ := hun _ _ _ _ h
      exact ⟨true :: (natBits 6 f.maxBitNumber ++ bits), by rw [hb]; simp, fun _ => rfl⟩
  | true =>
    simp only [hs, Bool.not_true, Bool.false_eq_true, if_false] at h
    cases hk : c.isPacked with
    | false =>
      simp only [hk, Bool.not_false, if_true] at h
      obtain ⟨bits, hb⟩ := hun _ _ _ _ h
      exact ⟨bits, hb, by simp⟩
    | true =>
      simp only [hk, Bool.not_true, Bool.false_eq_true, if_false] at h
      by_cases h0 : c.maxBitNumber > 0
      · simp only [h0, if_true] at h
        obtain ⟨u, hu, h⟩ := Res.bind_eq_ok.1 h
        obtain ⟨d, hd, h⟩ := Res.bind_eq_ok.1 h
        obtain ⟨w1, hw1, h⟩ := Res.bind_eq_ok.1 h
        cases h
        unfold writeSignedBits at hw1
        split at hw1
        · cases hw1
        · unfold Writer.writeSigned at hw1
          split at hw1
          · cases hw1
          · cases hw1
            exact ⟨_, rfl, by simp⟩
      · simp only [h0, if_false] at h
        cases h
        exact ⟨[], by simp, by simp⟩

theorem writePackedAll_appends {α : Type} {md : Mode} {e : Elem α} {xs : List α}
    (hx : ∀ x ∈ xs, ∃ n, Emits (fun w => e.write w x) n) {cs : List Node} {c : DeltaContext}
    {before : List Bool} {s' : Writer}
    (h : ArrayDef.writePackedAll (e.packable md) false (.mk cs (some c)) ⟨before⟩ xs = .ok s') :
    ∃ bits, s' = ⟨before ++ bits⟩ ∧ (xs ≠ [] → c.processingStarted = false →
      bits.head? = some (DeltaContext.finishInit { c with processingStarted := true }).isPacked) := by
  induction xs generalizing c before with
  | nil => simp [ArrayDef.writePackedAll] at h; exact ⟨[], by simp [← h], by simp⟩
  | cons x xs ih =>
    simp only [ArrayDef.writePackedAll, alignElemWriter, Bool.false_eq_true, if_false, Res.pure_eq,
      Res.ok_bind, packable_write, bind_assoc] at h
    obtain ⟨⟨w1, c1⟩, h1, h⟩ := Res.bind_eq_ok.1 h
    simp only [Res.ok_bind] at h
    obtain ⟨n, hn⟩ := hx x (List.mem_cons_self ..)
    obtain ⟨b1, rfl, hb1⟩ := delta_write_appends hn h1
    obtain ⟨b2, rfl, _⟩ := ih (fun y hy => hx y (List.mem_cons_of_mem _ hy)) h
    refine ⟨b1 ++ b2, by simp, fun _ hp => ?_⟩
    have := hb1 hp
    cases b1 with
    | nil => simp at this
    | cons a b1 => simpa using this

/-! ## Element types whose `to_u64` is constant -/

/-- `to_u64` gives 0 for every element, and `from_u64` gives `lost` whatever was written. -/
structure Blind {α : Type} (e : Elem α) (lost : α) : Prop where
  to : ∀ x, e.toU64 x = .ok 0
  back : e.fromU64 0 = .ok lost

theorem Blind.inits {α : Type} {e : Elem α} {lost : α} (hb : Blind e lost) {xs : List α}
    (hs : ∀ x ∈ xs, ∃ s, e.bitsizeOf 0 x = .ok s) :
    ∃ ss, Inits e xs (List.replicate xs.length 0) ss := by
  induction xs with
  | nil => exact ⟨[], .nil⟩
  | cons x xs ih =>
    obtain ⟨ss, h⟩ := ih (fun y hy => hs y (List.mem_cons_of_mem _ hy))
    obtain ⟨s, h1⟩ := hs x (List.mem_cons_self ..)
    exact ⟨s :: ss, .cons h1 (hb.to x) (by decide) h⟩

theorem deltas_replicate (n : Nat) : ∀ d ∈ deltas (List.replicate n 0), d = 0 := by
  induction n with
  | zero => simp [deltas]
  | succ n ih =>
    cases n with
    | zero => simp [deltas]
    | succ n =>
      intro d hd
      simp only [List.replicate_succ, deltas, List.mem_cons] at hd ih
      rcases hd with rfl | hd
      · rfl
      · exact ih d hd

theorem isBitLength_zero {m : Nat} (h : IsBitLength 0 m) : m = 0 := by
  have := h.2 0 (by decide); omega

/-- Sizes of the elements after the first one. -/
theorem blind_decision {α : Type} {e : Elem α} {lost x : α} (hb : Blind e lost) {xs : List α}
    {s : Nat} {ss : List Nat}
    (h : Inits e (x :: xs) (List.replicate (x :: xs).length 0) (s :: ss)) :
    ∃ c f, DeltaContext.new.initAll e (x :: xs) = .ok c ∧ c.processingStarted = false ∧
      f = DeltaContext.finishInit { c with processingStarted := true } ∧
      f.processingStarted = true ∧ f.maxBitNumber = 0 ∧
      (f.isPacked = true ↔ xs ≠ [] ∧ 6 < ss.sum) := by
  obtain ⟨c, hc, hi⟩ := DeltaContext.initAll_new h (by simp)
  have hm : c.maxBitNumber = 0 := by
    rcases hi.attained with h | ⟨d, hd, hl⟩
    · exact h
    · rw [deltas_replicate _ d hd] at hl; exact isBitLength_zero hl
  refine ⟨c, _, hc, hi.processing, rfl, ?_, ?_, ?_⟩
  · rcases DeltaContext.finishInit_spec { c with processingStarted := true } with h | ⟨_, h⟩ <;>
      rw [h]
  · rcases DeltaContext.finishInit_spec { c with processingStarted := true } with h | ⟨_, h⟩ <;>
      rw [h] <;> exact hm
  · rw [finishInit_isPacked]
    simp only [hi.packed, hi.num, hi.unpacked, hi.first, hm, deltaBits]
    cases xs with
    | nil => simp
    | cons y ys => simp; omega

/-- Reading and writing an element with a started, unpacked context. -/
theorem plain_step {α : Type} {md : Mode} {e : Elem α} {dflt x : α} {u : Nat}
    (hrt : RoundTrips (fun w => e.write w x) (fun r => e.read r dflt) x) (hu : e.toU64 x = .ok u)
    (w r : DeltaContext) (hw : w.processingStarted = true) (hr : r.processingStarted = true)
    (hwp : w.isPacked = false) (hrp : r.isPacked = false) (before : List Bool) :
    ∃ bits, w.write md e ⟨before⟩ x = .ok (⟨before ++ bits⟩, { w with previousElement := u }) ∧
      ∀ after, r.read md e ⟨before.length, bits ++ after⟩ dflt =
        .ok ((x, { r with previousElement := u }), ⟨before.length + bits.length, after⟩) := by
  obtain ⟨bits, h1, h2⟩ := hrt before
  refine ⟨bits, ?_, fun after => ?_⟩
  · unfold DeltaContext.write DeltaContext.writeUnpacked
    rw [if_neg (by simp [hw]), if_pos (by simp [hwp])]
    simp only [hu, Res.ok_bind, h1, Res.pure_eq]
  · unfold DeltaContext.read DeltaContext.readUnpacked
    rw [if_neg (by simp [hr]), if_pos (by simp [hrp])]
    simp only [h2 after, Res.ok_bind, hu, Res.pure_eq]

theorem plain_rest {α : Type} {md : Mode} {e : Elem α} {dflt : α} (minCap : Nat) (offsets : Bool)
    {xs : List α}
    (hrt : ∀ x ∈ xs, RoundTrips (fun w => e.write w x) (fun r => e.read r dflt) x)
    (hu : ∀ x ∈ xs, ∃ u, e.toU64 x = .ok u) (cs : List Node)
    (w r : DeltaContext) (hw : w.processingStarted = true) (hr : r.processingStarted = true)
    (hwp : w.isPacked = false) (hrp : r.isPacked = false) (before : List Bool) :
    ∃ bits, ArrayDef.writePackedAll (e.packable md) offsets (.mk cs (some w)) ⟨before⟩ xs =
        .ok ⟨before ++ bits⟩ ∧
      ∀ (data : Vec α) (after : List Bool), ∃ cap,
        ArrayDef.readPackedAll (e.packable md) minCap offsets dflt xs.length (.mk cs (some r)) data
          ⟨before.length, bits ++ after⟩ =
          .ok (⟨data.items ++ xs, cap⟩, ⟨before.length + bits.length, after⟩) := by
  refine readPackedAll_writePackedAll (t := e.packable md)
    (sim := fun rest wn rn => (∀ x ∈ rest, x ∈ xs) ∧ ∃ w r, wn = .mk cs (some w) ∧
      rn = .mk cs (some r) ∧ w.processingStarted = true ∧ r.processingStarted = true ∧
      w.isPacked = false ∧ r.isPacked = false) ?_ minCap offsets xs _ _
    ⟨fun x hx => hx, w, r, rfl, rfl, hw, hr, hwp, hrp⟩ before
  rintro x rest wn rn ⟨hmem, w, r, rfl, rfl, hw, hr, hwp, hrp⟩ before
  have hx := hmem x (List.mem_cons_self ..)
  obtain ⟨u, hu⟩ := hu x hx
  obtain ⟨bits, h1, h2⟩ := plain_step (md := md) (hrt x hx) hu w r hw hr hwp hrp before
  refine ⟨bits, .mk cs (some { w with previousElement := u }),
    .mk cs (some { r with previousElement := u }), ?_, fun after => ?_,
    fun y hy => hmem y (List.mem_cons_of_mem _ hy), _, _, rfl, rfl, hw, hr, hwp, hrp⟩
  · rw [packable_write, h1]; rfl
  · rw [packable_read, h2]; rfl

/-- With a packed context of delta width 0 nothing is written, and reading gives `lost`. -/
theorem blind_rest {α : Type} {md : Mode} {e : Elem α} {dflt lost : α} (hb : Blind e lost)
    (minCap : Nat) {xs : List α} (cs : List Node)
    (w r : DeltaContext) (hw : w.processingStarted = true) (hr : r.processingStarted = true)
    (hwp : w.isPacked = true) (hrp : r.isPacked = true) (hwm : w.maxBitNumber = 0)
    (hrm : r.maxBitNumber = 0) (hp : r.previousElement = 0) (s : Writer) (rd : Reader)
    (data : Vec α) :
    ArrayDef.writePackedAll (e.packable md) false (.mk cs (some w)) s xs = .ok s ∧
      ∃ cap, ArrayDef.readPackedAll (e.packable md) minCap false dflt xs.length (.mk cs (some r))
        data rd = .ok (⟨data.items ++ List.replicate xs.length lost, cap⟩, rd) := by
  have h1 : ∀ x, w.write md e s x = .ok (s, w) := by
    intro x
    unfold DeltaContext.write
    simp [hw, hwp, hwm]
  have h2 : r.read md e rd dflt = .ok ((lost, r), rd) := by
    unfold DeltaContext.read
    simp [hr, hrp, hrm, hp, hb.back]
  constructor
  · induction xs with
    | nil => rfl
    | cons x xs ih =>
      simp only [ArrayDef.writePackedAll, alignElemWriter, Bool.false_eq_true, if_false, Res.pure_eq,
        Res.ok_bind, packable_write, h1]
      exact ih
  · induction xs generalizing data with
    | nil => exact ⟨data.capacity, by simp [ArrayDef.readPackedAll]⟩
    | cons x xs ih =>
      obtain ⟨cap, h⟩ := ih (data.push minCap lost)
      refine ⟨cap, ?_⟩
      simp only [List.length_cons, ArrayDef.readPackedAll, alignElemReader, Bool.false_eq_true,
        if_false, Res.pure_eq, Res.ok_bind, packable_read, h2]
      rw [h, Vec.push_items]
      simp [List.replicate_succ]

/-- What becomes of a packed array of blind elements. -/
theorem blind_array {α : Type} {md : Mode} {e : Elem α} {dflt lost : α} (hb : Blind e lost)
    (minCap chunk : Nat) (fixed : Option Nat) (x : α) (xs : List α) (ss : List Nat)
    (hlen : match fixed with
      | some n => n = (x :: xs).length
      | none => (x :: xs).length < 2 ^ 31)
    (hx : ∀ y ∈ x :: xs, RoundTrips (fun w => e.write w y) (fun r => e.read r dflt) y)
    (hs : xs.map (e.bitsizeOf 0) = ss.map .ok) (hs0 : ∃ s, e.bitsizeOf 0 x = .ok s) :
    RoundTrips (fun w => ArrayDef.zserioWrite ⟨e.packable md, true, fixed⟩ w (x :: xs) false)
      (fun r => ArrayDef.readField ⟨e.packable md, true, fixed⟩ minCap chunk dflt false r)
      (if 6 < ss.sum then x :: List.replicate xs.length lost else x :: xs) := by
  obtain ⟨s0, hs0⟩ := hs0
  have hsz : ∀ y ∈ x :: xs, ∃ s, e.bitsizeOf 0 y = .ok s := by
    intro y hy
    rcases List.mem_cons.1 hy with rfl | hy
    · exact ⟨s0, hs0⟩
    · have : e.bitsizeOf 0 y ∈ ss.map Res.ok := by rw [← hs]; exact List.mem_map_of_mem hy
      obtain ⟨s, _, h⟩ := List.mem_map.1 this
      exact ⟨s, h.symm⟩
  obtain ⟨ss', hin⟩ := hb.inits hsz
  cases hin with
  | @cons _ _ _ _ s ss' hs1 hh64 hh1 hin' =>
  have hu1 := hb.to x
  have h64 : 0 < 2 ^ 64 := by decide
  have hss : ss' = ss := by
    clear hsz hx hlen
    have : ∀ {xs us ss'} {ss : List Nat}, Inits e xs us ss' → xs.map (e.bitsizeOf 0) = ss.map .ok →
        ss' = ss := by
      intro xs us ss' ss h
      induction h generalizing ss with
      | nil => intro h; cases ss <;> simp_all
      | cons h1 _ _ _ ih =>
        intro h
        cases ss with
        | nil => simp at h
        | cons s ss =>
          simp only [List.map_cons, List.cons.injEq] at h
          rw [h1] at h
          rw [ih h.2, Res.ok.inj h.1]
    exact this hin' hs
  subst hss
  obtain ⟨c, f, hc, hproc, hf, hfp, hfm, hiff⟩ := blind_decision hb
    (Inits.cons hs1 hu1 h64 hin' : Inits e (x :: xs) (0 :: List.replicate xs.length 0) (s :: ss'))
  refine array_of_body _ minCap chunk dflt false (x :: xs) _ hlen (fun before => ?_)
  -- the first element
  obtain ⟨b1, hw1, _, hr1⟩ := DeltaContext.descriptor_step f
    { DeltaContext.new with processingStarted := true } (by omega) before
  obtain ⟨b2, hw2, hr2⟩ := hx x (List.mem_cons_self ..) (before ++ b1)
  have hwrite : c.write md e ⟨before⟩ x =
      .ok (⟨before ++ (b1 ++ b2)⟩, { f with previousElement := 0 }) := by
    unfold DeltaContext.write DeltaContext.writeUnpacked
    simp only [hproc, Bool.not_false, if_true, ← hf, hw1, Res.ok_bind, hu1, hw2, Res.pure_eq,
      List.append_assoc]
  have hread : ∀ after, DeltaContext.new.read md e ⟨before.length, b1 ++ b2 ++ after⟩ dflt =
      .ok ((x, ⟨f.isPacked, 0, 0, 0, 0, 0, false, true⟩),
        ⟨before.length + (b1 ++ b2).length, after⟩) := by
    intro after
    unfold DeltaContext.read DeltaContext.readUnpacked
    simp only [show DeltaContext.new.processingStarted = false from rfl, Bool.not_false, if_true]
    have := hr2 after
    simp only [List.length_append] at this
    rw [List.append_assoc, hr1]
    simp only [Res.ok_bind, this, hu1, Res.pure_eq, hfm, List.length_append, Nat.add_assoc]
    simp [DeltaContext.new]
  have hinit : ArrayDef.initAll (e.packable md) (e.packable md).createContext (x :: xs) =
      .ok (.mk [] (some c)) := by
    show ArrayDef.initAll (e.packable md) (.mk [] (some DeltaContext.new)) (x :: xs) = _
    rw [initAll_packable, hc]; rfl
  simp only [ArrayDef.writeElements, List.isEmpty_cons, Bool.false_eq_true, if_false, if_true,
    hinit, Res.ok_bind, ArrayDef.writePackedAll, alignElemWriter, Res.pure_eq, packable_write,
    hwrite, ArrayDef.zserioRead, List.length_cons, ArrayDef.readPackedAll, alignElemReader]
  by_cases hlost : 6 < ss'.sum
  · have hp : f.isPacked = true := hiff.2 ⟨by
      intro h; subst h; cases hin'; simp at hlost, hlost⟩
    rw [if_pos hlost]
    refine ⟨b1 ++ b2, ?_, fun after => ?_⟩
    · exact (blind_rest hb minCap [] { f with previousElement := 0 } ⟨f.isPacked, 0, 0, 0, 0, 0, false, true⟩ hfp rfl hp hp hfm rfl
        rfl _ ⟨0, []⟩ Vec.new (dflt := dflt)).1
    · obtain ⟨cap, h⟩ := (blind_rest (md := md) hb minCap (xs := xs) [] f
        ⟨f.isPacked, 0, 0, 0, 0, 0, false, true⟩ hfp rfl hp hp hfm rfl rfl ⟨[]⟩
        ⟨before.length + (b1 ++ b2).length, after⟩
        ((ArrayDef.prepare minCap chunk Vec.new (xs.length + 1)).push minCap x) (dflt := dflt)).2
      refine ⟨cap, ?_⟩
      rw [show (e.packable md).createContext = .mk [] (some DeltaContext.new) from rfl,
        packable_read, hread]
      simp only [Res.ok_bind]
      rw [h, Vec.push_items, prepare_items]
      rfl
  · have hp : f.isPacked = false := by
      cases h : f.isPacked with
      | false => rfl
      | true => exact absurd (hiff.1 h).2 hlost
    rw [if_neg hlost]
    obtain ⟨b3, hw3, hr3⟩ := plain_rest (md := md) minCap false
      (fun y hy => hx y (List.mem_cons_of_mem _ hy)) (fun y _ => ⟨0, hb.to y⟩) []
      { f with previousElement := 0 } ⟨f.isPacked, 0, 0, 0, 0, 0, false, true⟩ hfp rfl hp hp
      (before ++ (b1 ++ b2))
    refine ⟨b1 ++ b2 ++ b3, ?_, fun after => ?_⟩
    · rw [hw3]; simp
    · obtain ⟨cap, h⟩ := hr3 ((ArrayDef.prepare minCap chunk Vec.new (xs.length + 1)).push minCap x)
        after
      refine ⟨cap, ?_⟩
      rw [show (e.packable md).createContext = .mk [] (some DeltaContext.new) from rfl,
        packable_read, List.append_assoc (b1 ++ b2), hread]
      simp only [Res.ok_bind]
      rw [← List.length_append, h, Vec.push_items, prepare_items]
      simp [Nat.add_assoc]

end Zs
