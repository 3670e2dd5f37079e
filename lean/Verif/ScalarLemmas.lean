import Verif.VarLemmas
import Verif.StreamLemmas

/-!
# Lemmas on the scalar codecs
-/

namespace Zs

open Spec

/-! ### What the variable-length readers accept -/

theorem readUnsigned_eq_ok {r r1 : Reader} {n max b : Nat} :
    r.readUnsigned n max = .ok (b, r1) ↔
      n ≤ max ∧ b < 2 ^ n ∧ r.rest = natBits n b ++ r1.rest ∧ r1.pos = r.pos + n := by
  constructor
  · intro h
    unfold Reader.readUnsigned at h
    split at h
    · cases h
    · split at h
      · cases h
      · have hl : (r.rest.take n).length = n := by simp; omega
        cases h
        have h1 := ofBits_lt (r.rest.take n)
        have h2 := natBits_ofBits (r.rest.take n)
        rw [hl] at h1 h2
        refine ⟨by omega, h1, ?_, rfl⟩
        rw [h2]; simp [Reader.advance]
  · rintro ⟨h1, h2, h3, h4⟩
    obtain ⟨pos, rest⟩ := r
    obtain ⟨pos1, rest1⟩ := r1
    simp only at h3 h4
    subst h3 h4
    exact Reader.readUnsigned_append h1 h2 pos rest1

theorem uint8_ofNat_toNat {b : Nat} (h : b < 256) : (UInt8.ofNat b).toNat = b := by
  simp [UInt8.toNat_ofNat']; omega

theorem readUnsigned8_eq_ok {r r1 : Reader} {max b : Nat} (hmax : 8 ≤ max) :
    r.readUnsigned 8 max = .ok (b, r1) ↔
      ∃ c : UInt8, c.toNat = b ∧ r.rest = bytesBits [c] ++ r1.rest ∧ r1.pos = r.pos + 8 := by
  rw [readUnsigned_eq_ok]
  constructor
  · rintro ⟨_, h2, h3, h4⟩
    refine ⟨UInt8.ofNat b, uint8_ofNat_toNat h2, ?_, h4⟩
    simp only [bytesBits, List.flatMap_cons, List.flatMap_nil, List.append_nil]
    rw [uint8_ofNat_toNat h2, h3]
  · rintro ⟨c, h2, h3, h4⟩
    refine ⟨hmax, by rw [← h2]; exact c.toNat_lt, ?_, h4⟩
    simp only [bytesBits, List.flatMap_cons, List.flatMap_nil, List.append_nil] at h3
    rw [h3, h2]

theorem shl7_or {acc b : Nat} : (acc <<< 7) ||| (b &&& 0x7f) = acc * 128 + b % 128 := by
  rw [and7f, or_add_of_lt (k := 7) (by omega)]
theorem shl8_or {acc b : Nat} (h : b < 256) : (acc <<< 8) ||| b = acc * 256 + b := by
  rw [or_add_of_lt (k := 8) (by omega)]

theorem readLoop_iff (n acc v : Nat) (r r' : Reader) :
    (readSizedUintLoop n acc true r >>= finishUint) = .ok (v, r') ↔
      ∃ bs, r.rest = bytesBits bs ++ r'.rest ∧ r'.pos = r.pos + bs.length * 8 ∧
        denote (n + 1) acc bs = some v := by
  induction n generalizing acc r with
  | zero =>
    simp only [readSizedUintLoop, Res.ok_bind, finishUint, if_true, Res.pure_eq]
    rw [Res.bind_eq_ok]
    constructor
    · rintro ⟨⟨b, r1⟩, h1, h2⟩
      obtain ⟨c, hc, h3, h4⟩ := (readUnsigned8_eq_ok (by decide)).1 h1
      cases h2
      refine ⟨[c], h3, by simp [h4], ?_⟩
      have : b < 256 := by rw [← hc]; exact c.toNat_lt
      simp [denote, hc, shl8_or this]
    · rintro ⟨bs, h1, h2, h3⟩
      match bs with
      | [] => simp [denote] at h3
      | c :: bs =>
        rw [denote, if_pos rfl] at h3
        split at h3
        · next hbs =>
          subst hbs
          cases h3
          refine ⟨(c.toNat, r'), (readUnsigned8_eq_ok (by decide)).2 ⟨c, rfl, h1, by simpa using h2⟩, ?_⟩
          rw [shl8_or c.toNat_lt]
        · cases h3
  | succ n ih =>
    have hstep : (readSizedUintLoop (n + 1) acc true r >>= finishUint) =
        (r.readUnsigned 8 64 >>= fun x =>
          readSizedUintLoop n ((acc <<< 7) ||| (x.1 &&& 0x7f)) ((x.1 &&& 0x80) != 0) x.2
            >>= finishUint) := by
      simp only [readSizedUintLoop, Bool.not_true, Bool.false_eq_true, if_false, bind_assoc]
    rw [hstep, Res.bind_eq_ok]
    constructor
    · rintro ⟨⟨b, r1⟩, h1, h2⟩
      obtain ⟨c, hc, h3, h4⟩ := (readUnsigned8_eq_ok (by decide)).1 h1
      have hb : b < 256 := by rw [← hc]; exact c.toNat_lt
      simp only [and80_ne hb, shl7_or] at h2
      by_cases h128 : 128 ≤ b
      · rw [decide_eq_true h128, ih] at h2
        obtain ⟨bs, e1, e2, e3⟩ := h2
        refine ⟨c :: bs, ?_, ?_, ?_⟩
        · rw [h3, e1, ← List.append_assoc, ← bytesBits_append]; rfl
        · rw [e2, h4]; simp; omega
        · rw [denote, if_neg (by omega), if_pos (by omega), hc]; exact e3
      · rw [decide_eq_false h128] at h2
        have h2' : Res.ok (acc * 128 + b % 128, r1) = .ok (v, r') := by
          rw [← h2]; cases n <;> rfl
        cases h2'
        refine ⟨[c], h3, by simp [h4], ?_⟩
        rw [denote, if_neg (by omega), if_neg (by omega), if_pos rfl, hc]
        congr 1; omega
    · rintro ⟨bs, h1, h2, h3⟩
      match bs with
      | [] => simp [denote] at h3
      | c :: bs =>
        have hc := c.toNat_lt
        rw [denote, if_neg (by omega)] at h3
        refine ⟨(c.toNat, ⟨r.pos + 8, bytesBits bs ++ r'.rest⟩),
          (readUnsigned8_eq_ok (by decide)).2 ⟨c, rfl, ?_, rfl⟩, ?_⟩
        · rw [h1, ← List.append_assoc, ← bytesBits_append]; rfl
        · simp only [and80_ne hc, shl7_or]
          by_cases h128 : 128 ≤ c.toNat
          · rw [if_pos h128] at h3
            rw [decide_eq_true h128, ih]
            refine ⟨bs, rfl, ?_, h3⟩
            simp only [List.length_cons] at h2
            simp only; omega
          · rw [if_neg h128] at h3
            rw [decide_eq_false h128]
            split at h3
            · next hbs =>
              subst hbs
              cases h3
              have : Res.ok (acc * 128 + c.toNat % 128, (⟨r.pos + 8, bytesBits [] ++ r'.rest⟩ : Reader))
                  = .ok (acc * 128 + c.toNat, r') := by
                obtain ⟨p', rest'⟩ := r'
                simp only [List.length_cons, List.length_nil] at h2
                subst h2
                congr 2
                omega
              rw [← this]; cases n <;> rfl
            · cases h3

/-- `read_sized_uint` accepts exactly the byte strings that denote a number, and returns that
number. -/
theorem readSizedUint_iff {m v : Nat} (hm : 2 ≤ m) {r r' : Reader} :
    readSizedUint r m = .ok (v, r') ↔
      ∃ bs, r.rest = bytesBits bs ++ r'.rest ∧ r'.pos = r.pos + bs.length * 8 ∧
        denote m 0 bs = some v := by
  -- one more round of the loop, started with accumulator 0
  have h := readLoop_iff (m - 1) 0 v r r'
  obtain ⟨n, rfl⟩ : ∃ n, m = n + 2 := ⟨m - 2, by omega⟩
  rw [show n + 2 - 1 + 1 = n + 2 from by omega] at h
  rw [← h, readSizedUint_eq]
  have : (readSizedUintLoop (n + 2 - 1) 0 true r >>= finishUint) =
      (r.readUnsigned 8 64 >>= fun x =>
        readSizedUintLoop n (x.1 &&& 0x7f) ((x.1 &&& 0x80) != 0) x.2 >>= finishUint) := by
    rw [show n + 2 - 1 = n + 1 from by omega]
    simp only [readSizedUintLoop, Bool.not_true, Bool.false_eq_true, if_false, bind_assoc,
      Nat.zero_shiftLeft, Nat.zero_or]
  rw [this]
  rfl

theorem Local.of_bytes {α : Type} {f : Reader → Res (α × Reader)} (P : List UInt8 → α → Prop)
    (h : ∀ r v r', f r = .ok (v, r') ↔
      ∃ bs, r.rest = bytesBits bs ++ r'.rest ∧ r'.pos = r.pos + bs.length * 8 ∧ P bs v) :
    Local f := by
  intro r v r' hr
  obtain ⟨bs, h1, h2, h3⟩ := (h r v r').1 hr
  refine ⟨bytesBits bs, h1, by rw [h2, bytesBits_length], fun after => ?_⟩
  exact (h _ _ _).2 ⟨bs, rfl, by simpa using h2, h3⟩

theorem Local.readSizedUint {m : Nat} (hm : 2 ≤ m) : Local (fun r => readSizedUint r m) :=
  Local.of_bytes _ (fun _ _ _ => readSizedUint_iff hm)

theorem Local.map {α β : Type} {f : Reader → Res (α × Reader)} (g : α → β) (hf : Local f) :
    Local (fun r => f r >>= fun x => .ok (g x.1, x.2)) :=
  Local.bind hf (fun a => Local.pure (g a))

theorem Local.readVarsize : Local readVarsize :=
  Local.map (· % 2 ^ 32) (Local.readSizedUint (m := 5) (by decide))

theorem Local.readLoop (n acc : Nat) (h : Bool) :
    Local (fun r => readSizedUintLoop n acc h r >>= finishUint) := by
  cases h with
  | true => exact Local.of_bytes _ (fun r v r' => readLoop_iff n acc v r r')
  | false =>
    have : (fun r => readSizedUintLoop n acc false r >>= finishUint)
        = fun r => .ok (acc, r) := by funext r; cases n <;> rfl
    rw [this]; exact Local.pure acc

theorem readSizedInt_eq (r : Reader) (m : Nat) :
    readSizedInt r m = (r.readUnsigned 8 64 >>= fun x =>
      (readSizedUintLoop (m - 2) (x.1 &&& 0x3f) ((x.1 &&& 0x40) != 0) x.2 >>= finishUint) >>=
        fun y => .ok (if (x.1 &&& 0x80) != 0 then -(y.1 : Int) else (y.1 : Int), y.2)) := by
  unfold readSizedInt
  simp only [readUnsigned_8_64, readSizedIntLoop_eq, bind_assoc, finishUint]
  congr 1
  funext x
  congr 1
  funext y
  split <;> simp

theorem Local.readSizedInt (m : Nat) : Local (fun r => readSizedInt r m) := by
  simp only [readSizedInt_eq]
  exact Local.bind (Local.readUnsigned 8 64) (g := fun b r =>
      (readSizedUintLoop (m - 2) (b &&& 0x3f) ((b &&& 0x40) != 0) r >>= finishUint) >>=
        fun y => .ok (if (b &&& 0x80) != 0 then -(y.1 : Int) else (y.1 : Int), y.2))
    (fun b => Local.map (fun y : Nat => if (b &&& 0x80) != 0 then -(y : Int) else (y : Int))
      (Local.readLoop _ _ _))

/-! ### Never panicking -/

theorem readLoop_ne_panic (n acc : Nat) (h : Bool) (r : Reader) :
    readSizedUintLoop n acc h r ≠ .panic := by
  induction n generalizing acc h r with
  | zero => simp [readSizedUintLoop]
  | succ n ih =>
    unfold readSizedUintLoop
    split
    · simp
    · exact Res.bind_ne_panic (NeverPanics.readUnsigned 8 64 r) (fun a _ => ih _ _ _)

theorem finishUint_ne_panic (x : Nat × Bool × Reader) : finishUint x ≠ .panic := by
  unfold finishUint
  split
  · exact Res.bind_ne_panic (NeverPanics.readUnsigned 8 64 _) (fun a _ => by simp)
  · simp

theorem NeverPanics.readSizedUint (m : Nat) : NeverPanics (fun r => readSizedUint r m) := by
  intro r
  show Zs.readSizedUint r m ≠ _
  rw [readSizedUint_eq]
  exact Res.bind_ne_panic (NeverPanics.readUnsigned 8 64 r) (fun a _ =>
    Res.bind_ne_panic (readLoop_ne_panic _ _ _ _) (fun _ _ => finishUint_ne_panic _))

theorem NeverPanics.readSizedInt (m : Nat) : NeverPanics (fun r => readSizedInt r m) := by
  intro r
  show Zs.readSizedInt r m ≠ _
  rw [readSizedInt_eq]
  exact Res.bind_ne_panic (NeverPanics.readUnsigned 8 64 r) (fun a _ =>
    Res.bind_ne_panic (Res.bind_ne_panic (readLoop_ne_panic _ _ _ _)
      (fun _ _ => finishUint_ne_panic _)) (fun _ _ => by simp))

theorem NeverPanics.map {α β : Type} {f : Reader → Res (α × Reader)} (g : α → β)
    (hf : NeverPanics f) : NeverPanics (fun r => f r >>= fun x => .ok (g x.1, x.2)) :=
  NeverPanics.bind hf (g := fun a r => .ok (g a, r)) (fun a r => by simp)

theorem NeverPanics.readVarsize : NeverPanics readVarsize :=
  NeverPanics.map (· % 2 ^ 32) (NeverPanics.readSizedUint 5)

/-! ### Bits written by the variable-length writers -/

/-- Everything about writing an in-range unsigned value at once. -/
theorem varuint_all {m v : Nat} (h2 : 2 ≤ m) (h9 : m ≤ 9) (hv : v < capacity m m) :
    ∃ k, 1 ≤ k ∧ k ≤ m ∧ v < capacity m k ∧ (∀ j, 1 ≤ j → j < k → capacity m j ≤ v) ∧
      unsignedBitsize v m = .ok (k * 8) ∧
      (∀ w, writeVaruintType w v m = .ok (w.append (varuintBits v k m))) ∧
      (varuintBits v k m).length = k * 8 ∧
      (∀ pos after, readSizedUint ⟨pos, varuintBits v k m ++ after⟩ m
        = .ok (v, ⟨pos + (varuintBits v k m).length, after⟩)) := by
  obtain ⟨k, a1, a2, a3, a4, a5, a6⟩ := writeVaruintType_ok h2 h9 hv
  refine ⟨k, a2, a3, a4, a5, a1, a6, varuintBits_length v k m, fun pos after => ?_⟩
  rw [varuintBits_length]
  exact readSizedUint_varuintBits h2 a2 a3 a4 pos after

theorem varint_all (md : Mode) {m : Nat} {v : Int} (h2 : 2 ≤ m) (h9 : m ≤ 9)
    (hv : v.natAbs < capacitySigned m m) :
    ∃ k, 1 ≤ k ∧ k ≤ m ∧ v.natAbs < capacitySigned m k ∧
      (∀ j, 1 ≤ j → j < k → capacitySigned m j ≤ v.natAbs) ∧
      signedBitsize md v m = .ok (k * 8) ∧
      (∀ w, writeVarintType md w v m = .ok (w.append (varintBits (decide (v < 0)) v.natAbs k m))) ∧
      (varintBits (decide (v < 0)) v.natAbs k m).length = k * 8 ∧
      (∀ pos after, readSizedInt ⟨pos, varintBits (decide (v < 0)) v.natAbs k m ++ after⟩ m
        = .ok (v, ⟨pos + (varintBits (decide (v < 0)) v.natAbs k m).length, after⟩)) := by
  have h63 : capacitySigned m m ≤ 2 ^ 63 := by
    unfold capacitySigned; rw [if_pos rfl]; exact Nat.pow_le_pow_right (by decide) (by omega)
  obtain ⟨k, a1, a2, a3, a4, a5, a6⟩ := writeVarintType_ok md h2 h9 (v := v) (by omega) (by omega) hv
  refine ⟨k, a2, a3, a4, a5, a1, a6, varintBits_length _ _ k m, fun pos after => ?_⟩
  rw [varintBits_length, readSizedInt_varintBits h2 a2 a3 a4 pos after]
  congr 2
  by_cases h : v < 0
  · simp [h]; omega
  · simp [h]; omega

theorem cap2 : capacity 2 2 = 2 ^ 15 := rfl
theorem cap4 : capacity 4 4 = 2 ^ 29 := rfl
theorem cap8 : capacity 8 8 = 2 ^ 57 := rfl
theorem cap9 : capacity 9 9 = 2 ^ 64 := rfl
theorem cap5 : capacity 5 5 = 2 ^ 36 := rfl
theorem caps2 : capacitySigned 2 2 = 2 ^ 14 := rfl
theorem caps4 : capacitySigned 4 4 = 2 ^ 28 := rfl
theorem caps8 : capacitySigned 8 8 = 2 ^ 56 := rfl
theorem caps9 : capacitySigned 9 9 = 2 ^ 63 := rfl

/-- `write_varsize` / `read_varsize`. -/
theorem varsize_all {v : Nat} (hv : v < 2 ^ 31) :
    ∃ k, 1 ≤ k ∧ k ≤ 5 ∧ v < capacity 5 k ∧ (∀ j, 1 ≤ j → j < k → capacity 5 j ≤ v) ∧
      varsizeBitsize v = .ok (k * 8) ∧
      (∀ w, writeVarsize w v = .ok (w.append (varuintBits v k 5))) ∧
      (varuintBits v k 5).length = k * 8 ∧
      (∀ pos after, readVarsize ⟨pos, varuintBits v k 5 ++ after⟩
        = .ok (v, ⟨pos + (varuintBits v k 5).length, after⟩)) := by
  obtain ⟨k, a1, a2, a3, a4, a5, a6, a7, a8⟩ :=
    varuint_all (m := 5) (v := v) (by decide) (by decide) (by rw [cap5]; omega)
  refine ⟨k, a1, a2, a3, a4, a5, fun w => ?_, a7, fun pos after => ?_⟩
  · have : maxVarsize = 2 ^ 31 - 1 := rfl
    rw [writeVarsize, if_pos (by omega)]; exact a6 w
  · unfold readVarsize
    rw [a8]
    simp only [Res.ok_bind, Res.pure_eq]
    rw [Nat.mod_eq_of_lt (by omega)]

/-! ### Wire layout -/

theorem groups7_eq (n v : Nat) :
    groups7 n v = (List.range n).map (fun i => v / 2 ^ (7 * (n - 1 - i)) % 128) := by
  induction n generalizing v with
  | zero => rfl
  | succ n ih =>
    rw [groups7, ih, List.range_succ, List.map_append]
    congr 1
    · apply List.map_congr_left
      intro i hi
      rw [List.mem_range] at hi
      rw [Nat.div_div_eq_div_mul, show (128 : Nat) = 2 ^ 7 from rfl, ← Nat.pow_add]
      congr 3
      omega
    · simp

theorem flatMap_ofNat (l : List Nat) :
    bytesBits (l.map UInt8.ofNat) = l.flatMap (fun b => natBits 8 b) := by
  induction l with
  | nil => rfl
  | cons a l ih =>
    rw [List.map_cons, List.flatMap_cons, ← ih]
    show natBits 8 (UInt8.ofNat a).toNat ++ _ = _
    congr 1
    apply natBits_congr
    simp [UInt8.toNat_ofNat']

theorem range_map_split {α : Type} (f : Nat → α) {k : Nat} (hk : 1 ≤ k) :
    (List.range k).map f = (List.range (k - 1)).map f ++ [f (k - 1)] := by
  obtain ⟨n, rfl⟩ : ∃ n, k = n + 1 := ⟨k - 1, by omega⟩
  rw [List.range_succ, List.map_append]; rfl

theorem varuintBytes_layout {v k m : Nat} (hk : 1 ≤ k) :
    (List.range k).map (varuintByte v k m) = layoutVaruint m k v := by
  rw [range_map_split _ hk, layoutVaruint, varuintByte_last hk]
  have hbody : ∀ s, (∀ i, i + 1 < k → shiftAt k m i = 7 * (k - 1 - 1 - i) + s) →
      (List.range (k - 1)).map (varuintByte v k m)
        = (groups7 (k - 1) (v / 2 ^ s)).map (128 + ·) := by
    intro s hs
    rw [groups7_eq, List.map_map]
    apply List.map_congr_left
    intro i hi
    rw [List.mem_range] at hi
    rw [varuintByte_next (by omega), Function.comp, Nat.div_div_eq_div_mul, ← Nat.pow_add,
      hs i (by omega), Nat.add_comm s]
  by_cases hkm : k = m
  · rw [if_pos hkm, if_pos hkm, hbody 8]
    intro i hi
    unfold shiftAt; rw [if_pos ⟨hkm, hi⟩]; omega
  · rw [if_neg hkm, if_neg hkm, hbody 7]
    intro i hi
    unfold shiftAt; rw [if_neg (by omega)]; omega

theorem varuintBits_layout {v k m : Nat} (hk : 1 ≤ k) :
    varuintBits v k m = bytesBits ((layoutVaruint m k v).map UInt8.ofNat) := by
  rw [flatMap_ofNat, ← varuintBytes_layout hk, List.flatMap_map]; rfl

theorem varintBits_layout {neg : Bool} {v k m : Nat} (hm : 2 ≤ m) (hk : 1 ≤ k)
    (hv : v < capacitySigned m k) :
    varintBits neg v k m = bytesBits ((layoutVarint m k neg v).map UInt8.ofNat) := by
  rw [varintBits_eq neg hk, flatMap_ofNat, varintByte_zero hk (by omega), layoutVarint]
  by_cases h1 : k = 1
  · subst h1
    have hvv : v < 64 := by
      unfold capacitySigned at hv; rw [if_neg (by omega)] at hv; simpa using hv
    rw [if_neg (Nat.lt_irrefl 1), if_pos rfl, bitsFrom_end, List.append_nil, Nat.mod_eq_of_lt hvv]
    simp
  · -- the tail is the tail of the unsigned form with one byte less
    have htail : ∀ s, (∀ i, i + 1 < k → shiftAt k m i = 7 * (k - 2 - i) + s) →
        bitsFrom v k m 1 = ((groups7 (k - 2) (v / 2 ^ s)).map (128 + ·)).flatMap
          (fun b => natBits 8 b) ++ natBits 8 (varuintByte v k m (k - 1)) := by
      intro s hs
      obtain ⟨d, rfl⟩ : ∃ d, k = d + 2 := ⟨k - 2, by omega⟩
      unfold bitsFrom
      rw [show d + 2 - 1 = d + 1 from rfl, List.range'_concat, List.flatMap_append]
      congr 1
      · rw [List.range'_eq_map_range, List.flatMap_map, groups7_eq, List.map_map, List.flatMap_map]
        rw [List.flatMap_def, List.flatMap_def]
        congr 1
        apply List.map_congr_left
        intro i hi
        rw [List.mem_range] at hi
        rw [varuintByte_next (by omega), Function.comp, Nat.div_div_eq_div_mul, ← Nat.pow_add,
          hs _ (by omega)]
        congr 5
        omega
      · simp [Nat.add_comm]
    have htop : v / 2 ^ shiftAt k m 0 < 64 := by
      rw [Nat.div_lt_iff_lt_mul (Nat.pow_pos (by decide)), show (64 : Nat) = 2 ^ 6 from rfl,
        ← Nat.pow_add]
      refine Nat.lt_of_lt_of_le hv ?_
      unfold capacitySigned shiftAt
      by_cases hkm' : k = m
      · rw [if_pos hkm', if_pos (by omega)]
        exact Nat.pow_le_pow_right (by decide) (by omega)
      · rw [if_neg hkm', if_neg (by omega)]
        exact Nat.pow_le_pow_right (by decide) (by omega)
    have hk1 : 1 < k := by omega
    simp only [if_pos hk1, if_neg h1, Nat.mod_eq_of_lt htop]
    rw [varuintByte_last hk] at htail
    by_cases hkm : k = m
    · have hs : ∀ i, i + 1 < k → shiftAt k m i = 7 * (k - 2 - i) + 8 := by
        intro i hi
        unfold shiftAt; rw [if_pos ⟨hkm, hi⟩]; omega
      rw [htail 8 hs, if_pos hkm, if_pos hkm, hs 0 (by omega)]
      simp [List.flatMap_append, Nat.add_assoc]
    · have hs : ∀ i, i + 1 < k → shiftAt k m i = 7 * (k - 2 - i) + 7 := by
        intro i hi
        unfold shiftAt; rw [if_neg (by omega)]; omega
      rw [htail 7 hs, if_neg hkm, if_neg hkm, hs 0 (by omega)]
      have : 7 * (k - 2 - 0) + 7 = 7 * (k - 1) := by omega
      rw [this]
      simp [List.flatMap_append, Nat.add_assoc]

/-! ### Byte strings -/

theorem writeBytes_eq (w : Writer) (bs : List UInt8) :
    writeBytes w bs = .ok (w.append (bytesBits bs)) := by
  induction bs generalizing w with
  | nil => simp [writeBytes, bytesBits, Writer.append]
  | cons b bs ih =>
    simp only [writeBytes, Writer.writeUnsigned]
    rw [if_neg (by decide), Res.ok_bind, ih]
    simp [Writer.append, bytesBits]

theorem readBytes_append (bs : List UInt8) (pos : Nat) (post : List Bool) :
    readBytes ⟨pos, bytesBits bs ++ post⟩ bs.length = .ok (bs, ⟨pos + bs.length * 8, post⟩) := by
  unfold readBytes Reader.remaining
  rw [if_neg (by simp [bytesBits_length]), Reader.readU8Slice_append]

/-! ### Strings -/

theorem strOfBytes_strBytes (s : String) : strOfBytes (strBytes s) = .ok s := by
  unfold strOfBytes strBytes
  have h : (⟨s.toByteArray.data.toList.toArray⟩ : ByteArray) = s.toByteArray := by simp
  rw [h]
  have : String.fromUTF8? s.toByteArray = some s := by
    unfold String.fromUTF8?
    have hv := s.isValidUTF8
    simp [String.fromUTF8, hv]
  rw [this]

end Zs
