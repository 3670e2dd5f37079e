import Verif.Array
import Verif.PropsScalar

/-!
# Lemmas on delta contexts
-/

namespace Zs

open Spec

/-- Differences of neighbours. -/
def deltas : List Nat → List Nat
  | a :: b :: rest => absDiff a b :: deltas (b :: rest)
  | _ => []

/-- What a packed element must satisfy: its size is computable, it round-trips unpacked, and it
survives the conversion to `u64` and back. -/
structure ElemGood {α : Type} (e : Elem α) (dflt v : α) : Prop where
  size : ∃ s, e.bitsizeOf 0 v = .ok s
  rt : RoundTrips (fun w => e.write w v) (fun r => e.read r dflt) v
  u64 : ∃ u, u < 2 ^ 64 ∧ e.toU64 v = .ok u ∧ e.fromU64 u = .ok v

/-! ### `i64` arithmetic on `u64` values -/

theorem absDiff_lt {a b n : Nat} : absDiff a b < n ↔ ((b : Int) - a < n ∧ (a : Int) - b < n) := by
  unfold absDiff; split <;> omega

/-- Either overflow checks are off or both values are on the same side of `2^63`. -/
def Safe (md : Mode) (p u : Nat) : Prop := md = .release ∨ (p < 2 ^ 63 ↔ u < 2 ^ 63)

theorem asI64_of_lt {u : Nat} (hu : u < 2 ^ 64) :
    asI64 u = if u < 2 ^ 63 then (u : Int) else (u : Int) - 2 ^ 64 := by
  unfold asI64; rw [Nat.mod_eq_of_lt hu]

theorem wrapSigned64 (v : Int) :
    ∃ k : Int, wrapSigned 64 v = v + k * 2 ^ 64 ∧ -2 ^ 63 ≤ wrapSigned 64 v ∧
      wrapSigned 64 v < 2 ^ 63 := by
  unfold wrapSigned signExtend
  have h1 : 0 ≤ v % 2 ^ 64 := Int.emod_nonneg _ (by decide)
  have h2 : v % 2 ^ 64 < 2 ^ 64 := Int.emod_lt_of_pos _ (by decide)
  have h3 := Int.emod_add_mul_ediv v (2 ^ 64)
  split
  · refine ⟨-(v / 2 ^ 64), ?_, ?_, ?_⟩ <;> omega
  · refine ⟨-(v / 2 ^ 64) - 1, ?_, ?_, ?_⟩ <;> omega

theorem asU64_add_mul (v k : Int) : asU64 (v + k * 2 ^ 64) = asU64 v := by
  unfold asU64; rw [Int.add_mul_emod_self_right]

theorem asU64_natCast {u : Nat} (hu : u < 2 ^ 64) : asU64 (u : Int) = u := by
  unfold asU64; omega

theorem asI64_shift {u : Nat} (hu : u < 2 ^ 64) : ∃ k : Int, asI64 u = u + k * 2 ^ 64 := by
  rw [asI64_of_lt hu]; split
  · exact ⟨0, by omega⟩
  · exact ⟨-1, by omega⟩

theorem asI64_range {u : Nat} (hu : u < 2 ^ 64) : -2 ^ 63 ≤ asI64 u ∧ asI64 u < 2 ^ 63 := by
  rw [asI64_of_lt hu]; split <;> omega

/-- Writing a delta: the `i64` difference is the true difference. -/
theorem subI64_delta {md : Mode} {p u : Nat} (hp : p < 2 ^ 64) (hu : u < 2 ^ 64)
    (hs : Safe md p u) (hd : absDiff p u < 2 ^ 62) :
    subI64 md (asI64 u) (asI64 p) = .ok ((u : Int) - p) := by
  obtain ⟨h1, h2⟩ := absDiff_lt.1 hd
  have hsplit : ∀ {x : Nat}, x < 2 ^ 64 → (x < 2 ^ 63 ∧ asI64 x = x) ∨
      (¬ x < 2 ^ 63 ∧ asI64 x = (x : Int) - 2 ^ 64) := by
    intro x hx; rw [asI64_of_lt hx]; split <;> simp_all
  unfold subI64
  obtain ⟨k, e, r1, r2⟩ := wrapSigned64 (asI64 u - asI64 p)
  rcases hsplit hu with ⟨hu', eu⟩ | ⟨hu', eu⟩ <;> rcases hsplit hp with ⟨hp', ep⟩ | ⟨hp', ep⟩
  · rw [if_pos (by omega), eu, ep]
  · rw [if_neg (by omega)]
    rcases hs with rfl | hs
    · simp only; congr 1; omega
    · exact absurd (hs.2 hu') hp'
  · rw [if_neg (by omega)]
    rcases hs with rfl | hs
    · simp only; congr 1; omega
    · exact absurd (hs.1 hp') hu'
  · rw [if_pos (by omega)]; congr 1; omega

/-- Reading a delta: the wrapped sum is the next element. -/
theorem addI64_delta {md : Mode} {p u : Nat} (hp : p < 2 ^ 64) (hu : u < 2 ^ 64)
    (hs : Safe md p u) (hd : absDiff p u < 2 ^ 62) :
    ∃ s, addI64 md (asI64 p) ((u : Int) - p) = .ok s ∧ asU64 s = u := by
  obtain ⟨h1, h2⟩ := absDiff_lt.1 hd
  obtain ⟨kp, ep⟩ := asI64_shift hp
  have hsum : asI64 p + ((u : Int) - p) = u + kp * 2 ^ 64 := by omega
  unfold addI64
  split
  · exact ⟨_, rfl, by rw [hsum, asU64_add_mul, asU64_natCast hu]⟩
  · rename_i hn
    cases md with
    | release =>
      obtain ⟨k, e, _, _⟩ := wrapSigned64 (asI64 p + ((u : Int) - p))
      exact ⟨_, rfl, by rw [e, asU64_add_mul, hsum, asU64_add_mul, asU64_natCast hu]⟩
    | debug =>
      exfalso; apply hn
      rcases hs with h | hs
      · cases h
      · rw [asI64_of_lt hp]
        by_cases hu' : u < 2 ^ 63
        · have hp' := hs.2 hu'
          rw [if_pos hp']; omega
        · have hp' : ¬ p < 2 ^ 63 := fun h => hu' (hs.1 h)
          rw [if_neg hp']; omega

/-! ### `init` -/

/-- The elements are usable by `init`: sizes `ss` and numbers `us`. -/
inductive Inits {α : Type} (e : Elem α) : List α → List Nat → List Nat → Prop
  | nil : Inits e [] [] []
  | cons {x xs u us s ss} (hs : e.bitsizeOf 0 x = .ok s) (hu : e.toU64 x = .ok u)
      (h64 : u < 2 ^ 64) (h : Inits e xs us ss) : Inits e (x :: xs) (u :: us) (s :: ss)

theorem Inits.of_good {α : Type} {e : Elem α} {dflt : α} {xs : List α}
    (h : ∀ x ∈ xs, ElemGood e dflt x) : ∃ us ss, Inits e xs us ss := by
  induction xs with
  | nil => exact ⟨[], [], .nil⟩
  | cons x xs ih =>
    obtain ⟨us, ss, h2⟩ := ih (fun y hy => h y (List.mem_cons_of_mem _ hy))
    obtain ⟨⟨s, hs⟩, _, u, h64, hu, _⟩ := h x (List.mem_cons_self ..)
    exact ⟨_, _, .cons hs hu h64 h2⟩

namespace DeltaContext

/-- `init` over a list, without the nodes around the context. -/
def initAll {α : Type} (e : Elem α) : DeltaContext → List α → Res DeltaContext
  | c, [] => .ok c
  | c, x :: xs => c.init e x >>= fun c => initAll e c xs

/-- `c'` is `c` after `init` over elements with numbers `us` and sizes `ss`, at least one element
having come before. -/
structure AfterInit (c c' : DeltaContext) (us ss : List Nat) : Prop where
  started : c'.initStarted = true
  processing : c'.processingStarted = c.processingStarted
  num : c'.numElements = c.numElements + us.length
  unpacked : c'.unpackedSize = c.unpackedSize + ss.sum
  first : c'.firstElementSize = c.firstElementSize
  packed : c'.isPacked = if us = [] then c.isPacked else decide (c'.maxBitNumber ≤ 62)
  grows : c.maxBitNumber ≤ c'.maxBitNumber
  fits : c'.maxBitNumber ≤ 62 → ∀ d ∈ deltas (c.previousElement :: us), d < 2 ^ c'.maxBitNumber
  attained : c'.maxBitNumber = c.maxBitNumber ∨
    ∃ d ∈ deltas (c.previousElement :: us), IsBitLength d c'.maxBitNumber
  gaveUp : c.maxBitNumber > 62 → c'.maxBitNumber = c.maxBitNumber

theorem absDiff_lt64 {a b : Nat} (ha : a < 2 ^ 64) (hb : b < 2 ^ 64) : absDiff a b < 2 ^ 64 := by
  unfold absDiff; split <;> omega

theorem initAll_rest {α : Type} {e : Elem α} {xs : List α} {us ss : List Nat}
    (h : Inits e xs us ss) (c : DeltaContext) (hst : c.initStarted = true)
    (hprev : c.previousElement < 2 ^ 64) (hmp : c.maxBitNumber > 62 → c.isPacked = false) :
    ∃ c', initAll e c xs = .ok c' ∧ AfterInit c c' us ss := by
  induction h generalizing c with
  | nil => exact ⟨c, rfl, hst, rfl, by simp, by simp, rfl, by simp, Nat.le_refl _, by simp [deltas],
      .inl rfl, fun _ => rfl⟩
  | @cons x xs u us s ss hs hu h64 h ih =>
    by_cases hm : c.maxBitNumber ≤ 62
    · obtain ⟨k, hk, hkl⟩ := bitLength_spec (absDiff_lt64 hprev h64)
      -- the context after this element
      have step : ∃ c1, c.init e x = .ok c1 ∧ c1.initStarted = true ∧ c1.previousElement = u ∧
          c1.maxBitNumber = max c.maxBitNumber k ∧ c1.isPacked = decide (c1.maxBitNumber ≤ 62) ∧
          c1.numElements = c.numElements + 1 ∧ c1.unpackedSize = c.unpackedSize + s ∧
          c1.firstElementSize = c.firstElementSize ∧
          c1.processingStarted = c.processingStarted := by
        unfold init
        simp only [hs, hu, Res.ok_bind, hst, maxBitNumberLimit, hm, if_true, hk, Bool.not_true,
          Bool.false_eq_true, if_false]
        refine ⟨_, rfl, ?_⟩
        by_cases hgt : k > c.maxBitNumber
        · rw [if_pos hgt]
          by_cases h62 : k > 62
          · rw [if_pos h62]; simp [hst]; omega
          · rw [if_neg h62]; simp [hst]; omega
        · rw [if_neg hgt]; simp [hst]; omega
      obtain ⟨c1, e1, s1, p1, m1, k1, n1, z1, f1, q1⟩ := step
      obtain ⟨c', e2, a⟩ := ih c1 s1 (by omega) (by intro h; rw [k1]; simp; omega)
      refine ⟨c', by simp only [initAll, e1, Res.ok_bind]; exact e2, ?_⟩
      refine ⟨a.started, by rw [a.processing, q1], by rw [a.num, n1]; simp; omega,
        by rw [a.unpacked, z1]; simp; omega, by rw [a.first, f1], ?_, ?_, ?_, ?_, fun h => by omega⟩
      · rw [a.packed]
        by_cases hn : us = []
        · subst hn
          simp only [if_true, k1]
          have := a.attained
          simp only [deltas, List.not_mem_nil, false_and, exists_false, or_false] at this
          simp [this]
        · simp [hn]
      · have := a.grows; omega
      · intro h62 d hd
        simp only [deltas, List.mem_cons] at hd
        rcases hd with rfl | hd
        · have := a.grows
          exact Nat.lt_of_lt_of_le hkl.1 (Nat.pow_le_pow_right (by decide) (by omega))
        · rw [← p1] at hd; exact a.fits h62 d hd
      · rcases a.attained with h0 | ⟨d, hd, hl⟩
        · by_cases hgt : k > c.maxBitNumber
          · right
            refine ⟨_, List.mem_cons_self .., ?_⟩
            rw [h0, m1, Nat.max_eq_right (by omega)]; exact hkl
          · left; omega
        · right
          rw [p1] at hd
          exact ⟨d, List.mem_cons_of_mem _ hd, hl⟩
    · -- packing was given up before
      have hnp := hmp (by omega)
      have step : c.init e x = .ok
          { c with numElements := c.numElements + 1, unpackedSize := c.unpackedSize + s } := by
        unfold init
        simp only [hs, Res.ok_bind, hst, maxBitNumberLimit, hm, if_false, Bool.not_true,
          Bool.false_eq_true, Res.pure_eq]
      obtain ⟨c', e2, a⟩ := ih
        { c with numElements := c.numElements + 1, unpackedSize := c.unpackedSize + s } hst hprev hmp
      refine ⟨c', by simp only [initAll, step, Res.ok_bind]; exact e2, ?_⟩
      have hg := a.grows
      simp only at hg
      have hgu := a.gaveUp (by simp only; omega)
      refine ⟨a.started, a.processing, by rw [a.num]; simp; omega, by rw [a.unpacked]; simp; omega,
        a.first, ?_, hg, fun h => by omega, .inl hgu, fun _ => hgu⟩
      · rw [a.packed]
        by_cases hn : us = []
        · subst hn; simp [hnp]; omega
        · simp [hn]

/-- `c'` is a new context after `init` over a non-empty list with numbers `us` and sizes `ss`. -/
structure Initialised (c' : DeltaContext) (us ss : List Nat) : Prop where
  started : c'.initStarted = true
  processing : c'.processingStarted = false
  num : c'.numElements = us.length
  unpacked : c'.unpackedSize = ss.sum
  first : c'.firstElementSize = ss.headD 0
  packed : c'.isPacked = (decide (2 ≤ us.length) && decide (c'.maxBitNumber ≤ 62))
  fits : c'.maxBitNumber ≤ 62 → ∀ d ∈ deltas us, d < 2 ^ c'.maxBitNumber
  attained : c'.maxBitNumber = 0 ∨ ∃ d ∈ deltas us, IsBitLength d c'.maxBitNumber

theorem initAll_new {α : Type} {e : Elem α} {xs : List α} {us ss : List Nat}
    (h : Inits e xs us ss) (hne : xs ≠ []) :
    ∃ c', initAll e new xs = .ok c' ∧ Initialised c' us ss := by
  cases h with
  | nil => exact absurd rfl hne
  | @cons x xs u us s ss hs hu h64 h =>
    have step : new.init e x = .ok ⟨false, 0, s, s, 1, u, true, false⟩ := by
      simp [init, new, hs, hu]
    obtain ⟨c', e2, a⟩ := initAll_rest h ⟨false, 0, s, s, 1, u, true, false⟩ rfl h64 (by simp)
    refine ⟨c', by simp only [initAll, step, Res.ok_bind]; exact e2, a.started, a.processing,
      by rw [a.num]; simp; omega, by rw [a.unpacked]; simp, by rw [a.first]; simp, ?_, a.fits,
      a.attained⟩
    rw [a.packed]
    cases us with
    | nil => simp
    | cons u2 us => simp

/-! ### writing and reading in step -/

/-- All further elements can be reached by deltas of `m` bits from `p`. -/
def Reachable (md : Mode) (m : Nat) : Nat → List Nat → Prop
  | _, [] => True
  | p, u :: us => u < 2 ^ 64 ∧ absDiff p u < 2 ^ m ∧ Safe md p u ∧ Reachable md m u us

/-- Neighbours are safe to subtract whenever their distance allows packing. -/
def SafeSteps (md : Mode) : List Nat → Prop
  | a :: b :: rest => (absDiff a b < 2 ^ 62 → Safe md a b) ∧ SafeSteps md (b :: rest)
  | _ => True

theorem reachable_of {md : Mode} {m : Nat} (hm : m ≤ 62) {p : Nat} {us : List Nat}
    (h64 : ∀ u ∈ us, u < 2 ^ 64) (hf : ∀ d ∈ deltas (p :: us), d < 2 ^ m)
    (hs : SafeSteps md (p :: us)) : Reachable md m p us := by
  induction us generalizing p with
  | nil => trivial
  | cons u us ih =>
    have h1 : absDiff p u < 2 ^ m := hf _ (List.mem_cons_self ..)
    refine ⟨h64 u (List.mem_cons_self ..), h1,
      hs.1 (Nat.lt_of_lt_of_le h1 (Nat.pow_le_pow_right (by decide) hm)),
      ih (fun v hv => h64 v (List.mem_cons_of_mem _ hv))
        (fun d hd => hf d (List.mem_cons_of_mem _ hd)) hs.2⟩

/-- The numbers of the elements. -/
inductive Nums {α : Type} (e : Elem α) : List α → List Nat → Prop
  | nil : Nums e [] []
  | cons {x xs u us} (hu : e.toU64 x = .ok u) (h : Nums e xs us) : Nums e (x :: xs) (u :: us)

theorem Nums.of_inits {α : Type} {e : Elem α} {xs : List α} {us ss : List Nat}
    (h : Inits e xs us ss) : Nums e xs us := by
  induction h with
  | nil => exact .nil
  | cons _ hu _ _ ih => exact .cons hu ih

theorem Inits.lt64 {α : Type} {e : Elem α} {xs : List α} {us ss : List Nat}
    (h : Inits e xs us ss) : ∀ u ∈ us, u < 2 ^ 64 := by
  induction h with
  | nil => simp
  | cons _ _ h64 _ ih => simp [h64]; exact ih

/-- Writer context `w` and reader context `r` agree, and elements with the numbers `us` can still be
written. -/
inductive InStep (md : Mode) : List Nat → DeltaContext → DeltaContext → Prop
  | done (w r) : InStep md [] w r
  | fresh {us w} (hproc : w.processingStarted = false)
      (h62 : w.isPacked = true → w.maxBitNumber ≤ 62)
      (hreach : w.isPacked = true → ∀ u rest, us = u :: rest → Reachable md w.maxBitNumber u rest) :
      InStep md us w new
  | plain {us w r} (hw : w.processingStarted = true) (hr : r.processingStarted = true)
      (hwp : w.isPacked = false) (hrp : r.isPacked = false) : InStep md us w r
  | delta {us w r} (hw : w.processingStarted = true)
      (hr : r.processingStarted = true) (hwp : w.isPacked = true) (hrp : r.isPacked = true)
      (hm : w.maxBitNumber = r.maxBitNumber) (h62 : w.maxBitNumber ≤ 62)
      (hp : w.previousElement = r.previousElement) (h64 : w.previousElement < 2 ^ 64)
      (hreach : Reachable md w.maxBitNumber w.previousElement us) : InStep md us w r

/-- A context after `init` over a whole list is ready for writing that list. -/
theorem InStep.of_initialised {md : Mode} {us ss : List Nat} {w : DeltaContext}
    (hw : Initialised w us ss) (h64 : ∀ u ∈ us, u < 2 ^ 64) (hs : SafeSteps md us) :
    InStep md us w new := by
  have h62 : w.isPacked = true → w.maxBitNumber ≤ 62 := by
    intro hk
    rw [hw.packed] at hk
    simp only [Bool.and_eq_true, decide_eq_true_eq] at hk
    omega
  refine .fresh hw.processing h62 (fun hk u rest he => ?_)
  subst he
  exact reachable_of (h62 hk) (fun v hv => h64 v (List.mem_cons_of_mem _ hv)) (hw.fits (h62 hk)) hs

/-- Reading and writing of unpacked elements. -/
theorem unpacked_step {α : Type} {e : Elem α} {dflt x : α} (hx : ElemGood e dflt x)
    (w r : DeltaContext) (before : List Bool) : ∃ bits u, u < 2 ^ 64 ∧ e.toU64 x = .ok u ∧
      w.writeUnpacked e ⟨before⟩ x = .ok (⟨before ++ bits⟩, { w with previousElement := u }) ∧
      ∀ after, r.readUnpacked e ⟨before.length, bits ++ after⟩ dflt =
        .ok ((x, { r with previousElement := u }), ⟨before.length + bits.length, after⟩) := by
  obtain ⟨_, hrt, u, h64, hu, _⟩ := hx
  obtain ⟨bits, hw, hr⟩ := hrt before
  refine ⟨bits, u, h64, hu, ?_, fun after => ?_⟩
  · simp only [writeUnpacked, hu, Res.ok_bind, hw, Res.pure_eq]
  · simp only [readUnpacked, hr after, Res.ok_bind, hu, Res.pure_eq]

theorem finishInit_spec (c : DeltaContext) :
    finishInit c = c ∨ (c.isPacked = true ∧ finishInit c = { c with isPacked := false }) := by
  unfold finishInit
  cases h : c.isPacked with
  | false => simp
  | true => 
    simp only [Bool.not_true, Bool.false_eq_true, if_false]
    generalize (1 + maxBitNumberBits + c.firstElementSize + _ : Nat) = n
    by_cases hn : n ≥ 1 + c.unpackedSize
    · rw [if_pos hn]; exact .inr ⟨by trivial, rfl⟩
    · rw [if_neg hn]; exact .inl rfl

/-- The descriptor is read back; the reader context takes over what the writer context holds. -/
theorem descriptor_step (w r : DeltaContext) (h : w.isPacked = true → w.maxBitNumber ≤ 62)
    (before : List Bool) : ∃ bits, w.writeDescriptor ⟨before⟩ = .ok ⟨before ++ bits⟩ ∧
      bits.length = w.bitsizeOfDescriptor ∧
      ∀ after, r.readDescriptor ⟨before.length, bits ++ after⟩ =
        .ok ({ r with
          isPacked := w.isPacked
          maxBitNumber := if w.isPacked then w.maxBitNumber else r.maxBitNumber },
          ⟨before.length + bits.length, after⟩) := by
  cases hp : w.isPacked with
  | false =>
    refine ⟨[false], by simp [writeDescriptor, Writer.writeBool, Writer.append, hp],
      by simp [bitsizeOfDescriptor, hp], fun after => ?_⟩
    simp [readDescriptor, Reader.readBool]
  | true =>
    have hm := h hp
    have hrd : ∀ pos after, readUnsignedBits ⟨pos, natBits 6 w.maxBitNumber ++ after⟩ 6 =
        .ok (w.maxBitNumber, ⟨pos + 6, after⟩) := by
      intro pos after
      unfold readUnsignedBits
      rw [if_neg (by decide), Reader.readUnsigned_append (by decide) (by omega)]
    refine ⟨true :: natBits 6 w.maxBitNumber, ?_, ?_, fun after => ?_⟩
    · simp [writeDescriptor, Writer.writeBool, Writer.append, hp, writeUnsignedBits,
        Writer.writeUnsigned, maxBitNumberBits]
    · simp [bitsizeOfDescriptor, hp, natBits, maxBitNumberBits]
    · simp only [readDescriptor, Reader.readBool, List.cons_append, Res.unwrap_ok, Res.ok_bind,
        if_true, maxBitNumberBits, hrd]
      simp [natBits]
      omega

theorem write_delta {md : Mode} {p u m : Nat} (hp : p < 2 ^ 64) (hu : u < 2 ^ 64) (hm : m ≤ 62)
    (h0 : 0 < m) (hs : Safe md p u) (hd : absDiff p u < 2 ^ m) (before : List Bool) :
    ∃ bits, bits.length = m + 1 ∧
      (subI64 md (asI64 u) (asI64 p) >>= fun d => writeSignedBits ⟨before⟩ d (m + 1)) =
        .ok ⟨before ++ bits⟩ ∧
      ∀ pos after, ∃ d s, readSignedBits ⟨pos, bits ++ after⟩ (m + 1) =
        .ok (d, ⟨pos + (m + 1), after⟩) ∧ addI64 md (asI64 p) d = .ok s ∧ asU64 s = u := by
  have hd62 : absDiff p u < 2 ^ 62 := Nat.lt_of_lt_of_le hd (Nat.pow_le_pow_right (by decide) hm)
  obtain ⟨s, ha, hs'⟩ := addI64_delta hp hu hs hd62
  obtain ⟨h1, h2⟩ := absDiff_lt.1 hd
  refine ⟨natBits (m + 1) (asU64 ((u : Int) - p)), by simp, ?_, fun pos after =>
    ⟨(u : Int) - p, s, ?_, ha, hs'⟩⟩
  · rw [subI64_delta hp hu hs hd62]
    simp only [Res.ok_bind]
    unfold writeSignedBits Writer.writeSigned
    rw [if_neg (by omega), if_neg (by omega)]; rfl
  · unfold readSignedBits
    rw [if_neg (by omega), Reader.readSigned_append (by omega) (by omega) (by omega)]
    · rw [Nat.add_sub_cancel]; push_cast at h1 h2; omega
    · rw [Nat.add_sub_cancel]; push_cast at h1 h2; omega

/-- One step of a packed array: written, read back, and still in step. -/
theorem InStep.step {α : Type} {md : Mode} {e : Elem α} {dflt x : α} {u : Nat} {us : List Nat}
    {w r : DeltaContext} (hx : ElemGood e dflt x) (hu : e.toU64 x = .ok u)
    (h : InStep md (u :: us) w r) (before : List Bool) : ∃ bits w' r', w.write md e ⟨before⟩ x = .ok (⟨before ++ bits⟩, w') ∧
      (∀ after, r.read md e ⟨before.length, bits ++ after⟩ dflt =
        .ok ((x, r'), ⟨before.length + bits.length, after⟩)) ∧ InStep md us w' r' := by
  cases h with
  | plain hw hr hwp hrp =>
    obtain ⟨bits, u', h64, hu', hwr, hrd⟩ := unpacked_step hx w r before
    rw [hu] at hu'; cases hu'
    refine ⟨bits, { w with previousElement := u }, { r with previousElement := u }, ?_,
      fun after => ?_, .plain hw hr hwp hrp⟩
    · unfold write
      rw [if_neg (by simp [hw]), if_pos (by simp [hwp])]; exact hwr
    · unfold read
      rw [if_neg (by simp [hr]), if_pos (by simp [hrp])]; exact hrd after
  | delta hw hr hwp hrp hm h62 hp h64 hreach =>
    obtain ⟨hu64, hd, hs, hreach'⟩ := hreach
    obtain ⟨_, _, u', _, hu', hfrom⟩ := hx
    rw [hu] at hu'; cases hu'
    by_cases h0 : w.maxBitNumber > 0
    · obtain ⟨bits, hl, hwr, hrd⟩ := write_delta h64 hu64 h62 h0 hs hd before
      refine ⟨bits, { w with previousElement := u }, { r with previousElement := u }, ?_,
        fun after => ?_, .delta hw hr hwp hrp hm h62 rfl hu64 hreach'⟩
      · unfold write
        simp only [hw, hwp, Bool.not_true, Bool.false_eq_true, if_false, h0, if_true, hu,
          Res.ok_bind]
        obtain ⟨d, hd1, hd2⟩ := Res.bind_eq_ok.1 hwr
        simp only [hd1, Res.ok_bind, hd2, Res.pure_eq]
      · obtain ⟨d, s, hr1, hr2, hr3⟩ := hrd before.length after
        unfold read
        simp only [hr, hrp, Bool.not_true, Bool.false_eq_true, if_false, ← hm, h0, if_true]
        rw [hr1]
        simp only [Res.ok_bind, ← hp, hr2, Res.pure_eq, hr3, hfrom, hl]
    · have hm0 : w.maxBitNumber = 0 := by omega
      rw [hm0] at hd
      obtain ⟨h1, h2⟩ := absDiff_lt.1 hd
      have hpu : w.previousElement = u := by simp at h1 h2; omega
      refine ⟨[], w, r, ?_, fun after => ?_, .delta hw hr hwp hrp hm h62 hp h64
        (by rw [hpu]; exact hreach')⟩
      · unfold write
        simp only [hw, hwp, Bool.not_true, Bool.false_eq_true, if_false, h0, Res.pure_eq,
          List.append_nil]
      · unfold read
        simp only [hr, hrp, Bool.not_true, Bool.false_eq_true, if_false, ← hm, h0, Res.pure_eq,
          Res.ok_bind, ← hp, hpu, hfrom, List.nil_append, List.length_nil, Nat.add_zero]
  | fresh hproc hw62 hwreach =>
    generalize hc : finishInit { w with processingStarted := true } = c
    have hcm : c.maxBitNumber = w.maxBitNumber ∧ c.processingStarted = true ∧
        (c.isPacked = true → w.isPacked = true) := by
      rw [← hc]
      rcases finishInit_spec { w with processingStarted := true } with h | ⟨_, h⟩ <;> rw [h] <;>
        simp
    obtain ⟨hcm, hcp, hck⟩ := hcm
    have h62 : c.isPacked = true → c.maxBitNumber ≤ 62 := by
      intro hk
      rw [hcm]; exact hw62 (hck hk)
    obtain ⟨b1, hw1, _, hr1⟩ :=
      descriptor_step c { new with processingStarted := true } h62 before
    obtain ⟨b2, u', hu64, hu', hw2, hr2⟩ := unpacked_step hx c
      { { new with processingStarted := true } with
          isPacked := c.isPacked
          maxBitNumber := if c.isPacked then c.maxBitNumber else new.maxBitNumber }
      (before ++ b1)
    rw [hu] at hu'; cases hu'
    refine ⟨b1 ++ b2, { c with previousElement := u }, ⟨c.isPacked,
      if c.isPacked then c.maxBitNumber else 0, 0, 0, 0, u, false, true⟩, ?_, fun after => ?_, ?_⟩
    · unfold write
      simp only [hproc, Bool.not_false, if_true, hc, hw1, Res.ok_bind]
      rw [hw2, List.append_assoc]
    · unfold read
      simp only [show new.processingStarted = false from rfl, Bool.not_false, if_true]
      rw [List.append_assoc, hr1]
      simp only [Res.ok_bind]
      have := hr2 after
      simp only [List.length_append] at this
      rw [this]
      simp only [List.length_append, Nat.add_assoc]
      rfl
    · cases hk : c.isPacked with
      | false => exact .plain hcp rfl rfl rfl
      | true =>
        refine .delta hcp rfl rfl rfl (by simp) (h62 hk) rfl hu64 ?_
        rw [show ({ c with isPacked := true, previousElement := u } : DeltaContext).maxBitNumber =
          w.maxBitNumber from hcm]
        exact hwreach (hck hk) u us rfl

end DeltaContext
end Zs
