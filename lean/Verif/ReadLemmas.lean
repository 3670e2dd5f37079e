import Verif.ReadSpec
import Verif.PropsArray

/-!
# Lemmas on reading arbitrary input
-/

namespace Zs

open Spec

/-- Everything about a reader: it is local, it does not panic if `np`, and a result `v` for which it
has used `k` bits satisfies `post k v`. -/
structure Reads {α : Type} (np : Prop) (post : Nat → α → Prop) (read : Reader → Res (α × Reader)) :
    Prop where
  loc : Local read
  steady : np → NeverPanics read
  sound : ∀ r v r', read r = .ok (v, r') → post (r.rest.length - r'.rest.length) v

namespace Reads

variable {α β : Type} {np : Prop}

theorem used {read : Reader → Res (α × Reader)} (h : Local read) {r r' : Reader} {v : α}
    (hr : read r = .ok (v, r')) : r'.rest.length ≤ r.rest.length := by
  obtain ⟨u, e, _⟩ := h r v r' hr
  rw [e, List.length_append]; omega

theorem mono {np' : Prop} {p q : Nat → α → Prop} {read : Reader → Res (α × Reader)}
    (h : Reads np p read) (hn : np' → np) (hp : ∀ k v, p k v → q k v) : Reads np' q read :=
  ⟨h.loc, fun hn' => h.steady (hn hn'), fun r v r' hr => hp _ _ (h.sound r v r' hr)⟩

theorem pure {p : Nat → α → Prop} (a : α) (h : p 0 a) :
    Reads np p (fun r => (.ok (a, r) : Res (α × Reader))) := by
  refine ⟨Local.pure a, fun _ r => by simp, fun r v r' hr => ?_⟩
  cases hr
  rw [Nat.sub_self]; exact h

theorem err {p : Nat → α → Prop} (e : Err) : Reads np p (fun _ => (.err e : Res (α × Reader))) :=
  ⟨Local.err e, fun _ r => by simp, fun r v r' hr => by cases hr⟩

theorem panic {p : Nat → α → Prop} (h : ¬ np) : Reads np p (fun _ => (.panic : Res (α × Reader))) :=
  ⟨Local.panic, fun hn => absurd hn h, fun r v r' hr => by cases hr⟩

theorem bind {p : Nat → α → Prop} {q : Nat → β → Prop} {f : Reader → Res (α × Reader)}
    {g : α → Reader → Res (β × Reader)} (hf : Reads np p f)
    (hg : ∀ a, Reads np (fun k b => ∀ j, p j a → q (j + k) b) (g a)) :
    Reads np q (fun r => f r >>= fun x => g x.1 x.2) := by
  refine ⟨Local.bind hf.loc (fun a => (hg a).loc), fun hn => NeverPanics.bind (hf.steady hn)
    (fun a => (hg a).steady hn), fun r v r' hr => ?_⟩
  obtain ⟨⟨a, r1⟩, h1, h2⟩ := Res.bind_eq_ok.1 hr
  have e1 := used hf.loc h1
  have e2 := used (hg a).loc h2
  have := (hg a).sound r1 v r' h2 _ (hf.sound r a r1 h1)
  have e : r.rest.length - r1.rest.length + (r1.rest.length - r'.rest.length) =
      r.rest.length - r'.rest.length := by simp only at e2; omega
  rwa [e] at this

theorem map {p : Nat → α → Prop} {q : Nat → β → Prop} {f : Reader → Res (α × Reader)} (g : α → β)
    (hf : Reads np p f) (h : ∀ k a, p k a → q k (g a)) :
    Reads np q (fun r => f r >>= fun x => .ok (g x.1, x.2)) :=
  bind (g := fun a r => .ok (g a, r)) hf (fun a => pure _ (fun j hj => h j a hj))

theorem lift {p : Nat → β → Prop} (x : Res α) {g : α → Reader → Res (β × Reader)}
    (hx : np → x ≠ .panic) (hg : ∀ a, x = .ok a → Reads np p (g a)) :
    Reads np p (fun r => x >>= fun a => g a r) := by
  cases x with
  | ok a => exact hg a rfl
  | err e => exact err e
  | panic => exact panic (fun hn => hx hn rfl)

/-- Something that moves the reader only. -/
theorem after {q : Nat → β → Prop} {f : Reader → Res Reader} {g : Reader → Res (β × Reader)}
    (hl : Local (fun r => f r >>= fun r => .ok ((), r))) (hn : np → ∀ r, f r ≠ .panic)
    (hg : Reads np (fun k b => ∀ j, q (j + k) b) g) : Reads np q (fun r => f r >>= g) := by
  have h1 : Reads np (fun _ _ => True) (fun r => f r >>= fun r => .ok ((), r)) :=
    ⟨hl, fun h r => Res.bind_ne_panic (hn h r) (fun _ _ => by simp), fun _ _ _ _ => trivial⟩
  have := bind (g := fun _ r => g r) h1
    (fun _ => hg.mono id (fun k b hq j _ => hq j))
  simpa only [bind_assoc, Res.ok_bind] using this

theorem ite {p : Nat → α → Prop} {c : Prop} [Decidable c] {f g : Reader → Res (α × Reader)}
    (hf : c → Reads np p f) (hg : ¬ c → Reads np p g) :
    Reads np p (fun r => if c then f r else g r) := by
  by_cases h : c
  · simpa [h] using hf h
  · simpa [h] using hg h

end Reads

/-! ## Numbers -/

theorem ofBits_take_lt (n : Nat) (bs : List Bool) : ofBits (bs.take n) < 2 ^ n := by
  have h := ofBits_lt (bs.take n)
  exact Nat.lt_of_lt_of_le h (Nat.pow_le_pow_right (by decide) (by simp; omega))

theorem signExtend_range {n u : Nat} (hn : 1 ≤ n) (hu : u < 2 ^ n) :
    -(2 ^ (n - 1) : Int) ≤ signExtend n u ∧ signExtend n u < 2 ^ (n - 1) := by
  obtain ⟨m, rfl⟩ : ∃ m, n = m + 1 := ⟨n - 1, by omega⟩
  unfold signExtend
  rw [Nat.add_sub_cancel]
  have e : (2 : Nat) ^ (m + 1) = 2 * 2 ^ m := by rw [Nat.pow_succ]; omega
  have e' : (2 : Int) ^ (m + 1) = 2 * 2 ^ m := by rw [Int.pow_succ]; omega
  have c : ((2 ^ m : Nat) : Int) = 2 ^ m := by push_cast; rfl
  rw [e] at hu ⊢
  rw [e', ← c]
  split <;> omega

theorem wrapSigned_range {n : Nat} {v : Int} (hn : 1 ≤ n) :
    -(2 ^ (n - 1) : Int) ≤ wrapSigned n v ∧ wrapSigned n v < 2 ^ (n - 1) := by
  refine signExtend_range hn ?_
  have h1 := Int.emod_nonneg v (show ((2 : Int) ^ n) ≠ 0 from Int.pow_ne_zero (by decide))
  have h2 := Int.emod_lt_of_pos v (show (0 : Int) < 2 ^ n from Int.pow_pos (by decide))
  have : ((2 ^ n : Nat) : Int) = 2 ^ n := by push_cast; rfl
  omega

theorem reads_unsigned (n max : Nat) :
    Reads True (fun k v => k = n ∧ v < 2 ^ n) (fun r => r.readUnsigned n max) := by
  refine ⟨Local.readUnsigned n max, fun _ => NeverPanics.readUnsigned n max, fun r v r' h => ?_⟩
  unfold Reader.readUnsigned at h
  split at h
  · cases h
  · split at h
    · cases h
    · cases h
      refine ⟨?_, ofBits_take_lt n _⟩
      simp only [Reader.advance, List.length_drop]; omega

theorem reads_signed (n max : Nat) :
    Reads True (fun k v => k = n ∧ (1 ≤ n → -(2 ^ (n - 1) : Int) ≤ v ∧ v < 2 ^ (n - 1)))
      (fun r => r.readSigned n max) := by
  refine ⟨Local.readSigned n max, fun _ => NeverPanics.readSigned n max, fun r v r' h => ?_⟩
  unfold Reader.readSigned at h
  split at h
  · cases h
  · split at h
    · cases h
    · cases h
      refine ⟨?_, fun hn => signExtend_range hn (ofBits_take_lt n _)⟩
      simp only [Reader.advance, List.length_drop]; omega

theorem reads_unsignedBits (n : Nat) :
    Reads (n ≤ 64) (fun k v => k = n ∧ v < 2 ^ n) (readUnsignedBits · n) := by
  unfold readUnsignedBits
  exact Reads.ite (fun h => Reads.panic (by omega))
    (fun _ => (reads_unsigned n 64).mono (fun _ => trivial) (fun _ _ h => h))

theorem reads_signedBits (n : Nat) :
    Reads (n ≤ 64) (fun k v => k = n ∧ (1 ≤ n → -(2 ^ (n - 1) : Int) ≤ v ∧ v < 2 ^ (n - 1)))
      (readSignedBits · n) := by
  unfold readSignedBits
  exact Reads.ite (fun h => Reads.panic (by omega))
    (fun _ => (reads_signed n 64).mono (fun _ => trivial) (fun _ _ h => h))

theorem reads_bool : Reads True (fun k _ => k = 1) Reader.readBool := by
  refine ⟨Local.readBool, fun _ => NeverPanics.readBool, fun r v r' h => ?_⟩
  obtain ⟨pos, rest⟩ := r
  cases rest with
  | nil => cases h
  | cons b rest => cases h; simp

theorem denote_lt {left acc v : Nat} {bs : List UInt8} (hl : 1 ≤ left)
    (h : denote left acc bs = some v) : v < (acc + 1) * 2 ^ (7 * left + 1) ∧ bs ≠ [] := by
  induction bs generalizing left acc with
  | nil => simp [denote] at h
  | cons b bs ih =>
    refine ⟨?_, by simp⟩
    have hb : b.toNat < 256 := b.toNat_lt
    simp only [denote] at h
    split at h
    · next e =>
      subst e
      split at h
      · cases h; omega
      · cases h
    · next e =>
      obtain ⟨l, rfl⟩ : ∃ l, left = l + 1 := ⟨left - 1, by omega⟩
      have ep : 2 ^ (7 * (l + 1) + 1) = 128 * 2 ^ (7 * l + 1) := by
        rw [show 7 * (l + 1) + 1 = 7 + (7 * l + 1) from by omega, Nat.pow_add]
      split at h
      · have := (ih (by omega) h).1
        rw [Nat.add_sub_cancel] at this
        rw [ep, ← Nat.mul_assoc]
        refine Nat.lt_of_lt_of_le this (Nat.mul_le_mul_right _ ?_)
        have := Nat.mod_lt b.toNat (show 0 < 128 by decide)
        omega
      · split at h
        · cases h
          rw [ep, ← Nat.mul_assoc]
          have : 1 ≤ 2 ^ (7 * l + 1) := Nat.one_le_two_pow
          have := Nat.mul_le_mul_left ((acc + 1) * 128) this
          omega
        · cases h

theorem reads_sizedUint {m : Nat} (hm : 2 ≤ m) :
    Reads True (fun k v => 8 ≤ k ∧ v < 2 ^ (7 * m + 1)) (fun r => readSizedUint r m) := by
  refine ⟨Local.readSizedUint hm, fun _ => NeverPanics.readSizedUint m, fun r v r' h => ?_⟩
  obtain ⟨bs, e, _, hd⟩ := (readSizedUint_iff hm).1 h
  obtain ⟨h1, h2⟩ := denote_lt (by omega) hd
  rw [Nat.zero_add, Nat.one_mul] at h1
  refine ⟨?_, h1⟩
  rw [e, List.length_append, bytesBits_length]
  have := List.length_pos_iff.2 h2
  omega

theorem readLoop_lt {n acc v : Nat} {b : Bool} {r r' : Reader}
    (h : (readSizedUintLoop n acc b r >>= finishUint) = .ok (v, r')) :
    v < (acc + 1) * 2 ^ (7 * (n + 1) + 1) := by
  cases b with
  | true =>
    obtain ⟨bs, _, _, hd⟩ := (readLoop_iff n acc v r r').1 h
    exact (denote_lt (by omega) hd).1
  | false =>
    have e : (readSizedUintLoop n acc false r >>= finishUint) = .ok (acc, r) := by cases n <;> rfl
    rw [e] at h
    cases h
    have : 1 ≤ 2 ^ (7 * (n + 1) + 1) := Nat.one_le_two_pow
    have := Nat.mul_le_mul_left (acc + 1) this
    omega

theorem reads_sizedInt {m : Nat} (hm : 2 ≤ m) :
    Reads True (fun k v => 8 ≤ k ∧ -(2 ^ (7 * m) : Int) < v ∧ v < 2 ^ (7 * m))
      (fun r => readSizedInt r m) := by
  refine ⟨Local.readSizedInt m, fun _ => NeverPanics.readSizedInt m, fun r v r' h => ?_⟩
  simp only [readSizedInt_eq] at h
  obtain ⟨⟨b, r1⟩, h1, h⟩ := Res.bind_eq_ok.1 h
  obtain ⟨⟨y, r2⟩, h2, h⟩ := Res.bind_eq_ok.1 h
  have hk := (reads_unsigned 8 64).sound _ _ _ h1
  have hu := Reads.used (Local.readLoop _ _ _) h2
  have hy := readLoop_lt h2
  cases h
  simp only at hk hu hy
  have hb : b &&& 0x3f < 64 := by
    have : b &&& 0x3f ≤ 0x3f := Nat.and_le_right
    omega
  have e : (2 : Nat) ^ (7 * m) = 64 * 2 ^ (7 * (m - 2 + 1) + 1) := by
    rw [show 7 * m = 6 + (7 * (m - 2 + 1) + 1) from by omega, Nat.pow_add]
  have hy' : y < 2 ^ (7 * m) := by
    rw [e]
    exact Nat.lt_of_lt_of_le hy (Nat.mul_le_mul_right _ (by omega))
  have c : ((2 ^ (7 * m) : Nat) : Int) = 2 ^ (7 * m) := by push_cast; rfl
  refine ⟨?_, ?_⟩
  · have : r1.rest.length ≤ r.rest.length := Reads.used (Local.readUnsigned 8 64) h1
    show 8 ≤ r.rest.length - r2.rest.length
    omega
  · rw [← c]
    simp only
    split <;> omega

theorem reads_varsize : Reads True (fun k v => 8 ≤ k ∧ v < 2 ^ 32) readVarsize :=
  Reads.map (· % 2 ^ 32) (reads_sizedUint (m := 5) (by decide))
    (fun _ _ h => ⟨h.1, Nat.mod_lt _ (by decide)⟩)

theorem takeBytes_len (n : Nat) (bs : List Bool) : (Reader.takeBytes n bs).length = n := by
  induction n generalizing bs with
  | zero => rfl
  | succ n ih => simp [Reader.takeBytes, ih]

theorem reads_u8Slice (n : Nat) :
    Reads True (fun k bs => k = n * 8 ∧ bs.length = n) (fun r => r.readU8Slice n) := by
  refine ⟨Local.readU8Slice n, fun _ r => ?_, fun r v r' h => ?_⟩
  · unfold Reader.readU8Slice; split <;> simp
  · unfold Reader.readU8Slice at h
    split at h
    · cases h
    · cases h
      refine ⟨?_, takeBytes_len _ _⟩
      simp only [Reader.advance, List.length_drop]; omega

theorem reads_bytes (n : Nat) :
    Reads True (fun k bs => k = n * 8 ∧ bs.length = n) (fun r => readBytes r n) := by
  refine ⟨Local.readBytes n, fun _ => NeverPanics.readBytes n, fun r v r' h => ?_⟩
  unfold readBytes at h
  split at h
  · cases h
  · exact (reads_u8Slice n).sound _ _ _ h

theorem strOfBytes_length {bs : List UInt8} {s : String} (h : strOfBytes bs = .ok s) :
    s.utf8ByteSize = bs.length := by
  unfold strOfBytes at h
  split at h
  · next t ht =>
    cases h
    have : s.toByteArray = ⟨bs.toArray⟩ := by
      unfold String.fromUTF8? at ht
      split at ht
      · cases ht; rfl
      · cases ht
    rw [← String.size_toByteArray, this]; rfl
  · cases h

theorem reads_string :
    Reads False (fun k s => 8 + s.utf8ByteSize * 8 ≤ k) readString := by
  refine ⟨Local.readString, fun h => h.elim, fun r v r' h => ?_⟩
  have e : readString r = ((readVarsize r).unwrap >>= fun x =>
      if x.2.remaining < x.1 * 8 then .err .ioError
      else x.2.readU8Slice x.1 >>= fun y => strOfBytes y.1 >>= fun s => .ok (s, y.2)) := rfl
  rw [e] at h
  obtain ⟨⟨n, r1⟩, h1, h⟩ := Res.bind_eq_ok.1 h
  have h1' : readVarsize r = .ok (n, r1) := by
    cases hx : readVarsize r with
    | ok a => simpa [hx] using h1
    | err e => simp [hx] at h1
    | panic => simp [hx] at h1
  have k1 := reads_varsize.sound _ _ _ h1'
  have u1 := Reads.used Local.readVarsize h1'
  simp only at h
  split at h
  · cases h
  · obtain ⟨⟨buf, r2⟩, h2, h⟩ := Res.bind_eq_ok.1 h
    have k2 := (reads_u8Slice n).sound _ _ _ h2
    have u2 := Reads.used (Local.readU8Slice n) h2
    obtain ⟨s, h3, h⟩ := Res.bind_eq_ok.1 h
    cases h
    have := strOfBytes_length h3
    show 8 + v.utf8ByteSize * 8 ≤ r.rest.length - r2.rest.length
    simp only at this
    omega

theorem reads_bytesType :
    Reads True (fun k b => b.byteSize = b.dataBlob.length ∧ 8 + b.dataBlob.length * 8 ≤ k)
      readBytesType := by
  refine Reads.bind (g := fun n r => Zs.readBytes r n >>= fun x => .ok ((⟨n, x.1⟩ : BytesType), x.2))
    reads_varsize (fun n => ?_)
  refine Reads.map (fun blob => (⟨n, blob⟩ : BytesType)) (reads_bytes n) (fun k bs h j hj => ?_)
  obtain ⟨rfl, h⟩ := h
  exact ⟨h.symm, by simp only [h]; omega⟩

theorem reads_externType :
    Reads False (fun k e => (k < 2 ^ 31 → WellFormedExtern e) ∧ 1 ≤ k ∧ e.dataBlob.length ≤ k)
      readExternType := by
  refine ⟨Local.readExternType, fun h => h.elim, fun r v r' h => ?_⟩
  have e : readExternType r = (readVarsize r >>= fun x => Zs.readBytes x.2 (x.1 / 8) >>= fun y =>
      if x.1 % 8 ≠ 0 then (y.2.readUnsigned (x.1 % 8) 8).unwrap >>= fun z =>
        .ok (⟨x.1, y.1 ++ [UInt8.ofNat (z.1 <<< (8 - x.1 % 8))]⟩, z.2)
      else .ok (⟨x.1, y.1⟩, y.2)) := rfl
  rw [e] at h
  obtain ⟨⟨n, r1⟩, h1, h⟩ := Res.bind_eq_ok.1 h
  obtain ⟨⟨bs, r2⟩, h2, h⟩ := Res.bind_eq_ok.1 h
  have k1 := reads_varsize.sound _ _ _ h1
  have u1 := Reads.used Local.readVarsize h1
  have k2 := (reads_bytes (n / 8)).sound _ _ _ h2
  have u2 := Reads.used (Local.readBytes (n / 8)) h2
  simp only at k1 k2 u1 u2
  simp only at h
  split at h
  · next hr =>
    obtain ⟨⟨b, r3⟩, h3, h⟩ := Res.bind_eq_ok.1 h
    have h3' : r2.readUnsigned (n % 8) 8 = .ok (b, r3) := by
      cases hx : r2.readUnsigned (n % 8) 8 with
      | ok a => simpa [hx] using h3
      | err e => simp [hx] at h3
      | panic => simp [hx] at h3
    have k3 := (reads_unsigned (n % 8) 8).sound _ _ _ h3'
    have u3 := Reads.used (Local.readUnsigned (n % 8) 8) h3'
    cases h
    simp only [List.length_append, List.length_cons, List.length_nil]
    refine ⟨fun hk => ⟨?_, ?_, ?_⟩, by omega, by omega⟩
    · show n < 2 ^ 31; omega
    · simp only [List.length_append, List.length_cons, List.length_nil]; omega
    · intro last hl _
      simp only [List.getLast?_append, List.getLast?_singleton, Option.some_or,
        Option.some.injEq] at hl
      subst hl
      show (UInt8.ofNat (b <<< (8 - n % 8))).toNat % 2 ^ (8 - n % 8) = 0
      have hlt : b <<< (8 - n % 8) < 256 := by
        rw [Nat.shiftLeft_eq]
        have := Nat.mul_lt_mul_of_pos_right k3.2 (show 0 < 2 ^ (8 - n % 8) from Nat.two_pow_pos _)
        rw [← Nat.pow_add, show n % 8 + (8 - n % 8) = 8 from by omega] at this
        omega
      rw [uint8_ofNat_toNat hlt, Nat.shiftLeft_eq, Nat.mul_mod_left]
  · cases h
    refine ⟨fun hk => ⟨?_, ?_, ?_⟩, by omega, by simp only; omega⟩
    · show n < 2 ^ 31; omega
    · show bs.length = (n + 7) / 8; omega
    · intro last _ hn
      exact absurd (show n % 8 ≠ 0 from hn) (by omega)

theorem reads_float (n : Nat) {α : Type} (f : List UInt8 → α) :
    Reads True (fun k v => k = n * 8 ∧ ∃ bs, v = f bs)
      (fun r => Zs.readBytes r n >>= fun x =>
        if x.1.length = n then (.ok (f x.1, x.2) : Res (α × Reader)) else .err .dataError) :=
  Reads.bind (g := fun bs r =>
    if bs.length = n then (.ok (f bs, r) : Res (α × Reader)) else .err .dataError) (reads_bytes n)
    (fun bs => Reads.ite (fun _ => Reads.pure _ (fun j h => ⟨by omega, bs, rfl⟩))
      (fun _ => Reads.err _))

end Zs
