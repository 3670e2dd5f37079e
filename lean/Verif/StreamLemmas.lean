import Verif.BitLemmas
import Verif.Runtime
import Verif.Spec

/-!
# General lemmas on round trips, local readers and truncation
-/

namespace Zs

open Spec

/-- Round trip of an encoding that does not depend on the position. -/
theorem roundTrips_of_bits {α : Type} {write : Writer → Res Writer}
    {read : Reader → Res (α × Reader)} {v : α} (bits : List Bool)
    (hw : ∀ w, write w = .ok (w.append bits))
    (hr : ∀ pos after, read ⟨pos, bits ++ after⟩ = .ok (v, ⟨pos + bits.length, after⟩)) :
    RoundTrips write read v :=
  fun before => ⟨bits, hw ⟨before⟩, fun after => hr before.length after⟩

theorem emits_of_bits {write : Writer → Res Writer} (bits : List Bool)
    (hw : ∀ w, write w = .ok (w.append bits)) : Emits write bits.length :=
  fun before => ⟨bits, hw ⟨before⟩, rfl⟩

/-! ### Local readers -/

theorem Local.bind {α β : Type} {f : Reader → Res (α × Reader)} {g : α → Reader → Res (β × Reader)}
    (hf : Local f) (hg : ∀ a, Local (g a)) : Local (fun r => f r >>= fun x => g x.1 x.2) := by
  intro r v r' h
  obtain ⟨⟨a, r1⟩, h1, h2⟩ := Res.bind_eq_ok.1 h
  obtain ⟨u1, e1, p1, k1⟩ := hf r a r1 h1
  obtain ⟨u2, e2, p2, k2⟩ := hg a r1 v r' h2
  refine ⟨u1 ++ u2, by rw [e1, e2, List.append_assoc], by simp [p1, p2]; omega, fun after => ?_⟩
  have := k2 after
  simp only [List.append_assoc]
  rw [k1 (u2 ++ after)]
  exact this

theorem Local.pure {α : Type} (a : α) : Local (fun r => (.ok (a, r) : Res (α × Reader))) := by
  intro r v r' h
  cases h
  exact ⟨[], rfl, rfl, fun _ => rfl⟩

theorem Local.err {α : Type} (e : Err) : Local (fun _ => (.err e : Res (α × Reader))) := by
  intro r v r' h; cases h

theorem Local.panic {α : Type} : Local (fun _ => (.panic : Res (α × Reader))) := by
  intro r v r' h; cases h

theorem Local.ite {α : Type} {p : Prop} [Decidable p] {f g : Reader → Res (α × Reader)}
    (hf : Local f) (hg : Local g) : Local (fun r => if p then f r else g r) := by
  by_cases h : p
  · simpa [h] using hf
  · simpa [h] using hg

theorem Local.lift {α β : Type} (x : Res α) {g : α → Reader → Res (β × Reader)}
    (hg : ∀ a, Local (g a)) : Local (fun r => x >>= fun a => g a r) := by
  cases x with
  | ok a => exact hg a
  | err e => exact Local.err e
  | panic => exact Local.panic

theorem Local.unwrap {α : Type} {f : Reader → Res (α × Reader)} (hf : Local f) :
    Local (fun r => (f r).unwrap) := by
  intro r v r' h
  have h' : f r = .ok (v, r') := by
    cases hx : f r with
    | ok a => simpa [hx] using h
    | err e => simp [hx] at h
    | panic => simp [hx] at h
  obtain ⟨u, e, p, k⟩ := hf r v r' h'
  exact ⟨u, e, p, fun after => by simp [k after]⟩

/-- A reader that takes a fixed number of bits. -/
theorem Local.fixed {α : Type} {f : Reader → Res (α × Reader)} (n : Nat) (g : List Bool → α)
    (hf : ∀ r v r', f r = .ok (v, r') → n ≤ r.rest.length)
    (hok : ∀ r : Reader, n ≤ r.rest.length → f r = .ok (g (r.rest.take n), r.advance n)) :
    Local f := by
  intro r v r' h
  have hn := hf r v r' h
  rw [hok r hn] at h
  cases h
  refine ⟨r.rest.take n, by simp [Reader.advance], by simp [Reader.advance]; omega,
    fun after => ?_⟩
  rw [hok _ (by simp; omega)]
  have hl : (r.rest.take n).length = n := by simp; omega
  have e1 : (r.rest.take n ++ after).take n = r.rest.take n := by
    rw [List.take_append_of_le_length (by omega), List.take_take]; simp
  have e2 : (r.rest.take n ++ after).drop n = after := by
    rw [List.drop_append_of_le_length (by omega), List.drop_eq_nil_of_le (by omega)]; rfl
  simp only [Reader.advance, e1, e2]

theorem Local.readUnsigned (n max : Nat) : Local (fun r => r.readUnsigned n max) := by
  by_cases hmax : n > max
  · intro r v r' h; simp [Reader.readUnsigned, hmax] at h
  · refine Local.fixed n ofBits (fun r v r' h => ?_) (fun r h => ?_)
    · unfold Reader.readUnsigned at h
      rw [if_neg hmax] at h
      split at h
      · cases h
      · omega
    · unfold Reader.readUnsigned
      rw [if_neg hmax, if_neg (by omega)]

theorem Local.readSigned (n max : Nat) : Local (fun r => r.readSigned n max) := by
  by_cases hmax : n > max
  · intro r v r' h; simp [Reader.readSigned, hmax] at h
  · refine Local.fixed n (fun b => signExtend n (ofBits b)) (fun r v r' h => ?_) (fun r h => ?_)
    · unfold Reader.readSigned at h
      rw [if_neg hmax] at h
      split at h
      · cases h
      · omega
    · unfold Reader.readSigned
      rw [if_neg hmax, if_neg (by omega)]

theorem Local.readBool : Local Reader.readBool := by
  intro r v r' h
  obtain ⟨pos, rest⟩ := r
  cases rest with
  | nil => cases h
  | cons b rest => cases h; exact ⟨[v], rfl, rfl, fun after => rfl⟩

theorem takeBytes_take (n : Nat) (bs : List Bool) :
    Reader.takeBytes n (bs.take (n * 8)) = Reader.takeBytes n bs := by
  induction n generalizing bs with
  | zero => rfl
  | succ n ih =>
    rw [Reader.takeBytes, Reader.takeBytes, List.take_take, List.drop_take,
      (by omega : min 8 ((n + 1) * 8) = 8), (by omega : (n + 1) * 8 - 8 = n * 8), ih]

theorem Local.readU8Slice (n : Nat) : Local (fun r => r.readU8Slice n) := by
  refine Local.fixed (n * 8) (Reader.takeBytes n) (fun r v r' h => ?_) (fun r h => ?_)
  · unfold Reader.readU8Slice at h
    split at h
    · cases h
    · omega
  · unfold Reader.readU8Slice
    rw [if_neg (by omega), takeBytes_take]

theorem Local.readBytes (n : Nat) : Local (fun r => readBytes r n) := by
  refine Local.fixed (n * 8) (Reader.takeBytes n) (fun r v r' h => ?_) (fun r h => ?_)
  · unfold Zs.readBytes Reader.remaining at h
    split at h
    · cases h
    · omega
  · unfold Zs.readBytes Reader.remaining Reader.readU8Slice
    rw [if_neg (by omega), if_neg (by omega), takeBytes_take]

/-- `skip`, which returns no value. -/
theorem Local.skip (n : Nat) : Local (fun r => r.skip n >>= fun r => .ok ((), r)) := by
  refine Local.fixed n (fun _ => ()) (fun r v r' h => ?_) (fun r h => ?_)
  · unfold Reader.skip at h
    split at h
    · cases h
    · omega
  · unfold Reader.skip
    rw [if_neg (by omega)]; rfl

/-- Truncation is rejected by a local reader that round-trips. -/
theorem rejectsTruncation_of_local {α : Type} {write : Writer → Res Writer}
    {read : Reader → Res (α × Reader)} {v : α} (hrt : RoundTrips write read v) (hl : Local read) :
    RejectsTruncation write read := by
  intro before bits kept lost hw hb hne x hx
  obtain ⟨bits', hw', hr⟩ := hrt before
  have hbits : bits' = bits := by
    rw [hw] at hw'
    have := Res.ok.inj hw'
    have := congrArg Writer.bits this
    exact (List.append_cancel_left this).symm
  subst hbits
  obtain ⟨a, r'⟩ := x
  obtain ⟨used, e, _, k⟩ := hl _ a r' hx
  simp only at e k
  have h1 := hr []
  have h2 := k (r'.rest ++ lost)
  rw [List.append_nil, hb, e, List.append_assoc] at h1
  rw [h1] at h2
  have h3 := congrArg (fun x : α × Reader => x.2.rest) (Res.ok.inj h2)
  simp only at h3
  have : lost = [] := (List.append_eq_nil_iff.1 h3.symm).2
  exact hne this

/-! ### Never panicking -/

theorem NeverPanics.bind {α β : Type} {f : Reader → Res (α × Reader)}
    {g : α → Reader → Res (β × Reader)} (hf : NeverPanics f) (hg : ∀ a, NeverPanics (g a)) :
    NeverPanics (fun r => f r >>= fun x => g x.1 x.2) :=
  fun r => Res.bind_ne_panic (hf r) (fun a _ => hg a.1 a.2)

theorem NeverPanics.readUnsigned (n max : Nat) : NeverPanics (fun r => r.readUnsigned n max) := by
  intro r; show Reader.readUnsigned r n max ≠ _; unfold Reader.readUnsigned; split
  · simp
  · split <;> simp

theorem NeverPanics.readSigned (n max : Nat) : NeverPanics (fun r => r.readSigned n max) := by
  intro r; show Reader.readSigned r n max ≠ _; unfold Reader.readSigned; split
  · simp
  · split <;> simp

theorem NeverPanics.readBool : NeverPanics Reader.readBool := by
  intro r; unfold Reader.readBool; split <;> simp

theorem NeverPanics.readBytes (n : Nat) : NeverPanics (fun r => readBytes r n) := by
  intro r; show Zs.readBytes r n ≠ _; unfold Zs.readBytes Reader.readU8Slice; split
  · simp
  · split <;> simp

end Zs
