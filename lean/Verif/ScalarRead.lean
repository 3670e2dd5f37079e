import Verif.ReadLemmas
import Verif.SchemaScalar

/-!
# Lemmas: reading builtin types from arbitrary input
-/

namespace Zs

open Spec

/-- The value is a number. -/
def Val.IsNumber (v : Val) : Prop := v.number.isSome = true

namespace Scalar

/-- What is known after `k` bits have been read as the value `v`. -/
structure Post (cfg : Cfg) (env : Env) (s : Scalar) (k : Nat) (v : Val) : Prop where
  sound : s.Sound cfg → k < 2 ^ 31 → s.InRange cfg env v
  takes : s.Takes → 1 ≤ k
  size : v.size ≤ k + 1
  number : s.IsInteger → v.IsNumber
  params : v.params = []

theorem Post.nat {cfg : Cfg} {env : Env} {s : Scalar} {k n : Nat}
    (h : s.Sound cfg → s.InRange cfg env (.nat n)) (ht : s.Takes → 1 ≤ k) :
    s.Post cfg env k (.nat n) :=
  ⟨fun hs _ => h hs, ht, by simp only [Val.size]; omega, fun _ => rfl, rfl⟩

theorem Post.int {cfg : Cfg} {env : Env} {s : Scalar} {k : Nat} {n : Int}
    (h : s.Sound cfg → s.InRange cfg env (.int n)) (ht : s.Takes → 1 ≤ k) :
    s.Post cfg env k (.int n) :=
  ⟨fun hs _ => h hs, ht, by simp only [Val.size]; omega, fun _ => rfl, rfl⟩

theorem Post.other {cfg : Cfg} {env : Env} {s : Scalar} {k : Nat} {v : Val}
    (h : s.Sound cfg → k < 2 ^ 31 → s.InRange cfg env v) (ht : 1 ≤ k) (hz : v.size ≤ k + 1)
    (hi : ¬ s.IsInteger) (hp : v.params = []) : s.Post cfg env k v :=
  ⟨h, fun _ => ht, hz, fun h => absurd h hi, hp⟩

theorem width_le_64 {n : Nat} (h : n ∈ [8, 16, 32, 64]) : 1 ≤ n ∧ n ≤ 64 := by
  simp only [List.mem_cons, List.not_mem_nil, or_false] at h
  omega

theorem reads_bitsDyn {len : Env → Nat} {env : Env} (hl : len env ≤ 64) :
    len env % 256 = len env := by omega

/-- Unpacked, outside of arrays. -/
theorem reads (cfg : Cfg) (env : Env) (s : Scalar) :
    Reads s.Steady (s.Post cfg env) (s.read cfg env) := by
  cases s with
  | bool =>
    exact Reads.map Val.bool (reads_bool.mono (fun _ => trivial) (fun _ _ h => h)) (fun k v h =>
      Post.other (fun _ _ => trivial) (by omega) (by simp only [Val.size]; omega) id rfl)
  | string =>
    exact Reads.map Val.str (reads_string.mono (fun h => h) (fun _ _ h => h)) (fun k v h =>
      Post.other (fun _ hk => show v.utf8ByteSize < 2 ^ 31 by omega) (by omega)
        (by simp only [Val.size]; omega) id rfl)
  | bytes =>
    exact Reads.map Val.bytes (reads_bytesType.mono (fun _ => trivial) (fun _ _ h => h)) (fun k v h =>
      Post.other (fun _ hk => ⟨h.1, by have := h.1; omega⟩) (by omega)
        (by simp only [Val.size]; omega) id rfl)
  | extern =>
    exact Reads.map Val.extern (reads_externType.mono (fun h => h) (fun _ _ h => h)) (fun k v h =>
      Post.other (fun _ hk => h.1 hk) h.2.1 (by simp only [Val.size]; omega) id rfl)
  | float16 =>
    have h0 : Reads Scalar.float16.Steady (fun k v => k = 2 * 8 ∧
        ∃ bs, v = (fun bs => cfg.toF32 (UInt16.ofNat (ofBeBytes bs))) bs) _ :=
      (reads_float 2 _).mono (fun _ => trivial) (fun _ _ h => h)
    exact Reads.map Val.f32 h0
      (fun k v h => Post.other (fun hs _ => by
        obtain ⟨bs, rfl⟩ := h.2
        exact hs _) (by omega) (by simp only [Val.size]; omega)
        id rfl)
  | float32 =>
    have h0 : Reads Scalar.float32.Steady (fun k v => k = 4 * 8 ∧
        ∃ bs, v = (fun bs => UInt32.ofNat (ofBeBytes bs)) bs) _ :=
      (reads_float 4 _).mono (fun _ => trivial) (fun _ _ h => h)
    exact Reads.map Val.f32 h0
      (fun k v h => Post.other (fun _ _ => trivial) (by omega) (by simp only [Val.size]; omega)
        id rfl)
  | float64 =>
    have h0 : Reads Scalar.float64.Steady (fun k v => k = 8 * 8 ∧
        ∃ bs, v = (fun bs => UInt64.ofNat (ofBeBytes bs)) bs) _ :=
      (reads_float 8 _).mono (fun _ => trivial) (fun _ _ h => h)
    exact Reads.map Val.f64 h0
      (fun k v h => Post.other (fun _ _ => trivial) (by omega) (by simp only [Val.size]; omega)
        id rfl)
  | uint n =>
    exact Reads.map Val.nat ((reads_unsigned n n).mono (fun _ => trivial) (fun _ _ h => h))
      (fun k v h => Post.nat (fun _ => h.2) (fun ht => by rw [h.1]; exact ht))
  | int n =>
    exact Reads.map Val.int ((reads_signed n n).mono (fun _ => trivial) (fun _ _ h => h))
      (fun k v h => Post.int (fun hs => h.2 (width_le_64 hs).1) (fun ht => by rw [h.1]; exact ht))
  | bits n =>
    exact Reads.map Val.nat ((reads_unsignedBits n).mono (fun h => h) (fun _ _ h => h))
      (fun k v h => Post.nat (fun _ => h.2) (fun ht => by rw [h.1]; exact ht))
  | ints n =>
    exact Reads.map Val.int ((reads_signedBits n).mono (fun h => h.2) (fun _ _ h => h))
      (fun k v h => Post.int (fun hs => h.2 hs.1) (fun ht => by rw [h.1]; exact ht))
  | bitsDyn len =>
    refine Reads.map Val.nat ((reads_unsignedBits (len env % 256)).mono
      (fun h => ?_) (fun _ _ h => h))
      (fun k v h => Post.nat (fun hs => ?_) (fun ht => ht.elim))
    · have : len env ≤ 64 := h env
      omega
    · have hs : len env ≤ 64 := hs env
      rw [reads_bitsDyn hs] at h
      exact ⟨hs, h.2⟩
  | intsDyn len =>
    refine Reads.map Val.int ((reads_signedBits (len env % 256)).mono
      (fun h => ?_) (fun _ _ h => h))
      (fun k v h => Post.int (fun hs => ?_) (fun ht => ht.elim))
    · have : len env ≤ 64 := (h env).2
      omega
    · have hs : 1 ≤ len env ∧ len env ≤ 64 := hs env
      rw [reads_bitsDyn hs.2] at h
      exact ⟨hs.1, hs.2, h.2 hs.1⟩
  | varuint16 =>
    refine Reads.map Val.nat (Reads.map (· % 2 ^ 16) ((reads_sizedUint (m := 2) (by decide)).mono
      (fun _ => trivial) (fun _ _ h => h)) (q := fun k v => 8 ≤ k ∧ v < 2 ^ 15) (fun k v h => ?_))
      (fun k v h => Post.nat (fun _ => h.2) (fun _ => by omega))
    exact ⟨h.1, Nat.lt_of_le_of_lt (Nat.mod_le _ _) h.2⟩
  | varuint32 =>
    refine Reads.map Val.nat (Reads.map (· % 2 ^ 32) ((reads_sizedUint (m := 4) (by decide)).mono
      (fun _ => trivial) (fun _ _ h => h)) (q := fun k v => 8 ≤ k ∧ v < 2 ^ 29) (fun k v h => ?_))
      (fun k v h => Post.nat (fun _ => h.2) (fun _ => by omega))
    exact ⟨h.1, Nat.lt_of_le_of_lt (Nat.mod_le _ _) h.2⟩
  | varuint64 =>
    exact Reads.map Val.nat ((reads_sizedUint (m := 8) (by decide)).mono
      (fun _ => trivial) (fun _ _ h => h))
      (fun k v h => Post.nat (fun _ => h.2) (fun _ => by omega))
  | varuint =>
    exact Reads.map Val.nat ((reads_sizedUint (m := 9) (by decide)).mono
      (fun _ => trivial) (fun _ _ h => h))
      (fun k v h => Post.nat (fun _ => h.2) (fun _ => by omega))
  | varsize =>
    exact Reads.map Val.nat (reads_varsize.mono (fun _ => trivial) (fun _ _ h => h))
      (fun k v h => Post.nat (fun hs => hs.elim) (fun _ => by omega))
  | varint16 =>
    refine Reads.map Val.int (Reads.map (wrapSigned 16) ((reads_sizedInt (m := 2) (by decide)).mono
      (fun _ => trivial) (fun _ _ h => h)) (q := fun k v => 8 ≤ k ∧ -(2 ^ 14) < v ∧ v < 2 ^ 14)
      (fun k v h => ?_))
      (fun k v h => Post.int (fun _ => h.2) (fun _ => by omega))
    have h2 : -(2 ^ 14 : Int) < v ∧ v < 2 ^ 14 := h.2
    rw [wrapSigned_eq (by decide) (by omega) (by omega)]
    exact ⟨h.1, h2⟩
  | varint32 =>
    refine Reads.map Val.int (Reads.map (wrapSigned 32) ((reads_sizedInt (m := 4) (by decide)).mono
      (fun _ => trivial) (fun _ _ h => h)) (q := fun k v => 8 ≤ k ∧ -(2 ^ 28) < v ∧ v < 2 ^ 28)
      (fun k v h => ?_))
      (fun k v h => Post.int (fun _ => h.2) (fun _ => by omega))
    have h2 : -(2 ^ 28 : Int) < v ∧ v < 2 ^ 28 := h.2
    rw [wrapSigned_eq (by decide) (by omega) (by omega)]
    exact ⟨h.1, h2⟩
  | varint64 =>
    exact Reads.map Val.int ((reads_sizedInt (m := 8) (by decide)).mono
      (fun _ => trivial) (fun _ _ h => h))
      (fun k v h => Post.int (fun _ => h.2) (fun _ => by omega))
  | varint =>
    exact Reads.map Val.int ((reads_sizedInt (m := 9) (by decide)).mono
      (fun _ => trivial) (fun _ _ h => h))
      (fun k v h => Post.int (fun _ => h.2) (fun _ => by omega))

/-- As elements of an array. -/
theorem reads_elem (cfg : Cfg) (env : Env) (s : Scalar) (x : Val) :
    Reads s.Steady (s.Post cfg env) (fun r => (s.elem cfg env).read r x) := by
  cases s with
  | bool => exact reads cfg env .bool
  | string => exact reads cfg env .string
  | bytes => exact reads cfg env .bytes
  | extern => exact reads cfg env .extern
  | float16 => exact reads cfg env .float16
  | float32 => exact reads cfg env .float32
  | float64 => exact reads cfg env .float64
  | varuint16 => exact reads cfg env .varuint16
  | varuint32 => exact reads cfg env .varuint32
  | varuint64 => exact reads cfg env .varuint64
  | varuint => exact reads cfg env .varuint
  | varsize => exact reads cfg env .varsize
  | varint16 => exact reads cfg env .varint16
  | varint32 => exact reads cfg env .varint32
  | varint64 => exact reads cfg env .varint64
  | varint => exact reads cfg env .varint
  | uint n =>
    exact Reads.map Val.nat (Reads.map (· % 2 ^ n) ((reads_unsignedBits n).mono (fun h => h)
      (fun _ _ h => h)) (q := fun k v => k = n ∧ v < 2 ^ n)
      (fun k v h => ⟨h.1, Nat.mod_lt _ (Nat.two_pow_pos _)⟩))
      (fun k v h => Post.nat (fun _ => h.2) (fun ht => by rw [h.1]; exact ht))
  | int n =>
    exact Reads.map Val.int (Reads.map (wrapSigned n) ((reads_signedBits n).mono (fun h => h)
      (fun _ _ h => h)) (q := fun k v => k = n ∧ (1 ≤ n → -(2 ^ (n - 1) : Int) ≤ v ∧ v < 2 ^ (n - 1)))
      (fun k v h => ⟨h.1, fun hn => wrapSigned_range hn⟩))
      (fun k v h => Post.int (fun hs => h.2 (width_le_64 hs).1) (fun ht => by rw [h.1]; exact ht))
  | bits n =>
    exact Reads.map Val.nat (Reads.map (· % 2 ^ 64) ((reads_unsignedBits n).mono (fun h => h)
      (fun _ _ h => h)) (q := fun k v => k = n ∧ v < 2 ^ n)
      (fun k v h => ⟨h.1, Nat.lt_of_le_of_lt (Nat.mod_le _ _) h.2⟩))
      (fun k v h => Post.nat (fun _ => h.2) (fun ht => by rw [h.1]; exact ht))
  | ints n =>
    refine Reads.map Val.int (Reads.map (wrapSigned 64) ((reads_signedBits n).mono (fun h => h.2)
      (fun _ _ h => h))
      (q := fun k v => k = n ∧ (1 ≤ n ∧ n ≤ 64 → -(2 ^ (n - 1) : Int) ≤ v ∧ v < 2 ^ (n - 1)))
      (fun k v h => ⟨h.1, fun hn => ?_⟩))
      (fun k v h => Post.int (fun hs => h.2 hs) (fun ht => by rw [h.1]; exact ht))
    have h2 := h.2 hn.1
    rw [wrap64 hn.2 h2.1 h2.2]
    exact h2
  | bitsDyn len =>
    refine Reads.map Val.nat (Reads.map (· % 2 ^ 64) ((reads_unsignedBits (len env % 256)).mono
      (fun h => ?_) (fun _ _ h => h)) (q := fun k v => k = len env % 256 ∧ v < 2 ^ (len env % 256))
      (fun k v h => ⟨h.1, Nat.lt_of_le_of_lt (Nat.mod_le _ _) h.2⟩))
      (fun k v h => Post.nat (fun hs => ?_) (fun ht => ht.elim))
    · have : len env ≤ 64 := h env
      omega
    · have hs : len env ≤ 64 := hs env
      rw [reads_bitsDyn hs] at h
      exact ⟨hs, h.2⟩
  | intsDyn len =>
    refine Reads.map Val.int (Reads.map (wrapSigned 64) ((reads_signedBits (len env % 256)).mono
      (fun h => ?_) (fun _ _ h => h))
      (q := fun k v => 1 ≤ len env ∧ len env ≤ 64 →
        -(2 ^ (len env - 1) : Int) ≤ v ∧ v < 2 ^ (len env - 1))
      (fun k v h hn => ?_))
      (fun k v h => Post.int (fun hs => ?_) (fun ht => ht.elim))
    · have : len env ≤ 64 := (h env).2
      omega
    · rw [reads_bitsDyn hn.2] at h
      have h2 := h.2 hn.1
      rw [wrap64 hn.2 h2.1 h2.2]
      exact h2
    · have hs : 1 ≤ len env ∧ len env ≤ 64 := hs env
      exact ⟨hs.1, hs.2, h hs⟩
where
  wrap64 {n : Nat} {v : Int} (hn : n ≤ 64) (h1 : -(2 ^ (n - 1) : Int) ≤ v) (h2 : v < 2 ^ (n - 1)) :
      wrapSigned 64 v = v := by
    have hp : (2 : Int) ^ (n - 1) ≤ 2 ^ 63 := by
      have : (2 : Nat) ^ (n - 1) ≤ 2 ^ 63 := Nat.pow_le_pow_right (by decide) (by omega)
      have e : ((2 ^ (n - 1) : Nat) : Int) = 2 ^ (n - 1) := by simp
      omega
    exact wrapSigned_eq (by decide) (by omega) (by omega)

/-- Values are in range for the Rust type; what `from_u64` gives. -/
theorem fromU64_inRange {cfg : Cfg} {env : Env} {s : Scalar} (hs : s.SoundPacked) {u : Nat} {v : Val}
    (h : (s.elem cfg env).fromU64 u = .ok v) : s.InRange cfg env v := by
  cases s with
  | uint n =>
    cases h
    exact Nat.mod_lt _ (Nat.two_pow_pos _)
  | int n =>
    cases h
    exact wrapSigned_range (width_le_64 hs).1
  | _ => exact hs.elim

theorem soundPacked_sound {cfg : Cfg} {s : Scalar} (hs : s.SoundPacked) : s.Sound cfg := by
  cases s with
  | uint n => exact hs
  | int n => exact hs
  | _ => exact hs.elim

theorem fromU64_number {cfg : Cfg} {env : Env} {s : Scalar} {u : Nat} {v : Val}
    (h : (s.elem cfg env).fromU64 u = .ok v) : v.params = [] := by
  cases s <;> first | (cases h; rfl) | cases h

/-- As elements of a packed array. -/
theorem reads_packed (cfg : Cfg) (env : Env) (s : Scalar) (n : Node) (x : Val) :
    Reads False (fun k p => (s.SoundPacked → k < 2 ^ 31 → s.InRange cfg env p.1) ∧ p.1.params = [])
      (fun r => ((s.elem cfg env).packable cfg.md).readPacked n r x) := by
  refine ⟨Local.packable _ (fun v => (reads_elem cfg env s v).loc) n x, fun h => h.elim,
    fun r p r' h => ?_⟩
  obtain ⟨cs, c⟩ := n
  cases c with
  | none => cases h
  | some c =>
    obtain ⟨⟨⟨v, c'⟩, r1⟩, h1, h2⟩ := Res.bind_eq_ok.1 h
    obtain ⟨rfl, rfl⟩ : (v, Node.mk cs (some c')) = p ∧ r1 = r' := by cases h2; exact ⟨rfl, rfl⟩
    have unpacked : ∀ {c : DeltaContext} {r0 : Reader}, r0.rest.length ≤ r.rest.length →
        c.readUnpacked (s.elem cfg env) r0 x = .ok ((v, c'), r1) →
        (s.SoundPacked → r.rest.length - r1.rest.length < 2 ^ 31 → s.InRange cfg env v) ∧
          v.params = [] := by
      intro c r0 hle hu
      obtain ⟨⟨v0, r2⟩, h3, h4⟩ := Res.bind_eq_ok.1 hu
      obtain ⟨u, h5, h6⟩ := Res.bind_eq_ok.1 h4
      cases h6
      have hp := (reads_elem cfg env s x).sound _ _ _ h3
      have hu := Reads.used (reads_elem cfg env s x).loc h3
      exact ⟨fun hs hk => hp.sound (soundPacked_sound hs) (by omega), hp.params⟩
    have e : c.read cfg.md (s.elem cfg env) r x =
        (if !c.processingStarted then
          DeltaContext.readDescriptor { c with processingStarted := true } r >>= fun y =>
            y.1.readUnpacked (s.elem cfg env) y.2 x
        else if !c.isPacked then c.readUnpacked (s.elem cfg env) r x
        else ((if c.maxBitNumber > 0 then readSignedBits r (c.maxBitNumber + 1) >>= fun y =>
            addI64 cfg.md (asI64 c.previousElement) y.1 >>= fun sum =>
            .ok ({ c with previousElement := asU64 sum }, y.2)
          else .ok (c, r)) : Res (DeltaContext × Reader)) >>= fun y =>
            (s.elem cfg env).fromU64 y.1.previousElement >>= fun value => .ok ((value, y.1), y.2)) := by
      simp only [DeltaContext.read]
      split
      · rfl
      · split
        · rfl
        · split
          · simp only [bind_assoc, Res.pure_eq, Res.ok_bind]
          · rfl
    rw [e] at h1
    split at h1
    · obtain ⟨⟨c1, r0⟩, h3, h4⟩ := Res.bind_eq_ok.1 h1
      refine unpacked ?_ h4
      have hl : Local (fun r => DeltaContext.readDescriptor
          { c with processingStarted := true } r) := by
        refine Local.bind (Local.unwrap Local.readBool) (g := fun b r =>
          if b then (Zs.readUnsignedBits r DeltaContext.maxBitNumberBits).unwrap >>= fun y =>
            .ok ({ c with processingStarted := true, isPacked := b,
                          maxBitNumber := y.1 % 2 ^ 8 }, y.2)
          else .ok ({ c with processingStarted := true, isPacked := b }, r)) (fun b => ?_)
        cases b with
        | true =>
          exact Local.map (fun m => ({ c with processingStarted := true, isPacked := true,
                                              maxBitNumber := m % 2 ^ 8 } : DeltaContext))
            (Local.unwrap (Local.readUnsignedBits DeltaContext.maxBitNumberBits))
        | false => exact Local.pure _
      exact Reads.used hl h3
    · split at h1
      · exact unpacked (Nat.le_refl _) h1
      · obtain ⟨⟨c1, r0⟩, h3, h4⟩ := Res.bind_eq_ok.1 h1
        obtain ⟨v0, h5, h6⟩ := Res.bind_eq_ok.1 h4
        cases h6
        exact ⟨fun hs _ => fromU64_inRange hs h5, fromU64_number h5⟩

end Scalar

end Zs
