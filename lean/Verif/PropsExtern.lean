import Verif.Extern
import Verif.PropsSize
import Verif.PropsScalar
import Verif.PropsStream

/-!
# Properties of objects wrapped in extern values (C72)
-/

namespace Zs

open Spec

/-! ## C72: an object wrapped in an extern value can be unwrapped -/

/-- The bytes of closed bits, as an extern value, are well-formed. -/
theorem wellFormed_closed {bits : List Bool} {bytes : List UInt8} {pad : Nat} (hlt : bits.length < 2 ^ 31)
    (hlen : bytes.length = (bits.length + 7) / 8)
    (hb : bytesBits bytes = bits ++ List.replicate pad false) : WellFormedExtern ⟨bits.length, bytes⟩ := by
  refine ⟨hlt, hlen, fun last hl hr => ?_⟩
  simp only at hl hr ⊢
  obtain ⟨full, rfl⟩ : ∃ full, bytes = full ++ [last] := by
    rw [List.getLast?_eq_some_iff] at hl
    exact hl
  have hl8 := congrArg List.length hb
  rw [bytesBits_length] at hl8
  simp only [List.length_append, List.length_cons, List.length_nil, List.length_replicate] at hl8 hlen
  have hpad : pad = 8 - bits.length % 8 := by omega
  have hd : (natBits 8 last.toNat).drop (bits.length % 8) = List.replicate pad false := by
    have h := congrArg (List.drop bits.length) hb
    rw [List.drop_left, bytesBits, List.flatMap_append, List.flatMap_cons, List.flatMap_nil, List.append_nil] at h
    have hf : (full.flatMap fun b => natBits 8 b.toNat).length = full.length * 8 := bytesBits_length full
    rw [← h, List.drop_append, hf, List.drop_eq_nil_of_le (as := full.flatMap _) (by omega), List.nil_append]
    congr 1
    omega
  have hdrop : ∀ k n v, (natBits (k + n) v).drop k = natBits n v := by
    intro k
    induction k with
    | zero => intro n v; simp
    | succ k ih =>
      intro n v
      rw [show k + 1 + n = (k + n) + 1 by omega, natBits, List.drop_succ_cons]
      exact ih n v
  have hz : ∀ n, natBits n 0 = List.replicate n false := by
    intro n
    induction n with
    | zero => rfl
    | succ n ih => simp [natBits, ih, List.replicate_succ]
  have hcat := hdrop (bits.length % 8) pad last.toNat
  rw [show bits.length % 8 + pad = 8 by omega, hd, ← hz, ← natBits_mod] at hcat
  rw [← hpad]
  refine natBits_inj (Nat.mod_lt _ (Nat.pow_pos (by decide))) (Nat.pow_pos (by decide)) ?_
  rw [natBits_mod]
  exact hcat.symm

/-- **C72** If reading gives back what was written and the size is exact, `from_object` gives the extern
value that consists of the bits of the object, in debug and release builds; it can be written and read
(as any extern value, C11), and `from_bytes` of its data gives the object back. -/
theorem C72_from_object {α : Type} (md : Mode) (bitsize : Nat → Res Nat) (write : Writer → Res Writer)
    (read : Reader → Res (α × Reader)) (v : α) (hrt : RoundTrips write read v) (hsize : SizeExact bitsize write)
    {bits : List Bool} (hbits : write Writer.new = .ok ⟨bits⟩) (hlt : bits.length < 2 ^ 31) :
    ∃ e pad, ExternType.fromObject md bitsize write = .ok e ∧ e.bitSize = bits.length ∧
      bytesBits e.dataBlob = bits ++ List.replicate pad false ∧ pad < 8 ∧
      RoundTrips (writeExternType · e) readExternType e ∧
      ∀ trailing, fromBytes read (e.dataBlob ++ trailing) = .ok v := by
  obtain ⟨bits', bytes, pad, hw, hto, hpad, hb, hlen, hfrom⟩ := C14_to_bytes_from_bytes write read v hrt
  cases hbits.symm.trans hw
  obtain ⟨n, hn, hl⟩ := hsize _ _ hw
  have hn0 : bitsize 0 = .ok bits.length := by
    have : n = bits.length := by simpa [Writer.new] using hl.symm
    subst this
    exact hn
  have hwf := wellFormed_closed hlt hlen hb
  refine ⟨⟨bits.length, bytes⟩, pad, ?_, rfl, hb, hpad, (C11_extern_round_trip _ hwf).1, hfrom⟩
  unfold ExternType.fromObject
  rw [hn0, Res.ok_bind, if_neg (by omega), hto, Res.ok_bind]
  cases md
  · simp only
    rw [if_neg (by omega), if_neg (by omega)]
    rfl
  · rfl

/-- **C72 (partial)** for generated types: a valid object of fewer than 2^31 bits is wrapped, written, read and
unwrapped unchanged.  Missing: schemas whose size functions are wrong (`Ty.Sized`), for which it is false
(`C72_silent_violated`, `C72_debug_violated`). -/
theorem C72_schema_partial (cfg : Cfg) (md : Mode) (t : Ty) (ht : t.Sized) (hs : t.Supported cfg) (env : Env)
    (v : Val) (hv : t.Valid cfg env v) (n : Nat) (hn : (t.ops cfg).bitsize env v 0 = .ok n) (hlt : n < 2 ^ 31) :
    ∃ e, ExternType.fromObject md (fun p => (t.ops cfg).bitsize env v p) (fun w => (t.ops cfg).write env v w) =
        .ok e ∧ e.bitSize = n ∧ RoundTrips (writeExternType · e) readExternType e ∧
      ∀ trailing, fromBytes (fun r => (t.ops cfg).read env (t.default.withParams v.params) r)
        (e.dataBlob ++ trailing) = .ok v := by
  obtain ⟨bits, hw, hb⟩ := C25_valid_objects_partial cfg t ht hs env v hv []
  have heq : n = bits.length := by
    have h : (t.ops cfg).bitsize env v 0 = .ok bits.length := hb
    rw [hn] at h
    exact Res.ok.inj h
  subst heq
  obtain ⟨e, pad, h1, h2, _, _, h5, h6⟩ := C72_from_object md (fun p => (t.ops cfg).bitsize env v p) _ _ v
    (C24_schema_round_trip cfg t hs env v hv)
    (C25_sizes_exact_partial cfg t ht env v (Ty.valid_consistent cfg t env v hv)) hw hlt
  exact ⟨e, h1, h2, h5, h6⟩

example (md : Mode) : ∃ e, ExternType.fromObject md (fun p => (Demo.sized.ops Demo.cfg).bitsize ⟨[], []⟩ Demo.sizedVal p)
      (fun w => (Demo.sized.ops Demo.cfg).write ⟨[], []⟩ Demo.sizedVal w) = .ok e ∧
    ∀ trailing, fromBytes (fun r => (Demo.sized.ops Demo.cfg).read ⟨[], []⟩
      (Demo.sized.default.withParams Demo.sizedVal.params) r) (e.dataBlob ++ trailing) = .ok Demo.sizedVal := by
  obtain ⟨e, h1, _, _, h4⟩ := C72_schema_partial Demo.cfg md Demo.sized Demo.sized_sized (Demo.sized_supported _)
    ⟨[], []⟩ Demo.sizedVal (Demo.sized_valid _) 257 (by decide +kernel) (by decide)
  exact ⟨e, h1, h4⟩

/-- **C72** An object of 2^32 or more bits is refused with an error, since its size is a `u32`. -/
theorem C72_too_large (md : Mode) (bitsize : Nat → Res Nat) (write : Writer → Res Writer) (n : Nat)
    (hn : bitsize 0 = .ok n) (hlarge : 2 ^ 32 ≤ n) :
    ExternType.fromObject md bitsize write = .err .dataDoesNotFit := by
  unfold ExternType.fromObject
  rw [hn, Res.ok_bind, if_pos hlarge]

example : ∃ bitsize : Nat → Res Nat, bitsize 0 = .ok (2 ^ 32) := ⟨fun p => .ok (p + 2 ^ 32), rfl⟩

/-- **C72** What `from_object` does if the size is wrong: a debug build refuses the object with a panic if the
number of bytes is not that of the size; everything else is accepted, with the wrong size. -/
theorem C72_accepted_iff (md : Mode) (bitsize : Nat → Res Nat) (write : Writer → Res Writer) (n : Nat)
    (bits : List Bool) (hn : bitsize 0 = .ok n) (hw : write Writer.new = .ok ⟨bits⟩) (hsmall : n < 2 ^ 32)
    (hlt : bits.length < 2 ^ 32) :
    ((∃ e, ExternType.fromObject md bitsize write = .ok e) ↔
      (md = .debug → (bits.length + 7) / 8 = (n + 7) / 8)) ∧
    ((¬ ∃ e, ExternType.fromObject md bitsize write = .ok e) → ExternType.fromObject md bitsize write = .panic) ∧
    ∀ e, ExternType.fromObject md bitsize write = .ok e → e.bitSize = n ∧ toBytes write = .ok e.dataBlob := by
  have hto : toBytes write = .ok (Writer.close ⟨bits⟩).data := by
    unfold toBytes
    rw [hw]
    rfl
  have hlen : (Writer.close ⟨bits⟩).data.length = (bits.length + 7) / 8 := by
    unfold Writer.data
    rw [takeBytes_length]
    simp only [Writer.close, List.length_append, List.length_replicate]
    omega
  unfold ExternType.fromObject
  rw [hn, Res.ok_bind, if_neg (by omega), hto, Res.ok_bind]
  cases md
  · simp only
    rw [if_neg (by omega), hlen]
    by_cases h : (bits.length + 7) / 8 = (n + 7) / 8
    · rw [if_neg (by simpa using h)]
      simp [h, pure]
    · rw [if_pos h]
      simp [h]
  · simp [pure]

/-- **C72, violated** silently, in debug and in release builds: `struct { string xs[]; }` with the value `["a"]`
is wrapped without any error, but with 17 bits instead of 24; after writing and reading, it is `["\0"]`. -/
theorem C72_silent_violated (md : Mode) :
    ∃ e bits e', ExternType.fromObject md
        (fun p => (Demo.strings.ops Demo.cfg).bitsize ⟨[], []⟩ (.obj [] [.list [.str "a"]]) p)
        (fun w => (Demo.strings.ops Demo.cfg).write ⟨[], []⟩ (.obj [] [.list [.str "a"]]) w) = .ok e ∧
      writeExternType Writer.new e = .ok ⟨bits⟩ ∧ readExternType ⟨0, bits⟩ = .ok (e', ⟨bits.length, []⟩) ∧
      fromBytes (fun r => (Demo.strings.ops Demo.cfg).read ⟨[], []⟩ Demo.strings.default r) e'.dataBlob =
        .ok (.obj [] [.list [.str "\x00"]]) := by
  refine ⟨⟨17, [1, 1, 97]⟩, bytesBits [17, 1, 1] ++ [false], ⟨17, [1, 1, 0]⟩, ?_, by decide +kernel,
    by decide +kernel, by decide +kernel⟩
  cases md <;> decide +kernel

/-- **C72, violated**: `struct { string xs[]; }` with the value `["abc"]` is not wrapped in debug builds; in release
builds the extern value it gives cannot be unwrapped after it was written and read. -/
theorem C72_debug_violated :
    ExternType.fromObject .debug
        (fun p => (Demo.strings.ops Demo.cfg).bitsize ⟨[], []⟩ (.obj [] [.list [.str "abc"]]) p)
        (fun w => (Demo.strings.ops Demo.cfg).write ⟨[], []⟩ (.obj [] [.list [.str "abc"]]) w) = .panic ∧
    ∃ e bits e', ExternType.fromObject .release
        (fun p => (Demo.strings.ops Demo.cfg).bitsize ⟨[], []⟩ (.obj [] [.list [.str "abc"]]) p)
        (fun w => (Demo.strings.ops Demo.cfg).write ⟨[], []⟩ (.obj [] [.list [.str "abc"]]) w) = .ok e ∧
      writeExternType Writer.new e = .ok ⟨bits⟩ ∧ readExternType ⟨0, bits⟩ = .ok (e', ⟨bits.length, []⟩) ∧
      ∀ v, fromBytes (fun r => (Demo.strings.ops Demo.cfg).read ⟨[], []⟩ Demo.strings.default r) e'.dataBlob ≠
        .ok v := by
  refine ⟨by decide +kernel, ⟨19, [1, 3, 97, 98, 99]⟩, bytesBits [19, 1, 3] ++ [false, true, true],
    ⟨19, [1, 3, 96]⟩, by decide +kernel, by decide +kernel, by decide +kernel, fun v h => ?_⟩
  have : fromBytes (fun r => (Demo.strings.ops Demo.cfg).read ⟨[], []⟩ Demo.strings.default r)
      [1, 3, 96] = .err .ioError := by decide +kernel
  rw [this] at h
  cases h

end Zs
