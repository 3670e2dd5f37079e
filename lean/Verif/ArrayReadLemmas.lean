import Verif.PackLemmas

/-!
# Lemmas on reading arrays: locality, panics, space
-/

namespace Zs

open Spec

/-! ## Locality -/

theorem Local.align (a : Nat) : Local (fun r => alignReader r a >>= fun r => .ok ((), r)) := by
  intro r v r' h
  unfold alignReader at h
  by_cases ha : a = 0
  · simp [ha] at h
  · simp only [if_neg ha] at h
    obtain ⟨used, h1, h2, h3⟩ := Local.skip _ r v r' h
    refine ⟨used, h1, h2, fun after => ?_⟩
    have := h3 after
    simp only [alignReader, if_neg ha, Reader.position] at this ⊢
    exact this

theorem Local.alignElem (offsets : Bool) :
    Local (fun r => alignElemReader offsets r >>= fun r => .ok ((), r)) := by
  cases offsets with
  | false => exact Local.pure ()
  | true => exact Local.align 8

theorem Local.delta {α : Type} (md : Mode) {e : Elem α} (he : ∀ v, Local (fun r => e.read r v))
    (c : DeltaContext) (v : α) : Local (fun r => c.read md e r v) := by
  have hun : ∀ c : DeltaContext, Local (fun r => c.readUnpacked e r v) := by
    intro c
    exact Local.bind (g := fun value r => e.toU64 value >>= fun u =>
      .ok ((value, { c with previousElement := u }), r)) (he v)
      (fun value => Local.lift (e.toU64 value) (fun u => Local.pure _))
  have hdesc : ∀ c : DeltaContext, Local (fun r => c.readDescriptor r) := by
    intro c
    refine Local.bind (g := fun isPacked r =>
      if isPacked then (Zs.readUnsignedBits r DeltaContext.maxBitNumberBits).unwrap >>= fun x =>
        .ok ({ c with isPacked := isPacked, maxBitNumber := x.1 % 2 ^ 8 }, x.2)
      else .ok ({ c with isPacked := isPacked }, r)) (Local.unwrap Local.readBool) (fun b => ?_)
    refine Local.ite ?_ (Local.pure _)
    exact Local.bind (g := fun m r =>
      .ok ({ c with isPacked := b, maxBitNumber := m % 2 ^ 8 }, r))
      (Local.unwrap (Local.readUnsignedBits _)) (fun m => Local.pure _)
  unfold DeltaContext.read
  refine Local.ite ?_ (Local.ite (hun c) ?_)
  · exact Local.bind (g := fun c r => c.readUnpacked e r v) (hdesc _) hun
  · by_cases h0 : c.maxBitNumber > 0
    · simp only [h0, if_true]
      have := Local.bind (g := fun delta r => addI64 md (asI64 c.previousElement) delta >>=
        fun sum => e.fromU64 (asU64 sum) >>= fun value =>
        .ok ((value, { c with previousElement := asU64 sum }), r))
        (Local.readSignedBits (c.maxBitNumber + 1))
        (fun d => Local.lift _ (fun x => Local.lift _ (fun v => Local.pure _)))
      simpa only [bind_assoc, Res.ok_bind, Res.pure_eq] using this
    · simp only [h0, if_false, Res.pure_eq, Res.ok_bind]
      exact Local.lift _ (fun v => Local.pure _)

theorem Local.packable {α : Type} (md : Mode) {e : Elem α} (he : ∀ v, Local (fun r => e.read r v))
    (n : Node) (v : α) : Local (fun r => (e.packable md).readPacked n r v) := by
  cases n with
  | mk cs c =>
    cases c with
    | none => exact Local.panic
    | some c =>
      exact Local.bind (g := fun (p : α × DeltaContext) r =>
        (.ok ((p.1, Node.mk cs (some p.2)), r) : Res ((α × Node) × Reader)))
        (Local.delta md he c v) (fun p => Local.pure _)

theorem Local.readAll {α : Type} {t : ArrayTrait α} (ht : ∀ v, Local (fun r => t.read r v))
    (minCap : Nat) (offsets : Bool) (dflt : α) (n : Nat) (data : Vec α) :
    Local (fun r => ArrayDef.readAll t minCap offsets dflt n data r) := by
  induction n generalizing data with
  | zero => exact Local.pure _
  | succ n ih =>
    have := Local.bind (g := fun _ r => t.read r dflt >>= fun x =>
      ArrayDef.readAll t minCap offsets dflt n (data.push minCap x.1) x.2) (Local.alignElem offsets)
      (fun _ => Local.bind (g := fun item r =>
        ArrayDef.readAll t minCap offsets dflt n (data.push minCap item) r) (ht dflt)
        (fun item => ih _))
    simpa only [bind_assoc, Res.ok_bind, ArrayDef.readAll, ArrayDef.readPackedAll] using this

theorem Local.readPackedAll {α : Type} {t : ArrayTrait α}
    (ht : ∀ n v, Local (fun r => t.readPacked n r v))
    (minCap : Nat) (offsets : Bool) (dflt : α) (n : Nat) (node : Node) (data : Vec α) :
    Local (fun r => ArrayDef.readPackedAll t minCap offsets dflt n node data r) := by
  induction n generalizing data node with
  | zero => exact Local.pure _
  | succ n ih =>
    have := Local.bind (g := fun _ r => t.readPacked node r dflt >>= fun x =>
      ArrayDef.readPackedAll t minCap offsets dflt n x.1.2 (data.push minCap x.1.1) x.2)
      (Local.alignElem offsets)
      (fun _ => Local.bind (g := fun (p : α × Node) r =>
        ArrayDef.readPackedAll t minCap offsets dflt n p.2 (data.push minCap p.1) r) (ht node dflt)
        (fun p => ih _ _))
    simpa only [bind_assoc, Res.ok_bind, ArrayDef.readAll, ArrayDef.readPackedAll] using this

theorem Local.arrayField {α : Type} (a : ArrayDef α)
    (h : if a.isPacked then ∀ n v, Local (fun r => a.arrayTrait.readPacked n r v)
      else ∀ v, Local (fun r => a.arrayTrait.read r v))
    (minCap chunk : Nat) (dflt : α) (offsets : Bool) :
    Local (fun r => a.readField minCap chunk dflt offsets r) := by
  have hlen : Local (fun r => a.zserioReadArrayLength r) := by
    unfold ArrayDef.zserioReadArrayLength
    cases a.fixedSize with
    | some n => exact Local.pure n
    | none => exact Local.readVarsize
  refine Local.bind (g := fun len r =>
    a.zserioRead minCap chunk dflt r Vec.new len offsets >>= fun x => .ok (x.1.items, x.2)) hlen
    (fun len => ?_)
  refine Local.bind (g := fun (v : Vec α) r => .ok (v.items, r)) ?_ (fun v => Local.pure _)
  unfold ArrayDef.zserioRead
  cases hp : a.isPacked with
  | true =>
    rw [hp] at h
    exact Local.readPackedAll h _ _ _ _ _ _
  | false =>
    rw [hp] at h
    exact Local.readAll h _ _ _ _ _

/-- All element readers are local. -/
theorem AnyKind.isLocal {md : Mode} {α : Type} {e : Elem α} {dflt : α} {valid : α → Prop}
    (h : AnyKind md e dflt valid) (v : α) : Local (fun r => e.read r v) := by
  obtain ⟨_, _, _, _, hbool, hvarsize, hvaruint16, hvaruint32, hvaruint64, hvaruint, hvarint16,
    hvarint32, hvarint64, hvarint, hstring, hbytes, hextern, _, hfloat32, hfloat64⟩ :=
    C13_scalar_readers_local (fun _ => 0)
  cases h with
  | int h =>
    cases h with
    | uint width n _ _ =>
      exact Local.bind (g := fun v r => .ok (v % 2 ^ width, r)) (Local.readUnsignedBits n)
        (fun v => Local.pure _)
    | int width n _ _ _ =>
      exact Local.bind (g := fun v r => .ok (wrapSigned width v, r)) (Local.readSignedBits n)
        (fun v => Local.pure _)
    | varuint16 => exact hvaruint16
    | varuint32 => exact hvaruint32
    | varuint64 => exact hvaruint64
    | varuint => exact hvaruint
    | varsize => exact hvarsize
    | varint16 => exact hvarint16
    | varint32 => exact hvarint32
    | varint64 => exact hvarint64
    | varint => exact hvarint
  | plain h =>
    cases h with
    | bool => exact hbool
    | float16 f t => exact Local.readFloat 2 (fun bs => t (UInt16.ofNat (ofBeBytes bs)))
    | float32 => exact hfloat32
    | float64 => exact hfloat64
    | bytes => exact hbytes
    | extern => exact hextern
  | string => exact hstring

/-! ## Panics -/

theorem NeverPanics.align (a : Nat) (ha : a ≠ 0) (r : Reader) : alignReader r a ≠ .panic := by
  unfold alignReader Reader.skip
  rw [if_neg ha]
  simp only
  split <;> simp

theorem readAll_ne_panic {α : Type} {t : ArrayTrait α} {dflt : α}
    (ht : NeverPanics (fun r => t.read r dflt)) (minCap : Nat) (offsets : Bool) (n : Nat)
    (data : Vec α) (r : Reader) : ArrayDef.readAll t minCap offsets dflt n data r ≠ .panic := by
  induction n generalizing data r with
  | zero => simp [ArrayDef.readAll]
  | succ n ih =>
    refine Res.bind_ne_panic ?_ (fun r _ => Res.bind_ne_panic (ht r) (fun x _ => ih _ _))
    unfold alignElemReader
    split
    · exact NeverPanics.align 8 (by decide) r
    · simp

/-! ## Space -/

theorem Vec.push_capacity {α : Type} (minCap : Nat) (v : Vec α) (x : α) :
    (v.push minCap x).capacity ≤ max v.capacity (max minCap (2 * (v.items.length + 1))) ∧
      (v.items.length ≤ v.capacity → v.items.length + 1 ≤ (v.push minCap x).capacity) := by
  unfold Vec.push Vec.reserve
  split <;> simp <;> omega

theorem readAll_capacity {α : Type} {t : ArrayTrait α} {minCap : Nat} {offsets : Bool} {dflt : α}
    {n : Nat} {data v : Vec α} {r r' : Reader} (hd : data.items.length ≤ data.capacity)
    (h : ArrayDef.readAll t minCap offsets dflt n data r = .ok (v, r')) :
    v.items.length = data.items.length + n ∧
      v.capacity ≤ max data.capacity (max minCap (2 * v.items.length)) := by
  induction n generalizing data r with
  | zero =>
    simp [ArrayDef.readAll] at h
    obtain ⟨rfl, rfl⟩ := h
    exact ⟨rfl, by omega⟩
  | succ n ih =>
    simp only [ArrayDef.readAll] at h
    obtain ⟨r1, _, h⟩ := Res.bind_eq_ok.1 h
    obtain ⟨⟨x, r2⟩, _, h⟩ := Res.bind_eq_ok.1 h
    obtain ⟨c1, c2⟩ := Vec.push_capacity minCap data x
    have hl := Vec.push_items minCap data x
    have hl' := congrArg List.length hl
    simp at hl'
    obtain ⟨h1, h2⟩ := ih (data := data.push minCap x) (by have := c2 hd; omega) h
    refine ⟨by omega, by omega⟩

theorem readPackedAll_capacity {α : Type} {t : ArrayTrait α} {minCap : Nat} {offsets : Bool}
    {dflt : α} {n : Nat} {node : Node} {data v : Vec α} {r r' : Reader}
    (hd : data.items.length ≤ data.capacity)
    (h : ArrayDef.readPackedAll t minCap offsets dflt n node data r = .ok (v, r')) :
    v.items.length = data.items.length + n ∧
      v.capacity ≤ max data.capacity (max minCap (2 * v.items.length)) := by
  induction n generalizing data r node with
  | zero =>
    simp [ArrayDef.readPackedAll] at h
    obtain ⟨rfl, rfl⟩ := h
    exact ⟨rfl, by omega⟩
  | succ n ih =>
    simp only [ArrayDef.readPackedAll] at h
    obtain ⟨r1, _, h⟩ := Res.bind_eq_ok.1 h
    obtain ⟨⟨⟨x, node'⟩, r2⟩, _, h⟩ := Res.bind_eq_ok.1 h
    obtain ⟨c1, c2⟩ := Vec.push_capacity minCap data x
    have hl := Vec.push_items minCap data x
    have hl' := congrArg List.length hl
    simp at hl'
    obtain ⟨h1, h2⟩ := ih (data := data.push minCap x) (by have := c2 hd; omega) h
    refine ⟨by omega, by omega⟩

theorem readAll_items {α : Type} (t : ArrayTrait α) (m1 m2 : Nat) (offsets : Bool) (dflt : α)
    (n : Nat) (d1 d2 : Vec α) (hd : d1.items = d2.items) (r : Reader) :
    (ArrayDef.readAll t m1 offsets dflt n d1 r >>= fun x => .ok (x.1.items, x.2)) =
    (ArrayDef.readAll t m2 offsets dflt n d2 r >>= fun x => .ok (x.1.items, x.2)) := by
  induction n generalizing d1 d2 r with
  | zero => simp [ArrayDef.readAll, hd]
  | succ n ih =>
    simp only [ArrayDef.readAll, bind_assoc]
    congr 1; funext r; congr 1; funext x
    exact ih _ _ (by simp [Vec.push_items, hd]) _

theorem readPackedAll_items {α : Type} (t : ArrayTrait α) (m1 m2 : Nat) (offsets : Bool) (dflt : α)
    (n : Nat) (node : Node) (d1 d2 : Vec α) (hd : d1.items = d2.items) (r : Reader) :
    (ArrayDef.readPackedAll t m1 offsets dflt n node d1 r >>= fun x => .ok (x.1.items, x.2)) =
    (ArrayDef.readPackedAll t m2 offsets dflt n node d2 r >>= fun x => .ok (x.1.items, x.2)) := by
  induction n generalizing d1 d2 r node with
  | zero => simp [ArrayDef.readPackedAll, hd]
  | succ n ih =>
    simp only [ArrayDef.readPackedAll, bind_assoc]
    congr 1; funext r; congr 1; funext x
    exact ih _ _ _ (by simp [Vec.push_items, hd]) _

end Zs
