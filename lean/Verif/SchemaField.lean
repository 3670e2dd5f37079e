import Verif.SchemaPack

/-!
# Fields of generated types
-/

namespace Zs

open Spec

/-! ## Alignment -/

theorem align_step {a : Nat} (ha : a ≠ 0) (before : List Bool) : ∃ pad : List Bool,
    Zs.alignWriter ⟨before⟩ a = .ok ⟨before ++ pad⟩ ∧
    Zs.alignBitsize before.length a = .ok pad.length ∧
    ∀ after, Zs.alignReader ⟨before.length, pad ++ after⟩ a =
      .ok ⟨before.length + pad.length, after⟩ := by
  refine ⟨List.replicate ((a - before.length % a) % a) false, ?_, ?_, fun after => ?_⟩
  · simp [Zs.alignWriter, ha, Writer.bitCount, Writer.skip, Writer.append]
  · simp [Zs.alignBitsize, ha]
  · unfold Zs.alignReader Reader.position Reader.skip Reader.advance
    simp [ha]

theorem FieldOps.align_step (f : FieldOps) (before : List Bool) : ∃ pad : List Bool,
    f.alignWriter ⟨before⟩ = .ok ⟨before ++ pad⟩ ∧
    f.alignBitsize before.length = .ok (before.length + pad.length) ∧
    ∀ after, f.alignReader ⟨before.length, pad ++ after⟩ =
      .ok ⟨before.length + pad.length, after⟩ := by
  have h1 : ∃ pad : List Bool,
      (if f.info.alignment = 0 then pure ⟨before⟩ else Zs.alignWriter ⟨before⟩ f.info.alignment) =
        .ok (⟨before ++ pad⟩ : Writer) ∧
      (if f.info.alignment = 0 then pure before.length else (do
        let n ← Zs.alignBitsize before.length f.info.alignment
        pure (before.length + n))) = Res.ok (before.length + pad.length) ∧
      ∀ after, (if f.info.alignment = 0 then pure ⟨before.length, pad ++ after⟩
        else Zs.alignReader ⟨before.length, pad ++ after⟩ f.info.alignment) =
          .ok (⟨before.length + pad.length, after⟩ : Reader) := by
    by_cases ha : f.info.alignment = 0
    · exact ⟨[], by simp [ha], by simp [ha], by simp [ha]⟩
    · obtain ⟨pad, p1, p2, p3⟩ := Zs.align_step ha before
      exact ⟨pad, by simp [ha, p1], by simp [ha, p2], by simp [ha, p3]⟩
  have h2 : ∀ before : List Bool, ∃ pad : List Bool,
      (if f.info.offset = .plain then Zs.alignWriter ⟨before⟩ 8 else pure ⟨before⟩) =
        .ok (⟨before ++ pad⟩ : Writer) ∧
      (if f.info.offset = .plain then (do
        let n ← Zs.alignBitsize before.length 8
        pure (before.length + n)) else pure before.length) =
          Res.ok (before.length + pad.length) ∧
      ∀ after, (if f.info.offset = .plain then Zs.alignReader ⟨before.length, pad ++ after⟩ 8
        else pure ⟨before.length, pad ++ after⟩) =
          .ok (⟨before.length + pad.length, after⟩ : Reader) := by
    intro before
    by_cases ha : f.info.offset = .plain
    · obtain ⟨pad, p1, p2, p3⟩ := Zs.align_step (a := 8) (by decide) before
      exact ⟨pad, by simp [ha, p1], by simp [ha, p2], by simp [ha, p3]⟩
    · exact ⟨[], by simp [ha], by simp [ha], by simp [ha]⟩
  obtain ⟨p1, w1, b1, r1⟩ := h1
  obtain ⟨p2, w2, b2, r2⟩ := h2 (before ++ p1)
  refine ⟨p1 ++ p2, ?_, ?_, fun after => ?_⟩
  · unfold FieldOps.alignWriter
    rw [w1]; simp only [Res.ok_bind]; rw [w2, List.append_assoc]
  · unfold FieldOps.alignBitsize
    rw [b1]; simp only [Res.ok_bind]
    rw [List.length_append] at b2
    rw [b2, List.length_append, Nat.add_assoc]
  · unfold FieldOps.alignReader
    rw [List.append_assoc, r1]; simp only [Res.ok_bind]
    have := r2 after
    rw [List.length_append] at this
    rw [this, List.length_append, Nat.add_assoc]

namespace FieldOps

/-- A field is valid, in terms of its operations. -/
def Valid (f : FieldOps) (valid : Env → Val → Prop) (env : Env) (v : Val) : Prop :=
  f.info.FieldValid valid f.ty.dflt env v

/-- The initial value has the parameters a valid value must have. -/
theorem initial_eq (f : FieldOps) {env : Env} {i : Nat} {y : Val}
    (h : y.params = f.info.expectedParams f.ty.dflt env i) :
    f.initial env i = f.ty.dflt.withParams y.params := by
  unfold FieldInfo.expectedParams at h
  unfold initial argValues
  by_cases ha : f.info.args = []
  · rw [if_pos ha] at h
    rw [if_pos (by simp [ha]), h, Val.withParams_params]
  · rw [if_neg ha] at h
    rw [if_neg (by simpa using ha), h]

theorem checkArgs_ok (f : FieldOps) {env : Env} {i : Nat} {y : Val}
    (h : y.params = f.info.expectedParams f.ty.dflt env i) : f.checkArgs env i y = .ok () := by
  unfold FieldInfo.expectedParams at h
  unfold checkArgs argValues
  by_cases ha : f.info.args = []
  · simp [ha]
  · rw [if_neg ha] at h
    rw [if_neg (by simpa using ha), if_pos h]; rfl

theorem checkArgsAll_ok (f : FieldOps) {env : Env} {xs : List Val} {i : Nat}
    (h : ∀ j y, xs[j]? = some y → y.params = f.info.expectedParams f.ty.dflt env (i + j)) :
    f.checkArgsAll env i xs = .ok () := by
  induction xs generalizing i with
  | nil => rfl
  | cons x xs ih =>
    have h0 : f.checkArgs env i x = .ok () := f.checkArgs_ok (h 0 x rfl)
    simp only [checkArgsAll, h0, Res.ok_bind]
    refine ih (fun j y hy => ?_)
    have := h (j + 1) y (by simpa using hy)
    rw [this]; congr 1; omega

theorem checkLength_ok {a : ArrayInfo} {env : Env} {xs : List Val}
    (h : LengthFits (a.length.map (fun e => e env)) xs.length) :
    checkLength a env xs = .ok () := by
  unfold checkLength
  unfold LengthFits at h
  cases hl : a.length with
  | none => rfl
  | some e => 
    simp only [hl, Option.map_some] at h
    simp [h]

/-! ## Arrays -/

/-- Without type arguments the library reads the elements like the loop with type arguments. -/
theorem readParamAll_eq (cfg : Cfg) (f : FieldOps) (a : ArrayDef Val) (env : Env)
    (ha : f.info.args.isEmpty = true) (k i : Nat) (node : Node) (data : Vec Val) (r : Reader) :
    f.readParamAll cfg a env k i node data r =
      if a.isPacked then ArrayDef.readPackedAll a.arrayTrait cfg.minCap f.indexed f.ty.dflt k node
        data r
      else ArrayDef.readAll a.arrayTrait cfg.minCap f.indexed f.ty.dflt k data r := by
  induction k generalizing i node data r with
  | zero => simp [readParamAll, ArrayDef.readPackedAll, ArrayDef.readAll]
  | succ k ih =>
    simp only [readParamAll, ih, ArrayDef.readOneElement, initial, ha, if_true]
    cases hp : a.isPacked with
    | true => simp only [if_true, ArrayDef.readPackedAll, bind_assoc]
    | false =>
      simp only [Bool.false_eq_true, if_false, ArrayDef.readAll, bind_assoc, Res.pure_eq,
        Res.ok_bind]

theorem decodeArray_eq (cfg : Cfg) (f : FieldOps) (a : ArrayDef Val) (env : Env) (data : Vec Val)
    (r : Reader) : f.decodeArray cfg a env data r = (a.zserioReadArrayLength r >>= fun p =>
      f.readParamAll cfg a env p.1 0 a.arrayTrait.createContext
        (ArrayDef.prepare cfg.minCap cfg.chunk data p.1) p.2 >>= fun q =>
      .ok (.list q.1.items, q.2)) := by
  unfold decodeArray
  congr 1; funext p
  cases ha : f.info.args.isEmpty with
  | true =>
    simp only [if_true, readParamAll_eq cfg f a env ha, ArrayDef.zserioRead, Res.pure_eq]
  | false => rfl

/-- What must hold for the type of a field. -/
def Codable (f : FieldOps) (valid : Env → Val → Prop) (packed z : Bool) : Prop :=
  f.ty.Coherent ∧
  match f.info.array with
  | some a => if (a.isPacked || packed) && f.isPackable then f.ty.PacksAll valid false
      else f.ty.ElemRT valid
  | none => if packed && f.isPackable then f.ty.PacksAll valid z
      else f.ty.RT valid ∧ (packed = true → f.ty.isMarshaler = false)

/-- Packed elements are read back. -/
theorem packed_elems (cfg : Cfg) (f : FieldOps) (hc : f.ty.Coherent) {a : ArrayDef Val} {env : Env}
    (ht : a.arrayTrait = f.ty.arrayTrait env) (hp : a.isPacked = true) {xs : List Val} {i : Nat}
    (hpar : ∀ j y, xs[j]? = some y → y.params = f.info.expectedParams f.ty.dflt env (i + j))
    {w r : Node} (hf : f.ty.Follows (xs.map fun x => ⟨env, x, true⟩) w r) (before : List Bool) :
    ∃ bits, ArrayDef.writePackedAll a.arrayTrait f.indexed w ⟨before⟩ xs = .ok ⟨before ++ bits⟩ ∧
      ∀ (data : Vec Val) (after : List Bool), ∃ cap,
        f.readParamAll cfg a env xs.length i r data ⟨before.length, bits ++ after⟩ =
          .ok (⟨data.items ++ xs, cap⟩, ⟨before.length + bits.length, after⟩) := by
  induction xs generalizing before w r i with
  | nil => exact ⟨[], by simp [ArrayDef.writePackedAll], fun data after =>
      ⟨data.capacity, by simp [readParamAll]⟩⟩
  | cons x xs ih =>
    obtain ⟨pad, hp1, _, hp2⟩ := alignElem_step f.indexed before
    obtain ⟨b1, w', r', hw1, hr1, hf'⟩ := hf (before ++ pad)
    obtain ⟨b2, hw2, hr2⟩ := ih (i := i + 1) (fun j y hy => by
      rw [hpar (j + 1) y (by simpa using hy)]; congr 1; omega) hf' (before ++ pad ++ b1)
    refine ⟨pad ++ b1 ++ b2, ?_, fun data after => ?_⟩
    · simp only [ArrayDef.writePackedAll, hp1, Res.ok_bind, ht, hc.write, hw1]
      rw [← ht, hw2]
      simp [List.append_assoc]
    · obtain ⟨cap, hr⟩ := hr2 (data.push cfg.minCap x) after
      refine ⟨cap, ?_⟩
      have h1 := hr1 (b2 ++ after)
      have hpar0 : x.params = f.info.expectedParams f.ty.dflt env i := hpar 0 x rfl
      rw [← f.initial_eq hpar0] at h1
      simp only [List.length_append, Vec.push_items, List.append_assoc] at h1 hr
      simp only [readParamAll, ArrayDef.readOneElement, hp, if_true, List.length_cons,
        List.append_assoc, hp2, Res.ok_bind, ht, hc.read, h1, hr,
        List.length_append, List.singleton_append, Nat.add_assoc]

/-- Unpacked elements are read back. -/
theorem plain_elems (cfg : Cfg) (f : FieldOps) {a : ArrayDef Val} {env : Env}
    (ht : a.arrayTrait = f.ty.arrayTrait env) (hp : a.isPacked = false) {xs : List Val} {i : Nat}
    (hpar : ∀ j y, xs[j]? = some y → y.params = f.info.expectedParams f.ty.dflt env (i + j))
    (hx : ∀ x ∈ xs, RoundTrips (fun w => (f.ty.arrayTrait env).write w x)
      (fun r => (f.ty.arrayTrait env).read r (f.ty.dflt.withParams x.params)) x)
    (r : Node) (before : List Bool) :
    ∃ bits, ArrayDef.writeAll a.arrayTrait f.indexed ⟨before⟩ xs = .ok ⟨before ++ bits⟩ ∧
      ∀ (data : Vec Val) (after : List Bool), ∃ cap,
        f.readParamAll cfg a env xs.length i r data ⟨before.length, bits ++ after⟩ =
          .ok (⟨data.items ++ xs, cap⟩, ⟨before.length + bits.length, after⟩) := by
  induction xs generalizing before r i with
  | nil => exact ⟨[], by simp [ArrayDef.writeAll], fun data after =>
      ⟨data.capacity, by simp [readParamAll]⟩⟩
  | cons x xs ih =>
    obtain ⟨pad, hp1, _, hp2⟩ := alignElem_step f.indexed before
    obtain ⟨b1, hw1, hr1⟩ := hx x (List.mem_cons_self ..) (before ++ pad)
    obtain ⟨b2, hw2, hr2⟩ := ih (i := i + 1) (fun j y hy => by
      rw [hpar (j + 1) y (by simpa using hy)]; congr 1; omega)
      (fun y hy => hx y (List.mem_cons_of_mem _ hy)) r (before ++ pad ++ b1)
    simp only at hw1
    refine ⟨pad ++ b1 ++ b2, ?_, fun data after => ?_⟩
    · simp only [ArrayDef.writeAll, hp1, Res.ok_bind, ht, hw1]
      rw [← ht, hw2]
      simp [List.append_assoc]
    · obtain ⟨cap, hr⟩ := hr2 (data.push cfg.minCap x) after
      refine ⟨cap, ?_⟩
      have h1 := hr1 (b2 ++ after)
      have hpar0 : x.params = f.info.expectedParams f.ty.dflt env i := hpar 0 x rfl
      rw [← f.initial_eq hpar0] at h1
      simp only [List.length_append, Vec.push_items, List.append_assoc] at h1 hr
      simp only [readParamAll, ArrayDef.readOneElement, hp, Bool.false_eq_true, if_false,
        List.length_cons, List.append_assoc, hp2, Res.ok_bind, ht, h1, hr, Res.pure_eq,
        List.length_append, List.singleton_append, Nat.add_assoc]

theorem initAll_items (f : FieldOps) (hc : f.ty.Coherent) (env : Env) (n : Node) (xs : List Val) :
    ArrayDef.initAll (f.ty.arrayTrait env) n xs =
      f.ty.initItems n (xs.map fun x => ⟨env, x, true⟩) := by
  induction xs generalizing n with
  | nil => rfl
  | cons x xs ih =>
    simp only [ArrayDef.initAll, TypeOps.initItems, List.map_cons, hc.init]
    congr 1; funext n'; exact ih n'

/-- A valid array is read back. -/
theorem array_rt (cfg : Cfg) (f : FieldOps) {valid : Env → Val → Prop} {packed z : Bool}
    (hcod : f.Codable valid packed z) {a : ArrayInfo} (ha : f.info.array = some a) {env : Env}
    {xs : List Val} (hlen : LengthFits (a.length.map (fun e => e env)) xs.length)
    (hx : ∀ i y, xs[i]? = some y → valid env y ∧
      y.params = f.info.expectedParams f.ty.dflt env i) (before : List Bool) :
    ∃ bits, (f.arrayDef packed env a).zserioWrite ⟨before⟩ xs f.indexed = .ok ⟨before ++ bits⟩ ∧
      ∀ after, f.decodeArray cfg (f.arrayDef packed env a) env ⟨[], 0⟩
        ⟨before.length, bits ++ after⟩ =
          .ok (.list xs, ⟨before.length + bits.length, after⟩) := by
  obtain ⟨hc, hcod⟩ := hcod
  rw [ha] at hcod
  simp only at hcod
  have hpar : ∀ j y, xs[j]? = some y → y.params = f.info.expectedParams f.ty.dflt env (0 + j) :=
    fun j y hy => by rw [Nat.zero_add]; exact (hx j y hy).2
  have hval : ∀ x ∈ xs, valid env x := by
    intro x hmem
    obtain ⟨i, hi⟩ := List.mem_iff_getElem?.1 hmem
    exact (hx i x hi).1
  obtain ⟨h, hw0, hr0⟩ := array_header (f.arrayDef packed env a) xs (by
    unfold LengthFits at hlen
    simp only [arrayDef]
    cases hl : a.length <;> simp only [hl, Option.map_none, Option.map_some] at hlen ⊢ <;>
      exact hlen) before
  have hbody : ∃ bits, (f.arrayDef packed env a).writeElements ⟨before ++ h⟩ xs f.indexed =
        .ok ⟨before ++ h ++ bits⟩ ∧
      ∀ after, ∃ cap, f.readParamAll cfg (f.arrayDef packed env a) env xs.length 0
        (f.arrayDef packed env a).arrayTrait.createContext
        (ArrayDef.prepare cfg.minCap cfg.chunk ⟨[], 0⟩ xs.length)
        ⟨(before ++ h).length, bits ++ after⟩ =
          .ok (⟨xs, cap⟩, ⟨(before ++ h).length + bits.length, after⟩) := by
    have hprep : ∀ n, (ArrayDef.prepare cfg.minCap cfg.chunk (⟨[], 0⟩ : Vec Val) n).items = [] :=
      fun n => prepare_items (α := Val) _ _ n
    have hcreate : (f.arrayDef packed env a).arrayTrait.createContext = f.ty.createContext :=
      hc.create env
    unfold ArrayDef.writeElements
    by_cases hempty : xs = []
    · subst hempty
      refine ⟨[], by simp, fun after => ?_⟩
      refine ⟨(ArrayDef.prepare cfg.minCap cfg.chunk (⟨[], 0⟩ : Vec Val) 0).capacity, ?_⟩
      have := hprep 0
      cases hv : ArrayDef.prepare cfg.minCap cfg.chunk (⟨[], 0⟩ : Vec Val) 0 with
      | mk items cap =>
        rw [hv] at this
        simp only at this
        subst this
        simp [readParamAll]
    · rw [if_neg (by simpa using hempty)]
      cases hpk : (f.arrayDef packed env a).isPacked with
      | true =>
        rw [show ((a.isPacked || packed) && f.isPackable) = true from hpk, if_pos rfl] at hcod
        obtain ⟨n, hn, hfol⟩ := hcod (xs.map fun x => ⟨env, x, true⟩) (by
          intro it hit
          simp only [List.mem_map] at hit
          obtain ⟨x, hmem, rfl⟩ := hit
          simp only [if_true]
          exact hval x hmem)
        have hfil : (xs.map fun x => (⟨env, x, true⟩ : PItem)).filter PItem.written =
            xs.map fun x => ⟨env, x, true⟩ := by
          rw [List.filter_eq_self]; intro it hit
          simp only [List.mem_map] at hit
          obtain ⟨x, _, rfl⟩ := hit
          rfl
        rw [hfil] at hfol
        obtain ⟨bits, hw, hr⟩ := packed_elems cfg f hc (a := f.arrayDef packed env a) rfl hpk hpar
          hfol (before ++ h)
        refine ⟨bits, ?_, fun after => ?_⟩
        · simp only [if_true]
          rw [show (f.arrayDef packed env a).arrayTrait = f.ty.arrayTrait env from rfl,
            initAll_items f hc, hc.create, hn]
          exact hw
        · obtain ⟨cap, hr⟩ := hr (ArrayDef.prepare cfg.minCap cfg.chunk ⟨[], 0⟩ xs.length) after
          rw [hprep] at hr
          exact ⟨cap, by rw [hcreate, hr]; rfl⟩
      | false =>
        rw [show ((a.isPacked || packed) && f.isPackable) = false from hpk,
          if_neg (by simp)] at hcod
        obtain ⟨bits, hw, hr⟩ := plain_elems cfg f (a := f.arrayDef packed env a) rfl hpk hpar
          (fun x hmem => hcod env x (hval x hmem))
          (f.arrayDef packed env a).arrayTrait.createContext (before ++ h)
        refine ⟨bits, by simpa using hw, fun after => ?_⟩
        obtain ⟨cap, hr⟩ := hr (ArrayDef.prepare cfg.minCap cfg.chunk ⟨[], 0⟩ xs.length) after
        rw [hprep] at hr
        exact ⟨cap, by rw [hr]; rfl⟩
  obtain ⟨bits, hw1, hr1⟩ := hbody
  refine ⟨h ++ bits, ?_, fun after => ?_⟩
  · unfold ArrayDef.zserioWrite
    rw [hw0]
    simp only [Res.ok_bind]
    rw [hw1, List.append_assoc]
  · obtain ⟨cap, hr1⟩ := hr1 after
    rw [decodeArray_eq, List.append_assoc, hr0]
    simp only [Res.ok_bind]
    rw [← List.length_append, hr1]
    simp [Nat.add_assoc]

/-! ## Contents -/

theorem present_eq (f : FieldOps) (env : Env) :
    f.present env = f.info.clause.all (fun c => c env) := by
  unfold present; cases f.info.clause <;> rfl

/-- The content of a field that does not use its packing node is read back. -/
theorem content_plain (cfg : Cfg) (f : FieldOps) {valid : Env → Val → Prop} {packed z : Bool}
    (hcod : f.Codable valid packed z)
    (hplain : f.info.array.isSome = true ∨ (packed && f.isPackable) = false)
    {env : Env} {x : Val} (hv : f.info.ContentValid valid f.ty.dflt env x)
    (i : Nat) (before : List Bool) :
    ∃ bits, (∀ n, f.encodeContent packed i env x n ⟨before⟩ = .ok (⟨before ++ bits⟩, n)) ∧
      ∀ n after, f.decodeContent cfg packed i env f.contentDflt n ⟨before.length, bits ++ after⟩ =
        .ok ((x, n), ⟨before.length + bits.length, after⟩) := by
  unfold FieldInfo.ContentValid at hv
  unfold encodeContent decodeContent contentDflt
  cases ha : f.info.array with
  | some a =>
    rw [ha] at hv
    obtain ⟨xs, rfl, hlen, hx⟩ := hv
    obtain ⟨bits, hw, hr⟩ := array_rt cfg f hcod ha hlen hx before
    refine ⟨bits, fun n => ?_, fun n after => ?_⟩
    · simp only
      rw [checkArgsAll_ok f (fun j y hy => by rw [Nat.zero_add]; exact (hx j y hy).2)]
      simp only [Res.ok_bind]
      rw [checkLength_ok hlen]
      simp only [Res.ok_bind, hw, Res.pure_eq]
    · simp only [Option.isSome_some, if_true, List.length_nil, hr after, Res.ok_bind, Res.pure_eq]
  | none =>
    rw [ha] at hv
    simp only [ha, Option.isSome_none, Bool.false_eq_true, false_or] at hplain
    obtain ⟨_, hcod⟩ := hcod
    simp only [ha] at hcod
    rw [if_neg (by simp [hplain])] at hcod
    obtain ⟨bits, hw, hr⟩ := hcod.1 env x hv.1 before
    simp only at hw hr
    rw [← f.initial_eq hv.2] at hr
    refine ⟨bits, fun n => ?_, fun n after => ?_⟩
    · simp only [f.checkArgs_ok hv.2, Res.ok_bind, encodeType, hplain, Bool.false_eq_true, if_false,
        hw, Res.pure_eq]
    · simp only [decodeType, hplain, Bool.false_eq_true, if_false, hr after, Res.ok_bind,
        Res.pure_eq]

/-- What the packing node of a field is used for. -/
def contentItem (f : FieldOps) (env : Env) (v : Val) (written : Bool) : Option PItem :=
  if f.info.array.isSome || (!f.ty.isMarshaler && !f.isPackable) || !f.present env then none
  else if f.info.optional then
    match v with
    | .some x => some ⟨env, x, written⟩
    | _ => none
  else some ⟨env, v, written⟩

/-- The content of a packed field is read back. -/
theorem content_packed (cfg : Cfg) (f : FieldOps) {valid : Env → Val → Prop} {z : Bool}
    (hcod : f.Codable valid true z)
    {env : Env} {x : Val} (hv : f.info.ContentValid valid f.ty.dflt env x)
    {i : Nat} {cws crs : List Node} {c c' : Option DeltaContext} {cw cr : Node}
    (hcw : cws[i]? = some cw) (hcr : crs[i]? = some cr) {rest : List PItem}
    (hf : f.ty.Follows ((if f.info.array.isSome || (!f.ty.isMarshaler && !f.isPackable) then
      [] else [⟨env, x, true⟩]) ++ rest) cw cr) (before : List Bool) :
    ∃ bits cw' cr', f.encodeContent true i env x (.mk cws c) ⟨before⟩ =
        .ok (⟨before ++ bits⟩, .mk (cws.set i cw') c) ∧
      (∀ after, f.decodeContent cfg true i env f.contentDflt (.mk crs c')
        ⟨before.length, bits ++ after⟩ =
        .ok ((x, .mk (crs.set i cr') c'), ⟨before.length + bits.length, after⟩)) ∧
      f.ty.Follows rest cw' cr' := by
  have hset : ∀ (l : List Node) (n : Node), l[i]? = some n → l.set i n = l := by
    intro l n h
    obtain ⟨h1, rfl⟩ := List.getElem?_eq_some_iff.1 h
    exact List.set_getElem_self h1
  by_cases hplain : f.info.array.isSome = true ∨ (true && f.isPackable) = false
  · obtain ⟨bits, hw, hr⟩ := content_plain cfg f hcod hplain hv i before
    refine ⟨bits, cw, cr, by rw [hset _ _ hcw]; exact hw _,
      fun after => by rw [hset _ _ hcr]; exact hr _ after, ?_⟩
    have hitem : (f.info.array.isSome || (!f.ty.isMarshaler && !f.isPackable)) = true := by
      cases ha : f.info.array with
      | some a => rfl
      | none =>
        obtain ⟨_, hcod⟩ := hcod
        simp only [ha] at hcod
        simp only [ha, Option.isSome_none, Bool.false_eq_true, false_or] at hplain
        rw [if_neg (by rw [hplain]; simp)] at hcod
        rw [Bool.true_and] at hplain
        simp [hcod.2 trivial, hplain]
    rw [if_pos hitem] at hf
    exact hf
  · simp only [Bool.true_and, not_or, Bool.not_eq_true, Bool.not_eq_false] at hplain
    obtain ⟨ha, hp⟩ := hplain
    rw [if_neg (by simp [ha, hp])] at hf
    simp only [List.cons_append, List.nil_append] at hf
    obtain ⟨bits, w', r', h1, h2, h3⟩ := hf before
    have ha' : f.info.array = none := by simpa using ha
    unfold FieldInfo.ContentValid at hv
    simp only [ha'] at hv
    have hv2 := hv.2
    rw [← f.initial_eq hv2] at h2
    refine ⟨bits, w', r', ?_, fun after => ?_, h3⟩
    · unfold encodeContent
      simp only [ha', f.checkArgs_ok hv2, Res.ok_bind, encodeType, hp, Bool.and_self, if_true,
        Node.onChild, hcw, h1, Res.pure_eq]
    · unfold decodeContent
      simp only [ha', decodeType, hp, Bool.and_self, if_true, Node.onChild, hcr, h2 after,
        Res.ok_bind, Res.pure_eq]

/-! ## Whole fields -/

/-- A valid field is read back, not packed. -/
theorem field_plain (cfg : Cfg) (f : FieldOps) {valid : Env → Val → Prop} {z : Bool}
    (hcod : f.Codable valid false z) {env : Env} {v : Val} (hv : f.Valid valid env v)
    (i : Nat) (before : List Bool) :
    ∃ bits, (∀ n, f.encode false i env v n ⟨before⟩ = .ok (⟨before ++ bits⟩, n)) ∧
      ∀ n after, f.decode cfg false i env f.dflt n ⟨before.length, bits ++ after⟩ =
        .ok ((v, n), ⟨before.length + bits.length, after⟩) := by
  unfold Valid FieldInfo.FieldValid at hv
  rw [← present_eq] at hv
  unfold encode decode
  cases hp : f.present env with
  | false =>
    rw [hp, if_neg (by simp)] at hv
    subst hv
    exact ⟨[], fun n => by simp, fun n after => by simp [FieldInfo.default, dflt]⟩
  | true =>
    rw [hp, if_pos rfl] at hv
    obtain ⟨pad, a1, _, a3⟩ := f.align_step before
    unfold encodeOptional decodeOptional
    cases ho : f.info.optional with
    | false =>
      rw [ho, if_neg (by simp)] at hv
      obtain ⟨bits, hw, hr⟩ := content_plain cfg f hcod (.inr rfl) hv i (before ++ pad)
      have hd : f.dflt = f.contentDflt := by simp [dflt, contentDflt, ho]
      refine ⟨pad ++ bits, fun n => ?_, fun n after => ?_⟩
      · simp only [if_true, a1, Res.ok_bind, Bool.false_eq_true, if_false, hw,
          List.append_assoc]
      · have := hr n after
        simp only [List.length_append] at this
        simp only [if_true, Bool.false_eq_true, if_false, List.append_assoc, a3, Res.ok_bind, hd,
          this, List.length_append, Nat.add_assoc]
    | true =>
      rw [ho, if_pos rfl] at hv
      have hd : f.dflt = .none := by simp [dflt, ho]
      rcases hv with rfl | ⟨x, rfl, hv⟩
      · refine ⟨pad ++ [false], fun n => ?_, fun n after => ?_⟩
        · simp only [if_true, a1, Res.ok_bind, Writer.writeBool, Writer.append, Res.pure_eq,
            List.append_assoc]
        · simp only [if_true, List.append_assoc, a3, Res.ok_bind, hd, Reader.readBool,
            List.cons_append, Bool.false_eq_true, if_false, List.length_append, Res.pure_eq,
            List.length_cons, List.length_nil, List.nil_append, Nat.add_assoc]
      · obtain ⟨bits, hw, hr⟩ := content_plain cfg f hcod (.inr rfl) hv i (before ++ pad ++ [true])
        refine ⟨pad ++ true :: bits, fun n => ?_, fun n after => ?_⟩
        · simp only [if_true, a1, Res.ok_bind, Writer.writeBool, Writer.append, hw]
          simp only [List.append_assoc, List.singleton_append]
        · have := hr n after
          simp only [List.length_append, List.length_cons, List.length_nil] at this
          simp only [if_true, List.append_assoc, a3, Res.ok_bind, Reader.readBool,
            List.cons_append, this, Res.pure_eq, List.length_append, List.length_cons]
          simp only [Nat.zero_add, Nat.add_assoc, Nat.add_comm 1]

/-- A valid field is read back, packed. -/
theorem field_packed (cfg : Cfg) (f : FieldOps) {valid : Env → Val → Prop} {z : Bool}
    (hcod : f.Codable valid true z) {env : Env} {v : Val} (hv : f.Valid valid env v)
    {i : Nat} {cws crs : List Node} {c c' : Option DeltaContext} {cw cr : Node}
    (hcw : cws[i]? = some cw) (hcr : crs[i]? = some cr) {rest : List PItem}
    (hf : f.ty.Follows ((f.contentItem env v true).toList ++ rest) cw cr) (before : List Bool) :
    ∃ bits cw' cr', f.encode true i env v (.mk cws c) ⟨before⟩ =
        .ok (⟨before ++ bits⟩, .mk (cws.set i cw') c) ∧
      (∀ after, f.decode cfg true i env f.dflt (.mk crs c') ⟨before.length, bits ++ after⟩ =
        .ok ((v, .mk (crs.set i cr') c'), ⟨before.length + bits.length, after⟩)) ∧
      f.ty.Follows rest cw' cr' := by
  have hset : ∀ (l : List Node) (n : Node), l[i]? = some n → l.set i n = l := by
    intro l n h
    obtain ⟨h1, rfl⟩ := List.getElem?_eq_some_iff.1 h
    exact List.set_getElem_self h1
  unfold Valid FieldInfo.FieldValid at hv
  rw [← present_eq] at hv
  unfold encode decode
  unfold contentItem at hf
  cases hp : f.present env with
  | false =>
    rw [hp, if_neg (by simp)] at hv
    subst hv
    rw [if_pos (by simp [hp])] at hf
    exact ⟨[], cw, cr, by simp [hset _ _ hcw],
      fun after => by simp [FieldInfo.default, dflt, hset _ _ hcr], hf⟩
  | true =>
    rw [hp, if_pos rfl] at hv
    rw [hp] at hf
    simp only [Bool.not_true, Bool.or_false] at hf
    obtain ⟨pad, a1, _, a3⟩ := f.align_step before
    unfold encodeOptional decodeOptional
    cases ho : f.info.optional with
    | false =>
      rw [ho, if_neg (by simp)] at hv
      rw [ho] at hf
      obtain ⟨bits, w', r', hw, hr, hf'⟩ := content_packed cfg f hcod hv (c := c) (c' := c') hcw hcr
        (rest := rest) (by
          cases hb : (f.info.array.isSome || (!f.ty.isMarshaler && !f.isPackable)) <;>
            rw [hb] at hf <;> exact hf) (before ++ pad)
      have hd : f.dflt = f.contentDflt := by simp [dflt, contentDflt, ho]
      refine ⟨pad ++ bits, w', r', ?_, fun after => ?_, hf'⟩
      · simp only [if_true, a1, Res.ok_bind, Bool.false_eq_true, if_false, hw,
          List.append_assoc]
      · have := hr after
        simp only [List.length_append] at this
        simp only [if_true, Bool.false_eq_true, if_false, List.append_assoc, a3, Res.ok_bind, hd,
          this, List.length_append, Nat.add_assoc]
    | true =>
      rw [ho, if_pos rfl] at hv
      rw [ho] at hf
      have hd : f.dflt = .none := by simp [dflt, ho]
      rcases hv with rfl | ⟨x, rfl, hv⟩
      · refine ⟨pad ++ [false], cw, cr, ?_, fun after => ?_, ?_⟩
        · simp only [if_true, a1, Res.ok_bind, Writer.writeBool, Writer.append, Res.pure_eq,
            List.append_assoc, hset _ _ hcw]
        · simp only [if_true, List.append_assoc, a3, Res.ok_bind, hd, Reader.readBool,
            List.cons_append, Bool.false_eq_true, if_false, List.length_append, Res.pure_eq,
            List.length_cons, List.length_nil, List.nil_append, Nat.add_assoc, hset _ _ hcr]
        · cases hb : (f.info.array.isSome || (!f.ty.isMarshaler && !f.isPackable)) <;>
            rw [hb] at hf <;> exact hf
      · obtain ⟨bits, w', r', hw, hr, hf'⟩ := content_packed cfg f hcod hv (c := c) (c' := c') hcw hcr
          (rest := rest) (by
            cases hb : (f.info.array.isSome || (!f.ty.isMarshaler && !f.isPackable)) <;>
              rw [hb] at hf <;> exact hf) (before ++ pad ++ [true])
        refine ⟨pad ++ true :: bits, w', r', ?_, fun after => ?_, hf'⟩
        · simp only [if_true, a1, Res.ok_bind, Writer.writeBool, Writer.append, hw]
          simp only [List.append_assoc, List.singleton_append]
        · have := hr after
          simp only [List.length_append, List.length_cons, List.length_nil] at this
          simp only [if_true, List.append_assoc, a3, Res.ok_bind, Reader.readBool,
            List.cons_append, this, Res.pure_eq, List.length_append, List.length_cons]
          simp only [Nat.zero_add, Nat.add_assoc, Nat.add_comm 1]

/-- The node of a field is initialised with its content. -/
theorem field_init (f : FieldOps) {env : Env} {v : Val} {written : Bool}
    (hv : f.info.optional = true → f.present env = true → v = .none ∨ ∃ x, v = .some x)
    {i : Nat} {cs : List Node} {c : Option DeltaContext} {child n : Node}
    (hc : cs[i]? = some child) {rest : List PItem}
    (hi : f.ty.initItems child ((f.contentItem env v written).toList ++ rest) = .ok n) :
    ∃ child', f.initContext i env v (.mk cs c) = .ok (.mk (cs.set i child') c) ∧
      f.ty.initItems child' rest = .ok n := by
  have hset : cs.set i child = cs := by
    obtain ⟨h1, rfl⟩ := List.getElem?_eq_some_iff.1 hc
    exact List.set_getElem_self h1
  have content : ∀ x, f.ty.initItems child (⟨env, x, written⟩ :: rest) = .ok n →
      ∃ child', f.initContent i env x (.mk cs c) = .ok (.mk (cs.set i child') c) ∧
        f.ty.initItems child' rest = .ok n := by
    intro x h
    obtain ⟨child', h1, h2⟩ := Res.bind_eq_ok.1 h
    simp only at h1
    exact ⟨child', by simp [initContent, Node.onChild, hc, h1], h2⟩
  unfold contentItem at hi
  unfold initContext
  cases ha : f.info.array.isSome with
  | true =>
    rw [ha] at hi
    exact ⟨child, by simp [hset], by simpa using hi⟩
  | false =>
    rw [ha] at hi
    simp only [Bool.false_or, Bool.false_eq_true, if_false] at hi ⊢
    cases hm : (!f.ty.isMarshaler && !f.isPackable) with
    | true =>
      rw [hm] at hi
      exact ⟨child, by simp [hset], by simpa using hi⟩
    | false =>
      rw [hm] at hi
      simp only [Bool.false_or, Bool.false_eq_true, if_false] at hi ⊢
      cases hp : f.present env with
      | false =>
        rw [hp] at hi
        exact ⟨child, by simp [hset], by simpa using hi⟩
      | true =>
        rw [hp] at hi
        simp only [Bool.not_true, Bool.false_eq_true, if_false, if_true] at hi ⊢
        cases ho : f.info.optional with
        | false =>
          rw [ho] at hi
          exact content v (by simpa using hi)
        | true =>
          rw [ho] at hi
          rcases hv ho hp with rfl | ⟨x, rfl⟩
          · exact ⟨child, by simp [hset], by simpa using hi⟩
          · exact content x (by simpa using hi)

/-- What is written of a valid field is a valid item. -/
theorem contentItem_valid (f : FieldOps) {valid : Env → Val → Prop} {env : Env} {v : Val}
    (hv : f.Valid valid env v) {b : Bool} {it : PItem} (h : f.contentItem env v b = some it) :
    valid it.env it.val ∧ it.written = b := by
  unfold Valid FieldInfo.FieldValid at hv
  rw [← present_eq] at hv
  unfold contentItem at h
  split at h
  · cases h
  · rename_i hb
    simp only [Bool.or_eq_true, not_or, Bool.not_eq_true', Bool.not_eq_false,
      Bool.not_eq_true] at hb
    obtain ⟨⟨ha, _⟩, hp⟩ := hb
    have ha' : f.info.array = none := by simpa using ha
    have hcv : ∀ x, f.info.ContentValid valid f.ty.dflt env x → valid env x := by
      intro x hx
      unfold FieldInfo.ContentValid at hx
      simp only [ha'] at hx
      exact hx.1
    rw [if_pos hp] at hv
    cases ho : f.info.optional with
    | false =>
      rw [ho] at h hv
      cases h
      exact ⟨hcv _ hv, rfl⟩
    | true =>
      rw [ho, if_pos rfl] at h hv
      rcases hv with rfl | ⟨x, rfl, hx⟩
      · cases h
      · cases h; exact ⟨hcv _ hx, rfl⟩

/-- The node of a field holding its default is initialised with the default of its type. -/
theorem contentItem_dflt (f : FieldOps) {env : Env} {b : Bool} {it : PItem}
    (h : f.contentItem env f.dflt b = some it) : it.val = f.ty.dflt ∧ it.written = b := by
  unfold contentItem at h
  split at h
  · cases h
  · rename_i hb
    simp only [Bool.or_eq_true, not_or, Bool.not_eq_true', Bool.not_eq_false,
      Bool.not_eq_true] at hb
    cases ho : f.info.optional with
    | false =>
      rw [ho] at h
      cases h
      simp [dflt, ho, hb.1.1]
    | true =>
      simp [dflt, ho] at h

end FieldOps

end Zs
