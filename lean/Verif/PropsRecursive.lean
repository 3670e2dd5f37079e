import Verif.RecursiveWrite
import Verif.PropsSchema

/-!
# C67 and C68: declarations that refer to each other
-/

namespace Zs

open Spec

namespace Recursive

/-- `struct Node { uint8 value; packed Node children[]; };` -/
def tree : Decls := fun _ => .struct [] (.cons {} (.scalar (.uint 8))
  (.cons { array := some ⟨true, none⟩ } (.ref 0) .nil))

/-- `struct Item { uint8 value; optional Item next; };` -/
def linked : Decls := fun _ => .struct [] (.cons {} (.scalar (.uint 8))
  (.cons { optional := true } (.ref 0) .nil))

/-- `struct Nest { Nest inner[]; };` -/
def nest : Decls := fun _ => .struct [] (.cons { array := some ⟨false, none⟩ } (.ref 0) .nil)

/-- `struct Loop { Loop inner[1]; };` -/
def loop : Decls := fun _ => .struct [] (.cons { array := some ⟨false, some fun _ => 1⟩ } (.ref 0) .nil)

theorem tree_supported (cfg : Cfg) : SupportedDecls cfg (fun _ => true) tree where
  inArrays i := by simp [tree, InArrays, FieldsInArrays, isReference]
  supported i := by
    simp [tree, DTy.close, DFields.close, Ty.Supported, Fields.Supported, Scalar.WidthOk, (noValues_supported cfg).2]
  packable i _ := by
    simp [tree, DTy.close, DFields.close, Ty.Packable, Fields.Packable, Scalar.WidthOk, Scalar.isPackable,
      FieldInfo.isDelta, Scalar.Narrow, (noValues_supported cfg).2]

/-- Three nodes. -/
def treeVal : Val := .obj [] [.nat 1, .list [.obj [] [.nat 2, .list []], .obj [] [.nat 3, .list []]]]

theorem leaf_valid (cfg : Cfg) (k : Nat) (hk : k < 2 ^ 8) (env : Env) (n : Nat) :
    (unfoldDecl tree (fun _ => noValues) (n + 1) 0).Valid cfg env (.obj [] [.nat k, .list []]) := by
  simp only [unfoldDecl, tree, DTy.close, DFields.close, Ty.Valid, Fields.Valid]
  refine ⟨[], _, rfl, .nat k, _, rfl, ?_, .list [], [], rfl, ?_, rfl⟩
  · simp only [FieldInfo.FieldValid, FieldInfo.ContentValid]
    exact ⟨hk, rfl⟩
  · simp only [FieldInfo.FieldValid, FieldInfo.ContentValid]
    exact ⟨[], rfl, by simp [LengthFits], fun i y hy => by simp at hy⟩

theorem item_valid (cfg : Cfg) (k : Nat) (hk : k < 2 ^ 8) (env : Env) (next : Val) (n : Nat)
    (hn : next = .none ∨ ∃ x, next = .some x ∧ x.params = [] ∧ n ≠ 0 ∧
      ∀ env, (unfoldDecl linked (fun _ => noValues) n 0).Valid cfg env x) :
    (unfoldDecl linked (fun _ => noValues) (n + 1) 0).Valid cfg env (.obj [] [.nat k, next]) := by
  simp only [unfoldDecl, linked, DTy.close, DFields.close, Ty.Valid, Fields.Valid]
  refine ⟨[], _, rfl, .nat k, _, rfl, ?_, next, [], rfl, ?_, rfl⟩
  · simp only [FieldInfo.FieldValid, FieldInfo.ContentValid]
    exact ⟨hk, rfl⟩
  · simp only [FieldInfo.FieldValid, FieldInfo.ContentValid]
    refine hn.imp id ?_
    rintro ⟨x, rfl, hp, h0, hx⟩
    refine ⟨x, rfl, hx _, ?_⟩
    obtain ⟨m, rfl⟩ : ∃ m, n = m + 1 := ⟨n - 1, by omega⟩
    rw [hp]; rfl

theorem treeVal_object (cfg : Cfg) : IsObject cfg tree 0 ⟨[], []⟩ treeVal := by
  refine isObject_iff.mpr ⟨2, ?_⟩
  rw [unfoldDecl]
  unfold treeVal
  have h2 := fun env => leaf_valid cfg 2 (by decide) env 0
  have h3 := fun env => leaf_valid cfg 3 (by decide) env 0
  simp only [tree, DTy.close, DFields.close, Ty.Valid, Fields.Valid] at h2 h3 ⊢
  refine ⟨[], _, rfl, .nat 1, _, rfl, ?_, .list _, [], rfl, ?_, rfl⟩
  · simp [FieldInfo.FieldValid, FieldInfo.ContentValid, Scalar.InRange, Val.params, FieldInfo.expectedParams,
      Ty.default, Scalar.dflt]
  · simp only [FieldInfo.FieldValid, FieldInfo.ContentValid]
    refine ⟨_, rfl, by simp [LengthFits], ?_⟩
    intro i y hy
    match i, hy with
    | 0, hy => cases hy; exact ⟨leaf_valid cfg 2 (by decide) _ 0, rfl⟩
    | 1, hy => cases hy; exact ⟨leaf_valid cfg 3 (by decide) _ 0, rfl⟩

end Recursive

open Recursive

/-! ## C67: sizes of types -/

/-- **C67**: Rust accepts a declaration exactly if no chain of fields that are no arrays leads back to a declaration on
the chain. -/
theorem C67_size_iff (d : Decls) (names : List Nat) (hfin : ∀ i j, Holds d i j → i ∈ names) (i : Nat) :
    HasSize d (.ref i) ↔ ¬ ∃ j, (j = i ∨ ManySteps (Holds d) i j) ∧ ManySteps (Holds d) j j := by
  have h1 := not_hasSize_iff d i
  have h2 := endless_iff (R := Holds d) id names hfin (fun a a' b h hr => by cases (h : a = a'); exact hr) i
  rw [← h2, ← h1, Classical.not_not]

example : HasSize tree (.ref 0) ∧ ¬ HasSize linked (.ref 0) := by
  refine ⟨(C67_size_iff tree [] (fun i j h => ?_) 0).mpr ?_, fun h => ?_⟩
  · simp [Holds, tree, refs, fieldRefs] at h
  · rintro ⟨j, _, h⟩
    have : ∀ i k, ¬ Holds tree i k := by intro i k h; simp [Holds, tree, refs, fieldRefs] at h
    cases h with
    | one h => exact this _ _ h
    | more _ h => exact this _ _ h
  · exact (not_hasSize_iff linked 0).mpr ⟨fun _ => 0, rfl, fun _ => by simp [Holds, linked, refs, fieldRefs]⟩ h

/-- **C67 is violated**: zserio allows a field of the declared type that is optional, as there are finite objects, but
the generated `Option` of the type itself has no size, so Rust rejects the generated type. -/
theorem C67_size_violated : ∃ d : Decls, (∀ i j, ¬ Needs d i j) ∧
    (∀ cfg, IsObject cfg d 0 ⟨[], []⟩ (.obj [] [.nat 7, .none]) ∧
      IsObject cfg d 0 ⟨[], []⟩ (.obj [] [.nat 8, .some (.obj [] [.nat 7, .none])])) ∧
    ¬ HasSize d (.ref 0) := by
  refine ⟨linked, ?_, fun cfg => ⟨isObject_iff.mpr ⟨1, ?_⟩, isObject_iff.mpr ⟨2, ?_⟩⟩, ?_⟩
  · intro i j h; simp [Needs, linked, refs, fieldRefs] at h
  · exact item_valid cfg 7 (by decide) _ _ 0 (.inl rfl)
  · exact item_valid cfg 8 (by decide) _ _ 1 (.inr ⟨_, rfl, rfl, by decide,
      fun env => item_valid cfg 7 (by decide) env _ 0 (.inl rfl)⟩)
  · exact (not_hasSize_iff linked 0).mpr ⟨fun _ => 0, rfl, fun _ => by simp [Holds, linked, refs, fieldRefs]⟩

mutual
theorem InArrays.no_refs : ∀ t : DTy, InArrays t → refs single t = []
  | .ref _, h => (h : False).elim
  | .scalar _, _ => rfl
  | .enum _ _, _ => rfl
  | .bitmask _ _, _ => rfl
  | .struct _ fs, h => by simp only [refs]; exact FieldsInArrays.no_refs fs (by simpa only [InArrays] using h)
  | .choice _ _ cs, h => by simp only [refs]; exact CasesInArrays.no_refs cs (by simpa only [InArrays] using h)
  | .union _ fs, h => by simp only [refs]; exact FieldsInArrays.no_refs fs (by simpa only [InArrays] using h)
theorem FieldsInArrays.no_refs : ∀ fs : DFields, FieldsInArrays fs → fieldRefs single fs = []
  | .nil, _ => rfl
  | .cons info ty rest, h => by
    simp only [FieldsInArrays] at h
    simp only [fieldRefs, FieldsInArrays.no_refs rest h.2, List.append_nil]
    rcases h.1 with h' | h'
    · cases ha : info.array with
      | none => simp [ha] at h'
      | some a => simp [single, ha]
    · rw [InArrays.no_refs ty h']; simp
theorem CasesInArrays.no_refs : ∀ cs : DCases, CasesInArrays cs → caseRefs single cs = []
  | .nil, _ => rfl
  | .field labels info ty rest, h => by
    simp only [CasesInArrays] at h
    simp only [caseRefs, CasesInArrays.no_refs rest h.2, List.append_nil]
    rcases h.1 with h' | h'
    · cases ha : info.array with
      | none => simp [ha] at h'
      | some a => simp [single, ha]
    · rw [InArrays.no_refs ty h']; simp
  | .empty labels rest, h => by
    simp only [CasesInArrays] at h
    simp only [caseRefs, CasesInArrays.no_refs rest h]
end

/-- **C67**, what holds: declarations that refer to each other only as elements of arrays are accepted. -/
theorem C67_size_partial (d : Decls) (hd : ∀ i, InArrays (d i)) (i : Nat) : HasSize d (.ref i) := by
  refine (C67_size_iff d [] (fun i j h => ?_) i).mpr ?_
  · simp only [Holds, InArrays.no_refs _ (hd i)] at h; cases h
  · rintro ⟨j, _, h⟩
    have : ∀ i k, ¬ Holds d i k := by intro i k h; simp only [Holds, InArrays.no_refs _ (hd i)] at h; cases h
    cases h with
    | one h => exact this _ _ h
    | more _ h => exact this _ _ h

example : HasSize tree (.ref 0) := C67_size_partial tree (tree_supported ⟨.debug, fun _ => 0, fun _ => 0, 4, 1024⟩).inArrays 0

/-! ## C67: packing contexts -/

/-- **C67** for packing contexts: for declarations that Rust accepts, the creation of packing contexts ends, and gives
the contexts that reading and writing use, however many calls these need. -/
theorem C67_contexts (cfg : Cfg) (d : Decls) (hd : ∀ i, isDeclaration (d i) = true) (i : Nat)
    (hs : HasSize d (.ref i)) :
    ∃ fuel node, ∀ n, fuel ≤ n → createDecl d n i = some node ∧
      ∀ below, ((unfoldDecl d below n i).ops cfg).createContext = node := by
  obtain ⟨k, node, h⟩ := hasSize_creates d _ hs
  refine ⟨k, node, fun n hn => ?_⟩
  have hc : createDecl d n i = some node := h n hn
  refine ⟨hc, fun below => createDecl_ops cfg d (fun i σ => ?_) below n n i node (Nat.le_refl n) hc⟩
  have := hd i
  cases hdi : d i <;> rw [hdi] at this <;> first | (simp [isDeclaration] at this; done) | simp [DTy.close, Ty.isCompound]

example : ∃ fuel node, ∀ n, fuel ≤ n → createDecl tree n 0 = some node ∧
    ∀ below, ((unfoldDecl tree below n 0).ops Demo.cfg).createContext = node :=
  C67_contexts Demo.cfg tree (fun _ => rfl) 0 (C67_size_partial tree (tree_supported Demo.cfg).inArrays 0)

/-! ## C67: objects -/

/-- **C67** for objects (in part: for supported schemas, see C24): an object of declarations that refer to each other
is written to bytes from which it is read back.  The bytes and the result do not depend on how many calls are allowed,
if there are enough for the object, nor on what deeper calls would do. -/
theorem C67_round_trip_partial (cfg : Cfg) (packs : Nat → Bool) (d : Decls) (hd : SupportedDecls cfg packs d) (i : Nat)
    (env : Env) (v : Val) (hv : IsObject cfg d i env v) :
    ∃ n bytes, ∀ m, n ≤ m → ∀ below, SupportedBelow cfg packs below →
      toBytes (fun w => ((unfoldDecl d below m i).ops cfg).write env v w) = .ok bytes ∧
      ∀ trailing, fromBytes (fun r => ((unfoldDecl d below m i).ops cfg).read env
        ((unfoldDecl d below m i).default.withParams v.params) r) (bytes ++ trailing) = .ok v := by
  obtain ⟨n, hn⟩ := isObject_iff.mp hv
  have hno : SupportedBelow cfg packs (fun _ => noValues) := fun _ =>
    ⟨(noValues_supported cfg).1, fun _ => (noValues_supported cfg).2⟩
  obtain ⟨bytes, hb, _⟩ := C24_schema_bytes cfg _ (unfoldDecl_supported hd hno n i).1 env v hn
  refine ⟨n, bytes, fun m hm below hbelow => ?_⟩
  obtain ⟨bytes', hb', hr'⟩ := C24_schema_bytes cfg _ (unfoldDecl_supported hd hbelow m i).1 env v
    (unfoldDecl_refines cfg d hd.inArrays below n m i hm env v hn).1
  have hw := (unfoldDecl_writes cfg d hd.inArrays below n m i hm).write env v hn
  rw [hw, hb'] at hb
  cases hb
  exact ⟨hb', hr'⟩

example : ∃ n bytes, ∀ m, n ≤ m → ∀ below, SupportedBelow Demo.cfg (fun _ => true) below →
    toBytes (fun w => ((unfoldDecl tree below m 0).ops Demo.cfg).write ⟨[], []⟩ treeVal w) = .ok bytes ∧
    ∀ trailing, fromBytes (fun r => ((unfoldDecl tree below m 0).ops Demo.cfg).read ⟨[], []⟩
      ((unfoldDecl tree below m 0).default.withParams treeVal.params) r) (bytes ++ trailing) = .ok treeVal :=
  C67_round_trip_partial Demo.cfg _ tree (tree_supported Demo.cfg) 0 _ _ (treeVal_object Demo.cfg)

/-! ## C68: the depth of calls -/

/-- A structure without fields. -/
def noMembers : Ty := .struct [] .nil

theorem emptyStruct_reads (cfg : Cfg) (env : Env) (r : Reader) :
    (noMembers.ops cfg).read env (noMembers.ops cfg).dflt r = .ok (.obj [] [], r) := by
  simp [noMembers, Ty.ops, Fields.ops, structCodec, Codec.ops, decodeFields]

theorem noValues_reads (cfg : Cfg) (env : Env) (old : Val) (r : Reader) (p : Val × Reader) :
    (noValues.ops cfg).read env old r ≠ .ok p := by
  intro h
  simp only [noValues, Ty.ops, enumCodec, numberCodec, Codec.ops] at h
  obtain ⟨x, _, h⟩ := Res.bind_eq_ok.1 h
  obtain ⟨y, h, _⟩ := Res.bind_eq_ok.1 h
  simp only [enumItem] at h
  obtain ⟨z, _, h⟩ := Res.bind_eq_ok.1 h
  obtain ⟨k, h, _⟩ := Res.bind_eq_ok.1 h
  simp [enumTryFrom, enumValues, enumValuesFrom] at h

/-- Reading the length of an array. -/
def readLength (len : Option (Env → Nat)) (r : Reader) : Res (Nat × Reader) :=
  match len with
  | some e => .ok (e ⟨[], []⟩, r)
  | none => readVarsize r

/-- One level of `Nest` or `Loop` with one element. -/
theorem nest_step (cfg : Cfg) (env : Env) (len : Option (Env → Nat)) (t : Ty) (ht : t.isCompound = true) (r r' : Reader)
    (hr : readLength len r = .ok (1, r')) :
    ((Ty.struct [] (.cons { array := some ⟨false, len⟩ } t .nil)).ops cfg).read env (.obj [] [.list []]) r =
      ((t.ops cfg).read ⟨[], []⟩ (t.ops cfg).dflt r' >>= fun p => .ok (.obj [] [.list [p.1]], p.2)) := by
  have he : ∀ v r, ((t.ops cfg).arrayTrait ⟨[], []⟩).read r v = (t.ops cfg).read ⟨[], []⟩ v r := by
    intro v r
    cases t <;> first | (simp [Ty.isCompound] at ht; done) | rfl
  have hl : (FieldOps.arrayDef ⟨{ array := some ⟨false, len⟩ }, t.ops cfg⟩ false ⟨[], []⟩ ⟨false, len⟩).zserioReadArrayLength r
      = .ok (1, r') := by
    rw [← hr]
    cases len <;> rfl
  have hf : FieldOps.decode cfg ⟨{ array := some ⟨false, len⟩ }, t.ops cfg⟩ false 0 ⟨[], []⟩ (.list []) Node.new r =
      ((t.ops cfg).read ⟨[], []⟩ (t.ops cfg).dflt r' >>= fun p => .ok ((.list [p.1], Node.new), p.2)) := by
    simp only [FieldOps.decode, FieldOps.present, FieldOps.alignReader, FieldOps.decodeOptional,
      FieldOps.decodeContent, if_true, Res.pure_eq, Res.ok_bind, if_false, Bool.false_eq_true, reduceCtorEq]
    rw [FieldOps.decodeArray_bind]
    simp only [hl, Res.ok_bind]
    simp only [FieldOps.elementsReader, List.isEmpty_nil, if_true, ArrayDef.zserioRead,
      FieldOps.arrayDef, Bool.or_self, Bool.false_and, if_false, Bool.false_eq_true, ArrayDef.readAll,
      FieldOps.indexed, reduceCtorEq, decide_false, alignElemReader, he, bind_assoc, Res.pure_eq, Res.ok_bind]
    congr 1
    funext p
    have e1 : ∀ (v : Vec Val) x, (v.push cfg.minCap x).items = v.items ++ [x] := by
      intro v x; unfold Vec.push Vec.reserve; simp only; split <;> rfl
    have e2 : ∀ (v : Vec Val) k, (v.clear.reserve cfg.minCap k).items = [] := by
      intro v k; unfold Vec.reserve Vec.clear; split <;> rfl
    simp only [ArrayDef.prepare, e1, e2, Res.ok_bind, List.nil_append]
  simp only [Ty.ops, Fields.ops, structCodec, Codec.ops, decodeFields, hf, bind_assoc, Res.ok_bind, Res.pure_eq,
    List.nil_append]

/-- `n` bytes with the value 1. -/
def ones : Nat → List Bool
  | 0 => []
  | n + 1 => [false, false, false, false, false, false, false, true] ++ ones n

theorem readVarsize_one (p : Nat) (rest : List Bool) :
    readVarsize ⟨p, [false, false, false, false, false, false, false, true] ++ rest⟩ = .ok (1, ⟨p + 8, rest⟩) := by
  have h : Reader.readUnsigned ⟨p, [false, false, false, false, false, false, false, true] ++ rest⟩ 8 64 =
      .ok (1, ⟨p + 8, rest⟩) := by
    rw [Reader.readUnsigned, if_neg (by decide), if_neg (by simp)]
    rfl
  simp only [readVarsize, readSizedUint, h, Res.ok_bind]
  rfl

theorem unfold_compound (d : Decls) (hd : ∀ i, isDeclaration (d i) = true) (below : Nat → Ty)
    (hb : ∀ i, (below i).isCompound = true) : ∀ n i, (unfoldDecl d below n i).isCompound = true
  | 0, i => hb i
  | n + 1, i => by
    have := hd i
    simp only [unfoldDecl]
    cases hdi : d i <;> rw [hdi] at this <;>
      first | (simp [isDeclaration] at this; done) | simp [DTy.close, Ty.isCompound]

/-- Reading at depth `n` succeeds or fails as reading below does. -/
theorem nest_reads (cfg : Cfg) (len : Option (Env → Nat)) (d : Decls)
    (hd : d = fun _ => .struct [] (.cons { array := some ⟨false, len⟩ } (.ref 0) .nil)) (next : Nat → Reader)
    (n : Nat) (hnext : ∀ k, k < n → readLength len (next (k + 1)) = .ok (1, next k)) :
    (∃ p, ((unfoldDecl d (fun _ => noMembers) n 0).ops cfg).read ⟨[], []⟩
      ((unfoldDecl d (fun _ => noMembers) n 0).ops cfg).dflt (next n) = .ok p) ∧
    ∀ p, ((unfoldDecl d (fun _ => noValues) n 0).ops cfg).read ⟨[], []⟩
      ((unfoldDecl d (fun _ => noValues) n 0).ops cfg).dflt (next n) ≠ .ok p := by
  have hdecl : ∀ i, isDeclaration (d i) = true := by intro i; rw [hd]; rfl
  have step : ∀ below m, m < n → (∀ i, (below i).isCompound = true) →
      ((unfoldDecl d below (m + 1) 0).ops cfg).read ⟨[], []⟩ ((unfoldDecl d below (m + 1) 0).ops cfg).dflt (next (m + 1)) =
      (((unfoldDecl d below m 0).ops cfg).read ⟨[], []⟩ ((unfoldDecl d below m 0).ops cfg).dflt (next m) >>= fun p =>
        .ok (.obj [] [.list [p.1]], p.2)) := by
    intro below m hm hb
    have h := nest_step cfg ⟨[], []⟩ len (unfoldDecl d below m 0) (unfold_compound d hdecl below hb m 0) _ _ (hnext m hm)
    have e : unfoldDecl d below (m + 1) 0 =
        Ty.struct [] (.cons { array := some ⟨false, len⟩ } (unfoldDecl d below m 0) .nil) := by
      simp only [unfoldDecl, hd, DTy.close, DFields.close]
    rw [e]
    exact h
  have key : ∀ m, m ≤ n → (∃ p, ((unfoldDecl d (fun _ => noMembers) m 0).ops cfg).read ⟨[], []⟩
      ((unfoldDecl d (fun _ => noMembers) m 0).ops cfg).dflt (next m) = .ok p) ∧
    ∀ p, ((unfoldDecl d (fun _ => noValues) m 0).ops cfg).read ⟨[], []⟩
      ((unfoldDecl d (fun _ => noValues) m 0).ops cfg).dflt (next m) ≠ .ok p := by
   intro m
   induction m with
   | zero => exact fun _ => ⟨⟨_, emptyStruct_reads cfg _ _⟩, fun p => noValues_reads cfg _ _ _ p⟩
   | succ m ih =>
    intro hm
    rw [step (fun _ => noMembers) m (by omega) (fun _ => rfl), step (fun _ => noValues) m (by omega) (fun _ => rfl)]
    obtain ⟨⟨p, hp⟩, hq⟩ := ih (by omega)
    refine ⟨⟨_, by rw [hp]; rfl⟩, fun p hp => ?_⟩
    obtain ⟨q, hq', _⟩ := Res.bind_eq_ok.1 hp
    exact hq q hq'
  exact key n (Nat.le_refl n)

/-- The object read into at depth `n` (not 0) does not depend on what is below. -/
theorem nest_suffices (cfg : Cfg) (len : Option (Env → Nat)) (d : Decls)
    (hd : d = fun _ => .struct [] (.cons { array := some ⟨false, len⟩ } (.ref 0) .nil)) (next : Nat → Reader)
    (n : Nat) (hnext : ∀ k, k < n → readLength len (next (k + 1)) = .ok (1, next k)) : ¬ CallsSuffice cfg d n 0 (next n) := by
  intro h
  obtain ⟨⟨p, hp⟩, hq⟩ := nest_reads cfg len d hd next n hnext
  have := h (fun _ => noMembers) (fun _ => noValues) ⟨[], []⟩
    ((unfoldDecl d (fun _ => noMembers) n 0).ops cfg).dflt
  rw [hp] at this
  cases n with
  | zero => exact noValues_reads cfg _ _ _ p this.symm
  | succ n =>
    have e : ((unfoldDecl d (fun _ => noMembers) (n + 1) 0).ops cfg).dflt =
        ((unfoldDecl d (fun _ => noValues) (n + 1) 0).ops cfg).dflt := by
      simp only [unfoldDecl, hd, DTy.close, DFields.close, Ty.ops]
      rfl
    rw [e] at this
    exact hq p this.symm

/-- **C68**, what holds: if the lengths of all arrays of declared types are stored in front of them, one call for every
byte of the input suffices to read it, and one more. -/
theorem C68_depth_partial (cfg : Cfg) (d : Decls) (hd : ∀ i, LengthsStored (d i)) (i n : Nat) (r : Reader)
    (hr : r.rest.length < 8 * n) : CallsSuffice cfg d n i r := by
  intro below below' env old
  rcases unfoldDecl_agree cfg d hd below below' n with h | h
  · exact absurd hr (by omega)
  · exact ((h i).read env old r hr).1

example : CallsSuffice Demo.cfg tree 3 0 (Reader.ofBytes [1, 1]) :=
  C68_depth_partial Demo.cfg tree (fun _ => by simp [tree, LengthsStored, FieldsLengthsStored, isReference]) 0 3 _
    (by decide)

theorem ones_length : ∀ n, (ones n).length = 8 * n
  | 0 => rfl
  | n + 1 => by simp only [ones, List.length_append, ones_length n, List.length_cons, List.length_nil]; omega

/-- **C68 is violated**: no number of calls suffices for all inputs.  For every `n` there is an input of `n` bytes that
makes the readers of `struct Nest { Nest inner[]; };` call each other more than `n` times, so an input decides how much
of the stack is used.  (The bound in `C68_depth_partial` is the best one.) -/
theorem C68_depth_violated : ∃ d : Decls, (∀ i, LengthsStored (d i)) ∧ (∀ i, HasSize d (.ref i)) ∧
    ∀ cfg n, ∃ r : Reader, r.rest.length = 8 * n ∧ ¬ CallsSuffice cfg d n 0 r := by
  refine ⟨nest, fun i => by simp [nest, LengthsStored, FieldsLengthsStored, isReference], fun i =>
    C67_size_partial nest (fun i => by simp [nest, InArrays, FieldsInArrays, isReference]) i, fun cfg n => ?_⟩
  refine ⟨⟨8 * (n - n), ones n⟩, ones_length n, ?_⟩
  refine nest_suffices cfg none nest rfl (fun k => ⟨8 * (n - k), ones k⟩) n (fun k hk => ?_)
  have := readVarsize_one (8 * (n - (k + 1))) (ones k)
  rwa [show 8 * (n - (k + 1)) + 8 = 8 * (n - k) by omega] at this

/-- **C68 is violated** in the other way, too: the readers of `struct Loop { Loop inner[1]; };`, which Rust accepts,
call each other endlessly on every input, even on the empty one. -/
theorem C68_endless_violated : ∃ d : Decls, (∀ i, HasSize d (.ref i)) ∧
    ∀ cfg n r, ¬ CallsSuffice cfg d n 0 r := by
  refine ⟨loop, fun i => C67_size_partial loop (fun i => by simp [loop, InArrays, FieldsInArrays, isReference]) i,
    fun cfg n r => ?_⟩
  exact nest_suffices cfg (some fun _ => 1) loop rfl (fun _ => r) n (fun k _ => rfl)

end Zs
