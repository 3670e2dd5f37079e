import Verif.RecursiveSize
import Verif.SchemaReadTy

/-!
# Lemmas on how deep readers call each other

Two readers agree on inputs with fewer than `B` bits.  An array whose length is stored in front of it takes at least
8 bits before its elements are read, so its reader agrees on inputs with 8 bits more than those of its elements.
-/

namespace Zs

open Spec

/-- Two readers do the same on inputs with fewer than `B` bits, and leave no more than was there. -/
def Agree {α : Type} (B : Nat) (f g : Reader → Res (α × Reader)) : Prop :=
  ∀ r, r.rest.length < B → f r = g r ∧ ∀ x r', f r = .ok (x, r') → r'.rest.length ≤ r.rest.length

namespace Agree

variable {α β : Type} {B : Nat}

theorem zero {f g : Reader → Res (α × Reader)} : Agree 0 f g := fun _ h => absurd h (Nat.not_lt_zero _)

theorem self {f : Reader → Res (α × Reader)} (h : Local f) : Agree B f f :=
  fun _ _ => ⟨rfl, fun _ _ hr => Reads.used h hr⟩

theorem bindMore {c : Nat} {f : Reader → Res (α × Reader)} {k l : α → Reader → Res (β × Reader)}
    (hf : ∀ r a r', f r = .ok (a, r') → r'.rest.length + c ≤ r.rest.length) (hk : ∀ a, Agree B (k a) (l a)) :
    Agree (B + c) (fun r => f r >>= fun p => k p.1 p.2) (fun r => f r >>= fun p => l p.1 p.2) := by
  intro r hr
  cases h : f r with
  | ok p =>
    have h1 := hf r p.1 p.2 h
    have h2 := hk p.1 p.2 (by omega)
    simp only [h, Res.ok_bind]
    exact ⟨h2.1, fun x r' hx => by have := h2.2 x r' hx; omega⟩
  | err e => simp [h]
  | panic => simp [h]

theorem bind {f g : Reader → Res (α × Reader)} {k l : α → Reader → Res (β × Reader)}
    (hf : Agree B f g) (hk : ∀ a, Agree B (k a) (l a)) :
    Agree B (fun r => f r >>= fun p => k p.1 p.2) (fun r => g r >>= fun p => l p.1 p.2) := by
  intro r hr
  obtain ⟨h1, h2⟩ := hf r hr
  cases h : f r with
  | ok p =>
    have h3 := h2 p.1 p.2 h
    have h4 := hk p.1 p.2 (by omega)
    simp only [← h1, h, Res.ok_bind]
    exact ⟨h4.1, fun x r' hx => by have := h4.2 x r' hx; omega⟩
  | err e => simp [← h1, h]
  | panic => simp [← h1, h]

theorem map {f g : Reader → Res (α × Reader)} (hf : Agree B f g) (m : α → β) :
    Agree B (fun r => f r >>= fun p => .ok (m p.1, p.2)) (fun r => g r >>= fun p => .ok (m p.1, p.2)) :=
  bind (k := fun a r => .ok (m a, r)) (l := fun a r => .ok (m a, r)) hf (fun _ => self (Local.pure _))

theorem after {m : Reader → Res Reader} (hm : Local (fun r => m r >>= fun r => .ok ((), r)))
    {f g : Reader → Res (α × Reader)} (h : Agree B f g) :
    Agree B (fun r => m r >>= f) (fun r => m r >>= g) := by
  have := bind (k := fun _ => f) (l := fun _ => g) (self (B := B) hm) (fun _ => h)
  simpa only [bind_assoc, Res.ok_bind] using this

theorem lift (x : Res α) {k l : α → Reader → Res (β × Reader)} (h : ∀ a, Agree B (k a) (l a)) :
    Agree B (fun r => x >>= fun a => k a r) (fun r => x >>= fun a => l a r) := by
  cases x with
  | ok a => exact h a
  | err e => exact self (Local.err e)
  | panic => exact self Local.panic

theorem panic : Agree B (fun _ => (.panic : Res (α × Reader))) (fun _ => .panic) := self Local.panic

theorem onChild {f g : Node → Reader → Res ((α × Node) × Reader)} (h : ∀ c, Agree B (f c) (g c)) (n : Node) (i : Nat) :
    Agree B (fun r => n.onChild i (fun c => f c r >>= fun x => .ok ((x.1.1, x.2), x.1.2)) >>= fun y =>
        .ok ((y.1.1, y.2), y.1.2))
      (fun r => n.onChild i (fun c => g c r >>= fun x => .ok ((x.1.1, x.2), x.1.2)) >>= fun y =>
        .ok ((y.1.1, y.2), y.1.2)) := by
  obtain ⟨cs, own⟩ := n
  unfold Node.onChild
  cases hc : cs[i]? with
  | none =>
    simp only [hc, Res.panic_bind]
    exact panic
  | some child =>
    simp only [hc, bind_assoc, Res.ok_bind, Res.pure_eq]
    exact map (h child) (fun p : α × Node => (p.1, Node.mk (cs.set i p.2) own))

end Agree

/-- The readers of two types agree, and everything else that readers use of them is the same. -/
structure TypeAgree (B : Nat) (t u : TypeOps) : Prop where
  marshaler : t.isMarshaler = u.isMarshaler
  packable : t.isPackable = u.isPackable
  dflt : t.dflt = u.dflt
  context : t.createContext = u.createContext
  read : ∀ env old, Agree B (t.read env old) (u.read env old)
  packed : ∀ env old n, Agree B (t.readPacked env old n) (u.readPacked env old n)
  elem : ∀ env old, Agree B (fun r => (t.arrayTrait env).read r old) (fun r => (u.arrayTrait env).read r old)
  elemPacked : ∀ env old n, Agree B (fun r => (t.arrayTrait env).readPacked n r old)
    (fun r => (u.arrayTrait env).readPacked n r old)
  elemContext : ∀ env, (t.arrayTrait env).createContext = (u.arrayTrait env).createContext

/-- The readers of two generated types agree. -/
theorem TypeAgree.codec {B : Nat} {c e : Codec} (hd : c.dflt = e.dflt) (hc : c.createContext = e.createContext)
    (hr : ∀ old, Agree B (c.read old) (e.read old))
    (hp : ∀ old n, Agree B (c.readPacked old n) (e.readPacked old n)) : TypeAgree B c.ops e.ops where
  marshaler := rfl
  packable := rfl
  dflt := hd
  context := hc
  read _ old := hr old
  packed _ old n := hp old n
  elem _ old := hr old
  elemPacked _ old n := hp old n
  elemContext _ := hc

theorem Scalar.agree (cfg : Cfg) (B : Nat) (s : Scalar) : TypeAgree B (s.ops cfg) (s.ops cfg) where
  marshaler := rfl
  packable := rfl
  dflt := rfl
  context := rfl
  read env old := Agree.self (s.reads cfg env).loc
  packed env old n := Agree.self (s.reads_packed cfg env n old).loc
  elem env old := Agree.self (s.reads_elem cfg env old).loc
  elemPacked env old n := Agree.self (s.reads_packed cfg env n old).loc
  elemContext _ := rfl

theorem number_agree (cfg : Cfg) (B : Nat) (base : Scalar) (dflt : Val) (number item : Val → Res Val)
    (own : Option DeltaContext) :
    TypeAgree B (numberCodec cfg base dflt number item own).ops (numberCodec cfg base dflt number item own).ops := by
  refine TypeAgree.codec rfl rfl (fun old => ?_) (fun old n => ?_)
  · exact Agree.bind (k := fun v r => item v >>= fun x => .ok (x, r)) (l := fun v r => item v >>= fun x => .ok (x, r))
      (Agree.self (base.reads cfg ⟨[], []⟩).loc) (fun v => Agree.lift (item v) (k := fun x r => .ok (x, r))
        (l := fun x r => .ok (x, r)) (fun x => Agree.self (Local.pure x)))
  · have h1 := Agree.onChild (f := fun c => (base.ops cfg).readPacked ⟨[], []⟩ base.dflt c)
      (g := fun c => (base.ops cfg).readPacked ⟨[], []⟩ base.dflt c)
      (fun c => (base.agree cfg B).packed ⟨[], []⟩ base.dflt c) n 0
    have h2 := Agree.bind (k := fun (p : Val × Node) r => item p.1 >>= fun x => .ok ((x, p.2), r))
      (l := fun (p : Val × Node) r => item p.1 >>= fun x => .ok ((x, p.2), r)) h1
      (fun p => Agree.lift (item p.1) (k := fun x r => .ok ((x, p.2), r))
        (l := fun x r => .ok ((x, p.2), r)) (fun x => Agree.self (Local.pure (x, p.2))))
    simp only [bind_assoc, Res.ok_bind] at h2
    exact h2

/-! ## Arrays -/

theorem readAll_agree {B : Nat} {t u : ArrayTrait Val} {dflt : Val}
    (h : Agree B (fun r => t.read r dflt) (fun r => u.read r dflt)) (minCap : Nat) (offsets : Bool) :
    ∀ (n : Nat) (data : Vec Val), Agree B (fun r => ArrayDef.readAll t minCap offsets dflt n data r)
      (fun r => ArrayDef.readAll u minCap offsets dflt n data r)
  | 0, data => Agree.self (Local.pure data)
  | n + 1, data => by
    have := Agree.after (Local.alignElem offsets) (Agree.bind (k := fun item r =>
      ArrayDef.readAll t minCap offsets dflt n (data.push minCap item) r) (l := fun item r =>
      ArrayDef.readAll u minCap offsets dflt n (data.push minCap item) r) h
      (fun item => readAll_agree h minCap offsets n _))
    simpa only [ArrayDef.readAll] using this

theorem readPackedAll_agree {B : Nat} {t u : ArrayTrait Val} {dflt : Val}
    (h : ∀ node, Agree B (fun r => t.readPacked node r dflt) (fun r => u.readPacked node r dflt))
    (minCap : Nat) (offsets : Bool) :
    ∀ (n : Nat) (node : Node) (data : Vec Val),
      Agree B (fun r => ArrayDef.readPackedAll t minCap offsets dflt n node data r)
        (fun r => ArrayDef.readPackedAll u minCap offsets dflt n node data r)
  | 0, _, data => Agree.self (Local.pure data)
  | n + 1, node, data => by
    have := Agree.after (Local.alignElem offsets) (Agree.bind (k := fun (p : Val × Node) r =>
      ArrayDef.readPackedAll t minCap offsets dflt n p.2 (data.push minCap p.1) r)
      (l := fun (p : Val × Node) r =>
      ArrayDef.readPackedAll u minCap offsets dflt n p.2 (data.push minCap p.1) r) (h node)
      (fun p => readPackedAll_agree h minCap offsets n _ _))
    simpa only [ArrayDef.readPackedAll] using this

namespace FieldOps

variable {cfg : Cfg} {B : Nat} {info : FieldInfo} {t u : TypeOps}

theorem initial_agree (h : TypeAgree B t u) (env : Env) (i : Nat) :
    (FieldOps.mk info t).initial env i = (FieldOps.mk info u).initial env i := by
  simp only [initial, argValues, h.dflt]

theorem readParamAll_agree (h : TypeAgree B t u) {a b : ArrayDef Val} {env : Env} (ha : a.arrayTrait = t.arrayTrait env)
    (hb : b.arrayTrait = u.arrayTrait env) (hp : a.isPacked = b.isPacked) :
    ∀ (k index : Nat) (node : Node) (data : Vec Val),
      Agree B (fun r => (FieldOps.mk info t).readParamAll cfg a env k index node data r)
        (fun r => (FieldOps.mk info u).readParamAll cfg b env k index node data r)
  | 0, _, _, data => Agree.self (Local.pure data)
  | k + 1, index, node, data => by
    have one : Agree B (fun r => a.readOneElement r node ((FieldOps.mk info t).initial env index) (FieldOps.mk info t).indexed)
        (fun r => b.readOneElement r node ((FieldOps.mk info u).initial env index) (FieldOps.mk info u).indexed) := by
      unfold ArrayDef.readOneElement
      rw [← hp, initial_agree h, ha, hb]
      refine Agree.after (Local.alignElem _) ?_
      cases a.isPacked with
      | true => simp only [if_true]; exact h.elemPacked env _ node
      | false =>
        simp only [if_false, Bool.false_eq_true]
        exact Agree.map (h.elem env _) (fun item => (item, node))
    exact Agree.bind (k := fun (p : Val × Node) r => (FieldOps.mk info t).readParamAll cfg a env k (index + 1) p.2
        (data.push cfg.minCap p.1) r) (l := fun (p : Val × Node) r => (FieldOps.mk info u).readParamAll cfg b env k
        (index + 1) p.2 (data.push cfg.minCap p.1) r) one
      (fun p => readParamAll_agree h ha hb hp k (index + 1) _ _)

/-- The elements of an array, after its length. -/
def elementsReader (cfg : Cfg) (f : FieldOps) (a : ArrayDef Val) (env : Env) (data : Vec Val) (len : Nat) (r : Reader) :
    Res (Val × Reader) :=
  if f.info.args.isEmpty then
    a.zserioRead cfg.minCap cfg.chunk f.ty.dflt r data len f.indexed >>= fun p => .ok (Val.list p.1.items, p.2)
  else f.readParamAll cfg a env len 0 a.arrayTrait.createContext
    (data.clear.reserve cfg.minCap (min len cfg.chunk)) r >>= fun p => .ok (Val.list p.1.items, p.2)

theorem decodeArray_bind (cfg : Cfg) (f : FieldOps) (a : ArrayDef Val) (env : Env) (data : Vec Val) :
    f.decodeArray cfg a env data = fun r => a.zserioReadArrayLength r >>= fun p =>
      elementsReader cfg f a env data p.1 p.2 := rfl

theorem elements_agree (h : TypeAgree B t u) {a b : ArrayDef Val} {env : Env} (ha : a.arrayTrait = t.arrayTrait env)
    (hb : b.arrayTrait = u.arrayTrait env) (hp : a.isPacked = b.isPacked) (data : Vec Val) (len : Nat) :
    Agree B (elementsReader cfg (FieldOps.mk info t) a env data len)
      (elementsReader cfg (FieldOps.mk info u) b env data len) := by
  unfold elementsReader
  have hcc : a.arrayTrait.createContext = b.arrayTrait.createContext := by rw [ha, hb, h.elemContext]
  cases info.args.isEmpty with
  | true =>
    simp only [if_true]
    refine Agree.map ?_ (fun v : Vec Val => Val.list v.items)
    unfold ArrayDef.zserioRead
    rw [← hp]
    cases a.isPacked with
    | true =>
      simp only [if_true]
      rw [hcc, ha, hb, ← h.dflt]
      exact readPackedAll_agree (fun node => h.elemPacked env _ node) _ _ _ _ _
    | false =>
      simp only [if_false, Bool.false_eq_true]
      rw [ha, hb, ← h.dflt]
      exact readAll_agree (h.elem env _) _ _ _ _
  | false =>
    simp only [if_false, Bool.false_eq_true]
    rw [hcc]
    exact Agree.map (readParamAll_agree h ha hb hp len 0 _ _) (fun v : Vec Val => Val.list v.items)

theorem decodeArray_agree {c : Nat} (h : B = 0 ∨ TypeAgree B t u) {a b : ArrayDef Val} {env : Env}
    (ha : a.arrayTrait = t.arrayTrait env) (hb : b.arrayTrait = u.arrayTrait env) (hp : a.isPacked = b.isPacked)
    (hs : a.fixedSize = b.fixedSize) (hc : c = 0 ∨ c = 8 ∧ a.fixedSize = none) (data : Vec Val) :
    Agree (B + c) ((FieldOps.mk info t).decodeArray cfg a env data) ((FieldOps.mk info u).decodeArray cfg b env data) := by
  have hl : b.zserioReadArrayLength = a.zserioReadArrayLength := by
    funext r; simp only [ArrayDef.zserioReadArrayLength, hs]
  rw [decodeArray_bind, decodeArray_bind, hl]
  refine Agree.bindMore (c := c) (f := a.zserioReadArrayLength)
    (k := elementsReader cfg (FieldOps.mk info t) a env data)
    (l := elementsReader cfg (FieldOps.mk info u) b env data) ?_ (fun len => ?_)
  · intro r n r' hr
    rcases hc with rfl | ⟨rfl, hf⟩
    · have hloc : Local (fun r => a.zserioReadArrayLength r) := by
        unfold ArrayDef.zserioReadArrayLength
        cases a.fixedSize with
        | some n => exact Local.pure n
        | none => exact Local.readVarsize
      exact Reads.used hloc hr
    · simp only [ArrayDef.zserioReadArrayLength, hf] at hr
      have h1 := Reads.used reads_varsize.loc hr
      have h2 := (reads_varsize.sound r n r' hr).1
      omega
  · rcases h with rfl | h
    · exact Agree.zero
    · exact elements_agree h ha hb hp data len

/-- A field whose type agrees. -/
theorem decodeContent_agree (h : TypeAgree B t u) (packed : Bool) (i : Nat) (env : Env) (old : Val) (n : Node) :
    Agree B ((FieldOps.mk info t).decodeContent cfg packed i env old n)
      ((FieldOps.mk info u).decodeContent cfg packed i env old n) := by
  unfold decodeContent
  cases ha : info.array with
  | none =>
    have hp : (FieldOps.mk info t).isPackable = (FieldOps.mk info u).isPackable := by
      simp only [isPackable, h.packable]
    simp only [hp, initial_agree h]
    unfold decodeType
    cases packed && (FieldOps.mk info u).isPackable with
    | true =>
      simp only [if_true]
      exact Agree.onChild (f := fun c => t.readPacked env _ c) (g := fun c => u.readPacked env _ c)
        (fun c => h.packed env _ c) n i
    | false =>
      simp only [if_false, Bool.false_eq_true]
      exact Agree.map (h.read env _) (fun x => (x, n))
  | some a =>
    cases old with
    | list xs =>
      have := decodeArray_agree (cfg := cfg) (info := info) (c := 0) (.inr h)
        (a := (FieldOps.mk info t).arrayDef packed env a) (b := (FieldOps.mk info u).arrayDef packed env a) (env := env)
        rfl rfl (by simp [arrayDef, isPackable, ha]) rfl (.inl rfl) ⟨xs, xs.length⟩
      exact Agree.map this (fun x => (x, n))
    | _ => exact Agree.panic

/-- An array whose length is stored in front of its elements. -/
theorem decodeContent_agree_stored (h : B = 0 ∨ TypeAgree B t u) {a : ArrayInfo} (ha : info.array = some a)
    (hl : a.length = none) (packed : Bool) (i : Nat) (env : Env) (old : Val) (n : Node) :
    Agree (B + 8) ((FieldOps.mk info t).decodeContent cfg packed i env old n)
      ((FieldOps.mk info u).decodeContent cfg packed i env old n) := by
  unfold decodeContent
  simp only [ha]
  cases old with
  | list xs =>
    have := decodeArray_agree (cfg := cfg) (info := info) (c := 8) h
      (a := (FieldOps.mk info t).arrayDef packed env a) (b := (FieldOps.mk info u).arrayDef packed env a) (env := env)
      rfl rfl (by simp [arrayDef, isPackable, ha]) rfl (.inr ⟨rfl, by simp [arrayDef, hl]⟩) ⟨xs, xs.length⟩
    exact Agree.map this (fun x => (x, n))
  | _ => exact Agree.panic

theorem Agree.alignField (f : FieldOps) {α : Type} {k l : Reader → Res (α × Reader)} (h : Agree B k l) :
    Agree B (fun r => f.alignReader r >>= k) (fun r => f.alignReader r >>= l) := by
  have h1 : Agree B (fun r => (if f.info.offset = .plain then Zs.alignReader r 8 else pure r) >>= k)
      (fun r => (if f.info.offset = .plain then Zs.alignReader r 8 else pure r) >>= l) := by
    by_cases ho : f.info.offset = .plain
    · simp only [ho, if_true]
      exact Agree.after (Local.align 8) h
    · simp only [ho, if_false, Res.pure_eq, Res.ok_bind]
      exact h
  have h2 : Agree B (fun r => (if f.info.alignment = 0 then pure r else Zs.alignReader r f.info.alignment) >>= fun r =>
      (if f.info.offset = .plain then Zs.alignReader r 8 else pure r) >>= k)
      (fun r => (if f.info.alignment = 0 then pure r else Zs.alignReader r f.info.alignment) >>= fun r =>
      (if f.info.offset = .plain then Zs.alignReader r 8 else pure r) >>= l) := by
    by_cases ha : f.info.alignment = 0
    · simp only [ha, if_true, Res.pure_eq, Res.ok_bind]
      exact h1
    · simp only [ha, if_false]
      exact Agree.after (Local.align _) h1
  simpa only [FieldOps.alignReader, bind_assoc] using h2

/-- Two fields whose readers agree; everything else that readers use of them is the same. -/
structure _root_.Zs.FieldAgree (cfg : Cfg) (B : Nat) (f g : FieldOps) : Prop where
  dflt : f.dflt = g.dflt
  context : f.createContext = g.createContext
  decode : ∀ packed i env old n, Agree B (f.decode cfg packed i env old n) (g.decode cfg packed i env old n)

theorem decode_agree (hd : (FieldOps.mk info t).contentDflt = (FieldOps.mk info u).contentDflt)
    (h : ∀ packed i env old n, Agree B ((FieldOps.mk info t).decodeContent cfg packed i env old n)
      ((FieldOps.mk info u).decodeContent cfg packed i env old n)) (packed : Bool) (i : Nat) (env : Env) (old : Val)
    (n : Node) :
    Agree B ((FieldOps.mk info t).decode cfg packed i env old n) ((FieldOps.mk info u).decode cfg packed i env old n) := by
  unfold decode
  have hp : (FieldOps.mk info t).present env = (FieldOps.mk info u).present env := rfl
  rw [hp]
  cases (FieldOps.mk info u).present env with
  | false => simp only [if_false, Bool.false_eq_true]; exact Agree.self (Local.pure _)
  | true =>
    simp only [if_true]
    refine Agree.alignField (FieldOps.mk info t) ?_
    unfold decodeOptional
    cases info.optional with
    | false => simp only [if_false, Bool.false_eq_true]; exact h packed i env old n
    | true =>
      simp only [if_true]
      refine Agree.bind (k := fun present r => if present then
          (FieldOps.mk info t).decodeContent cfg packed i env (FieldOps.mk info t).contentDflt n r >>= fun p =>
            .ok ((Val.some p.1.1, p.1.2), p.2) else .ok ((old, n), r))
        (l := fun present r => if present then
          (FieldOps.mk info u).decodeContent cfg packed i env (FieldOps.mk info u).contentDflt n r >>= fun p =>
            .ok ((Val.some p.1.1, p.1.2), p.2) else .ok ((old, n), r)) (Agree.self reads_bool.loc) (fun present => ?_)
      cases present with
      | false => simp only [if_false, Bool.false_eq_true]; exact Agree.self (Local.pure _)
      | true =>
        simp only [if_true]
        rw [hd]
        exact Agree.map (h packed i env _ n) (fun p : Val × Node => (Val.some p.1, p.2))

theorem agree_of (h : TypeAgree B t u) : FieldAgree cfg B ⟨info, t⟩ ⟨info, u⟩ where
  dflt := by simp only [FieldOps.dflt, h.dflt]
  context := by simp only [FieldOps.createContext, FieldOps.isPackable, h.marshaler, h.packable, h.context]
  decode := decode_agree (by simp only [contentDflt, h.dflt]) (decodeContent_agree h)

theorem agree_stored (h : B = 0 ∨ TypeAgree B t u) {a : ArrayInfo} (ha : info.array = some a)
    (hl : a.length = none) : FieldAgree cfg (B + 8) ⟨info, t⟩ ⟨info, u⟩ where
  dflt := by simp [FieldOps.dflt, ha]
  context := by simp [FieldOps.createContext, ha]
  decode := decode_agree (by simp [contentDflt, ha]) (decodeContent_agree_stored h ha hl)

end FieldOps

/-! ## Compound types -/

/-- The fields of two types agree one by one. -/
inductive FieldsAgree (cfg : Cfg) (B : Nat) : List FieldOps → List FieldOps → Prop
  | nil : FieldsAgree cfg B [] []
  | cons {f g : FieldOps} {fs gs : List FieldOps} : FieldAgree cfg B f g → FieldsAgree cfg B fs gs →
      FieldsAgree cfg B (f :: fs) (g :: gs)

/-- The cases of two choices agree one by one. -/
inductive CasesAgree (cfg : Cfg) (B : Nat) : List CaseOps → List CaseOps → Prop
  | nil : CasesAgree cfg B [] []
  | field {labels : List Val} {f g : FieldOps} {fs gs : List CaseOps} : FieldAgree cfg B f g →
      CasesAgree cfg B fs gs → CasesAgree cfg B (⟨labels, some f⟩ :: fs) (⟨labels, some g⟩ :: gs)
  | empty {labels : List Val} {fs gs : List CaseOps} : CasesAgree cfg B fs gs →
      CasesAgree cfg B (⟨labels, none⟩ :: fs) (⟨labels, none⟩ :: gs)

namespace FieldsAgree

variable {cfg : Cfg} {B : Nat} {fs gs : List FieldOps}

theorem dflts (h : FieldsAgree cfg B fs gs) : fs.map FieldOps.dflt = gs.map FieldOps.dflt := by
  induction h with
  | nil => rfl
  | cons h _ ih => rw [List.map_cons, List.map_cons, h.dflt, ih]

theorem contexts (h : FieldsAgree cfg B fs gs) : fs.map FieldOps.createContext = gs.map FieldOps.createContext := by
  induction h with
  | nil => rfl
  | cons h _ ih => rw [List.map_cons, List.map_cons, h.context, ih]

theorem length (h : FieldsAgree cfg B fs gs) : fs.length = gs.length := by
  induction h with
  | nil => rfl
  | cons h _ ih => rw [List.length_cons, List.length_cons, ih]

theorem get (h : FieldsAgree cfg B fs gs) (i : Nat) :
    (fs[i]? = none ∧ gs[i]? = none) ∨ ∃ f g, fs[i]? = some f ∧ gs[i]? = some g ∧ FieldAgree cfg B f g := by
  induction h generalizing i with
  | nil => exact .inl ⟨rfl, rfl⟩
  | cons h _ ih =>
    cases i with
    | zero => exact .inr ⟨_, _, rfl, rfl, h⟩
    | succ i => simpa using ih i

theorem decode (h : FieldsAgree cfg B fs gs) (packed : Bool) (params : List Val) :
    ∀ (i : Nat) (done olds : List Val) (n : Node), Agree B (fun r => decodeFields cfg packed params fs i done olds n r)
      (fun r => decodeFields cfg packed params gs i done olds n r) := by
  induction h with
  | nil =>
    intro i done olds n
    cases olds with
    | nil => exact Agree.self (Local.pure _)
    | cons o os => exact Agree.panic
  | cons h _ ih =>
    intro i done olds n
    cases olds with
    | nil => exact Agree.panic
    | cons o os =>
      exact Agree.bind (k := fun (p : Val × Node) r => decodeFields cfg packed params _ (i + 1) (done ++ [p.1]) os p.2 r)
        (l := fun (p : Val × Node) r => decodeFields cfg packed params _ (i + 1) (done ++ [p.1]) os p.2 r)
        (h.decode packed i ⟨params, done⟩ o n) (fun p => ih (i + 1) _ os p.2)

end FieldsAgree

theorem CasesAgree.fields {cfg : Cfg} {B : Nat} {cs es : List CaseOps} (h : CasesAgree cfg B cs es) :
    FieldsAgree cfg B (caseFields cs) (caseFields es) := by
  induction h with
  | nil => exact .nil
  | field h _ ih => exact .cons h ih
  | empty _ ih => exact ih

theorem CasesAgree.select {cfg : Cfg} {B : Nat} {cs es : List CaseOps} (h : CasesAgree cfg B cs es) (sel : Val) :
    ∀ i, (selectCase sel i cs = none ∧ selectCase sel i es = none) ∨
      ∃ j f g, selectCase sel i cs = some (j, f) ∧ selectCase sel i es = some (j, g) ∧ FieldAgree cfg B f g := by
  induction h with
  | nil => exact fun i => .inl ⟨rfl, rfl⟩
  | field h _ ih =>
    intro i
    simp only [selectCase]
    split
    · exact .inr ⟨i, _, _, rfl, rfl, h⟩
    · exact ih _
  | empty _ ih =>
    intro i
    simp only [selectCase]
    split
    · exact .inl ⟨rfl, rfl⟩
    · exact ih _

theorem CasesAgree.decode {cfg : Cfg} {B : Nat} {cs es : List CaseOps} (h : CasesAgree cfg B cs es) (packed : Bool)
    (selector : List Val → Val) (params fields : List Val) (n : Node) :
    Agree B (fun r => decodeChoice cfg packed selector cs params fields n r)
      (fun r => decodeChoice cfg packed selector es params fields n r) := by
  unfold decodeChoice
  rcases h.select (selector params) 0 with ⟨h1, h2⟩ | ⟨j, f, g, h1, h2, h3⟩
  · simp only [h1, h2]; exact Agree.self (Local.pure _)
  · simp only [h1, h2]
    cases fields[j]? with
    | none => exact Agree.panic
    | some old =>
      exact Agree.map (h3.decode packed j ⟨params, []⟩ old n) (fun p : Val × Node => (fields.set j p.1, p.2))

theorem FieldsAgree.decodeMember {cfg : Cfg} {B : Nat} {fs gs : List FieldOps} (h : FieldsAgree cfg B fs gs)
    (packed : Bool) (params : List Val) (sel : Nat) (fields : List Val) (n : Node) :
    Agree B (fun r => Zs.decodeMember cfg packed fs params sel fields n r)
      (fun r => Zs.decodeMember cfg packed gs params sel fields n r) := by
  unfold Zs.decodeMember
  rcases h.get sel with ⟨h1, h2⟩ | ⟨f, g, h1, h2, h3⟩
  · simp only [h1, h2]; exact Agree.panic
  · simp only [h1, h2]
    cases fields[sel]? with
    | none => exact Agree.panic
    | some old =>
      exact Agree.map (h3.decode packed sel ⟨params, []⟩ old n)
        (fun p : Val × Node => (Val.union params sel (fields.set sel p.1), p.2))

theorem struct_agree {cfg : Cfg} {B : Nat} {fs gs : List FieldOps} (h : FieldsAgree cfg B fs gs) (params : List Val) :
    TypeAgree B (structCodec cfg params fs).ops (structCodec cfg params gs).ops := by
  refine TypeAgree.codec ?_ ?_ (fun old => ?_) (fun old n => ?_)
  · simp only [structCodec, h.dflts]
  · simp only [structCodec, h.contexts]
  · cases old with
    | obj ps vs => exact Agree.map (h.decode false ps 0 [] vs Node.new) (fun p : List Val × Node => Val.obj ps p.1)
    | _ => exact Agree.panic
  · cases old with
    | obj ps vs => exact Agree.map (h.decode true ps 0 [] vs n) (fun p : List Val × Node => (Val.obj ps p.1, p.2))
    | _ => exact Agree.panic

theorem choice_agree {cfg : Cfg} {B : Nat} {cs es : List CaseOps} (h : CasesAgree cfg B cs es) (params : List Val)
    (selector : List Val → Val) :
    TypeAgree B (choiceCodec cfg params selector cs).ops (choiceCodec cfg params selector es).ops := by
  refine TypeAgree.codec ?_ ?_ (fun old => ?_) (fun old n => ?_)
  · simp only [choiceCodec, h.fields.dflts]
  · simp only [choiceCodec, h.fields.contexts]
  · cases old with
    | obj ps vs => exact Agree.map (h.decode false selector ps vs Node.new) (fun p : List Val × Node => Val.obj ps p.1)
    | _ => exact Agree.panic
  · cases old with
    | obj ps vs => exact Agree.map (h.decode true selector ps vs n) (fun p : List Val × Node => (Val.obj ps p.1, p.2))
    | _ => exact Agree.panic

theorem union_agree {cfg : Cfg} {B : Nat} {fs gs : List FieldOps} (h : FieldsAgree cfg B fs gs) (params : List Val) :
    TypeAgree B (unionCodec cfg params fs).ops (unionCodec cfg params gs).ops := by
  refine TypeAgree.codec ?_ rfl (fun old => ?_) (fun old n => ?_)
  · simp only [unionCodec, h.dflts]
  · cases old with
    | union ps s vs =>
      have hu : fromU32 gs = fromU32 fs := by funext v; simp only [fromU32, h.length]
      simp only [unionCodec, hu]
      exact Agree.bind (k := fun s r => fromU32 fs s >>= fun sel =>
          Zs.decodeMember cfg false fs ps sel vs Node.new r >>= fun p => .ok (p.1.1, p.2))
        (l := fun s r => fromU32 fs s >>= fun sel =>
          Zs.decodeMember cfg false gs ps sel vs Node.new r >>= fun p => .ok (p.1.1, p.2))
        (Agree.self reads_varsize.loc) (fun s => Agree.lift (fromU32 fs s)
          (k := fun sel r => Zs.decodeMember cfg false fs ps sel vs Node.new r >>= fun p => .ok (p.1.1, p.2))
          (l := fun sel r => Zs.decodeMember cfg false gs ps sel vs Node.new r >>= fun p => .ok (p.1.1, p.2))
          (fun sel => Agree.map (h.decodeMember false ps sel vs Node.new) (fun p : Val × Node => p.1)))
    | _ => exact Agree.panic
  · cases old with
    | union ps s vs => exact h.decodeMember true ps s vs n
    | _ => exact Agree.panic

/-! ## Declarations -/

mutual
theorem DTy.close_agree {cfg : Cfg} {B : Nat} {σ τ : Nat → Ty}
    (h : B = 0 ∨ ∀ j, TypeAgree B ((σ j).ops cfg) ((τ j).ops cfg)) :
    ∀ t : DTy, LengthsStored t → TypeAgree (B + 8) ((t.close σ).ops cfg) ((t.close τ).ops cfg)
  | .ref i, hl => by simp only [LengthsStored] at hl
  | .scalar s, _ => by simpa only [DTy.close, Ty.ops] using s.agree cfg _
  | .enum b items, _ => number_agree cfg _ b _ _ _ _
  | .bitmask b first, _ => number_agree cfg _ b _ _ _ _
  | .struct ps fs, hl => by
    simp only [LengthsStored] at hl
    simpa only [DTy.close, Ty.ops] using struct_agree (DFields.close_agree h fs hl) ps
  | .choice ps sel cs, hl => by
    simp only [LengthsStored] at hl
    simpa only [DTy.close, Ty.ops] using choice_agree (DCases.close_agree h cs hl) ps sel
  | .union ps fs, hl => by
    simp only [LengthsStored] at hl
    simpa only [DTy.close, Ty.ops] using union_agree (DFields.close_agree h fs hl) ps
theorem DFields.close_agree {cfg : Cfg} {B : Nat} {σ τ : Nat → Ty}
    (h : B = 0 ∨ ∀ j, TypeAgree B ((σ j).ops cfg) ((τ j).ops cfg)) :
    ∀ fs : DFields, FieldsLengthsStored fs → FieldsAgree cfg (B + 8) ((fs.close σ).ops cfg) ((fs.close τ).ops cfg)
  | .nil, _ => .nil
  | .cons info ty rest, hl => by
    simp only [FieldsLengthsStored] at hl
    simp only [DFields.close, Fields.ops]
    refine .cons ?_ (DFields.close_agree h rest hl.2)
    rcases hl.1 with ⟨hr, a, ha, hn⟩ | ht
    · cases ty with
      | ref j =>
        simp only [DTy.close]
        exact FieldOps.agree_stored (h.imp id (fun h => h j)) ha hn
      | _ => cases hr
    · exact FieldOps.agree_of (DTy.close_agree h ty ht)
theorem DCases.close_agree {cfg : Cfg} {B : Nat} {σ τ : Nat → Ty}
    (h : B = 0 ∨ ∀ j, TypeAgree B ((σ j).ops cfg) ((τ j).ops cfg)) :
    ∀ cs : DCases, CasesLengthsStored cs → CasesAgree cfg (B + 8) ((cs.close σ).ops cfg) ((cs.close τ).ops cfg)
  | .nil, _ => .nil
  | .field labels info ty rest, hl => by
    simp only [CasesLengthsStored] at hl
    simp only [DCases.close, Cases.ops]
    refine .field ?_ (DCases.close_agree h rest hl.2)
    rcases hl.1 with ⟨hr, a, ha, hn⟩ | ht
    · cases ty with
      | ref j =>
        simp only [DTy.close]
        exact FieldOps.agree_stored (h.imp id (fun h => h j)) ha hn
      | _ => cases hr
    · exact FieldOps.agree_of (DTy.close_agree h ty ht)
  | .empty labels rest, hl => by
    simp only [CasesLengthsStored] at hl
    simp only [DCases.close, Cases.ops]
    exact .empty (DCases.close_agree h rest hl)
end

/-- With `n` active calls, inputs of fewer than `8 * n` bits are read without any deeper call. -/
theorem unfoldDecl_agree (cfg : Cfg) (d : Decls) (hd : ∀ i, LengthsStored (d i)) (below below' : Nat → Ty) :
    ∀ n, 8 * n = 0 ∨ ∀ i, TypeAgree (8 * n) ((unfoldDecl d below n i).ops cfg) ((unfoldDecl d below' n i).ops cfg)
  | 0 => .inl rfl
  | n + 1 => .inr fun i => by
    have := DTy.close_agree (unfoldDecl_agree cfg d hd below below' n) (d i) (hd i)
    rw [show 8 * (n + 1) = 8 * n + 8 by omega]
    exact this

end Zs
