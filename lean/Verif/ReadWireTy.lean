import Verif.ReadWire

/-!
# Generated readers accept the layout: types, fields and arrays
-/

namespace Zs

open Spec

/-- Numbers that fit into the plans of all packed arrays can be read back. -/
def Spec.Packing.Readable (packing : Packing) : Prop := ∀ stored counted plan,
  packing stored counted plan → ∀ m, plan = some m → m ≤ 62 ∧ ColumnFits m (stored.map (·.2))

/-! ## Builtin types -/

theorem Scalar.plainWire_unique {cfg : Cfg} {s : Scalar} {env : Env} {v : Val} {a b : List Bool}
    (ha : s.PlainWire cfg env v a) (hb : s.PlainWire cfg env v b) : a = b := by
  unfold Scalar.PlainWire at ha hb
  cases hn : v.number with
  | none => rw [hn] at ha hb; exact Scalar.otherWire_unique ha hb
  | some x => rw [hn] at ha hb; exact Scalar.numberWire_unique ha hb

theorem Scalar.takes {cfg : Cfg} {s : Scalar} {env : Env} {v : Val} (hw : s.WidthOk)
    (hv : s.InRange cfg env v) : Takes (fun r => s.read cfg env r) v (s.Wire cfg none env v) := by
  rw [Scalar.wire_none]
  exact Takes.of_rt (Scalar.roundTrips hw hv) (Scalar.writesAs hw hv)
    (fun _ _ => Scalar.plainWire_unique)

theorem Scalar.elem_takes {cfg : Cfg} {s : Scalar} {env : Env} {v : Val} (hw : s.WidthOk)
    (hv : s.InRange cfg env v) :
    Takes (fun r => (s.elem cfg env).read r s.dflt) v (s.Wire cfg none env v) := by
  rw [Scalar.wire_none]
  exact Takes.of_rt (Scalar.elem_roundTrips hw hv) (Scalar.elem_writesAs hw hv)
    (fun _ _ => Scalar.plainWire_unique)

theorem Scalar.narrow_range {cfg : Cfg} {env : Env} {s : Scalar} {v : Val} {x : Int} (hn : s.Narrow)
    (hv : s.InRange cfg env v) (hx : v.number = some x) : -2 ^ 63 ≤ x ∧ x < 2 ^ 63 := by
  have hp : ∀ n : Nat, n ≤ 63 → ((2 ^ n : Nat) : Int) ≤ 2 ^ 63 := by
    intro n h
    have : (2 : Nat) ^ n ≤ 2 ^ 63 := Nat.pow_le_pow_right (by decide) h
    omega
  have hq : ∀ n : Nat, n ≤ 63 → (2 ^ (n - 1) : Int) ≤ 2 ^ 63 := by
    intro n h
    have h1 := hp (n - 1) (by omega)
    simpa using h1
  cases s <;> first | exact absurd hn id | skip
  all_goals
    cases v <;> first | exact absurd hv id | skip
    cases hx
    simp only [Scalar.InRange, Scalar.Narrow] at hv hn
  all_goals first
    | (have h1 := hp _ hn; omega)
    | (have h1 := hq _ hn; omega)
    | omega

theorem Scalar.packed_reads {cfg : Cfg} {s s' : Scalar} (hp : s.isPackable = true) (hw : s.WidthOk)
    (hn : cfg.md = .release ∨ s.Narrow) {env : Env} {v : Val} (hv : s.InRange cfg env v) {x : Int}
    (hx : v.number = some x) (plan : Plan) :
    Accepts cfg.md (some plan) (.mk [] (some DeltaContext.new))
      (fun n r => (s.ops cfg).readPacked env s.dflt n r) v (s.Wire cfg (some plan) env v)
      (fun q => if q = [] then [(s', x)] else []) := by
  obtain ⟨x', u, hx', hu, hmod⟩ := Scalar.toU64_number hp hv
  rw [hx] at hx'
  cases hx'
  obtain ⟨u', hu1, hu2, hu3⟩ := (Scalar.good hp hw hv).u64
  rw [hu] at hu2
  cases hu2
  have he : u = asU64 x := by
    unfold asU64
    rw [← hmod]
    omega
  subst he
  have ht := Scalar.elem_takes hw hv
  unfold Scalar.Wire at ht ⊢
  rw [hx] at ht ⊢
  exact packable_reads ht hu hu3 (hn.imp id (fun h => Scalar.narrow_range h hv hx)) plan

/-! ## Types -/

/-- Everything needed of a type. -/
structure AcceptGood (md : Mode) (t : TypeOps) (valid : Env → Val → Prop)
    (wire : Option Plan → Env → Val → Layout) (numbers : Env → Val → List Nat → List Entry)
    (plain packed : Prop) : Prop where
  coherent : t.Coherent
  fresh : t.createContext.Fresh
  field : plain → ∀ env v, valid env v →
    Takes (fun r => t.read env (t.dflt.withParams v.params) r) v (wire none env v)
  elem : plain → ∀ env v, valid env v →
    Takes (fun r => (t.arrayTrait env).read r (t.dflt.withParams v.params)) v (wire none env v)
  packed : packed → ∀ env v, valid env v → ∀ plan, Accepts md (some plan) t.createContext
    (fun n r => t.readPacked env (t.dflt.withParams v.params) n r) v (wire (some plan) env v)
    (numbers env v)

theorem Codec.acceptGood {md : Mode} {c : Codec} {valid : Env → Val → Prop}
    {wire : Option Plan → Env → Val → Layout} {numbers : Env → Val → List Nat → List Entry}
    {a b : Prop} (hf : c.createContext.Fresh)
    (h1 : a → ∀ env v, valid env v →
      Takes (fun r => c.read (c.dflt.withParams v.params) r) v (wire none env v))
    (h2 : b → ∀ env v, valid env v → ∀ plan, Accepts md (some plan) c.createContext
      (fun n r => c.readPacked (c.dflt.withParams v.params) n r) v (wire (some plan) env v)
      (numbers env v)) :
    AcceptGood md c.ops valid wire numbers a b :=
  ⟨Codec.coherent c, hf, h1, h1, h2⟩

theorem numberCodec_acceptGood {cfg : Cfg} {base : Scalar} {dflt : Val} {number item : Val → Res Val}
    {own : Option DeltaContext} {valid : Env → Val → Prop} {s' : Scalar}
    {wire : Option Plan → Env → Val → Layout} {numbers : Env → Val → List Nat → List Entry}
    {a b : Prop} (hown : ∀ c, own = some c → c.processingStarted = false)
    (ha : a → base.WidthOk)
    (hb : b → base.isPackable = true ∧ base.WidthOk ∧ (cfg.md = .release ∨ base.Narrow))
    (hnum : (a ∨ b) → ∀ env v, valid env v → ∃ x, item x = .ok v ∧ base.InRange cfg ⟨[], []⟩ x ∧
      wire none env v = base.Wire cfg none ⟨[], []⟩ x ∧
      (∀ plan, wire (some plan) env v =
        Layout.inField 0 (base.Wire cfg (some (plan.field 0)) ⟨[], []⟩ x)) ∧
      ∀ k, x.number = some k → numbers env v = fun q => if q = [0] then [(s', k)] else []) :
    AcceptGood cfg.md (numberCodec cfg base dflt number item own).ops valid wire numbers a b := by
  refine Codec.acceptGood ?_ ?_ ?_
  · intro q c hc
    simp only [numberCodec] at hc
    match q, hc with
    | [], hc => exact hown c hc
    | [0], hc =>
      simp only [Node.at, Node.children, List.getElem?_cons_zero, Node.context] at hc
      cases hc
      rfl
    | 0 :: i :: r, hc => simp [Node.at, Node.children] at hc
    | (j + 1) :: r, hc => simp [Node.at, Node.children] at hc
  · intro h env v hv
    obtain ⟨x, hx, hr, h1, _, _⟩ := hnum (.inl h) env v hv
    rw [h1]
    intro st pos bits st' hl
    obtain ⟨e, ht⟩ := Scalar.takes (ha h) hr st pos bits st' hl
    refine ⟨e, fun after => ?_⟩
    simp only [numberCodec, ht, Res.ok_bind, hx, Res.pure_eq]
  · intro h env v hv plan
    obtain ⟨x, hx, hr, _, h2, h3⟩ := hnum (.inr h) env v hv
    obtain ⟨hp, hw, hn⟩ := hb h
    obtain ⟨k, u, hk, _, _⟩ := Scalar.toU64_number hp hr
    have hbase := Scalar.packed_reads (s' := s') hp hw hn hr hk (plan.field 0)
    have hin := Accepts.inField (plan := plan)
      (t := (numberCodec cfg base dflt number item own).createContext) (i := 0) rfl hbase
    rw [h2, h3 k hk]
    intro n st pos bits st' hl hB
    have hnums : below 0 (fun q => if q = [] then [(s', k)] else []) =
        fun q => if q = [0] then [(s', k)] else [] := by
      funext q
      match q with
      | [] => rfl
      | [0] => rfl
      | 0 :: i :: r => simp [below]
      | (j + 1) :: r => simp [below]
    rw [hnums] at hin
    obtain ⟨n', hA, hrd⟩ := hin n st pos bits st' hl hB
    refine ⟨n', hA, fun after => ?_⟩
    have := hrd after
    obtain ⟨⟨⟨p1, p3⟩, p2⟩, e1, e2⟩ := Res.bind_eq_ok.1 this
    cases e2
    simp only [numberCodec]
    rw [e1]
    simp only [Res.ok_bind, hx, Res.pure_eq]

/-! ## Fields -/

namespace FieldOps

variable {f : FieldOps} {valid : Env → Val → Prop} {wire : Option Plan → Env → Val → Layout}
  {a b : Prop} {packing : Packing} {numbers : Bool → Env → Val → List Nat → List Entry} {cfg : Cfg}

theorem skips (f : FieldOps) : Skips (fun r => f.alignReader r)
    (Layout.seq (if f.info.alignment = 0 then Layout.empty else Layout.align f.info.alignment)
      (if f.info.offset = .plain then Layout.align 8 else Layout.empty)) := by
  unfold FieldOps.alignReader
  refine Skips.bind ?_ ?_
  · by_cases h : f.info.alignment = 0
    · simp only [h, if_true]; exact Skips.empty
    · simp only [h, if_false]; exact Skips.align h
  · by_cases h : f.info.offset = .plain
    · simp only [h, if_true]; exact Skips.align (by decide)
    · simp only [h, if_false]; exact Skips.empty

theorem skips_elem (offsets : Bool) : Skips (fun r => alignElemReader offsets r)
    (if offsets then Layout.align 8 else Layout.empty) := by
  unfold alignElemReader
  cases offsets
  · exact Skips.empty
  · exact Skips.align (by decide)

theorem takes_varsize {k : Nat} (h : k < 2 ^ 31) :
    Takes readVarsize k (Layout.some (IsVaruint 5 k)) :=
  Takes.of_rt (C01_varuint_round_trip.2.2.2.2 k h) (writesAs_varsize h)
    (fun _ _ => IsVaruint.unique)

/-- The elements of an array. -/
theorem elems_read {md : Mode} {pack : Option Plan} {t : Node} {ar : ArrayDef Val} {env : Env}
    {one : Val → Layout} {nums : Val → List Nat → List Entry} {xs : List Val} {i : Nat}
    (hone : ∀ j x, xs[j]? = some x → Accepts md pack t (fun n r => if ar.isPacked then
        ar.arrayTrait.readPacked n r (f.initial env (i + j))
      else ar.arrayTrait.read r (f.initial env (i + j)) >>= fun p => pure ((p.1, n), p.2)) x (one x)
      (nums x)) {n : Node} {st st' : Columns} {pos : Nat} {bits : List Bool}
    (hl : Layout.elements f.indexed (xs.map one) st pos bits st')
    (hB : ReadBefore md pack t n st (fun q => xs.flatMap (fun x => nums x q))) :
    (pack = none → st' = st) ∧ ∀ (data : Vec Val) (after : List Bool), ∃ cap,
      f.readParamAll cfg ar env xs.length i n data ⟨pos, bits ++ after⟩ =
        .ok (⟨data.items ++ xs, cap⟩, ⟨pos + bits.length, after⟩) := by
  induction xs generalizing i n st pos bits with
  | nil =>
    obtain ⟨h1, h2⟩ := hl
    have h1 : bits = [] := h1
    subst h1
    exact ⟨fun _ => h2, fun data after => ⟨data.capacity, by simp [readParamAll]⟩⟩
  | cons x xs ih =>
    obtain ⟨b1, b23, s1, rfl, l1, b2, b3, s2, rfl, l2, l3⟩ := hl
    obtain ⟨rfl, hs⟩ := skips_elem _ _ _ _ _ l1
    have hB1 : ReadBefore md pack t n s1 (nums x) := by
      cases pack with
      | none => trivial
      | some plan =>
        obtain ⟨k1, k2, k3⟩ := hB
        simp only [List.flatMap_cons] at k3
        exact ⟨k1, k2, k3.left⟩
    obtain ⟨n', hA, hr⟩ := hone 0 x rfl n _ _ _ _ l2 hB1
    have hB2 : ReadBefore md pack t n' s2 (fun q => xs.flatMap (fun x => nums x q)) := by
      cases pack with
      | none => trivial
      | some plan =>
        obtain ⟨k1, k2, k3⟩ := hB
        obtain ⟨j1, j2, j3⟩ := hA
        simp only [List.flatMap_cons] at k3
        rw [j3]
        rw [j3] at j2
        exact ⟨j1, j2, k3.right⟩
    obtain ⟨hkeep, hrest⟩ := ih (i := i + 1) (fun j y hy => by
      have := hone (j + 1) y (by simpa using hy)
      rw [show i + (j + 1) = i + 1 + j by omega] at this
      exact this) l3 hB2
    refine ⟨fun hp => ?_, fun data after => ?_⟩
    · subst hp
      rw [hkeep rfl]; exact hA
    · obtain ⟨cap, hc⟩ := hrest (data.push cfg.minCap x) after
      refine ⟨cap, ?_⟩
      have h2 := hr (b3 ++ after)
      simp only [Nat.add_zero] at h2
      simp only [Vec.push_items, List.append_assoc, List.singleton_append] at hc
      simp only [readParamAll, List.length_cons, ArrayDef.readOneElement, List.append_assoc, hs,
        Res.ok_bind]
      rw [h2]
      simp only [Res.ok_bind, hc]
      simp only [List.length_append, Nat.add_assoc]

theorem content_reads (hQ : packing.Readable)
    (hg : AcceptGood cfg.md f.ty valid wire (numbers false) a b) {delta : Bool}
    (hd : delta = (!f.info.isOffsetField && f.ty.isPackable)) {pack : Option Plan}
    (hc : FieldClaim f.info delta pack.isSome a b) {i : Nat} {env : Env} {x : Val}
    (hv : f.info.ContentValid valid f.ty.dflt env x) {t : Node}
    (ht : pack.isSome → t.children[i]? = some f.createContext) :
    Accepts cfg.md pack t (fun n r => f.decodeContent cfg pack.isSome i env f.contentDflt n r) x
      (f.info.ContentWire packing delta wire numbers pack i env x)
      (if f.info.array = none ∧ delta = true then below i (numbers false env x) else fun _ => []) := by
  unfold FieldClaim at hc
  unfold FieldInfo.ContentValid at hv
  unfold FieldInfo.ContentWire decodeContent
  cases ha : f.info.array with
  | none =>
    simp only [ha] at hc hv ⊢
    have hpk : f.isPackable = delta := by
      rw [hd]; unfold isPackable; cases f.info.isOffsetField <;> simp [ha]
    have hini : f.initial env 0 = f.ty.dflt.withParams x.params := f.initial_eq hv.2
    rw [hpk, hini]
    cases pack with
    | none =>
      simp only [Option.isSome_none, Bool.false_and, Bool.false_eq_true, if_false, decodeType] at hc ⊢
      exact Accepts.keep (hg.field hc env x hv.1) (fun h => absurd h (by simp))
    | some plan =>
      cases delta with
      | false =>
        simp only [Option.isSome_some, Bool.and_false, Bool.false_eq_true, if_false, decodeType,
          and_false] at hc ⊢
        exact Accepts.keep (hg.field hc env x hv.1) (fun _ _ => rfl)
      | true =>
        simp only [Option.isSome_some, Bool.and_true, if_true, decodeType, and_self] at hc ⊢
        have hctx : f.createContext = f.ty.createContext := by
          unfold createContext; rw [ha, hpk]; simp
        rw [hctx] at ht
        exact Accepts.inField (ht rfl) (hg.packed hc env x hv.1 _)
  | some ar =>
    simp only [ha] at hc hv ⊢
    obtain ⟨xs, rfl, hlen, hel⟩ := hv
    have hpk : f.isPackable = !f.info.isOffsetField := by
      unfold isPackable; cases f.info.isOffsetField <;> simp [ha]
    have hcd : f.contentDflt = .list [] := by simp [contentDflt, ha]
    rw [hcd]
    simp only [List.length_nil, reduceCtorEq, false_and, if_false]
    refine Accepts.keep ?_ (fun _ _ => rfl)
    intro st pos bits st' hl
    obtain ⟨b1, b2, s1, rfl, l1, l2⟩ := hl
    have hhead : s1 = st ∧ ∀ after, (f.arrayDef pack.isSome env ar).zserioReadArrayLength
        ⟨pos, b1 ++ after⟩ = .ok (xs.length, ⟨pos + b1.length, after⟩) := by
      unfold LengthFits at hlen
      unfold ArrayDef.zserioReadArrayLength
      simp only [arrayDef]
      cases hl : ar.length with
      | none =>
        simp only [hl, Option.map_none, Option.isNone_none, if_true] at hlen l1 ⊢
        exact takes_varsize hlen _ _ _ _ l1
      | some e =>
        simp only [hl, Option.map_some, Option.isNone_some, Bool.false_eq_true, if_false] at hlen l1 ⊢
        obtain ⟨k1, k2⟩ := l1
        have k1 : b1 = [] := k1
        subst k1
        refine ⟨k2, fun after => ?_⟩
        simp [hlen]
    obtain ⟨rfl, hhead⟩ := hhead
    have hcreate : (f.arrayDef pack.isSome env ar).arrayTrait.createContext = f.ty.createContext :=
      hg.coherent.create env
    have hprep : (ArrayDef.prepare cfg.minCap cfg.chunk (⟨[], 0⟩ : Vec Val) xs.length).items = [] :=
      prepare_items (α := Val) _ _ _
    have hini : ∀ j y, xs[j]? = some y → f.initial env (0 + j) = f.ty.dflt.withParams y.params :=
      fun j y hy => by rw [Nat.zero_add]; exact f.initial_eq (hel j y hy).2
    have hkey : st' = s1 ∧ ∀ after, ∃ cap, f.readParamAll cfg (f.arrayDef pack.isSome env ar) env
        xs.length 0 (f.arrayDef pack.isSome env ar).arrayTrait.createContext
        (ArrayDef.prepare cfg.minCap cfg.chunk ⟨[], 0⟩ xs.length) ⟨pos + b1.length, b2 ++ after⟩ =
        .ok (⟨xs, cap⟩, ⟨pos + b1.length + b2.length, after⟩) := by
      rw [hcreate]
      have hisp : (f.arrayDef pack.isSome env ar).isPacked =
          ((ar.isPacked || pack.isSome) && !f.info.isOffsetField) := by simp [arrayDef, hpk]
      cases hp : ((ar.isPacked || pack.isSome) && !f.info.isOffsetField) with
      | true =>
        rw [hp] at hc hisp l2
        simp only [if_true] at l2 hc
        obtain ⟨e, plan, last, hpl, hl⟩ := l2
        refine ⟨e, fun after => ?_⟩
        have := (elems_read (cfg := cfg) (md := cfg.md) (pack := some plan)
          (t := f.ty.createContext) (ar := f.arrayDef pack.isSome env ar) (env := env)
          (one := wire (some plan) env) (nums := numbers false env) (i := 0) (fun j y hy => by
            simp only [hisp, if_true]
            simp only [arrayDef, hini j y hy, hg.coherent.read]
            exact hg.packed hc env y (hel j y hy).1 plan) hl
          ⟨Node.Like.refl _, hg.fresh.sees plan, fun q m hm => by
            have := hQ _ _ _ (hpl q) m hm
            simpa using this⟩).2
          (ArrayDef.prepare cfg.minCap cfg.chunk ⟨[], 0⟩ xs.length) after
        rw [hprep] at this
        exact this
      | false =>
        rw [hp] at hc hisp l2
        simp only [Bool.false_eq_true, if_false] at l2 hc
        have := elems_read (cfg := cfg) (md := cfg.md) (pack := none)
          (t := f.ty.createContext) (ar := f.arrayDef pack.isSome env ar) (env := env)
          (one := wire none env) (nums := fun _ _ => []) (i := 0) (n := f.ty.createContext)
          (fun j y hy => by
            simp only [hisp, Bool.false_eq_true, if_false]
            simp only [arrayDef, hini j y hy]
            exact Accepts.keep (hg.elem hc env y (hel j y hy).1) (fun h => absurd h (by simp))) l2
          trivial
        refine ⟨this.1 rfl, fun after => ?_⟩
        have := this.2 (ArrayDef.prepare cfg.minCap cfg.chunk ⟨[], 0⟩ xs.length) after
        rw [hprep] at this
        exact this
    obtain ⟨rfl, hkey⟩ := hkey
    refine ⟨rfl, fun after => ?_⟩
    obtain ⟨cap, hk⟩ := hkey after
    simp only [decodeArray_eq, List.append_assoc, hhead, Res.ok_bind, hk, List.length_append,
      Nat.add_assoc]

theorem field_reads (hQ : packing.Readable)
    (hg : AcceptGood cfg.md f.ty valid wire (numbers false) a b) {delta : Bool}
    (hd : delta = (!f.info.isOffsetField && f.ty.isPackable)) {pack : Option Plan}
    (hc : FieldClaim f.info delta pack.isSome a b) {i : Nat} {env : Env} {v : Val}
    (hv : f.info.FieldValid valid f.ty.dflt env v) {t : Node}
    (ht : pack.isSome → t.children[i]? = some f.createContext) :
    Accepts cfg.md pack t (fun n r => f.decode cfg pack.isSome i env f.dflt n r) v
      (f.info.Wire packing delta wire numbers pack i env v)
      (f.info.numbers delta (numbers false) i env v) := by
  unfold FieldInfo.FieldValid at hv
  unfold FieldInfo.Wire decode
  rw [present_eq]
  cases hp : f.info.clause.all (fun c => c env) with
  | false =>
    simp only [hp, Bool.false_eq_true, if_false] at hv ⊢
    subst hv
    have h : Takes (fun r => pure (f.dflt, r)) f.dflt Layout.empty := by
      intro st pos bits st' ⟨h1, h2⟩
      have h1 : bits = [] := h1
      subst h1
      exact ⟨h2, fun after => by simp⟩
    exact Accepts.keep h (fun _ q => by cases q <;> simp [FieldInfo.numbers, hp])
  | true =>
    simp only [hp, if_true] at hv ⊢
    have hrest : Accepts cfg.md pack t
        (fun n r => f.decodeOptional cfg pack.isSome i env f.dflt n r) v
        (if f.info.optional then
          match (generalizing := false) v with
          | .none => Layout.bits [false]
          | .some x => Layout.seq (Layout.bits [true])
              (f.info.ContentWire packing delta wire numbers pack i env x)
          | _ => Layout.never
        else f.info.ContentWire packing delta wire numbers pack i env v)
        (f.info.numbers delta (numbers false) i env v) := by
      unfold decodeOptional
      cases ho : f.info.optional with
      | false =>
        simp only [ho, Bool.false_eq_true, if_false] at hv ⊢
        have := content_reads hQ hg hd hc hv ht
        have hnum : (if f.info.array = none ∧ delta = true then below i (numbers false env v)
            else fun _ => []) = f.info.numbers delta (numbers false) i env v := by
          funext q
          unfold FieldInfo.numbers
          cases q with
          | nil => split <;> rfl
          | cons j r =>
            simp only [hp, ho, Bool.false_eq_true, if_false]
            by_cases h1 : f.info.array = none ∧ delta = true
            · by_cases h2 : j = i
              · simp [h1, h2, below]
              · simp [h1, h2, below]
            · have h3 : ¬ (j = i ∧ delta = true ∧ f.info.array = none ∧ True) :=
                fun h => h1 ⟨h.2.2.1, h.2.1⟩
              rw [if_neg h1]
              simp only [h3, if_false]
        rw [hnum] at this
        have hdf : f.dflt = f.contentDflt := by simp [FieldOps.dflt, contentDflt, ho]
        rw [hdf]
        exact this
      | true =>
        simp only [ho, if_true] at hv ⊢
        have hdf : f.dflt = .none := by simp [FieldOps.dflt, ho]
        rw [hdf]
        rcases hv with rfl | ⟨x, rfl, hx⟩
        · intro n st pos bits st' ⟨h1, h2⟩ hB
          have h1 : bits = [false] := h1
          subst h1 h2
          refine ⟨n, ?_, fun after => by simp [Reader.readBool]⟩
          cases pack with
          | none => rfl
          | some plan =>
            have hz : f.info.numbers delta (numbers false) i env .none = fun _ => [] := by
              funext q
              unfold FieldInfo.numbers
              cases q with
              | nil => rfl
              | cons j r => simp [ho]
            rw [hz]
            exact ⟨hB.1, hB.2.1, (advance_nil _).symm⟩
        · have := content_reads hQ hg hd hc hx ht
          have hnum : (if f.info.array = none ∧ delta = true then below i (numbers false env x)
              else fun _ => []) = f.info.numbers delta (numbers false) i env (.some x) := by
            funext q
            unfold FieldInfo.numbers
            cases q with
            | nil => split <;> rfl
            | cons j r =>
              simp only [hp, ho, if_true]
              by_cases h1 : f.info.array = none ∧ delta = true
              · by_cases h2 : j = i
                · simp [h1, h2, below]
                · simp [h1, h2, below]
              · have h3 : ¬ (j = i ∧ delta = true ∧ f.info.array = none ∧ True) :=
                  fun h => h1 ⟨h.2.2.1, h.2.1⟩
                rw [if_neg h1]
                simp only [h3, if_false]
          rw [hnum] at this
          intro n st pos bits st' ⟨b1, b2, s1, e, ⟨h1, h2⟩, h3⟩ hB
          have h1 : b1 = [true] := h1
          subst h1 h2 e
          obtain ⟨n', hA, hr⟩ := this n _ _ _ _ h3 hB
          refine ⟨n', hA, fun after => ?_⟩
          have := hr after
          simp only [List.length_cons, List.length_nil, Nat.zero_add] at this
          simp only [List.cons_append, List.nil_append, Reader.readBool, Res.ok_bind, if_true,
            this, Res.pure_eq, List.length_cons]
          congr 3
          omega
    intro n st pos bits st' hl hB
    obtain ⟨x, yz, s1, e1, h1, y, z, s2, e2, h2, h3⟩ := hl
    have hassoc : Layout.seq (Layout.seq
        (if f.info.alignment = 0 then Layout.empty else Layout.align f.info.alignment)
        (if f.info.offset = .plain then Layout.align 8 else Layout.empty)) _ st pos bits st' :=
      ⟨x ++ y, z, s2, by rw [e1, e2, List.append_assoc], ⟨x, y, s1, rfl, h1, h2⟩, by
        rw [List.length_append, ← Nat.add_assoc]; exact h3⟩
    exact Accepts.skip f.skips hrest n st pos bits st' hassoc hB

end FieldOps

end Zs
