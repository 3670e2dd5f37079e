import Verif.SchemaRead

/-!
# Lemmas: readers of all types of a schema on arbitrary input, by induction
-/

namespace Zs

open Spec

/-! ## Claims -/

/-- What is claimed about a type. -/
def Ty.claim (cfg : Cfg) (t : Ty) : Claim := ⟨t.Steady, t.Sound cfg, t.Takes, t.Compact, t.weight⟩

/-- What is claimed about a field that is not packed. -/
def FieldInfo.claim (cfg : Cfg) (info : FieldInfo) (ty : Ty) : Claim where
  steady := (¬ info.array.any info.isPackedArray) ∧ ty.Steady
  sound := (info.args = [] ∨ ty.hasParams = true) ∧
    match info.array with
    | none => ty.Sound cfg
    | some a => if info.isPackedArray a then a.length.isSome = true ∧ ty.SoundPacked cfg
      else (a.length.isSome = true ∨ ty.Takes) ∧ ty.Sound cfg
  takes := info.clause = none ∧ (info.optional = true ∨
    match info.array with
    | none => ty.Takes
    | some a => a.length.isNone = true)
  compact := (match info.array with
    | none => True
    | some a => info.isPackedArray a = false ∧ ty.Takes) ∧ ty.Compact
  weight := 2 * ty.weight + 2

/-- What is claimed about a field of a packed object. -/
def FieldInfo.claimPacked (cfg : Cfg) (info : FieldInfo) (ty : Ty) : Claim where
  steady := False
  sound := (info.args = [] ∨ ty.hasParams = true) ∧
    match info.array with
    | none => if info.isDelta ty then ty.SoundPacked cfg else ty.Sound cfg
    | some a => if info.isOffsetField then (a.length.isSome = true ∨ ty.Takes) ∧ ty.Sound cfg
      else a.length.isSome = true ∧ ty.SoundPacked cfg
  takes := False
  compact := False
  weight := 2 * ty.weight + 2

theorem Ty.withParams_params (cfg : Cfg) {t : Ty} (h : t.hasParams = true) (ps : List Val) :
    ((t.ops cfg).dflt.withParams ps).params = ps := by
  cases t with
  | scalar s => cases h
  | enum b i => cases h
  | bitmask b f => cases h
  | struct p f => simp only [Ty.ops]; rfl
  | choice p s c => simp only [Ty.ops]; rfl
  | union p m => simp only [Ty.ops]; rfl

theorem FieldInfo.follows (cfg : Cfg) (info : FieldInfo) (ty : Ty) :
    FieldOps.Follows ⟨info, ty.ops cfg⟩ false (ty.claim cfg) (ty.SoundPacked cfg)
      (info.claim cfg ty) := by
  have hpk : ∀ a : ArrayInfo, info.array = some a →
      ((a.isPacked || false) && FieldOps.isPackable ⟨info, ty.ops cfg⟩) = info.isPackedArray a := by
    intro a ha
    unfold FieldOps.isPackable FieldInfo.isPackedArray
    simp only [ha]
    cases info.isOffsetField <;> cases a.isPacked <;> rfl
  refine ⟨fun h => ⟨?_, h.2⟩, fun h => ⟨?_, ?_⟩, fun h => ⟨h.1, ?_⟩, fun h => ⟨?_, h.2⟩, Nat.le_refl _⟩
  · show match info.array with | none => _ | some a => _
    cases ha : info.array with
    | none => rfl
    | some a =>
      have := h.1
      rw [ha] at this
      simp only [Option.any_some] at this
      simp only
      rw [hpk a ha]
      simpa using this
  · exact h.1.imp id (fun hp => Ty.withParams_params cfg hp)
  · have := h.2
    show match info.array with | none => _ | some a => _
    cases ha : info.array with
    | none => rw [ha] at this; exact this
    | some a =>
      rw [ha] at this
      simp only at this ⊢
      rw [hpk a ha]
      exact this
  · refine h.2.imp id (fun h2 => ?_)
    show match info.array with | none => _ | some a => _
    cases ha : info.array with
    | none => rw [ha] at h2; exact ⟨rfl, h2⟩
    | some a => rw [ha] at h2; exact h2
  · have := h.1
    show match info.array with | none => _ | some a => _
    cases ha : info.array with
    | none => rfl
    | some a =>
      rw [ha] at this
      simp only at this ⊢
      rw [hpk a ha]
      exact this

theorem FieldInfo.follows_packed (cfg : Cfg) (info : FieldInfo) (ty : Ty) :
    FieldOps.Follows ⟨info, ty.ops cfg⟩ true (ty.claim cfg) (ty.SoundPacked cfg)
      (info.claimPacked cfg ty) := by
  refine ⟨fun h => h.elim, fun h => ⟨h.1.imp id (fun hp => Ty.withParams_params cfg hp), ?_⟩,
    fun h => h.elim, fun h => h.elim, Nat.le_refl _⟩
  have := h.2
  show match info.array with | none => _ | some a => _
  cases ha : info.array with
  | none =>
    rw [ha] at this
    simp only at this ⊢
    have e : FieldOps.isPackable ⟨info, ty.ops cfg⟩ = info.isDelta ty := by
      unfold FieldOps.isPackable FieldInfo.isDelta
      simp only [ha]
      cases info.isOffsetField
      · cases ty <;> simp only [Ty.ops] <;> rfl
      · rfl
    rw [e, Bool.true_and]
    exact this
  | some a =>
    rw [ha] at this
    simp only at this ⊢
    have e : ((a.isPacked || true) && FieldOps.isPackable ⟨info, ty.ops cfg⟩) =
        !info.isOffsetField := by
      unfold FieldOps.isPackable
      simp only [ha]
      cases info.isOffsetField <;> cases a.isPacked <;> rfl
    rw [e]
    cases ho : info.isOffsetField with
    | true => rw [ho] at this; exact this
    | false => rw [ho] at this; exact this

/-! ## Builtin types, enums and bitmasks -/

theorem Scalar.dflt_size_le (s : Scalar) : s.dflt.size ≤ 1 := by
  cases s <;> exact Nat.le_refl 1

theorem Scalar.dflt_params (s : Scalar) : s.dflt.params = [] := by cases s <;> rfl

theorem Scalar.ofInt_size (s : Scalar) (x : Int) : (s.ofInt x).size ≤ 1 := by
  cases s <;> simp only [Scalar.ofInt, Val.size] <;> omega

theorem Scalar.ofInt_params (s : Scalar) (x : Int) (ps : List Val) :
    (s.ofInt x).withParams ps = s.ofInt x ∧ (s.ofInt x).params = [] := by
  cases s <;> exact ⟨rfl, rfl⟩

theorem Scalar.readGood (cfg : Cfg) (s : Scalar) :
    ReadGood (s.ops cfg) ((Ty.scalar s).claim cfg) ((Ty.scalar s).SoundPacked cfg)
      ((Ty.scalar s).Valid cfg) := by
  have hpost : ∀ env ps k v, s.Post cfg env k v → ((Ty.scalar s).claim cfg).Post
      (fun v => (Ty.scalar s).Valid cfg env v ∧ v.params = (s.dflt.withParams ps).params) k v := by
    intro env ps k v h
    refine ⟨fun hs hk => ?_, fun ht => ?_, fun _ => ?_⟩
    · simp only [Ty.claim, Ty.Sound] at hs
      simp only [Ty.Valid]
      exact ⟨h.sound hs hk, by rw [h.params, Scalar.dflt_withParams, Scalar.dflt_params]⟩
    · simp only [Ty.claim, Ty.Takes] at ht
      exact h.takes ht
    · simp only [Ty.claim, Ty.weight]
      have := h.size
      omega
  have hst : ((Ty.scalar s).claim cfg).steady → s.Steady := fun h => by
    simpa only [Ty.claim, Ty.Steady] using h
  refine ⟨?_, fun env ps => ?_, fun env ps => ?_, fun env ps n => ?_, Scalar.coherent cfg s⟩
  · simp only [Ty.claim, Ty.weight]; exact s.dflt_size_le
  · exact (s.reads cfg env).mono hst (hpost env ps)
  · exact (s.reads_elem cfg env _).mono hst (hpost env ps)
  · refine (s.reads_packed cfg env n _).mono id (fun k p h hs hk => ?_)
    simp only [Ty.SoundPacked] at hs
    simp only [Ty.Valid]
    refine ⟨h.1 hs hk, ?_⟩
    rw [h.2]
    show [] = (s.dflt.withParams ps).params
    rw [Scalar.dflt_withParams, Scalar.dflt_params]

theorem Reads.bindOf {α β : Type} {np : Prop} {p : Nat → α → Prop} {q : Nat → β → Prop}
    {f : Reader → Res (α × Reader)} {g : α → Reader → Res (β × Reader)} (hf : Reads np p f)
    (hl : ∀ a, Local (g a)) (hg : ∀ a j, p j a → Reads np (fun k b => q (j + k) b) (g a)) :
    Reads np q (fun r => f r >>= fun x => g x.1 x.2) := by
  refine ⟨Local.bind hf.loc hl, fun hn r => ?_, fun r v r' hr => ?_⟩
  · refine Res.bind_ne_panic (hf.steady hn r) (fun x hx => ?_)
    obtain ⟨a, r1⟩ := x
    exact (hg a _ (hf.sound r a r1 hx)).steady hn r1
  · obtain ⟨⟨a, r1⟩, h1, h2⟩ := Res.bind_eq_ok.1 hr
    have e1 := Reads.used hf.loc h1
    have e2 := Reads.used (hl a) h2
    have := (hg a _ (hf.sound r a r1 h1)).sound r1 v r' h2
    have e : r.rest.length - r1.rest.length + (r1.rest.length - r'.rest.length) =
        r.rest.length - r'.rest.length := by simp only at e2; omega
    rwa [e] at this

/-- The reader of an enum or bitmask. -/
theorem number_readGood (cfg : Cfg) {base : Scalar} {dflt : Val} {number item : Val → Res Val}
    {own : Option DeltaContext} {c : Claim} {sp : Prop} {valid : Val → Prop}
    (hd : dflt.size ≤ c.weight) (hdp : ∀ ps, (dflt.withParams ps).params = [])
    (hst : c.steady → base.Steady)
    (hnp : c.steady → ∀ k v, base.Post cfg ⟨[], []⟩ k v → item v ≠ .panic)
    (htk : c.takes → base.Takes)
    (hitem : ∀ v x k, item v = .ok x → base.Post cfg ⟨[], []⟩ k v →
      (c.sound → k < 2 ^ 31 → valid x) ∧ x.params = [] ∧ x.size ≤ c.weight * (k + 1))
    (hpack : ∀ v x k, item v = .ok x → (base.SoundPacked → k < 2 ^ 31 → base.InRange cfg ⟨[], []⟩ v) →
      v.params = [] → (sp → k < 2 ^ 31 → valid x) ∧ x.params = []) :
    ReadGood (numberCodec cfg base dflt number item own).ops c sp (fun _ => valid) := by
  have hread : ∀ ps, Reads c.steady
      (c.Post (fun v => valid v ∧ v.params = (dflt.withParams ps).params))
      (fun r => base.read cfg ⟨[], []⟩ r >>= fun x => item x.1 >>= fun y => .ok (y, x.2)) := by
    intro ps
    refine Reads.bindOf (g := fun v r => item v >>= fun y => .ok (y, r))
      (p := fun k v => base.Post cfg ⟨[], []⟩ k v) ((base.reads cfg ⟨[], []⟩).mono
        hst (fun _ _ h => h)) (fun v => Local.lift _ (fun y => Local.pure y)) (fun v j hj => ?_)
    refine Reads.lift (g := fun y r => .ok (y, r)) _ (fun hs => hnp hs j v hj) (fun y hy => ?_)
    obtain ⟨h1, h2, h3⟩ := hitem v y j hy hj
    refine Reads.pure y ⟨fun hs hk => ⟨h1 hs hk, by rw [h2, hdp]⟩, fun ht => hj.takes (htk ht),
      fun _ => h3⟩
  refine ⟨hd, fun _ ps => hread ps, fun _ ps => hread ps, fun env ps n => ?_, Codec.coherent _⟩
  have h1 := reads_onChild (q := fun k v => (base.SoundPacked → k < 2 ^ 31 →
    base.InRange cfg ⟨[], []⟩ v) ∧ v.params = [])
    (fun c => (base.reads_packed cfg ⟨[], []⟩ c base.dflt)) n 0
  have h2 : Reads False (fun k (p : Val × Node) => sp → k < 2 ^ 31 →
      valid p.1 ∧ p.1.params = (dflt.withParams ps).params) _ :=
    Reads.bindOf (g := fun (p : Val × Node) r => item p.1 >>= fun y => .ok ((y, p.2), r)) h1
    (fun p => Local.lift _ (fun y => Local.pure _)) (fun p j hj => by
      refine Reads.lift (g := fun y r => .ok ((y, p.2), r)) _ (fun h => h.elim) (fun y hy => ?_)
      have := hpack p.1 y j hy hj.1 hj.2
      exact Reads.pure _ (fun hs hk => ⟨this.1 hs hk, by rw [this.2, hdp]⟩))
  simp only [bind_assoc, Res.ok_bind] at h2
  exact h2

theorem enumItem_eq_ok {items : List (Option Int)} {v x : Val} (h : enumItem items v = .ok x) :
    ∃ i y, x = .item i ∧ (enumValues items)[i]? = some y := by
  unfold enumItem at h
  obtain ⟨z, _, h⟩ := Res.bind_eq_ok.1 h
  obtain ⟨i, h1, h2⟩ := Res.bind_eq_ok.1 h
  cases h2
  unfold enumTryFrom at h1
  split at h1
  · next j hj =>
    cases h1
    obtain ⟨hlt, _⟩ := List.findIdx?_eq_some_iff_getElem.1 hj
    exact ⟨i, _, rfl, List.getElem?_eq_getElem hlt⟩
  · cases h1

theorem enumItem_ne_panic {items : List (Option Int)} {v : Val} (h : v.IsNumber) :
    enumItem items v ≠ .panic := by
  unfold enumItem
  refine Res.bind_ne_panic ?_ (fun i _ => Res.bind_ne_panic ?_ (fun _ _ => by simp))
  · cases v <;> first | (simp [Val.asI64]; done) | cases h
  · unfold enumTryFrom; split <;> simp

theorem enum_readGood (cfg : Cfg) (base : Scalar) (items : List (Option Int)) :
    ReadGood (enumCodec cfg base items).ops ((Ty.enum base items).claim cfg)
      ((Ty.enum base items).SoundPacked cfg) ((Ty.enum base items).Valid cfg) := by
  have key : ∀ v x, enumItem items v = .ok x → (∀ y ∈ enumValues items, base.Contains y ∧ y < 2 ^ 63) →
      ∃ i y, x = .item i ∧ (enumValues items)[i]? = some y ∧ base.Contains y ∧ y < 2 ^ 63 := by
    intro v x h hs
    obtain ⟨i, y, e, hy⟩ := enumItem_eq_ok h
    exact ⟨i, y, e, hy, hs y (List.mem_of_getElem? hy)⟩
  have hpar : ∀ v x, enumItem items v = .ok x → x.params = [] ∧ x.size = 1 := by
    intro v x h
    obtain ⟨i, y, rfl, hy⟩ := enumItem_eq_ok h
    exact ⟨rfl, rfl⟩
  have e : (Ty.enum base items).Valid cfg = fun _ v => ∃ i x, v = .item i ∧
      (enumValues items)[i]? = some x ∧ base.Contains x ∧ x < 2 ^ 63 := by
    funext env v; simp only [Ty.Valid]
  rw [e]
  refine number_readGood cfg ?_ (fun _ => rfl) (fun h => ?_) (fun h k v hv => ?_) (fun h => ?_)
    (fun v x k h hv => ⟨fun hs _ => ?_, (hpar v x h).1, ?_⟩)
    (fun v x k h _ _ => ⟨fun hs _ => ?_, (hpar v x h).1⟩)
  · simp only [Ty.claim, Ty.weight]; exact Nat.le_refl 1
  · simp only [Ty.claim, Ty.Steady] at h; exact h.2
  · simp only [Ty.claim, Ty.Steady] at h; exact enumItem_ne_panic (hv.number h.1)
  · simp only [Ty.claim, Ty.Takes] at h; exact h
  · simp only [Ty.claim, Ty.Sound] at hs; exact key v x h hs.2
  · rw [(hpar v x h).2]; simp only [Ty.claim, Ty.weight]; omega
  · simp only [Ty.SoundPacked] at hs; exact key v x h hs.2

theorem bitmask_readGood (cfg : Cfg) (base : Scalar) (first : Int) :
    ReadGood (bitmaskCodec cfg base first).ops ((Ty.bitmask base first).claim cfg)
      ((Ty.bitmask base first).SoundPacked cfg) ((Ty.bitmask base first).Valid cfg) := by
  have e : (Ty.bitmask base first).Valid cfg = fun _ v => base.InRange cfg ⟨[], []⟩ v := by
    funext env v; simp only [Ty.Valid]
  rw [e]
  refine number_readGood cfg ?_ (fun ps => ?_) (fun h => ?_) (fun h k v hv => by simp) (fun h => ?_)
    (fun v x k h hv => ?_) (fun v x k h h1 h2 => ?_)
  · simp only [Ty.claim, Ty.weight]; exact base.ofInt_size first
  · rw [(base.ofInt_params first ps).1, (base.ofInt_params first ps).2]
  · simp only [Ty.claim, Ty.Steady] at h; exact h.2
  · simp only [Ty.claim, Ty.Takes] at h; exact h
  · cases h
    refine ⟨fun hs hk => ?_, hv.params, ?_⟩
    · simp only [Ty.claim, Ty.Sound] at hs; exact hv.sound hs.2 hk
    · have := hv.size
      simp only [Ty.claim, Ty.weight]; omega
  · cases h
    refine ⟨fun hs hk => ?_, h2⟩
    simp only [Ty.SoundPacked] at hs
    exact h1 hs hk

/-! ## Lists of fields -/

/-- What is claimed about a list of fields. -/
def Fields.claim (cfg : Cfg) (packed : Bool) (fs : Fields) : Claim :=
  if packed then ⟨False, fs.SoundPacked cfg, False, False, fs.weight⟩
  else ⟨fs.Steady, fs.Sound cfg, fs.Takes, fs.Compact, fs.weight⟩

/-- What is claimed about the fields of a choice. -/
def Cases.claim (cfg : Cfg) (packed : Bool) (cs : Cases) : Claim :=
  if packed then ⟨False, cs.SoundPacked cfg, False, False, cs.weight⟩
  else ⟨cs.Steady, cs.Sound cfg, False, cs.Compact, cs.weight⟩

/-- What is claimed about a field. -/
def FieldInfo.claimOf (cfg : Cfg) (packed : Bool) (info : FieldInfo) (ty : Ty) : Claim :=
  if packed then info.claimPacked cfg ty else info.claim cfg ty

/-- The claim about a list, split into that about one field and that about the others. -/
structure Claim.Splits (whole one rest : Claim) : Prop where
  steady : whole.steady → one.steady ∧ rest.steady
  sound : whole.sound → one.sound ∧ rest.sound
  takes : whole.takes → one.takes ∨ rest.takes
  compact : whole.compact → one.compact ∧ rest.compact
  weight : whole.weight = one.weight + rest.weight

theorem Fields.splits (cfg : Cfg) (packed : Bool) (info : FieldInfo) (ty : Ty) (rest : Fields) :
    Claim.Splits ((Fields.cons info ty rest).claim cfg packed) (info.claimOf cfg packed ty)
      (rest.claim cfg packed) := by
  cases packed with
  | true =>
    refine ⟨fun h => h.elim, fun h => ?_, fun h => h.elim, fun h => h.elim, ?_⟩
    · simp only [Fields.claim, if_true, Fields.SoundPacked] at h
      exact ⟨⟨h.1, h.2.1⟩, h.2.2⟩
    · simp only [Fields.claim, if_true, Fields.weight]; rfl
  | false =>
    refine ⟨fun h => ?_, fun h => ?_, fun h => ?_, fun h => ?_, ?_⟩
    · simp only [Fields.claim, Bool.false_eq_true, if_false, Fields.Steady] at h
      exact ⟨⟨h.1, h.2.1⟩, h.2.2⟩
    · simp only [Fields.claim, Bool.false_eq_true, if_false, Fields.Sound] at h
      exact ⟨⟨h.1, h.2.1⟩, h.2.2⟩
    · simp only [Fields.claim, Bool.false_eq_true, if_false, Fields.Takes] at h
      exact h
    · simp only [Fields.claim, Bool.false_eq_true, if_false, Fields.Compact] at h
      exact ⟨⟨h.1, h.2.1⟩, h.2.2⟩
    · simp only [Fields.claim, Bool.false_eq_true, if_false, Fields.weight]; rfl

theorem Cases.splits (cfg : Cfg) (packed : Bool) (labels : List Val) (info : FieldInfo) (ty : Ty)
    (rest : Cases) :
    Claim.Splits ((Cases.field labels info ty rest).claim cfg packed) (info.claimOf cfg packed ty)
      (rest.claim cfg packed) := by
  cases packed with
  | true =>
    refine ⟨fun h => h.elim, fun h => ?_, fun h => h.elim, fun h => h.elim, ?_⟩
    · simp only [Cases.claim, if_true, Cases.SoundPacked] at h
      exact ⟨⟨h.1, h.2.1⟩, h.2.2⟩
    · simp only [Cases.claim, if_true, Cases.weight]; rfl
  | false =>
    refine ⟨fun h => ?_, fun h => ?_, fun h => h.elim, fun h => ?_, ?_⟩
    · simp only [Cases.claim, Bool.false_eq_true, if_false, Cases.Steady] at h
      exact ⟨⟨h.1, h.2.1⟩, h.2.2⟩
    · simp only [Cases.claim, Bool.false_eq_true, if_false, Cases.Sound] at h
      exact ⟨⟨h.1, h.2.1⟩, h.2.2⟩
    · simp only [Cases.claim, Bool.false_eq_true, if_false, Cases.Compact] at h
      exact ⟨⟨h.1, h.2.1⟩, h.2.2⟩
    · simp only [Cases.claim, Bool.false_eq_true, if_false, Cases.weight]; rfl

theorem Cases.claim_empty (cfg : Cfg) (packed : Bool) (labels : List Val) (rest : Cases) :
    (Cases.empty labels rest).claim cfg packed = rest.claim cfg packed := by
  cases packed <;> simp only [Cases.claim, Bool.false_eq_true, if_false, if_true, Cases.SoundPacked,
    Cases.Steady, Cases.Sound, Cases.Compact, Cases.weight]

/-- A field whose type reads well. -/
theorem FieldInfo.reads (cfg : Cfg) (packed : Bool) (info : FieldInfo) (ty : Ty)
    (hg : ReadGood (ty.ops cfg) (ty.claim cfg) (ty.SoundPacked cfg) (ty.Valid cfg)) (i : Nat)
    (env : Env) (n : Node) :
    Reads (info.claimOf cfg packed ty).steady (fun k (p : Val × Node) =>
        (info.claimOf cfg packed ty).Post (info.FieldValid (ty.Valid cfg) ty.default env) k p.1)
      (FieldOps.decode cfg ⟨info, ty.ops cfg⟩ packed i env (info.default ty.default) n) := by
  rw [← Ty.dflt_eq cfg ty]
  cases packed with
  | true => exact FieldOps.reads_field (cfg := cfg) hg (info.follows_packed cfg ty) i env n
  | false => exact FieldOps.reads_field (cfg := cfg) hg (info.follows cfg ty) i env n

theorem FieldInfo.light (cfg : Cfg) (packed : Bool) (info : FieldInfo) (ty : Ty)
    (hg : ReadGood (ty.ops cfg) (ty.claim cfg) (ty.SoundPacked cfg) (ty.Valid cfg)) :
    (info.default ty.default).size ≤ (info.claimOf cfg packed ty).weight := by
  rw [← Ty.dflt_eq cfg ty]
  have := FieldOps.dflt_light (f := ⟨info, ty.ops cfg⟩) hg (info.follows cfg ty)
  cases packed <;> exact this

/-- What is known of a list of values read with `k` bits. -/
structure Claim.Posts (c : Claim) (valid : List Val → Prop) (k : Nat) (vs : List Val) : Prop where
  valid : c.sound → k < 2 ^ 31 → valid vs
  takes : c.takes → 1 ≤ k
  light : c.compact → Val.sizes vs ≤ c.weight * (k + 1)

/-- What holds for lists of fields. -/
structure FieldsRead (cfg : Cfg) (fs : Fields) : Prop where
  light : Val.sizes fs.defaults ≤ fs.weight
  all : ∀ packed ps done i n, Reads (fs.claim cfg packed).steady
    (fun k (p : List Val × Node) => ∃ vs, p.1 = done ++ vs ∧
      (fs.claim cfg packed).Posts (fs.Valid cfg ps done) k vs)
    (decodeFields cfg packed ps (fs.ops cfg) i done fs.defaults n)
  member : ∀ packed ps sel f, (fs.ops cfg)[sel]? = some f → ∃ old, fs.defaults[sel]? = some old ∧
    ∀ i n, Reads (fs.claim cfg packed).steady (fun k (p : Val × Node) =>
        ((fs.claim cfg packed).sound → k < 2 ^ 31 →
          fs.ValidMember cfg ps sel (fs.defaults.set sel p.1)) ∧
        ((fs.claim cfg packed).compact →
          Val.sizes (fs.defaults.set sel p.1) ≤ fs.weight * (k + 1)))
      (f.decode cfg packed i ⟨ps, []⟩ old n)

/-- What holds for the cases of a choice. -/
structure CasesRead (cfg : Cfg) (cs : Cases) : Prop where
  light : Val.sizes cs.defaults ≤ cs.weight
  taken : ∀ ps sel, cs.Valid cfg ps sel true cs.defaults
  untaken : ∀ ps sel, selectCase sel 0 (cs.ops cfg) = none → cs.Valid cfg ps sel false cs.defaults
  case : ∀ packed ps sel j f, selectCase sel 0 (cs.ops cfg) = some (j, f) →
    ∃ old, cs.defaults[j]? = some old ∧
    ∀ i n, Reads (cs.claim cfg packed).steady (fun k (p : Val × Node) =>
        ((cs.claim cfg packed).sound → k < 2 ^ 31 →
          cs.Valid cfg ps sel false (cs.defaults.set j p.1)) ∧
        ((cs.claim cfg packed).compact →
          Val.sizes (cs.defaults.set j p.1) ≤ cs.weight * (k + 1)))
      (f.decode cfg packed i ⟨ps, []⟩ old n)

theorem Fields.claim_weight (cfg : Cfg) (packed : Bool) (fs : Fields) :
    (fs.claim cfg packed).weight = fs.weight := by cases packed <;> rfl

theorem Cases.claim_weight (cfg : Cfg) (packed : Bool) (cs : Cases) :
    (cs.claim cfg packed).weight = cs.weight := by cases packed <;> rfl

theorem FieldInfo.claimOf_weight (cfg : Cfg) (packed : Bool) (info : FieldInfo) (ty : Ty) :
    (info.claimOf cfg packed ty).weight = 2 * ty.weight + 2 := by cases packed <;> rfl

theorem fieldsRead_nil (cfg : Cfg) : FieldsRead cfg .nil := by
  refine ⟨by simp [Fields.defaults, Fields.weight, Val.sizes], fun packed ps done i n => ?_,
    fun packed ps sel f h => ?_⟩
  · simp only [Fields.ops, Fields.defaults]
    refine Reads.pure (done, n) ⟨[], by simp, fun _ _ => by simp only [Fields.Valid], fun h => ?_,
      fun _ => Nat.zero_le _⟩
    cases packed <;> simp [Fields.claim, Fields.Takes] at h
  · simp [Fields.ops] at h

theorem fieldsRead_cons {cfg : Cfg} {info : FieldInfo} {ty : Ty} {rest : Fields}
    (hg : ReadGood (ty.ops cfg) (ty.claim cfg) (ty.SoundPacked cfg) (ty.Valid cfg))
    (hr : FieldsRead cfg rest) : FieldsRead cfg (.cons info ty rest) := by
  have hl := info.light cfg false ty hg
  rw [FieldInfo.claimOf_weight] at hl
  refine ⟨?_, fun packed ps done i n => ?_, fun packed ps sel f h => ?_⟩
  · have := hr.light
    simp only [Fields.defaults, Fields.weight, Val.sizes]
    omega
  · have hs := Fields.splits cfg packed info ty rest
    simp only [Fields.ops, Fields.defaults]
    refine Reads.bind (g := fun (p : Val × Node) r => decodeFields cfg packed ps (rest.ops cfg) (i + 1)
      (done ++ [p.1]) rest.defaults p.2 r)
      ((info.reads cfg packed ty hg i ⟨ps, done⟩ n).mono (fun h => (hs.steady h).1) (fun _ _ h => h))
      (fun p => ?_)
    refine (hr.all packed ps (done ++ [p.1]) (i + 1) p.2).mono (fun h => (hs.steady h).2)
      (fun k q hq j hj => ?_)
    obtain ⟨vs, e, hp⟩ := hq
    refine ⟨p.1 :: vs, by rw [e, List.append_assoc]; rfl, fun h hk => ?_, fun h => ?_, fun h => ?_⟩
    · simp only [Fields.Valid]
      exact ⟨p.1, vs, rfl, hj.valid (hs.sound h).1 (by omega), hp.valid (hs.sound h).2 (by omega)⟩
    · rcases hs.takes h with h | h
      · have := hj.takes h; omega
      · have := hp.takes h; omega
    · have h1 := hj.light (hs.compact h).1
      have h2 := hp.light (hs.compact h).2
      rw [hs.weight, Nat.add_mul]
      simp only [Val.sizes]
      exact Nat.add_le_add (Nat.le_trans h1 (Nat.mul_le_mul_left _ (by omega)))
        (Nat.le_trans h2 (Nat.mul_le_mul_left _ (by omega)))
  · have hs := Fields.splits cfg packed info ty rest
    simp only [Fields.ops, Fields.defaults] at h ⊢
    have hw : (Fields.cons info ty rest).weight = (2 * ty.weight + 2) + rest.weight := by
      simp only [Fields.weight]
    rw [hw]
    cases sel with
    | zero =>
      simp only [List.getElem?_cons_zero, Option.some.injEq] at h
      subst h
      refine ⟨_, rfl, fun i n => ?_⟩
      refine (info.reads cfg packed ty hg i ⟨ps, []⟩ n).mono (fun h => (hs.steady h).1)
        (fun k p hp => ⟨fun h hk => ?_, fun h => ?_⟩)
      · simp only [List.set_cons_zero, Fields.ValidMember]
        exact ⟨p.1, _, rfl, hp.valid (hs.sound h).1 hk, rfl⟩
      · have h1 := hp.light (hs.compact h).1
        rw [FieldInfo.claimOf_weight] at h1
        have h2 := hr.light
        simp only [List.set_cons_zero, Val.sizes]
        rw [Nat.add_mul]
        exact Nat.add_le_add h1 (Nat.le_trans h2 (Nat.le_mul_of_pos_right _ (by omega)))
    | succ sel =>
      simp only [List.getElem?_cons_succ] at h ⊢
      obtain ⟨old, e, hm⟩ := hr.member packed ps sel f h
      refine ⟨old, e, fun i n => ?_⟩
      refine (hm i n).mono (fun h => (hs.steady h).2) (fun k p hp => ⟨fun h hk => ?_, fun h => ?_⟩)
      · simp only [List.set_cons_succ, Fields.ValidMember]
        exact ⟨_, _, rfl, rfl, hp.1 (hs.sound h).2 hk⟩
      · have h1 := hp.2 (hs.compact h).2
        simp only [List.set_cons_succ, Val.sizes]
        rw [Nat.add_mul]
        exact Nat.add_le_add (Nat.le_trans hl (Nat.le_mul_of_pos_right _ (by omega))) h1

theorem casesRead_nil (cfg : Cfg) : CasesRead cfg .nil := by
  refine ⟨by simp [Cases.defaults, Cases.weight, Val.sizes], fun _ _ => by
    simp only [Cases.Valid, Cases.defaults], fun _ _ _ => by simp only [Cases.Valid, Cases.defaults],
    fun packed ps sel j f h => ?_⟩
  simp only [Cases.ops, selectCase] at h
  cases h

theorem casesRead_empty {cfg : Cfg} {labels : List Val} {rest : Cases} (hr : CasesRead cfg rest) :
    CasesRead cfg (.empty labels rest) := by
  refine ⟨?_, fun ps sel => ?_, fun ps sel h => ?_, fun packed ps sel j f h => ?_⟩
  · simpa only [Cases.defaults, Cases.weight] using hr.light
  · simp only [Cases.Valid, Cases.defaults, Bool.true_or]; exact hr.taken ps sel
  · simp only [Cases.Valid, Cases.defaults, Bool.false_or]
    simp only [Cases.ops, selectCase] at h
    by_cases hm : sel ∈ labels
    · simp only [hm, decide_true]; exact hr.taken ps sel
    · rw [if_neg hm] at h
      simp only [hm, decide_false]; exact hr.untaken ps sel h
  · simp only [Cases.ops, selectCase] at h
    by_cases hm : sel ∈ labels
    · rw [if_pos hm] at h; cases h
    · rw [if_neg hm] at h
      have := hr.case packed ps sel j f h
      simp only [Cases.Valid, Cases.defaults, Bool.false_or, hm, decide_false, Cases.claim_empty,
        Cases.weight]
      exact this

theorem casesRead_field {cfg : Cfg} {labels : List Val} {info : FieldInfo} {ty : Ty} {rest : Cases}
    (hg : ReadGood (ty.ops cfg) (ty.claim cfg) (ty.SoundPacked cfg) (ty.Valid cfg))
    (hr : CasesRead cfg rest) : CasesRead cfg (.field labels info ty rest) := by
  have hl := info.light cfg false ty hg
  rw [FieldInfo.claimOf_weight] at hl
  refine ⟨?_, fun ps sel => ?_, fun ps sel h => ?_, fun packed ps sel j f h => ?_⟩
  · have := hr.light
    simp only [Cases.defaults, Cases.weight, Val.sizes]
    omega
  · simp only [Cases.Valid, Cases.defaults]
    exact ⟨_, _, rfl, by simp, by simpa using hr.taken ps sel⟩
  · simp only [Cases.ops, selectCase] at h
    by_cases hm : sel ∈ labels
    · rw [if_pos hm] at h; cases h
    · rw [if_neg hm, selectCase_shift] at h
      simp only [Cases.Valid, Cases.defaults]
      refine ⟨_, _, rfl, by simp [hm], ?_⟩
      simp only [hm, decide_false, Bool.or_false]
      refine hr.untaken ps sel ?_
      cases hsel : selectCase sel 0 (rest.ops cfg) with
      | none => rfl
      | some x => rw [hsel] at h; cases h
  · have hs := Cases.splits cfg packed labels info ty rest
    have hw : (Cases.field labels info ty rest).weight = (2 * ty.weight + 2) + rest.weight := by
      simp only [Cases.weight]
    rw [hw]
    simp only [Cases.ops, selectCase] at h
    simp only [Cases.defaults]
    by_cases hm : sel ∈ labels
    · rw [if_pos hm] at h
      simp only [Option.map_some, Option.some.injEq, Prod.mk.injEq] at h
      obtain ⟨rfl, rfl⟩ := h
      refine ⟨_, rfl, fun i n => ?_⟩
      refine (info.reads cfg packed ty hg i ⟨ps, []⟩ n).mono (fun h => (hs.steady h).1)
        (fun k p hp => ⟨fun h hk => ?_, fun h => ?_⟩)
      · simp only [List.set_cons_zero, Cases.Valid]
        refine ⟨p.1, _, rfl, ?_, ?_⟩
        · rw [if_pos (by simp [hm])]
          exact hp.valid (hs.sound h).1 hk
        · simp only [hm, decide_true, Bool.or_true]
          exact hr.taken ps sel
      · have h1 := hp.light (hs.compact h).1
        rw [FieldInfo.claimOf_weight] at h1
        have h2 := hr.light
        simp only [List.set_cons_zero, Val.sizes]
        rw [Nat.add_mul]
        exact Nat.add_le_add h1 (Nat.le_trans h2 (Nat.le_mul_of_pos_right _ (by omega)))
    · rw [if_neg hm, selectCase_shift] at h
      cases hsel : selectCase sel 0 (rest.ops cfg) with
      | none => rw [hsel] at h; cases h
      | some x =>
        obtain ⟨j', f'⟩ := x
        rw [hsel] at h
        simp only [Option.map_some, Option.some.injEq, Prod.mk.injEq, Option.isSome_some, if_true] at h
        obtain ⟨rfl, rfl⟩ := h
        obtain ⟨old, e, hc⟩ := hr.case packed ps sel j' f' hsel
        refine ⟨old, by simpa using e, fun i n => ?_⟩
        refine (hc i n).mono (fun h => (hs.steady h).2) (fun k p hp => ⟨fun h hk => ?_, fun h => ?_⟩)
        · simp only [Nat.zero_add, List.set_cons_succ, Cases.Valid]
          refine ⟨_, _, rfl, by simp [hm], ?_⟩
          simp only [hm, decide_false, Bool.or_false]
          exact hp.1 (hs.sound h).2 hk
        · have h1 := hp.2 (hs.compact h).2
          simp only [Nat.zero_add, List.set_cons_succ, Val.sizes]
          rw [Nat.add_mul]
          exact Nat.add_le_add (Nat.le_trans hl (Nat.le_mul_of_pos_right _ (by omega))) h1

/-! ## Compound types -/

theorem struct_readGood {cfg : Cfg} {params : List Val} {fields : Fields}
    (h : FieldsRead cfg fields) :
    ReadGood (structCodec cfg params (fields.ops cfg)).ops ((Ty.struct params fields).claim cfg)
      ((Ty.struct params fields).SoundPacked cfg) ((Ty.struct params fields).Valid cfg) := by
  have hread : ∀ env ps, Reads ((Ty.struct params fields).claim cfg).steady
      (((Ty.struct params fields).claim cfg).Post (fun v => (Ty.struct params fields).Valid cfg env v ∧
        v.params = ps))
      (fun r => decodeFields cfg false ps (fields.ops cfg) 0 [] fields.defaults Node.new r >>= fun x =>
        .ok (.obj ps x.1.1, x.2)) := by
    intro env ps
    have h1 := (h.all false ps [] 0 Node.new).mono (np' := ((Ty.struct params fields).claim cfg).steady)
      (fun h => by simp only [Ty.claim, Ty.Steady] at h; exact h) (fun _ _ h => h)
    refine Reads.map (fun p : List Val × Node => Val.obj ps p.1) h1 (fun k p hp => ?_)
    obtain ⟨vs, e, hp⟩ := hp
    rw [List.nil_append] at e
    subst e
    refine ⟨fun hs hk => ⟨?_, rfl⟩, fun ht => ?_, fun hc => ?_⟩
    · simp only [Ty.claim, Ty.Sound] at hs
      simp only [Ty.Valid]
      exact ⟨ps, _, rfl, hp.valid hs hk⟩
    · simp only [Ty.claim, Ty.Takes] at ht
      exact hp.takes ht
    · simp only [Ty.claim, Ty.Compact] at hc
      have := hp.light hc
      rw [Fields.claim_weight] at this
      simp only [Ty.claim, Ty.weight, Val.size]
      rw [Nat.add_mul, Nat.one_mul]
      omega
  have e : (structCodec cfg params (fields.ops cfg)).ops.dflt = .obj params fields.defaults := by
    rw [← Fields.dflt_eq cfg fields]; rfl
  refine ⟨?_, fun env ps => ?_, fun env ps => ?_, fun env ps n => ?_, Codec.coherent _⟩
  · rw [e]
    have := h.light
    simp only [Ty.claim, Ty.weight, Val.size]
    omega
  · rw [e]; exact hread env ps
  · rw [e]; exact hread env ps
  · rw [e]
    have h1 := h.all true ps [] 0 n
    exact Reads.map (q := fun k (p : Val × Node) => (Ty.struct params fields).SoundPacked cfg →
        k < 2 ^ 31 → (Ty.struct params fields).Valid cfg env p.1 ∧ p.1.params = ps)
      (fun p : List Val × Node => (Val.obj ps p.1, p.2)) h1 (fun k p hp hs hk => by
        obtain ⟨vs, e, hp⟩ := hp
        rw [List.nil_append] at e
        subst e
        simp only [Ty.SoundPacked] at hs
        simp only [Ty.Valid]
        exact ⟨⟨ps, _, rfl, hp.valid hs hk⟩, rfl⟩)

theorem reads_decodeChoice {cfg : Cfg} {cases : Cases} (h : CasesRead cfg cases) (packed : Bool)
    (selector : List Val → Val) (ps : List Val) (n : Node) :
    Reads (cases.claim cfg packed).steady (fun k (p : List Val × Node) =>
        ((cases.claim cfg packed).sound → k < 2 ^ 31 → cases.Valid cfg ps (selector ps) false p.1) ∧
        ((cases.claim cfg packed).compact → Val.sizes p.1 ≤ cases.weight * (k + 1)))
      (decodeChoice cfg packed selector (cases.ops cfg) ps cases.defaults n) := by
  unfold decodeChoice
  cases hsel : selectCase (selector ps) 0 (cases.ops cfg) with
  | none =>
    exact Reads.pure (cases.defaults, n) ⟨fun _ _ => h.untaken ps _ hsel,
      fun _ => by rw [Nat.zero_add, Nat.mul_one]; exact h.light⟩
  | some x =>
    obtain ⟨j, f⟩ := x
    obtain ⟨old, e, hc⟩ := h.case packed ps _ j f hsel
    simp only [e]
    exact Reads.map (fun p : Val × Node => (cases.defaults.set j p.1, p.2)) (hc j n)
      (fun k p hp => hp)

theorem choice_readGood {cfg : Cfg} {params : List Val} {selector : List Val → Val} {cases : Cases}
    (h : CasesRead cfg cases) :
    ReadGood (choiceCodec cfg params selector (cases.ops cfg)).ops
      ((Ty.choice params selector cases).claim cfg) ((Ty.choice params selector cases).SoundPacked cfg)
      ((Ty.choice params selector cases).Valid cfg) := by
  have hread : ∀ env ps, Reads ((Ty.choice params selector cases).claim cfg).steady
      (((Ty.choice params selector cases).claim cfg).Post
        (fun v => (Ty.choice params selector cases).Valid cfg env v ∧ v.params = ps))
      (fun r => decodeChoice cfg false selector (cases.ops cfg) ps cases.defaults Node.new r >>= fun x =>
        .ok (.obj ps x.1.1, x.2)) := by
    intro env ps
    have h1 := (reads_decodeChoice h false selector ps Node.new).mono
      (np' := ((Ty.choice params selector cases).claim cfg).steady)
      (fun h => by simp only [Ty.claim, Ty.Steady] at h; exact h) (fun _ _ h => h)
    refine Reads.map (fun p : List Val × Node => Val.obj ps p.1) h1 (fun k p hp => ?_)
    refine ⟨fun hs hk => ⟨?_, rfl⟩, fun ht => ?_, fun hc => ?_⟩
    · simp only [Ty.claim, Ty.Sound] at hs
      simp only [Ty.Valid]
      exact ⟨ps, _, rfl, hp.1 hs hk⟩
    · simp only [Ty.claim, Ty.Takes] at ht
    · simp only [Ty.claim, Ty.Compact] at hc
      have := hp.2 hc
      simp only [Ty.claim, Ty.weight, Val.size]
      rw [Nat.add_mul, Nat.one_mul]
      omega
  have e : (choiceCodec cfg params selector (cases.ops cfg)).ops.dflt =
      .obj params cases.defaults := by
    rw [← Cases.dflt_eq cfg cases]; rfl
  refine ⟨?_, fun env ps => ?_, fun env ps => ?_, fun env ps n => ?_, Codec.coherent _⟩
  · rw [e]
    have := h.light
    simp only [Ty.claim, Ty.weight, Val.size]
    omega
  · rw [e]; exact hread env ps
  · rw [e]; exact hread env ps
  · rw [e]
    have h1 := reads_decodeChoice h true selector ps n
    exact Reads.map (q := fun k (p : Val × Node) =>
        (Ty.choice params selector cases).SoundPacked cfg → k < 2 ^ 31 →
        (Ty.choice params selector cases).Valid cfg env p.1 ∧ p.1.params = ps)
      (fun p : List Val × Node => (Val.obj ps p.1, p.2)) h1 (fun k p hp hs hk => by
        simp only [Ty.SoundPacked] at hs
        simp only [Ty.Valid]
        exact ⟨⟨ps, _, rfl, hp.1 hs hk⟩, rfl⟩)

theorem union_readGood {cfg : Cfg} {params : List Val} {members : Fields}
    (h : FieldsRead cfg members) :
    ReadGood (unionCodec cfg params (members.ops cfg)).ops ((Ty.union params members).claim cfg)
      ((Ty.union params members).SoundPacked cfg) ((Ty.union params members).Valid cfg) := by
  have hdef : (members.ops cfg).length = members.defaults.length := by
    rw [← Fields.dflt_eq cfg members, List.length_map]
  have hmember : ∀ packed ps sel n, Reads False (fun k (p : Val × Node) =>
      ((members.claim cfg packed).sound → k < 2 ^ 31 → ∃ vs, p.1 = .union ps sel vs ∧
        members.ValidMember cfg ps sel vs) ∧
      ((members.claim cfg packed).compact → p.1.size ≤ 1 + members.weight * (k + 1)) ∧
      p.1.params = ps ∧ sel < members.defaults.length)
      (decodeMember cfg packed (members.ops cfg) ps sel members.defaults n) := by
    intro packed ps sel n
    unfold decodeMember
    cases hf : (members.ops cfg)[sel]? with
    | none => exact Reads.panic id
    | some f =>
      obtain ⟨old, e, hm⟩ := h.member packed ps sel f hf
      have hlt : sel < members.defaults.length := (List.getElem?_eq_some_iff.1 e).1
      simp only [e]
      refine Reads.map (fun p : Val × Node => (Val.union ps sel (members.defaults.set sel p.1), p.2))
        ((hm sel n).mono (fun h => h.elim) (fun _ _ h => h)) (fun k p hp => ⟨fun hs hk => ?_,
          fun hc => ?_, rfl, hlt⟩)
      · exact ⟨_, rfl, hp.1 hs hk⟩
      · have := hp.2 hc
        simp only [Val.size]
        omega
  have hread : ∀ env ps, Reads ((Ty.union params members).claim cfg).steady
      (((Ty.union params members).claim cfg).Post (fun v => (Ty.union params members).Valid cfg env v ∧
        v.params = ps))
      (fun r => readVarsize r >>= fun s => fromU32 (members.ops cfg) s.1 >>= fun sel =>
        decodeMember cfg false (members.ops cfg) ps sel members.defaults Node.new s.2 >>= fun x =>
        .ok (x.1.1, x.2)) := by
    intro env ps
    have hns : ((Ty.union params members).claim cfg).steady → False := fun h => by
      simp only [Ty.claim, Ty.Steady] at h
    refine Reads.bind (g := fun s r => fromU32 (members.ops cfg) s >>= fun sel =>
        decodeMember cfg false (members.ops cfg) ps sel members.defaults Node.new r >>= fun x =>
        .ok (x.1.1, x.2)) (reads_varsize.mono (fun _ => trivial) (fun _ _ h => h)) (fun s => ?_)
    refine Reads.lift (g := fun sel r =>
        decodeMember cfg false (members.ops cfg) ps sel members.defaults Node.new r >>= fun x =>
        .ok (x.1.1, x.2)) _ (fun h => (hns h).elim) (fun sel hsel => ?_)
    have hm := (hmember false ps sel Node.new).mono
      (np' := ((Ty.union params members).claim cfg).steady) hns (fun _ _ h => h)
    refine Reads.map (fun p : Val × Node => p.1) hm (fun k p hp => ?_)
    intro j hj
    obtain ⟨h1, h2, h3, h4⟩ := hp
    refine ⟨fun hs hk => ⟨?_, h3⟩, fun _ => by have := hj.1; omega, fun hc => ?_⟩
    · simp only [Ty.claim, Ty.Sound] at hs
      obtain ⟨vs, e, hv⟩ := h1 hs.2 (by omega)
      simp only [Ty.Valid]
      exact ⟨ps, sel, vs, e, by omega, hv⟩
    · simp only [Ty.claim, Ty.Compact] at hc
      have := h2 hc
      have h5 : members.weight * (k + 1) ≤ members.weight * (j + k + 1) :=
        Nat.mul_le_mul_left _ (by omega)
      simp only [Ty.claim, Ty.weight]
      rw [Nat.add_mul, Nat.one_mul]
      omega
  have e : (unionCodec cfg params (members.ops cfg)).ops.dflt = .union params 0 members.defaults := by
    rw [← Fields.dflt_eq cfg members]; rfl
  refine ⟨?_, fun env ps => ?_, fun env ps => ?_, fun env ps n => ?_, Codec.coherent _⟩
  · rw [e]
    have := h.light
    simp only [Ty.claim, Ty.weight, Val.size]
    omega
  · rw [e]; exact hread env ps
  · rw [e]; exact hread env ps
  · rw [e]
    exact (hmember true ps 0 n).mono id (fun k p hp hs => by simp only [Ty.SoundPacked] at hs)

/-! ## All types -/

mutual
theorem Ty.readGood (cfg : Cfg) : ∀ t : Ty,
    ReadGood (t.ops cfg) (t.claim cfg) (t.SoundPacked cfg) (t.Valid cfg)
  | .scalar s => by simp only [Ty.ops]; exact Scalar.readGood cfg s
  | .enum base items => by simp only [Ty.ops]; exact enum_readGood cfg base items
  | .bitmask base first => by simp only [Ty.ops]; exact bitmask_readGood cfg base first
  | .struct params fields => by
    simp only [Ty.ops]; exact struct_readGood (Fields.read cfg fields)
  | .choice params sel cases => by
    simp only [Ty.ops]; exact choice_readGood (Cases.read cfg cases)
  | .union params members => by
    simp only [Ty.ops]; exact union_readGood (Fields.read cfg members)
theorem Fields.read (cfg : Cfg) : ∀ fs : Fields, FieldsRead cfg fs
  | .nil => fieldsRead_nil cfg
  | .cons _ ty rest => fieldsRead_cons (Ty.readGood cfg ty) (Fields.read cfg rest)
theorem Cases.read (cfg : Cfg) : ∀ cs : Cases, CasesRead cfg cs
  | .nil => casesRead_nil cfg
  | .field _ _ ty rest => casesRead_field (Ty.readGood cfg ty) (Cases.read cfg rest)
  | .empty _ rest => casesRead_empty (Cases.read cfg rest)
end

end Zs
